import Verif.Model.Stopping

/-!
# What it means that processes raise
-/

namespace Modred

variable {σ μ V : Type*}

/-- Every interleaving comes to an end, no rank ever gets to the end of the program, and in the end rank `r` has raised
`who r`, where `none` means that it waits for ever. -/
def EndsRaising (p : Nat) (prog : List (SharedRound σ μ V)) (raised : σ → Option Err) (st : Nat → σ) (w : Nat → V)
    (who : Nat → Option Err) : Prop :=
  ∀ (sync : Nat → Nat → Prop) (n : Nat) (s : SharedSys σ μ V), StopRun p sync prog raised n ⟨Sys.start st, w⟩ s →
    n ≤ p * (4 * prog.length) ∧ (∀ r, r < p → s.sys.pc r < 4 * prog.length) ∧
    ((∃ t, StopStep p sync prog raised s t) ∨ ∀ r, r < p → raised (s.sys.loc r) = who r)

end Modred
