import Verif.Model.Failing

/-!
# What it means that nobody goes on after a failure
-/

namespace Modred

variable {σ μ V : Type*}

/-- In every interleaving, whichever sends are buffered or synchronous, no rank finishes the first `n` rounds. -/
def NobodyFinishes (p : Nat) (prog : List (SharedRound σ μ V)) (fails : Nat → Nat → Prop) (st : Nat → σ) (w : Nat → V)
    (n : Nat) : Prop :=
  ∀ (sync : Nat → Nat → Prop) (steps : Nat) (s : SharedSys σ μ V),
    FailRun p sync prog fails steps ⟨Sys.start st, w⟩ s → ∀ r, r < p → s.sys.pc r < 4 * n

/-- Every interleaving comes to an end: there is a bound on the number of steps. -/
def Ends (p : Nat) (prog : List (SharedRound σ μ V)) (fails : Nat → Nat → Prop) (st : Nat → σ) (w : Nat → V) : Prop :=
  ∃ bound : Nat, ∀ (sync : Nat → Nat → Prop) (steps : Nat) (s : SharedSys σ μ V),
    FailRun p sync prog fails steps ⟨Sys.start st, w⟩ s → steps ≤ bound

end Modred
