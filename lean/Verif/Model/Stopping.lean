import Verif.Model.Failing

/-!
# Processes that stop where they raise

In `Verif.Model.Stages` an exception is noted in the state of a rank, and the rank goes on.  Here it does not.
-/

namespace Modred

variable {σ μ V : Type*}

/-- A step of ranks of which those that have raised an exception do nothing more: it leaves the method on that rank, and
nothing in modred tells the others, see `FailStep`. -/
def StopStep (p : Nat) (sync : Nat → Nat → Prop) (prog : List (SharedRound σ μ V)) (raised : σ → Option Err)
    (s t : SharedSys σ μ V) : Prop :=
  SharedStep p sync prog s t ∧ ∀ r, raised (s.sys.loc r) ≠ none → t.sys.pc r = s.sys.pc r

/-- `n` such steps lead from one state to another. -/
inductive StopRun (p : Nat) (sync : Nat → Nat → Prop) (prog : List (SharedRound σ μ V)) (raised : σ → Option Err) :
    Nat → SharedSys σ μ V → SharedSys σ μ V → Prop
  | refl (s : SharedSys σ μ V) : StopRun p sync prog raised 0 s s
  | tail {n : Nat} {s t u : SharedSys σ μ V} (h : StopRun p sync prog raised n s t)
      (hs : StopStep p sync prog raised t u) : StopRun p sync prog raised (n + 1) s u

end Modred
