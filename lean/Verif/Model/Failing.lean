import Verif.Model.Stages

/-!
# Processes on which a function given by the user raises

A round's work may call functions given by the user: `get` and `put` of handles, the inner product, `put_array`.  If one of
them raises on a rank, the exception leaves the method on that rank, and nothing in modred tells the other ranks:
`modred/parallel.py` has no `Abort` and catches nothing around communication, neither do `modred/vectorspace.py`,
`modred/ltigalerkinproj.py` and the classes.
-/

namespace Modred

variable {σ μ V : Type*}

/-- A step when `fails r k` says that the work of rank `r` in round `k` raises: the rank does not get past that point.
Simplified: work that raises has changed nothing in the store. -/
def FailStep (p : Nat) (sync : Nat → Nat → Prop) (prog : List (SharedRound σ μ V)) (fails : Nat → Nat → Prop)
    (s t : SharedSys σ μ V) : Prop :=
  SharedStep p sync prog s t ∧ ∀ r k, fails r k → s.sys.pc r = 4 * k + 1 → t.sys.pc r = 4 * k + 1

/-- `n` such steps lead from one state to another. -/
inductive FailRun (p : Nat) (sync : Nat → Nat → Prop) (prog : List (SharedRound σ μ V)) (fails : Nat → Nat → Prop) :
    Nat → SharedSys σ μ V → SharedSys σ μ V → Prop
  | refl (s : SharedSys σ μ V) : FailRun p sync prog fails 0 s s
  | tail {n : Nat} {s t u : SharedSys σ μ V} (h : FailRun p sync prog fails n s t)
      (hs : FailStep p sync prog fails t u) : FailRun p sync prog fails (n + 1) s u

end Modred
