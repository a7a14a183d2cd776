import Verif.Model.VectorSpace
import Mathlib.Data.Matrix.Basic
import Mathlib.Algebra.Field.Defs

/-!
# Finite-difference derivatives (`modred/ltigalerkinproj.py` lines 24-74)
-/

namespace Modred

variable {V : Type*}

/-- What a rank has put so far: index of the handle and vector. -/
abbrev DerivState (V : Type*) := List (Nat × V)

/-- One turn of the loop: `get` both vectors, `put` the difference quotient
(`modred/ltigalerkinproj.py` lines 46-50). -/
def derivStep (deriv : V → V → V) (vecs advVecs : List V) (s : DerivState V) (i : Nat) :
    DerivState V :=
  match vecs[i]?, advVecs[i]? with
  | some vec, some vecDt => s ++ [(i, deriv vec vecDt)]
  | _, _ => s

/-- One process of `compute_derivs_handles` works through its vectors, then waits at the barrier
(`modred/ltigalerkinproj.py` lines 44-51).  `deriv v w` stands for `(1. / dt) * (w - v)`.
Handles are what `get` returns. -/
def derivsRound (p : Nat) (deriv : V → V → V) (vecs advVecs : List V) :
    Round (DerivState V) Unit where
  send := fun _ => none
  recv := fun _ => none
  upd := fun rank s _ =>
    ((findAssignments (K := ℚ) p (List.range vecs.length) none).getD rank []).foldl
      (derivStep deriv vecs advVecs) s
  barrier := true

/-- `compute_derivs_handles` (`modred/ltigalerkinproj.py` lines 40-51). -/
def computeDerivsHandles (p : Nat) (deriv : V → V → V) (vecs advVecs : List V) (numDerivs : Nat) :
    Except Err (Prog (DerivState V) Unit) :=
  if vecs.length ≠ advVecs.length ∨ vecs.length ≠ numDerivs then .error .runtimeError
  else .ok [derivsRound p deriv vecs advVecs]

/-- `compute_derivs_arrays` (`modred/ltigalerkinproj.py` line 73), for arrays of one shape. -/
def computeDerivsArrays {m n K : Type*} [Field K] (vecs advVecs : Matrix m n K) (dt : K) :
    Matrix m n K :=
  fun i j => (advVecs i j - vecs i j) / (1 * dt)

end Modred
