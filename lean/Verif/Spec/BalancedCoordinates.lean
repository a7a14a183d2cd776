import Verif.Spec.BalancedDual
import Verif.Spec.Systems

/-!
# Specification for C131: balanced truncation in other coordinates
-/

namespace Modred

open Matrix

variable {n p q p' q' : Nat}

/-- `A'`, `B'`, `C'` is the system `A`, `B`, `C` for the states `T x`, for inputs of which `V` makes the first inputs, and for
outputs `W y`.  Lengths of inputs and outputs are kept: permutations, changes of sign, rotations, and inputs and outputs that do
nothing are allowed. -/
structure OtherCoordinates (T : Matrix (Fin n) (Fin n) ℝ) (V : Matrix (Fin p) (Fin p') ℝ) (W : Matrix (Fin q') (Fin q) ℝ)
    (A : Matrix (Fin n) (Fin n) ℝ) (B : Matrix (Fin n) (Fin p) ℝ) (C : Matrix (Fin q) (Fin n) ℝ)
    (A' : Matrix (Fin n) (Fin n) ℝ) (B' : Matrix (Fin n) (Fin p') ℝ) (C' : Matrix (Fin q') (Fin n) ℝ) : Prop where
  states : IsUnit T
  inputs : V * Vᴴ = 1
  outputs : Wᴴ * W = 1
  dynamics : A' * T = T * A
  forcing : B' = T * B * V
  measurement : C' * T = W * C

/-- Both models have as many states, and the responses of the second are those of the first for the other inputs and outputs. -/
structure OtherResponse (V : Matrix (Fin p) (Fin p') ℝ) (W : Matrix (Fin q') (Fin q) ℝ) (model model' : LtiModel ℝ) : Prop where
  states : model'.r = model.r
  inputs : model.p = p
  outputs : model.q = q
  inputs' : model'.p = p'
  outputs' : model'.q = q'
  response : ∀ k, (model'.C * model'.A ^ k * model'.B).submatrix (Fin.cast outputs'.symm) (Fin.cast inputs'.symm) =
    W * (model.C * model.A ^ k * model.B).submatrix (Fin.cast outputs.symm) (Fin.cast inputs.symm) * V

/-- No singular value but zero is dropped by `balanced_truncation` when it factors an array. -/
def Resolved (svd : ∀ {m n : Nat}, Matrix (Fin m) (Fin n) ℝ → SvdOut ℝ m n) (P : Matrix (Fin n) (Fin n) ℝ) : Prop :=
  ∀ i, (svd P).S i ≠ 0 → 1e-13 < (svd P).S i

end Modred
