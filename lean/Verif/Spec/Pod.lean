import Verif.Spec.Linalg
import Verif.Spec.Arrays
import Verif.Model.Pod
import Mathlib.LinearAlgebra.Matrix.PosDef
import Mathlib.LinearAlgebra.Matrix.Trace

/-!
# Orthonormal modes, energies and reconstruction errors
-/

namespace Modred

open Matrix
open scoped ComplexOrder

variable {𝕜 : Type*} [RCLike 𝕜]

/-- Sum of the squared lengths of the columns, in the inner product `x^* W y`. -/
noncomputable def weightedSq {n m : Nat} (W : Matrix (Fin n) (Fin n) 𝕜) (E : Matrix (Fin n) (Fin m) 𝕜) :
    𝕜 := ∑ j, star (fun i => E i j) ⬝ᵥ (W *ᵥ fun i => E i j)

/-- Columns `a` and `b` of the modes have inner product one if they are the same mode and zero
otherwise. -/
def OrthonormalSelection {n r k : Nat} (W : Matrix (Fin n) (Fin n) 𝕜) (modes : Matrix (Fin n) (Fin k) 𝕜)
    (sel : Fin k → Fin r) : Prop :=
  ∀ a b, (modesᴴ * W * modes) a b = if sel a = sel b then 1 else 0

/-- A square root of the weights, as computed by the Cholesky decomposition: `l l^* = W`. -/
def IsCholesky {n : Nat} (chol : Matrix (Fin n) (Fin n) 𝕜 → Option (Matrix (Fin n) (Fin n) 𝕜))
    (W : Matrix (Fin n) (Fin n) 𝕜) : Prop :=
  ∃ l, chol W = some l ∧ l * lᴴ = W

/-- The array `W` of the inner product. -/
def DirectWeights.matrix (n : Nat) : DirectWeights 𝕜 → Matrix (Fin n) (Fin n) 𝕜
  | .none => 1
  | .d1 _ w => diagonal fun i => ((w i : ℝ) : 𝕜)
  | .d2 _ _ w => Matrix.of fun i j => w i j
  | .higher => 0

/-- Positive weights for vectors with `n` entries. -/
def DirectWeights.Fits (n : Nat) (w : DirectWeights 𝕜) : Prop :=
  match w with
  | .none => True
  | .d1 k w => k = n ∧ ∀ i : Fin n, 0 < w i
  | .d2 p q w => p = n ∧ q = n ∧ (Matrix.of fun i j : Fin n => w i j).PosDef
  | .higher => False

end Modred
