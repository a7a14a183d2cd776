import Mathlib.Data.Matrix.Mul
import Mathlib.Analysis.RCLike.Basic

/-!
# Best approximations of Hankel arrays
-/

namespace Modred

open Matrix

variable {𝕜 : Type*} [RCLike 𝕜]

/-- The sum of the squared absolute values of all entries. -/
noncomputable def squares {m n : Nat} (a : Matrix (Fin m) (Fin n) 𝕜) : ℝ := ∑ i, ∑ j, ‖a i j‖ ^ 2

/-- For each number `k`, the first `k` columns of `O` times the first `k` rows of `K` are at least as close to `H` as
any product with inner dimension `k`, and the values `S` tell how close. -/
structure BestProducts {m n r : Nat} (H : Matrix (Fin m) (Fin n) 𝕜) (O : Matrix (Fin m) (Fin r) 𝕜)
    (K : Matrix (Fin r) (Fin n) 𝕜) (S : Fin r → ℝ) : Prop where
  best : ∀ (k : Nat) (hk : k ≤ r) (X : Matrix (Fin m) (Fin k) 𝕜) (Y : Matrix (Fin k) (Fin n) 𝕜),
    squares (H - O.submatrix id (Fin.castLE hk) * K.submatrix (Fin.castLE hk) id) ≤ squares (H - X * Y)
  error : ∀ (k : Nat) (hk : k ≤ r),
    squares (H - O.submatrix id (Fin.castLE hk) * K.submatrix (Fin.castLE hk) id) =
      squares H - ∑ i : Fin k, S (Fin.castLE hk i) ^ 2

/-- A model with arrays `A`, `B` and `C` fits two Hankel arrays: the first is approximated best by a product, `B` has
the first columns of one factor, `C` has the first rows of the other, and among all arrays between the two factors `A`
is the only one for which the product is closest to the second Hankel array. -/
def ModelFits {m n r p q : Nat} (H H2 : Matrix (Fin m) (Fin n) 𝕜) (A : Matrix (Fin r) (Fin r) 𝕜)
    (B : Matrix (Fin r) (Fin p) 𝕜) (C : Matrix (Fin q) (Fin r) 𝕜) (S : Fin r → ℝ) : Prop :=
  ∃ (O : Matrix (Fin m) (Fin r) 𝕜) (K : Matrix (Fin r) (Fin n) 𝕜), BestProducts H O K S ∧
    (∀ i (j : Fin p) (j' : Fin n), j'.val = j.val → B i j = K i j') ∧
    (∀ (i : Fin q) j (i' : Fin m), i'.val = i.val → C i j = O i' j) ∧
    ∀ M, squares (H2 - O * A * K) ≤ squares (H2 - O * M * K) ∧
      (squares (H2 - O * A * K) = squares (H2 - O * M * K) → M = A)

end Modred
