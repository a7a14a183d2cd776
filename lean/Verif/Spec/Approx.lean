import Verif.Spec.Linalg
import Mathlib.Analysis.SpecialFunctions.Sqrt

/-!
# Decompositions with errors

What a numerical library returns in floating-point arithmetic: decompositions up to given errors.  The
errors may have any cause, so that errors made before the library is called, when the decomposed array is
computed, are covered too.
-/

namespace Modred

open Matrix

variable {𝕜 : Type*} [RCLike 𝕜]

/-- Entries of two arrays differ by at most `ε`. -/
def EntriesWithin {m n : Type*} (ε : ℝ) (a b : Matrix m n 𝕜) : Prop := ∀ i j, ‖a i j - b i j‖ ≤ ε

/-- Eigendecomposition of a Hermitian array up to errors: `V^* V` up to `η`, `V^* a V` and `a V` up to
`ε`. -/
structure IsEighUpTo {n : Nat} (ε η : ℝ) (a : Matrix (Fin n) (Fin n) 𝕜) (o : EighOut 𝕜 n) : Prop where
  orthonormal : EntriesWithin η (o.Vᴴ * o.V) 1
  diagonalizes : EntriesWithin ε (o.Vᴴ * a * o.V) (diagonal fun i => (o.w i : 𝕜))
  eigen : EntriesWithin ε (a * o.V) (o.V * diagonal fun i => (o.w i : 𝕜))

/-- Singular value decomposition up to errors; the values are nonnegative and in descending order. -/
structure IsSvdUpTo {m n : Nat} (ε η : ℝ) (a : Matrix (Fin m) (Fin n) 𝕜) (o : SvdOut 𝕜 m n) : Prop where
  left : EntriesWithin η (o.Uᴴ * o.U) 1
  right : EntriesWithin η (o.Vh * o.Vhᴴ) 1
  diagonalizes : EntriesWithin ε (o.Uᴴ * a * o.Vhᴴ) (diagonal fun i => (o.S i : 𝕜))
  mul_right : EntriesWithin ε (a * o.Vhᴴ) (o.U * diagonal fun i => (o.S i : 𝕜))
  mul_left : EntriesWithin ε (aᴴ * o.U) (o.Vhᴴ * diagonal fun i => (o.S i : 𝕜))
  nonneg : ∀ i, 0 ≤ o.S i
  sorted : Antitone o.S

/-- Eigendecomposition up to errors: `L^* (a R)` and `(L^* a) R` differ from what they should be by at most
`ε`. -/
structure IsEigUpTo {n : Nat} (ε : ℝ) (a : Matrix (Fin n) (Fin n) 𝕜) (o : EigOut 𝕜 n) : Prop where
  right : EntriesWithin ε (o.Lᴴ * (a * o.R)) (o.Lᴴ * (o.R * diagonal o.w))
  left : EntriesWithin ε (o.Lᴴ * a * o.R) (diagonal o.w * o.Lᴴ * o.R)

/-- Every entry `(i, j)` of an array of inner products of modes `i` and `j` differs from one (same mode) or
zero (different modes) by at most `ε / sqrt (x i * x j)`. -/
def ModesWithin {k l r : Nat} (ε : ℝ) (x : Fin r → ℝ) (ips : Fin k → Fin l → 𝕜) (sel : Fin k → Fin r)
    (sel' : Fin l → Fin r) : Prop :=
  ∀ a b, ‖ips a b - if sel a = sel' b then 1 else 0‖ ≤ ε / Real.sqrt (x (sel a) * x (sel' b))

end Modred
