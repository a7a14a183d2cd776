import Verif.Spec.WorstCase
import Mathlib.Analysis.SpecialFunctions.Pow.NNReal

/-!
# How much values change if data change
-/

namespace Modred

variable {𝕜 : Type*} [RCLike 𝕜] {E : Type*} [AddCommGroup E] [Module 𝕜 E]

/-- Every linear combination of the vectors `d`, with coefficients of length one, is at most `δ` long. -/
def SmallChange {m : Nat} (𝕜 : Type*) [RCLike 𝕜] [Module 𝕜 E] (sqLength : E → ℝ) (d : Fin m → E) (δ : ℝ) : Prop :=
  ∀ x : Fin m → 𝕜, √(sqLength (∑ j, x j • d j)) ≤ δ * √(∑ j, ‖x j‖ ^ 2)

/-- Roots of eigenvalues with the same index differ by at most `δ`; the values that only one of both has are at most those that the
tolerance of the other excludes, and `δ`. -/
structure CloseValues {r r' : Nat} (δ b b' : ℝ) (v : Fin r → ℝ) (v' : Fin r' → ℝ) : Prop where
  close : ∀ (i : Fin r) (i' : Fin r'), i.val = i'.val → |√(v i) - √(v' i')| ≤ δ
  first : ∀ i : Fin r, r' ≤ i.val → √(v i) ≤ √b' + δ
  second : ∀ i : Fin r', r ≤ i.val → √(v' i) ≤ √b + δ

/-- There are at least as many values, and none is lower. -/
structure NotLowered {r r' : Nat} (v : Fin r → ℝ) (v' : Fin r' → ℝ) : Prop where
  number : r ≤ r'
  values : ∀ (i : Fin r) (i' : Fin r'), i.val = i'.val → v i ≤ v' i'

end Modred
