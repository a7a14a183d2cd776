import Mathlib.Data.Matrix.Mul
import Mathlib.Analysis.RCLike.Basic

/-!
# Approximations that are best in the worst case
-/

namespace Modred

variable {𝕜 : Type*} [RCLike 𝕜] {E : Type*} [AddCommGroup E] [Module 𝕜 E]

/-- Linear combinations of the data are approximated by linear combinations of modes.  With `k` modes the squared length of the
error, per squared length of the coefficients `x`, is at most `S k`; whatever `k` vectors and coefficients are used instead, it is
at least `S k` for some linear combination. -/
structure BestInWorstCase {m r : Nat} (sqLength : E → ℝ) (data : Fin m → E) (modes : Fin r → E) (coeffs : Matrix (Fin r) (Fin m) 𝕜)
    (S : Fin r → ℝ) : Prop where
  error : ∀ (k : Fin r) (x : Fin m → 𝕜),
    sqLength (∑ j, x j • (data j - ∑ i : Fin k, coeffs (Fin.castLE k.isLt.le i) j • modes (Fin.castLE k.isLt.le i))) ≤
      S k * ∑ j, ‖x j‖ ^ 2
  best : ∀ (k : Fin r) (q : Fin k → E) (c : Matrix (Fin k) (Fin m) 𝕜), ∃ x : Fin m → 𝕜, x ≠ 0 ∧
    S k * ∑ j, ‖x j‖ ^ 2 ≤ sqLength (∑ j, x j • (data j - ∑ i, c i j • q i))

/-- With all modes the squared length of the error, per squared length of the coefficients, is at most `b`. -/
def WithinTolerance {m r : Nat} (sqLength : E → ℝ) (data : Fin m → E) (modes : Fin r → E) (coeffs : Matrix (Fin r) (Fin m) 𝕜)
    (b : ℝ) : Prop :=
  ∀ x : Fin m → 𝕜, sqLength (∑ j, x j • (data j - ∑ i, coeffs i j • modes i)) ≤ b * ∑ j, ‖x j‖ ^ 2

/-- Values that the tolerances exclude are at most `b`. -/
structure ToleranceBound {n : Nat} (values : Fin n → ℝ) (atol rtol : Option ℝ) (b : ℝ) : Prop where
  nonneg : 0 ≤ b
  absolute : ∀ t ∈ atol, t ≤ b
  relative : ∀ t ∈ rtol, ∀ i, t * values i ≤ b

/-- The squared length of an array with weights. -/
noncomputable def weightedLength {n : Nat} (W : Matrix (Fin n) (Fin n) 𝕜) (v : Fin n → 𝕜) : ℝ :=
  RCLike.re (dotProduct (star v) (W.mulVec v))

/-- The squared length of an array without weights. -/
noncomputable def plainLength {n : Nat} (v : Fin n → 𝕜) : ℝ := ∑ i, ‖v i‖ ^ 2

end Modred
