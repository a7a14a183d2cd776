import Verif.Spec.PredictionGrowth

/-!
# Specification for C127, total least squares
-/

namespace Modred

variable {𝕜 : Type*} [RCLike 𝕜] {E : Type*} [AddCommGroup E] [Module 𝕜 E] {m r : Nat}

/-- What eigenvalues, modes and coefficients predict for all vectors after any number of steps has together at most `q ^ 2` times
the energy for each step, if no linear combination of the vectors `X` advances to one of `Y` of more than `q` times the length. -/
structure TotalPredictionsBounded (ip : E →ₗ⋆[𝕜] E →ₗ[𝕜] 𝕜) (X Y : Fin m → E) (eigvals : Fin r → 𝕜) (proj exact : Fin r → E)
    (coeffs : Matrix (Fin r) (Fin m) 𝕜) : Prop where
  proj : ∀ q : ℝ, 0 ≤ q → (∀ c : Fin m → 𝕜, ipEnergy ip (lift Y c) ≤ q ^ 2 * ipEnergy ip (lift X c)) →
    ∀ k : Nat, ∑ j, ipEnergy ip (∑ i, (eigvals i ^ k * coeffs i j) • proj i) ≤ (q ^ k) ^ 2 * ∑ j, ipEnergy ip (X j)
  exact : (∀ i, eigvals i ≠ 0) → ∀ q : ℝ, 0 ≤ q → (∀ c : Fin m → 𝕜, ipEnergy ip (lift Y c) ≤ q ^ 2 * ipEnergy ip (lift X c)) →
    ∀ k : Nat, ∑ j, ipEnergy ip (∑ i, (eigvals i ^ (k + 1) * coeffs i j) • exact i) ≤
      (q ^ (k + 1)) ^ 2 * ∑ j, ipEnergy ip (X j)

end Modred
