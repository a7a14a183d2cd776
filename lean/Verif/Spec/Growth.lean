import Verif.Spec.Stability

/-!
# Specification for C124: dynamic eigenvalues are growth rates of linear combinations of the data
-/

namespace Modred

variable {𝕜 : Type*} [RCLike 𝕜] {E : Type*} [AddCommGroup E] [Module 𝕜 E] {m : Nat}

/-- What `z` says about the growth of the vectors `X` to the advanced vectors `Y`.  `lift X c` is the linear combination of the vectors
`X` with coefficients `c`. -/
structure GrowthRate (ip : E →ₗ⋆[𝕜] E →ₗ[𝕜] 𝕜) (X Y : Fin m → E) (z : 𝕜) : Prop where
  /-- some linear combination of the vectors advances with this rate, up to a vector that is orthogonal to it -/
  attained : ∃ c : Fin m → 𝕜, 0 < ipEnergy ip (lift X c) ∧ ip (lift X c) (lift Y c - z • lift X c) = 0
  /-- if no linear combination grows by more than a factor, neither does the eigenvalue -/
  bounded : ∀ q : ℝ, 0 ≤ q → (∀ c : Fin m → 𝕜, ipEnergy ip (lift Y c) ≤ q ^ 2 * ipEnergy ip (lift X c)) → ‖z‖ ≤ q
  /-- bounds of the real part -/
  above : ∀ q : ℝ, (∀ c : Fin m → 𝕜, RCLike.re (ip (lift X c) (lift Y c)) ≤ q * ipEnergy ip (lift X c)) → RCLike.re z ≤ q
  below : ∀ q : ℝ, (∀ c : Fin m → 𝕜, q * ipEnergy ip (lift X c) ≤ RCLike.re (ip (lift X c) (lift Y c))) → q ≤ RCLike.re z
  /-- symmetric data have real eigenvalues -/
  symmetric : (∀ i j, ip (X i) (Y j) = ip (Y i) (X j)) → RCLike.im z = 0
  /-- for data of a linear system, the eigenvalue is in the numerical range of the system -/
  system : ∀ A : E →ₗ[𝕜] E, (∀ j, A (X j) = Y j) → ∃ v, 0 < ipEnergy ip v ∧ ip v (A v) = z * ip v v
  /-- for data of a linear system whose energy does not grow, the eigenvalue does not grow -/
  nonexpansive : ∀ A : E →ₗ[𝕜] E, (∀ j, A (X j) = Y j) → (∀ v, ipEnergy ip (A v) ≤ ipEnergy ip v) → ‖z‖ ≤ 1

end Modred
