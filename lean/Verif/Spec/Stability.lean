import Verif.Spec.Galerkin
import Mathlib.Algebra.Module.LinearMap.Defs
import Mathlib.LinearAlgebra.Matrix.ToLin

/-!
# Energy of reduced models
-/

namespace Modred

open Matrix

variable {𝕜 : Type*} [RCLike 𝕜] {E : Type*} [AddCommGroup E] [Module 𝕜 E] {r : Nat}

/-- The state of the full system that the state `x` of the reduced model stands for. -/
def lift (Φ : Fin r → E) (x : Fin r → 𝕜) : E := ∑ k, x k • Φ k

/-- An inner product: the first argument is conjugated, as by `np.vdot`. -/
structure IsInner (ip : E →ₗ⋆[𝕜] E →ₗ[𝕜] 𝕜) : Prop where
  symm : ∀ x y, star (ip x y) = ip y x
  pos : ∀ x, x ≠ 0 → 0 < RCLike.re (ip x x)

/-- The energy of a state. -/
def ipEnergy (ip : E →ₗ⋆[𝕜] E →ₗ[𝕜] 𝕜) (v : E) : ℝ := RCLike.re (ip v v)

/-- `z` is an eigenvalue of `R`. -/
def IsEigenvalue (R : Matrix (Fin r) (Fin r) 𝕜) (z : 𝕜) : Prop := ∃ x : Fin r → 𝕜, x ≠ 0 ∧ R *ᵥ x = z • x

/-- What a model `R` of `A` with the basis `Φ` keeps. -/
structure KeepsEnergy (ip : E →ₗ⋆[𝕜] E →ₗ[𝕜] 𝕜) (Φ : Fin r → E) (A : E →ₗ[𝕜] E)
    (R : Matrix (Fin r) (Fin r) 𝕜) : Prop where
  /-- states other than zero have energy -/
  faithful : ∀ x : Fin r → 𝕜, x ≠ 0 → 0 < ipEnergy ip (lift Φ x)
  /-- the energy balance is that of the full system -/
  balance : ∀ x, ip (lift Φ x) (lift Φ (R *ᵥ x)) = ip (lift Φ x) (A (lift Φ x))
  /-- eigenvalues are in the numerical range of the full system -/
  numerical_range : ∀ z, IsEigenvalue R z → ∃ v, 0 < ipEnergy ip v ∧ ip v (A v) = z * ip v v
  /-- energy that does not grow in continuous time -/
  dissipative : (∀ v, RCLike.re (ip v (A v)) ≤ 0) →
    (∀ x, RCLike.re (ip (lift Φ x) (lift Φ (R *ᵥ x))) ≤ 0) ∧ ∀ z, IsEigenvalue R z → RCLike.re z ≤ 0
  /-- energy that decays in continuous time -/
  damped : (∀ v, v ≠ 0 → RCLike.re (ip v (A v)) < 0) →
    (∀ x : Fin r → 𝕜, x ≠ 0 → RCLike.re (ip (lift Φ x) (lift Φ (R *ᵥ x))) < 0) ∧ ∀ z, IsEigenvalue R z → RCLike.re z < 0
  /-- energy that does not grow in discrete time -/
  nonexpansive : (∀ v, ipEnergy ip (A v) ≤ ipEnergy ip v) →
    (∀ x (t : Nat), ipEnergy ip (lift Φ (R ^ t *ᵥ x)) ≤ ipEnergy ip (lift Φ x)) ∧ ∀ z, IsEigenvalue R z → ‖z‖ ≤ 1
  /-- energy that decays in discrete time -/
  contractive : ∀ q : ℝ, 0 ≤ q → (∀ v, ipEnergy ip (A v) ≤ q * ipEnergy ip v) →
    (∀ x (t : Nat), ipEnergy ip (lift Φ (R ^ t *ᵥ x)) ≤ q ^ t * ipEnergy ip (lift Φ x)) ∧
      ∀ z, IsEigenvalue R z → ‖z‖ ^ 2 ≤ q
  /-- self-adjoint systems have self-adjoint models -/
  self_adjoint : (∀ u v, ip (A u) v = ip u (A v)) →
    ∀ x y, ip (lift Φ (R *ᵥ x)) (lift Φ y) = ip (lift Φ x) (lift Φ (R *ᵥ y))
  /-- conservative systems have conservative models -/
  conservative : (∀ v, RCLike.re (ip v (A v)) = 0) →
    ∀ x, RCLike.re (ip (lift Φ x) (lift Φ (R *ᵥ x))) = 0

/-- The inner product with weights: `(W y)` times the conjugate of `x`. -/
def weightedIp {n : Nat} (W : Matrix (Fin n) (Fin n) 𝕜) : (Fin n → 𝕜) →ₗ⋆[𝕜] (Fin n → 𝕜) →ₗ[𝕜] 𝕜 :=
  LinearMap.mk₂'ₛₗ (starRingEnd 𝕜) (RingHom.id 𝕜) (fun x y => star x ⬝ᵥ (W *ᵥ y))
    (by intros; simp [add_dotProduct]) (by intros; simp) (by intros; simp [mulVec_add, dotProduct_add])
    (by intros; simp [mulVec_smul])

end Modred
