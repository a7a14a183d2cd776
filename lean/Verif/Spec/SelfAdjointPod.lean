import Verif.Spec.Dmd

/-!
# Specification for C138: balanced modes that are POD modes
-/

namespace Modred

open Matrix

variable {𝕜 : Type*} [RCLike 𝕜] {n m r : Nat}

/-- POD modes of the vectors `X` in the inner product `W` with the eigenvalues `w`: orthonormal, and eigenvectors of the sum of the
projections onto the vectors. -/
structure PodModesOf (W : Matrix (Fin n) (Fin n) 𝕜) (X : Matrix (Fin n) (Fin m) 𝕜) (w : Fin r → ℝ) (Φ : Matrix (Fin n) (Fin r) 𝕜) :
    Prop where
  orthonormal : Φᴴ * W * Φ = 1
  eigen : X * Xᴴ * W * Φ = Φ * diagonal fun i => (w i : 𝕜)
  positive : ∀ i, 0 < w i

/-- All eigenvectors of the sum of the projections with eigenvalues above `b` are linear combinations of the modes. -/
def AllModesAbove (W : Matrix (Fin n) (Fin n) 𝕜) (X : Matrix (Fin n) (Fin m) 𝕜) (b : ℝ) (Φ : Matrix (Fin n) (Fin r) 𝕜) : Prop :=
  ∀ (f : Fin n → 𝕜) (z : ℝ), b < z → (X * Xᴴ * W) *ᵥ f = (z : 𝕜) • f → f = Φ *ᵥ ((Φᴴ * W) *ᵥ f)

/-- POD modes of vectors behind handles. -/
structure PodVectorsOf {E : Type*} [AddCommGroup E] [Module 𝕜 E] (ip : E → E → 𝕜) (X : Fin m → E) (w : Fin r → ℝ) (Φ : Fin r → E) :
    Prop where
  orthonormal : ∀ i j, ip (Φ i) (Φ j) = if i = j then 1 else 0
  eigen : ∀ i, ∑ j, ip (X j) (Φ i) • X j = (w i : 𝕜) • Φ i
  positive : ∀ i, 0 < w i

end Modred
