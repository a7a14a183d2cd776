import Verif.Spec.Pod
import Verif.Model.DmdHandles
import Mathlib.LinearAlgebra.Matrix.Rank

/-!
# Dynamic mode decomposition

What modes, eigenvalues and coefficients have to do with the data `X` and the advanced data `Y`.
-/

namespace Modred

open Matrix

variable {𝕜 : Type*} [RCLike 𝕜]

/-- `P` is the Moore-Penrose inverse of `X` for the inner product `x^* W y` of columns. -/
structure IsPinv {n m : Nat} (W : Matrix (Fin n) (Fin n) 𝕜) (X : Matrix (Fin n) (Fin m) 𝕜)
    (P : Matrix (Fin m) (Fin n) 𝕜) : Prop where
  outer : X * P * X = X
  inner : P * X * P = P
  rows : (P * X)ᴴ = P * X
  cols : (W * X * P)ᴴ = W * X * P

/-- The Moore-Penrose inverse restricted to the eigenvectors `V` of `X^* W X` with eigenvalues `w`. -/
noncomputable def truncatedPinv {n m r : Nat} (W : Matrix (Fin n) (Fin n) 𝕜) (X : Matrix (Fin n) (Fin m) 𝕜)
    (w : Fin r → ℝ) (V : Matrix (Fin m) (Fin r) 𝕜) : Matrix (Fin m) (Fin n) 𝕜 :=
  V * diagonal (fun i => (((w i)⁻¹ : ℝ) : 𝕜)) * Vᴴ * Xᴴ * W

/-- Relations between data, eigenvalues and modes. -/
structure DmdModes {n m r : Nat} (W : Matrix (Fin n) (Fin n) 𝕜) (X Y : Matrix (Fin n) (Fin m) 𝕜)
    (w : Fin r → ℝ) (V : Matrix (Fin m) (Fin r) 𝕜) (eigvals : Fin r → 𝕜)
    (exact proj adjoint : Matrix (Fin n) (Fin r) 𝕜) : Prop where
  /-- `V` are orthonormal eigenvectors of the correlation array and `w` their positive eigenvalues. -/
  orthonormal : Vᴴ * V = 1
  eigen : Xᴴ * W * X * V = V * diagonal fun i => (w i : 𝕜)
  pos : ∀ i, 0 < w i
  /-- Adjoint modes are biorthonormal to the projected modes and the exact modes. -/
  adjoint_proj : adjointᴴ * W * proj = 1
  adjoint_exact : adjointᴴ * W * exact = 1
  /-- Exact modes are eigenvectors of the map that takes the data to the advanced data. -/
  exact_eigen : Y * truncatedPinv W X w V * exact = exact * diagonal eigvals
  /-- Projected modes are eigenvectors of its projection to the data. -/
  proj_eigen : X * truncatedPinv W X w V * (Y * truncatedPinv W X w V) * proj = proj * diagonal eigvals
  /-- Projected modes are the projections of the exact modes. -/
  proj_of_exact : X * truncatedPinv W X w V * exact = proj
  /-- Adjoint modes are eigenvectors of the adjoint. -/
  adjoint_eigen : adjointᴴ * W * (Y * truncatedPinv W X w V) = diagonal eigvals * (adjointᴴ * W)
  /-- Exact modes, eigenvalues and adjoint modes are the spectral decomposition of this map. -/
  spectral_form : Y * truncatedPinv W X w V = exact * diagonal eigvals * adjointᴴ * W
  /-- If no direction is dropped, the map is the one that is meant. -/
  pinv : r = X.rank → IsPinv W X (truncatedPinv W X w V)
  /-- If the advanced data are those of a linear map of which the retained part of the data spans an invariant
  subspace, exact modes are eigenvectors of this map. -/
  invariant : ∀ (A : Matrix (Fin n) (Fin n) 𝕜) (M : Matrix (Fin r) (Fin r) 𝕜), A * X = Y →
    A * (X * V) = X * V * M → A * exact = exact * diagonal eigvals
  /-- If no direction is dropped, an invariant subspace spanned by the data suffices. -/
  invariant_data : r = X.rank → ∀ (A : Matrix (Fin n) (Fin n) 𝕜) (M : Matrix (Fin m) (Fin m) 𝕜), A * X = Y →
    Y = X * M → A * exact = exact * diagonal eigvals

/-- Coefficients of the data with respect to modes `adjoint`; `squeeze` turns an array with a single entry into
one without dimensions. -/
structure DmdCoeffs {n m r : Nat} (W : Matrix (Fin n) (Fin n) 𝕜) (X Y : Matrix (Fin n) (Fin m) 𝕜)
    (adjoint : Matrix (Fin n) (Fin r) 𝕜) (projCoeffs advProjCoeffs : Matrix (Fin r) (Fin m) 𝕜)
    (spectral : NdArray ℝ) : Prop where
  proj : projCoeffs = adjointᴴ * W * X
  adv : advProjCoeffs = adjointᴴ * W * Y
  shape : spectral.shape = if r = 1 then [] else [r]
  spectral : ∀ (i : Fin r) (j : Fin m), j.val = 0 → spectral.data i = ‖(adjointᴴ * W * X) i j‖

/-- Two sets of results that differ only in the order and scale of the modes. -/
structure DmdSame {n m r r' : Nat} (eigvals : Fin r → 𝕜) (exact proj adjoint : Matrix (Fin n) (Fin r) 𝕜)
    (projCoeffs advProjCoeffs : Matrix (Fin r) (Fin m) 𝕜) (eigvals' : Fin r' → 𝕜)
    (exact' proj' adjoint' : Matrix (Fin n) (Fin r') 𝕜) (projCoeffs' advProjCoeffs' : Matrix (Fin r') (Fin m) 𝕜)
    (σ : Fin r ≃ Fin r') (c : Fin r → 𝕜) : Prop where
  nonzero : ∀ i, c i ≠ 0
  eigvals : ∀ i, eigvals' (σ i) = eigvals i
  exact : ∀ i k, exact' k (σ i) = exact k i * c i
  proj : ∀ i k, proj' k (σ i) = proj k i * c i
  adjoint : ∀ i k, adjoint' k (σ i) * star (c i) = adjoint k i
  projCoeffs : ∀ i j, c i * projCoeffs' (σ i) j = projCoeffs i j
  advProjCoeffs : ∀ i j, c i * advProjCoeffs' (σ i) j = advProjCoeffs i j

end Modred
