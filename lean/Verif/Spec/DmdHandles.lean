import Verif.Spec.Dmd
import Mathlib.LinearAlgebra.SesquilinearForm.Basic

/-!
# Dynamic mode decomposition of vectors of any space

The relations of `Verif.Spec.Dmd`, for vectors with an inner product instead of columns of arrays.
-/

namespace Modred

open Matrix

variable {𝕜 : Type*} [RCLike 𝕜] {E : Type*} [AddCommGroup E] [Module 𝕜 E]

/-- Inner products of vectors. -/
def gram (ip : E →ₗ⋆[𝕜] E →ₗ[𝕜] 𝕜) {p q : Nat} (X : Fin p → E) (Y : Fin q → E) : Matrix (Fin p) (Fin q) 𝕜 :=
  Matrix.of fun i j => ip (X i) (Y j)

/-- The linear map that takes the data `X` to the advanced data `Y`, restricted to the eigenvectors `V` of the
correlation array with eigenvalues `w`. -/
noncomputable def dmdMap {m r : Nat} (ip : E →ₗ⋆[𝕜] E →ₗ[𝕜] 𝕜) (X Y : Fin m → E) (w : Fin r → ℝ)
    (V : Matrix (Fin m) (Fin r) 𝕜) (v : E) : E :=
  ∑ j, ((V * diagonal (fun i => (((w i)⁻¹ : ℝ) : 𝕜)) * Vᴴ) *ᵥ fun i => ip (X i) v) j • Y j

/-- Linear combinations of the data with the eigenvectors `V` as coefficients: what is retained of the data. -/
def retained {m r : Nat} (X : Fin m → E) (V : Matrix (Fin m) (Fin r) 𝕜) : Submodule 𝕜 E :=
  Submodule.span 𝕜 (Set.range fun j => ∑ i, V i j • X i)

/-- Relations between data, eigenvalues and modes. -/
structure DmdHandleModes {m r : Nat} (ip : E →ₗ⋆[𝕜] E →ₗ[𝕜] 𝕜) (X Y : Fin m → E) (w : Fin r → ℝ)
    (V : Matrix (Fin m) (Fin r) 𝕜) (eigvals : Fin r → 𝕜) (exact proj adjoint : Fin r → E) : Prop where
  /-- `V` are orthonormal eigenvectors of the correlation array and `w` their positive eigenvalues. -/
  orthonormal : Vᴴ * V = 1
  eigen : gram ip X X * V = V * diagonal fun i => (w i : 𝕜)
  pos : ∀ i, 0 < w i
  /-- Adjoint modes are biorthonormal to the projected modes and the exact modes. -/
  adjoint_proj : ∀ i j, ip (adjoint i) (proj j) = if i = j then 1 else 0
  adjoint_exact : ∀ i j, ip (adjoint i) (exact j) = if i = j then 1 else 0
  /-- Exact modes are eigenvectors of the map that takes the data to the advanced data. -/
  exact_eigen : ∀ j, dmdMap ip X Y w V (exact j) = eigvals j • exact j
  /-- Projected modes are eigenvectors of its projection to the data. -/
  proj_eigen : ∀ j, dmdMap ip X X w V (dmdMap ip X Y w V (proj j)) = eigvals j • proj j
  /-- Projected modes are the projections of the exact modes. -/
  proj_of_exact : ∀ j, dmdMap ip X X w V (exact j) = proj j
  /-- Adjoint modes are eigenvectors of the adjoint. -/
  adjoint_eigen : ∀ i v, ip (adjoint i) (dmdMap ip X Y w V v) = eigvals i * ip (adjoint i) v
  /-- Exact modes, eigenvalues and adjoint modes are the spectral decomposition of this map. -/
  spectral_form : ∀ v, dmdMap ip X Y w V v = ∑ i, (eigvals i * ip (adjoint i) v) • exact i
  /-- What this map does to the data. -/
  data : ∀ j, dmdMap ip X Y w V (X j) = ∑ i, (V * Vᴴ) i j • Y i
  /-- If no direction is dropped and the advanced data are those of a linear map, this is what it does to the data. -/
  full : r = (gram ip X X).rank → (∀ v, ip v v = 0 → v = 0) → ∀ A : E →ₗ[𝕜] E, (∀ j, A (X j) = Y j) →
    ∀ j, dmdMap ip X Y w V (X j) = Y j
  /-- If the advanced data are those of a linear map of which the retained part of the data spans an invariant
  subspace, exact modes are eigenvectors of this map. -/
  invariant : ∀ A : E →ₗ[𝕜] E, (∀ j, A (X j) = Y j) → (∀ v ∈ retained X V, A v ∈ retained X V) →
    ∀ j, A (exact j) = eigvals j • exact j
  /-- If no direction is dropped, an invariant subspace spanned by the data suffices. -/
  invariant_data : r = (gram ip X X).rank → (∀ v, ip v v = 0 → v = 0) → ∀ A : E →ₗ[𝕜] E, (∀ j, A (X j) = Y j) →
    (∀ j, Y j ∈ Submodule.span 𝕜 (Set.range X)) → ∀ j, A (exact j) = eigvals j • exact j

/-- Coefficients of the data with respect to modes `adjoint`. -/
structure DmdHandleCoeffs {m r : Nat} (ip : E →ₗ⋆[𝕜] E →ₗ[𝕜] 𝕜) (X Y : Fin m → E) (adjoint : Fin r → E)
    (projCoeffs advProjCoeffs : Matrix (Fin r) (Fin m) 𝕜) : Prop where
  proj : ∀ i j, projCoeffs i j = ip (adjoint i) (X j)
  adv : ∀ i j, advProjCoeffs i j = ip (adjoint i) (Y j)

/-- Absolute values of the coefficients of the first vector. -/
structure DmdHandleSpectrum {m r : Nat} (ip : E →ₗ⋆[𝕜] E →ₗ[𝕜] 𝕜) (X : Fin m → E) (adjoint : Fin r → E)
    (spectral : NdArray ℝ) : Prop where
  shape : spectral.shape = if r = 1 then [] else [r]
  spectral : ∀ (i : Fin r) (j : Fin m), j.val = 0 → spectral.data i = ‖ip (adjoint i) (X j)‖

/-- `kept` are those of the values `all` that the tolerances and the maximal number admit: all that are larger than
the absolute tolerance, the relative tolerance times any value, and the magnitude of any negative value; only the
largest if these are too many. -/
structure Retained {n r : Nat} (all : Fin n → ℝ) (t : ℝ) (rtol : Option ℝ) (maxNum : Option Nat) (kept : Fin r → ℝ) :
    Prop where
  value : ∀ i, ∃ j, kept i = all j
  above : ∀ i, t < kept i
  relative : ∀ i, ∀ s ∈ rtol, ∀ j, s * |all j| < kept i
  limit : ∀ k ∈ maxNum, r ≤ k
  complete : ∀ j, t < |all j| → (∀ s ∈ rtol, ∀ k, s * |all k| < |all j|) → (∀ k, all k < 0 → |all k| < |all j|) →
    (∃ i, kept i = all j) ∨ ∃ k ∈ maxNum, r = k ∧ ∀ i, all j ≤ kept i

/-- `out` are the vectors with indices `l` of the vectors `all`; negative indices count from the end. -/
def ChosenVecs {E : Type*} {r : Nat} (all : Fin r → E) (l : List Int) (out : Vecs E) : Prop :=
  out.k = l.length ∧ ∃ sel : Fin out.k → Fin r,
    (∀ (i : Fin out.k) (j : Int), l[i.val]? = some j → npAxisIndex r j = .ok (sel i)) ∧ ∀ i, out.v i = all (sel i)

/-- All vectors of a sequence but the last, and all but the first. -/
def seqVecs {E : Type*} (vecs : List E) (j : Fin (vecs.length - 1)) : E := vecs.get ⟨j, by omega⟩

def seqAdvVecs {E : Type*} (vecs : List E) (j : Fin (vecs.length - 1)) : E := vecs.get ⟨j + 1, by omega⟩

end Modred
