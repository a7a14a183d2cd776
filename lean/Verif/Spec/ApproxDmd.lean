import Verif.Spec.Approx

/-!
# Dynamic mode decomposition with errors

How far modes and coefficients are from what they should be, if they are computed from decompositions that are correct
only up to errors.
-/

namespace Modred

open Matrix

variable {𝕜 : Type*} [RCLike 𝕜] {r m : Nat}

/-- Sum of the absolute values of column `i`, each over the square root of an eigenvalue. -/
noncomputable def scaledSum (w : Fin r → ℝ) (M : Matrix (Fin r) (Fin r) 𝕜) (i : Fin r) : ℝ :=
  ∑ k, ‖M k i‖ / Real.sqrt (w k)

/-- Bound of the inner product of eigenvectors `i` and `j`, if the eigendecomposition has error `ε` and the inner products
of eigenvectors for the same eigenvalue are at least `c`. -/
noncomputable def pairBound (ε c : ℝ) (eigvals : Fin r → 𝕜) (i j : Fin r) : ℝ :=
  if i = j then 0 else 2 * ε / (‖eigvals i - eigvals j‖ * c)

/-- Inner products of adjoint modes with projected modes, and with exact modes, differ from one (same mode) and zero
(different modes) by at most sums of two errors: those of the eigendecomposition of the correlation array (`ε`) or of the
scaled eigenvectors (`ε'`), and those of biorthogonality. -/
structure DmdModesWithin (ε ε' c : ℝ) (w : Fin r → ℝ) (eigvals : Fin r → 𝕜) (R L : Matrix (Fin r) (Fin r) 𝕜)
    (adjProj adjExact : Matrix (Fin r) (Fin r) 𝕜) : Prop where
  proj : ∀ i j, ‖adjProj i j - if i = j then 1 else 0‖ ≤
    ε * (scaledSum w L i * scaledSum w R j) + pairBound ε' c eigvals i j
  exact : ∀ i j, ‖adjExact i j - if i = j then 1 else 0‖ ≤ ε' / (‖eigvals j‖ * c) + pairBound ε' c eigvals i j

/-- Coefficients differ from inner products of adjoint modes and vectors by at most multiples of `ε`; those of advanced
vectors do not differ. -/
structure DmdCoeffsWithin (ε : ℝ) (w : Fin r → ℝ) (L : Matrix (Fin r) (Fin r) 𝕜)
    (coeffs advCoeffs ips advIps : Matrix (Fin r) (Fin m) 𝕜) : Prop where
  vecs : ∀ i j, ‖coeffs i j - ips i j‖ ≤ ε * scaledSum w L i
  advVecs : advCoeffs = advIps

/-- The cross-correlation array of a sequence as the direct method computes it: `V diag(w) V^*` without its first column,
followed by the last column of the true array. -/
noncomputable def seqCross (V : Matrix (Fin m) (Fin r) 𝕜) (w : Fin r → ℝ) (K : Matrix (Fin m) (Fin m) 𝕜) :
    Matrix (Fin m) (Fin m) 𝕜 :=
  Matrix.of fun i j => if h : j.val + 1 < m then (V * (diagonal (fun l => (w l : 𝕜)) * Vᴴ)) i ⟨j.val + 1, h⟩ else K i j

/-- How far modes and coefficients are from what they should be, if in addition the cross-correlation array has an error:
`δ` bounds its product with the singular vectors, and `β` the entries of those. -/
structure DmdWithinCross (ε ε' c δ β : ℝ) (w : Fin r → ℝ) (eigvals : Fin r → 𝕜) (R L : Matrix (Fin r) (Fin r) 𝕜)
    (adjProj adjExact : Matrix (Fin r) (Fin r) 𝕜) (coeffs advCoeffs ips advIps : Matrix (Fin r) (Fin m) 𝕜) : Prop where
  proj : ∀ i j, ‖adjProj i j - if i = j then 1 else 0‖ ≤
    ε * (scaledSum w L i * scaledSum w R j) + pairBound ε' c eigvals i j
  exact : ∀ i j, ‖adjExact i j - if i = j then 1 else 0‖ ≤
    m * β * δ * (scaledSum w L i * scaledSum w R j) / ‖eigvals j‖ + ε' / (‖eigvals j‖ * c) + pairBound ε' c eigvals i j
  vecs : ∀ i j, ‖coeffs i j - ips i j‖ ≤ ε * scaledSum w L i
  advVecs : ∀ i j, ‖advCoeffs i j - advIps i j‖ ≤ δ * scaledSum w L i

end Modred
