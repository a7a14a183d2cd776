import Verif.Spec.Dmd

/-!
# Predictions from modes
-/

namespace Modred

open Matrix

variable {𝕜 : Type*} [RCLike 𝕜]

/-- Modes, eigenvalues and coefficients give the data and what a linear system makes of them after any number of steps;
the spectral coefficients are the magnitudes of the coefficients of the first vector. -/
structure Predicts {n m r : Nat} (A : Matrix (Fin n) (Fin n) 𝕜) (X : Matrix (Fin n) (Fin m) 𝕜) (eigvals : Fin r → 𝕜)
    (modes : Matrix (Fin n) (Fin r) 𝕜) (coeffs : Matrix (Fin r) (Fin m) 𝕜) (spectral : NdArray ℝ) : Prop where
  powers : ∀ k, A ^ k * X = modes * diagonal (fun i => eigvals i ^ k) * coeffs
  spectral : ∀ (i : Fin r) (j : Fin m), j.val = 0 → spectral.data i = ‖coeffs i j‖

end Modred
