import Mathlib.Analysis.RCLike.Basic
import Mathlib.LinearAlgebra.Matrix.ConjTranspose

/-!
# Results for the same data in another order and in other units

The data `X` are replaced by `a X Q`, where the factor `a` changes units and `Q` permutes or mixes the vectors.
-/

namespace Modred

open Matrix

variable {𝕜 : Type*} [RCLike 𝕜] {n m r r' : Nat}

/-- Eigenvalues `w'` and modes `Φ'` are as many as `w` and `Φ`.  Eigenvalues, which are energies, change by the square of the factor.  The modes
belonging to any eigenvalues, weighted in any way that depends only on the eigenvalues, are the same. -/
structure SameModes (a : 𝕜) (w : Fin r → ℝ) (w' : Fin r' → ℝ) (Φ : Matrix (Fin n) (Fin r) 𝕜)
    (Φ' : Matrix (Fin n) (Fin r') 𝕜) : Prop where
  number : r' = r
  energies : ∀ (i' : Fin r') (i : Fin r), i'.val = i.val → w' i' = ‖a‖ ^ 2 * w i
  modes : ∀ f g : ℝ → 𝕜, (∀ x, 0 < x → g (‖a‖ ^ 2 * x) = f x) →
    Φ' * diagonal (fun i => g (w' i)) * Φ'ᴴ = Φ * diagonal (fun i => f (w i)) * Φᴴ

/-- The same for modes that are vectors of any space with inner product `ip`. -/
structure SameModesOf {E : Type*} [AddCommGroup E] [Module 𝕜 E] (ip : E →ₗ⋆[𝕜] E →ₗ[𝕜] 𝕜) (a : 𝕜) (w : Fin r → ℝ) (w' : Fin r' → ℝ)
    (Φ : Fin r → E) (Φ' : Fin r' → E) : Prop where
  number : r' = r
  energies : ∀ (i' : Fin r') (i : Fin r), i'.val = i.val → w' i' = ‖a‖ ^ 2 * w i
  modes : ∀ f g : ℝ → 𝕜, (∀ x, 0 < x → g (‖a‖ ^ 2 * x) = f x) →
    ∀ x, ∑ i, (g (w' i) * ip (Φ' i) x) • Φ' i = ∑ i, (f (w i) * ip (Φ i) x) • Φ i

end Modred
