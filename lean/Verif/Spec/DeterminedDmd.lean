import Mathlib.Analysis.RCLike.Basic
import Mathlib.LinearAlgebra.Matrix.ConjTranspose
import Mathlib.LinearAlgebra.SesquilinearForm.Basic

/-!
# Results of dynamic mode decomposition for the same data in another order and in other units

The vectors `X` are replaced by `a X Q` and the advanced vectors `Y` by `b Y Q`, where the factors change units and `Q`
permutes or mixes the pairs of vectors.
-/

namespace Modred

open Matrix

variable {𝕜 : Type*} [RCLike 𝕜] {n m m' r r' : Nat}

/-- With `Q` of orthonormal rows, which may have more columns than rows: the results have as many eigenvalues and modes.  Eigenvalues, counted with their multiplicities, change by the
factor `b / a`.  The modes belonging to any eigenvalues, weighted in any way that depends only on the eigenvalues, are
the same: together with their adjoint modes they are the same maps, and together with their coefficients they give the
same vectors, in the units and in the order of the data. -/
structure SameDmd (a b : 𝕜) (Q : Matrix (Fin m) (Fin m') 𝕜) (eigvals : Fin r → 𝕜) (eigvals' : Fin r' → 𝕜)
    (exact proj adjoint : Matrix (Fin n) (Fin r) 𝕜) (exact' proj' adjoint' : Matrix (Fin n) (Fin r') 𝕜)
    (coeffs adv : Matrix (Fin r) (Fin m) 𝕜) (coeffs' adv' : Matrix (Fin r') (Fin m') 𝕜) : Prop where
  number : r' = r
  multiplicities : ∀ z, Nat.card {i // eigvals' i = b / a * z} = Nat.card {i // eigvals i = z}
  proj_adjoint : ∀ F G : 𝕜 → 𝕜, (∀ x, G (b / a * x) = F x) →
    proj' * diagonal (fun i => G (eigvals' i)) * adjoint'ᴴ = proj * diagonal (fun i => F (eigvals i)) * adjointᴴ
  exact_adjoint : ∀ F G : 𝕜 → 𝕜, (∀ x, G (b / a * x) = F x) →
    exact' * diagonal (fun i => G (eigvals' i)) * adjoint'ᴴ = exact * diagonal (fun i => F (eigvals i)) * adjointᴴ
  proj_coeffs : ∀ F G : 𝕜 → 𝕜, (∀ x, G (b / a * x) = F x) →
    proj' * diagonal (fun i => G (eigvals' i)) * coeffs' = a • (proj * diagonal (fun i => F (eigvals i)) * coeffs * Q)
  exact_coeffs : ∀ F G : 𝕜 → 𝕜, (∀ x, G (b / a * x) = F x) →
    exact' * diagonal (fun i => G (eigvals' i)) * coeffs' = a • (exact * diagonal (fun i => F (eigvals i)) * coeffs * Q)
  proj_adv : ∀ F G : 𝕜 → 𝕜, (∀ x, G (b / a * x) = F x) →
    proj' * diagonal (fun i => G (eigvals' i)) * adv' = b • (proj * diagonal (fun i => F (eigvals i)) * adv * Q)
  exact_adv : ∀ F G : 𝕜 → 𝕜, (∀ x, G (b / a * x) = F x) →
    exact' * diagonal (fun i => G (eigvals' i)) * adv' = b • (exact * diagonal (fun i => F (eigvals i)) * adv * Q)

/-- The same for modes that are vectors of any space with inner product `ip`. -/
structure SameDmdOf {E : Type*} [AddCommGroup E] [Module 𝕜 E] {p m' : Nat} (ip : E →ₗ⋆[𝕜] E →ₗ[𝕜] 𝕜) (a b : 𝕜)
    (Q : Matrix (Fin m) (Fin p) 𝕜) (eigvals : Fin r → 𝕜) (eigvals' : Fin r' → 𝕜) (exact proj adjoint : Fin r → E)
    (exact' proj' adjoint' : Fin r' → E) (coeffs adv : Matrix (Fin r) (Fin m) 𝕜) (coeffs' adv' : Matrix (Fin r') (Fin m') 𝕜) :
    Prop where
  number : r' = r
  multiplicities : ∀ z, Nat.card {i // eigvals' i = b / a * z} = Nat.card {i // eigvals i = z}
  proj_adjoint : ∀ F G : 𝕜 → 𝕜, (∀ x, G (b / a * x) = F x) → ∀ x,
    ∑ i, (G (eigvals' i) * ip (adjoint' i) x) • proj' i = ∑ i, (F (eigvals i) * ip (adjoint i) x) • proj i
  exact_adjoint : ∀ F G : 𝕜 → 𝕜, (∀ x, G (b / a * x) = F x) → ∀ x,
    ∑ i, (G (eigvals' i) * ip (adjoint' i) x) • exact' i = ∑ i, (F (eigvals i) * ip (adjoint i) x) • exact i
  proj_coeffs : ∀ F G : 𝕜 → 𝕜, (∀ x, G (b / a * x) = F x) → ∀ (j' : Fin m') (j : Fin p), j'.val = j.val →
    ∑ i, (G (eigvals' i) * coeffs' i j') • proj' i = a • ∑ k, Q k j • ∑ i, (F (eigvals i) * coeffs i k) • proj i
  exact_coeffs : ∀ F G : 𝕜 → 𝕜, (∀ x, G (b / a * x) = F x) → ∀ (j' : Fin m') (j : Fin p), j'.val = j.val →
    ∑ i, (G (eigvals' i) * coeffs' i j') • exact' i = a • ∑ k, Q k j • ∑ i, (F (eigvals i) * coeffs i k) • exact i
  proj_adv : ∀ F G : 𝕜 → 𝕜, (∀ x, G (b / a * x) = F x) → ∀ (j' : Fin m') (j : Fin p), j'.val = j.val →
    ∑ i, (G (eigvals' i) * adv' i j') • proj' i = b • ∑ k, Q k j • ∑ i, (F (eigvals i) * adv i k) • proj i
  exact_adv : ∀ F G : 𝕜 → 𝕜, (∀ x, G (b / a * x) = F x) → ∀ (j' : Fin m') (j : Fin p), j'.val = j.val →
    ∑ i, (G (eigvals' i) * adv' i j') • exact' i = b • ∑ k, Q k j • ∑ i, (F (eigvals i) * adv i k) • exact i

end Modred
