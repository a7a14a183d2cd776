import Verif.Spec.Dmd

/-!
# Specification for C133: dynamic modes of time derivatives
-/

namespace Modred

variable {𝕜 : Type*} [RCLike 𝕜] {E : Type*} [AddCommGroup E] [Module 𝕜 E] {r r' : Nat}

/-- The eigenvalues `z` have become `α + β z`, possibly in another order, and the modes are the same up to factors, which adjoint
modes make up for.  Exact modes, which there are if eigenvalues are not zero, are combined as the advanced vectors are. -/
def ShiftedModes (α β : 𝕜) (eigvals : Fin r → 𝕜) (eigvals' : Fin r' → 𝕜) (exact proj adjoint : Fin r → E)
    (exact' proj' adjoint' : Fin r' → E) : Prop :=
  ∃ σ : Fin r' ≃ Fin r, ∀ i, eigvals' i = α + β * eigvals (σ i) ∧
    ∃ c : 𝕜, c ≠ 0 ∧ proj' i = c • proj (σ i) ∧ adjoint' i = (star c)⁻¹ • adjoint (σ i) ∧
      (eigvals (σ i) ≠ 0 → eigvals' i ≠ 0 →
        eigvals' i • exact' i = c • (α • proj (σ i) + (β * eigvals (σ i)) • exact (σ i)))

end Modred
