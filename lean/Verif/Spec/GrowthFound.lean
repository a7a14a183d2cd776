import Verif.Spec.Dmd

/-!
# Specification for C135: whatever grows at one rate in the data is found
-/

namespace Modred

variable {𝕜 : Type*} [RCLike 𝕜] {E : Type*} [AddCommGroup E] [Module 𝕜 E] {m r : Nat}

/-- Each linear combination of the vectors `X` that the system `A` multiplies by a number is, up to a factor, a projected mode with
this eigenvalue, and if the number is not zero, the exact mode is the same. -/
def GrowthFound (A : E →ₗ[𝕜] E) (X : Fin m → E) (eigvals : Fin r → 𝕜) (exact proj : Fin r → E) : Prop :=
  ∀ x ∈ Submodule.span 𝕜 (Set.range X), x ≠ 0 → ∀ z : 𝕜, A x = z • x →
    ∃ i, eigvals i = z ∧ (∃ c : 𝕜, c ≠ 0 ∧ x = c • proj i) ∧ (z ≠ 0 → exact i = proj i)

end Modred
