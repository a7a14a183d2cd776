import Verif.Spec.Stability
import Verif.Spec.DmdHandles
import Mathlib.LinearAlgebra.Matrix.Rank

/-!
# Specification for C128: dynamic modes keep the symmetry of the data
-/

namespace Modred

variable {𝕜 : Type*} [RCLike 𝕜] {E : Type*} [AddCommGroup E] [Module 𝕜 E] {m r : Nat}

/-- Modes that are orthogonal, have length one and are their own adjoint modes. -/
structure OwnAdjoint (ip : E →ₗ⋆[𝕜] E →ₗ[𝕜] 𝕜) (proj adjoint : Fin r → E) : Prop where
  orthonormal : ∀ i j, ip (proj i) (proj j) = if i = j then 1 else 0
  adjoint : adjoint = proj

/-- What symmetry of the inner products of the vectors `X` with the advanced vectors `Y` means for eigenvalues and modes. -/
structure SymmetryKept (ip : E →ₗ⋆[𝕜] E →ₗ[𝕜] 𝕜) (X Y : Fin m → E) (eigvals : Fin r → 𝕜) (proj adjoint : Fin r → E) : Prop where
  /-- symmetric data, such as those of diffusion, have real eigenvalues and orthogonal modes -/
  symmetric : (∀ i j, ip (X i) (Y j) = ip (Y i) (X j)) → (∀ i, RCLike.im (eigvals i) = 0) ∧ OwnAdjoint ip proj adjoint
  /-- skew-symmetric data have imaginary eigenvalues and orthogonal modes -/
  skew : (∀ i j, ip (X i) (Y j) = -ip (Y i) (X j)) → (∀ i, RCLike.re (eigvals i) = 0) ∧ OwnAdjoint ip proj adjoint

/-- What it means if the advanced vectors are linear combinations of the vectors and have the same inner products, and no
eigenvalue more than zero was left out: nothing grows or decays, and the modes are orthogonal. -/
def LengthsKept (ip : E →ₗ⋆[𝕜] E →ₗ[𝕜] 𝕜) (X Y : Fin m → E) (eigvals : Fin r → 𝕜) (proj adjoint : Fin r → E) : Prop :=
  (∀ i j, ip (Y i) (Y j) = ip (X i) (X j)) → (∀ j, Y j ∈ Submodule.span 𝕜 (Set.range X)) →
    r = (gram ip X X).rank → (∀ i, ‖eigvals i‖ = 1) ∧ OwnAdjoint ip proj adjoint

end Modred
