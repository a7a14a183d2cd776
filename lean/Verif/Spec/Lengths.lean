import Mathlib.Analysis.RCLike.Basic
import Mathlib.LinearAlgebra.Matrix.ConjTranspose
import Mathlib.LinearAlgebra.SesquilinearForm.Basic

/-!
# Lengths of modes of dynamic mode decomposition
-/

namespace Modred

open Matrix

variable {𝕜 : Type*} [RCLike 𝕜] {n r : Nat}

/-- Projected modes have length one in the inner product given by the weights `W`, and exact modes and adjoint modes are
at least as long.  An exact mode is the image of the projected mode divided by the eigenvalue, which must not be zero. -/
structure DmdLengths (W : Matrix (Fin n) (Fin n) 𝕜) (eigvals : Fin r → 𝕜) (exact proj adjoint : Matrix (Fin n) (Fin r) 𝕜) :
    Prop where
  proj : ∀ i, (projᴴ * W * proj) i i = 1
  exact : ∀ i, eigvals i ≠ 0 → 1 ≤ RCLike.re ((exactᴴ * W * exact) i i)
  adjoint : ∀ i, 1 ≤ RCLike.re ((adjointᴴ * W * adjoint) i i)

/-- The same for vectors of any space with inner product `ip`. -/
structure DmdLengthsOf {E : Type*} [AddCommGroup E] [Module 𝕜 E] (ip : E →ₗ⋆[𝕜] E →ₗ[𝕜] 𝕜) (eigvals : Fin r → 𝕜)
    (exact proj adjoint : Fin r → E) : Prop where
  proj : ∀ i, ip (proj i) (proj i) = 1
  exact : ∀ i, eigvals i ≠ 0 → 1 ≤ RCLike.re (ip (exact i) (exact i))
  adjoint : ∀ i, 1 ≤ RCLike.re (ip (adjoint i) (adjoint i))

end Modred
