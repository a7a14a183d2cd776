import Verif.Spec.GalerkinSpan

/-!
# Specification for C136: Galerkin projection of models
-/

namespace Modred

open Matrix

variable {𝕜 : Type*} [RCLike 𝕜]

/-- `H` undoes the inner products `G` of adjoint and direct basis vectors, which are those of biorthonormal bases if the user says
so. -/
def Undoes {r : Nat} (flag : Bool) (G H : Matrix (Fin r) (Fin r) 𝕜) : Prop :=
  H * G = 1 ∧ (flag = true → G = 1)

end Modred
