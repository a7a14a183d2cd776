import Verif.Spec.DeterminedBpod

/-!
# Specification for C125: exchange of direct and adjoint
-/

namespace Modred

variable {𝕜 : Type*} {n md ma : Nat}

/-- Direct and adjoint modes exchanged. -/
def BalancedSet.exchange (d : BalancedSet 𝕜 n md ma) : BalancedSet 𝕜 n ma md :=
  ⟨d.r, d.S, d.adjoint, d.direct, d.adjointCoeffs, d.directCoeffs⟩

/-- Direct and adjoint modes exchanged, for vectors of any space. -/
def BalancedSetOf.exchange {E : Type*} (d : BalancedSetOf 𝕜 E md ma) : BalancedSetOf 𝕜 E ma md :=
  ⟨d.r, d.S, d.adjoint, d.direct, d.adjointCoeffs, d.directCoeffs⟩

end Modred
