import Verif.Spec.DmdHandles
import Verif.Model.Tlsqr

/-!
# Total-least-squares dynamic mode decomposition

Data `X` and advanced data `Y` are first projected: both are multiplied by `sumV * sumVᴴ`, where `sumV` are
eigenvectors of the sum of their correlation arrays.  The rest is dynamic mode decomposition of the projected data.
-/

namespace Modred

open Matrix

variable {𝕜 : Type*} [RCLike 𝕜]

/-- `sumV` are orthonormal eigenvectors of the sum of the correlation arrays `C` and `C'` of data and advanced data,
and `sumW` their positive eigenvalues. -/
structure TlsProjection {m q : Nat} (C C' : Matrix (Fin m) (Fin m) 𝕜) (sumW : Fin q → ℝ) (sumV : Matrix (Fin m) (Fin q) 𝕜) :
    Prop where
  orthonormal : sumVᴴ * sumV = 1
  eigen : (C + C') * sumV = sumV * diagonal fun i => (sumW i : 𝕜)
  pos : ∀ i, 0 < sumW i

/-- The projection. -/
def TlsDecomp.proj {m : Nat} (t : TlsDecomp 𝕜 m) : Matrix (Fin m) (Fin m) 𝕜 := t.sumV * t.sumVᴴ

end Modred
