import Verif.Model.PodObjects
import Verif.Spec.DmdHandles

/-!
# Uses of objects between a decomposition and its results
-/

namespace Modred

variable {𝕜 : Type*} [RCLike 𝕜] {E : Type*} [AddCommMonoid E] [Module 𝕜 E]

/-- What a user may do with an object of the class `PODHandles` that does not change its data. -/
inductive PodUse (E : Type*) where
  | modes (l : List Int) (k : Nat) (vecs : Option (List E))
  | projCoeffs

/-- Vectors that are given are those that were decomposed. -/
def PodUse.Keeps (vecs : List E) : PodUse E → Prop
  | .modes _ _ v => v = none ∨ v = some vecs
  | .projCoeffs => True

/-- The object after a use, which may have raised an exception. -/
noncomputable def PodObj.afterUse (g : PodObj 𝕜 E) : PodUse E → PodObj 𝕜 E
  | .modes l k v => (g.computeModes l k v).2
  | .projCoeffs => g.computeProjCoeffs.2

/-- The same for the class `BPODHandles`. -/
inductive BpodUse (E : Type*) where
  | direct (l : List Int) (k : Nat) (vecs : Option (List E))
  | adjoint (l : List Int) (k : Nat) (vecs : Option (List E))
  | directCoeffs
  | adjointCoeffs

def BpodUse.Keeps (directVecs adjointVecs : List E) : BpodUse E → Prop
  | .direct _ _ v => v = none ∨ v = some directVecs
  | .adjoint _ _ v => v = none ∨ v = some adjointVecs
  | .directCoeffs => True
  | .adjointCoeffs => True

noncomputable def BpodObj.afterUse (g : BpodObj 𝕜 E) : BpodUse E → BpodObj 𝕜 E
  | .direct l k v => (g.computeDirectModes l k v).2
  | .adjoint l k v => (g.computeAdjointModes l k v).2
  | .directCoeffs => g.computeDirectProjCoeffs.2
  | .adjointCoeffs => g.computeAdjointProjCoeffs.2

end Modred
