import Verif.Model.EraModel

/-!
# Corners of models
-/

namespace Modred

open Matrix

variable {𝕜 : Type*} [RCLike 𝕜]

/-- The model `s` consists of the first `k` states of the model `l`, or of all if there are fewer. -/
structure IsCorner (k : Nat) (s l : LtiModel 𝕜) : Prop where
  states : s.r = min k l.r
  inputs : s.p = l.p
  outputs : s.q = l.q
  A : ∀ i j i' j', i.val = i'.val → j.val = j'.val → s.A i j = l.A i' j'
  B : ∀ i j i' j', i.val = i'.val → j.val = j'.val → s.B i j = l.B i' j'
  C : ∀ i j i' j', i.val = i'.val → j.val = j'.val → s.C i j = l.C i' j'

end Modred
