import Verif.Spec.Stages
import Verif.Model.PodObjects

/-!
# Objects with handles as places, and the vectors behind them
-/

namespace Modred

variable {𝕜 E : Type*}

/-- The object on one process whose handles hold the vectors at the places. -/
def PodObj.held (w : Nat → E) (g : PodObj 𝕜 Nat) : PodObj 𝕜 E := ⟨g.vecs.map (List.map w), g.corr, g.decomp, g.projCoeffs⟩

/-- The object on one process whose handles hold the vectors at the places. -/
def BpodObj.held (w : Nat → E) (g : BpodObj 𝕜 Nat) : BpodObj 𝕜 E :=
  ⟨g.directVecs.map (List.map w), g.adjointVecs.map (List.map w), g.hankel, g.decomp, g.directProjCoeffs, g.adjointProjCoeffs⟩

/-- Vectors are at their places, and other places are as before. -/
structure PutAt (places : List Nat) (out : Vecs E) (before after : Nat → E) : Prop where
  count : out.k = places.length
  there : ∀ (k : Nat) (h : k < places.length) (h' : k < out.k), after places[k] = out.v ⟨k, h'⟩
  other : ∀ q, q ∉ places → after q = before q

end Modred
