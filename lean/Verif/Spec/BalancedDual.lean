import Verif.Spec.DualModel
import Verif.Model.Systems

/-!
# Specification for C130: balanced truncation of the adjoint system
-/

namespace Modred

/-- Results of balanced truncation with the same singular values. -/
structure SameSingVals (res res' : Balanced ℝ) : Prop where
  number : res'.numSingVals = res.numSingVals
  values : ∀ i i', i'.val = i.val → res'.singVals i' = res.singVals i

/-- Equal singular values are not separated: those after the number of states are smaller. -/
def Balanced.Separated (res : Balanced ℝ) (order : Option Nat) : Prop :=
  ∀ i j, i.val < order.getD res.numSingVals → order.getD res.numSingVals ≤ j.val → res.singVals j < res.singVals i

end Modred
