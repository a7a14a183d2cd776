import Verif.Model.Arguments

/-!
# What forms of arguments stand for
-/

namespace Modred

/-- One handle stands for the list of it, a sequence for the list of its entries. -/
inductive Stands {V : Type*} : HandlesArg V → List V → Prop where
  | one (v : V) : Stands (.single v) [v]
  | seq (l : List V) : Stands (.seq l) l

/-- One index stands for the list of it. -/
inductive IndexStands : IndexArg → List Int → Prop where
  | one (i : Int) : IndexStands (.one i) [i]
  | many (l : List Int) : IndexStands (.many l) l

/-- Iterators and collections without order stand for no list. -/
def NoList {V : Type*} (a : HandlesArg V) : Prop := ∀ l, ¬ Stands a l

/-- An object whose handles were given in any form, and one whose handles were given as lists. -/
structure PodStands {𝕜 E : Type*} (g : PodArgs 𝕜 E) (g' : PodObj 𝕜 E) : Prop where
  vecs : (g.vecs = none ∧ g'.vecs = none) ∨ ∃ a l, g.vecs = some a ∧ g'.vecs = some l ∧ Stands a l
  corr : g.corr = g'.corr
  decomp : g.decomp = g'.decomp
  projCoeffs : g.projCoeffs = g'.projCoeffs

end Modred
