import Verif.Model.Helpers

/-!
# Data members
-/

namespace Modred

variable {A : Type*}

/-- The attributes that `get_data_members` returns. -/
def IsDataMember (attributes : List (Attribute A)) (k : List Char) (v : A) : Prop :=
  ∃ a ∈ attributes, a.name = k ∧ a.value = .ok v ∧ a.isMethod = false ∧ ¬ ['_', '_'] <+: a.name

end Modred
