import Mathlib.Algebra.Order.Field.Rat
import Mathlib.Data.List.Basic

/-!
# What is said about progress messages
-/

namespace Modred

/-- Percentages make sense: between 0 and 100, never going down, and the last one is 100. -/
structure SaneProgress (l : List ℚ) : Prop where
  bounded : ∀ x ∈ l, 0 ≤ x ∧ x ≤ 100
  ascending : l.Pairwise (· ≤ ·)
  last : l.getLast? = some 100

end Modred
