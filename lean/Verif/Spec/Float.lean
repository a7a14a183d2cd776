import Mathlib.Algebra.Order.Field.Rat
import Mathlib.Algebra.Order.Field.Power
import Mathlib.Data.Rat.Cast.Order

/-!
# Double precision

Numbers in double precision and rounding to nearest.  Overflow and not-a-number are left out.
-/

namespace Modred

/-- A finite number of the format binary64 of IEEE 754, without an upper bound for the exponent: `m * 2 ^ e` with at most
53 digits `m` and `e` not below -1074. -/
def IsFloat64 (x : ℚ) : Prop := ∃ m e : ℤ, |m| ≤ 2 ^ 53 ∧ -1074 ≤ e ∧ x = m * 2 ^ e

/-- Rounding to nearest: `rnd x` is a number in double precision, and no other one is nearer to `x`.  It is left open which
of two nearest ones is taken. -/
structure IsRounding (rnd : ℚ → ℚ) : Prop where
  mem : ∀ x, IsFloat64 (rnd x)
  nearest : ∀ x y, IsFloat64 y → |rnd x - x| ≤ |y - x|

end Modred
