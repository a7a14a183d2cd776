import Mathlib.Algebra.GroupWithZero.Defs
import Mathlib.Algebra.Star.Basic

/-! Arithmetic of which little is known, such as floating point arithmetic. -/

namespace Modred

/-- Numbers for which only calculations with 0 and 1 are known to be exact.  Addition need not be associative or
commutative. -/
class BareArith (K : Type*) extends AddZeroClass K, MulZeroOneClass K, InvolutiveStar K where
  star_zero' : star (0 : K) = 0

/-- Exact arithmetic. -/
abbrev BareArith.ofStarRing (K : Type*) [Semiring K] [StarRing K] : BareArith K where
  star_zero' := star_zero K

end Modred
