import Verif.Spec.Float
import Verif.Spec.BareArith
import Mathlib.Tactic.NormNum

/-! Double precision arithmetic: each operation is exact arithmetic followed by rounding. -/

namespace Modred

/-- Numbers in double precision, together with the rounding used. -/
def Fl (_ : { rnd : ℚ → ℚ // IsRounding rnd }) : Type := { x : ℚ // IsFloat64 x }

variable {R : { rnd : ℚ → ℚ // IsRounding rnd }}

/-- Round a number. -/
def Fl.round (R : { rnd : ℚ → ℚ // IsRounding rnd }) (x : ℚ) : Fl R := ⟨R.1 x, R.2.mem x⟩

/-- Numbers in double precision are not changed by rounding. -/
theorem Fl.round_eq (x : Fl R) : R.1 x.1 = x.1 := by
  have := R.2.nearest x.1 x.1 x.2
  rw [sub_self, abs_zero] at this
  exact sub_eq_zero.mp (abs_eq_zero.mp (le_antisymm this (abs_nonneg _)))

instance : Zero (Fl R) := ⟨Fl.round R 0⟩
instance : One (Fl R) := ⟨Fl.round R 1⟩
instance : Add (Fl R) := ⟨fun x y => Fl.round R (x.1 + y.1)⟩
instance : Mul (Fl R) := ⟨fun x y => Fl.round R (x.1 * y.1)⟩

theorem Fl.zero_val : (0 : Fl R).1 = 0 := by
  have h : IsFloat64 0 := ⟨0, 0, by norm_num, by norm_num, by norm_num⟩
  have := R.2.nearest 0 0 h
  rw [sub_self, abs_zero] at this
  exact sub_eq_zero.mp (abs_eq_zero.mp (le_antisymm this (abs_nonneg _)))

theorem Fl.one_val : (1 : Fl R).1 = 1 := by
  have h : IsFloat64 1 := ⟨1, 0, by rw [abs_one]; decide, by norm_num, by norm_num⟩
  have := R.2.nearest 1 1 h
  rw [sub_self, abs_zero] at this
  exact sub_eq_zero.mp (abs_eq_zero.mp (le_antisymm this (abs_nonneg _)))

theorem Fl.add_val (x y : Fl R) : (x + y).1 = R.1 (x.1 + y.1) := rfl

theorem Fl.mul_val (x y : Fl R) : (x * y).1 = R.1 (x.1 * y.1) := rfl

instance : DecidableEq (Fl R) := fun x y => decidable_of_iff (x.1 = y.1) Subtype.ext_iff.symm

/-- Double precision real numbers are an arithmetic in the sense of `BareArith`. -/
instance : BareArith (Fl R) where
  zero_add x := Subtype.ext (by rw [Fl.add_val, Fl.zero_val, zero_add, Fl.round_eq])
  add_zero x := Subtype.ext (by rw [Fl.add_val, Fl.zero_val, add_zero, Fl.round_eq])
  zero_mul x := Subtype.ext (by rw [Fl.mul_val, Fl.zero_val, zero_mul]; exact Fl.zero_val)
  mul_zero x := Subtype.ext (by rw [Fl.mul_val, Fl.zero_val, mul_zero]; exact Fl.zero_val)
  one_mul x := Subtype.ext (by rw [Fl.mul_val, Fl.one_val, one_mul, Fl.round_eq])
  mul_one x := Subtype.ext (by rw [Fl.mul_val, Fl.one_val, mul_one, Fl.round_eq])
  star := id
  star_involutive _ := rfl
  star_zero' := rfl

end Modred
