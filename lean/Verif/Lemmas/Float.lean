import Verif.Spec.Float
import Verif.Model.AssignFloat
import Verif.Lemmas.Assign
import Mathlib.Algebra.Order.Round
import Mathlib.Data.Int.Interval
import Mathlib.Data.Nat.Log
import Mathlib.Tactic.NormNum
import Mathlib.Tactic.Positivity

/-! Helper lemmas about rounding. -/

namespace Modred

theorem float64_of_nat_pow {x : ℚ} (a : ℤ) (j : Nat) (ha : |a| ≤ 2 ^ 53) (h : x = a * 2 ^ j) : IsFloat64 x :=
  ⟨a, j, ha, by omega, by rw [h, zpow_natCast]⟩

theorem float64_of_int {x : ℚ} (a : ℤ) (ha : |a| ≤ 2 ^ 53) (h : x = a) : IsFloat64 x :=
  float64_of_nat_pow a 0 ha (by rw [h, pow_zero, mul_one])

theorem float64_of_div {x : ℚ} (a : ℤ) (j : Nat) (hj : j ≤ 1074) (ha : |a| ≤ 2 ^ 53) (h : x * 2 ^ j = a) : IsFloat64 x := by
  refine ⟨a, -j, ha, by omega, ?_⟩
  rw [zpow_neg, zpow_natCast, ← div_eq_mul_inv, ← h, mul_div_assoc, div_self (by positivity), mul_one]

theorem float64_neg {x : ℚ} (h : IsFloat64 x) : IsFloat64 (-x) := by
  obtain ⟨m, e, hm, he, rfl⟩ := h
  exact ⟨-m, e, by rwa [abs_neg], he, by push_cast; ring⟩

variable {rnd : ℚ → ℚ} (hr : IsRounding rnd)
include hr

theorem IsRounding.fix {x : ℚ} (h : IsFloat64 x) : rnd x = x := by
  have := hr.nearest x x h
  rw [sub_self, abs_zero] at this
  exact sub_eq_zero.mp (abs_eq_zero.mp (le_antisymm this (abs_nonneg _)))

theorem IsRounding.mono {x y : ℚ} (h : x ≤ y) : rnd x ≤ rnd y := by
  rcases eq_or_lt_of_le h with rfl | h
  · exact le_rfl
  by_contra hlt
  rw [not_le] at hlt
  have h1 := hr.nearest x _ (hr.mem y)
  have h2 := hr.nearest y _ (hr.mem x)
  have h3 := sq_le_sq.mpr h1
  have h4 := sq_le_sq.mpr h2
  nlinarith

theorem IsRounding.le_of_le {x y : ℚ} (hx : IsFloat64 x) (h : x ≤ y) : x ≤ rnd y := by
  rw [← hr.fix hx]; exact hr.mono h

theorem IsRounding.ge_of_le {x y : ℚ} (hx : IsFloat64 x) (h : y ≤ x) : rnd y ≤ x := by
  rw [← hr.fix hx]; exact hr.mono h

theorem IsRounding.nat {n : Nat} (h : n ≤ 2 ^ 53) : rnd n = n :=
  hr.fix (float64_of_int n (by rw [abs_of_nonneg (by omega)]; exact_mod_cast h) (by simp))

/-- A quotient of not too large natural numbers is not rounded down to a half-integer. -/
theorem IsRounding.half_lt_div {a b t : Nat} (ha : a ≤ 2 ^ 52) (hb : b ≤ 2 ^ 52) (h : (t : ℚ) / 2 < a / b) :
    (t : ℚ) / 2 < rnd (a / b) := by
  have hb0 : 0 < b := by
    rcases Nat.eq_zero_or_pos b with h0 | h0
    · subst h0
      have : (0 : ℚ) ≤ (t : ℚ) / 2 := by positivity
      simp at h
      linarith
    · exact h0
  have hbq : (0 : ℚ) < b := by exact_mod_cast hb0
  have h1 : t * b + 1 ≤ 2 * a := by
    rw [div_lt_div_iff₀ two_pos hbq] at h
    have : t * b < a * 2 := by exact_mod_cast h
    omega
  have hl : 2 ^ Nat.log 2 b ≤ b := Nat.pow_log_le_self 2 hb0.ne'
  have hu : b < 2 ^ (Nat.log 2 b + 1) := Nat.lt_pow_succ_log_self (by norm_num) b
  have hlog : Nat.log 2 b ≤ 52 := by
    have := Nat.log_mono_right (b := 2) hb
    rwa [Nat.log_pow (by norm_num)] at this
  generalize Nat.log 2 b = l at hl hu hlog
  have hlq : (2 : ℚ) ^ l ≤ b := by exact_mod_cast hl
  have huq : (b : ℚ) < 2 ^ (l + 1) := by exact_mod_cast hu
  have hy : IsFloat64 ((t : ℚ) / 2 + 1 / 2 ^ (l + 1)) := by
    refine float64_of_div (t * 2 ^ l + 1) (l + 1) (by omega) ?_ ?_
    · rw [abs_of_nonneg (by positivity)]
      have : t * 2 ^ l + 1 ≤ 2 ^ 53 := by
        have := Nat.mul_le_mul_left t hl
        omega
      exact_mod_cast this
    · push_cast
      rw [pow_succ]
      field_simp
  rcases le_or_gt ((t : ℚ) / 2 + 1 / 2 ^ (l + 1)) (a / b) with hle | hgt
  · have := hr.le_of_le hy hle
    have hp : (0 : ℚ) < 1 / 2 ^ (l + 1) := by positivity
    linarith
  · by_contra hc
    rw [not_lt] at hc
    have h2 := hr.nearest (a / b) _ hy
    rw [abs_of_nonpos (by linarith), abs_of_pos (by linarith)] at h2
    have h3 : (1 : ℚ) / 2 ^ (l + 1) < 1 / b := one_div_lt_one_div_of_lt hbq huq
    have h4 : (t : ℚ) / 2 + 1 / (2 * b) ≤ a / b := by
      rw [div_add_div _ _ two_ne_zero (by positivity), div_le_div_iff₀ (by positivity) hbq]
      have : (t : ℚ) * b + 1 ≤ 2 * a := by exact_mod_cast h1
      nlinarith
    have h5 : (1 : ℚ) / b = 1 / (2 * b) + 1 / (2 * b) := by field_simp; norm_num
    linarith

omit hr in
theorem IsRounding.half {t : Nat} (h : t ≤ 2 ^ 53) : IsFloat64 ((t : ℚ) / 2) :=
  float64_of_div t 1 (by norm_num) (by rw [abs_of_nonneg (by omega)]; exact_mod_cast h) (by push_cast; ring)

theorem IsRounding.nat_lt_div {a b t : Nat} (ha : a ≤ 2 ^ 52) (hb : b ≤ 2 ^ 52) :
    (t : ℚ) < rnd (a / b) ↔ (t : ℚ) < a / b := by
  constructor
  · intro h
    by_contra hc
    rw [not_lt] at hc
    rcases le_or_gt t (2 ^ 53) with ht | ht
    · have := hr.ge_of_le (float64_of_int t (by rw [abs_of_nonneg (by omega)]; exact_mod_cast ht) (by simp)) hc
      linarith
    · have h1 : (a : ℚ) / b ≤ (2 ^ 53 : Nat) := by
        rcases Nat.eq_zero_or_pos b with h0 | h0
        · subst h0; simp
        · rw [div_le_iff₀ (by exact_mod_cast h0)]
          have : a ≤ 2 ^ 53 * b := by omega
          exact_mod_cast this
      have := hr.ge_of_le (float64_of_int (2 ^ 53) (by norm_num) (by norm_num)) h1
      have h2 : (2 ^ 53 : ℚ) < t := by exact_mod_cast ht
      linarith
  · intro h
    have := hr.half_lt_div (t := 2 * t) ha hb (by push_cast; rwa [mul_div_cancel_left₀ _ two_ne_zero])
    push_cast at this
    rwa [mul_div_cancel_left₀ _ two_ne_zero] at this

omit hr in
theorem ceilDivNat_eq_ceil (a b : Nat) (hb : 0 < b) : ceilDivNat a b = ⌈(a : ℚ) / b⌉.toNat := by
  have h0 : 0 ≤ ⌈(a : ℚ) / b⌉ := Int.ceil_nonneg (by positivity)
  have hbq : (0 : ℚ) < b := by exact_mod_cast hb
  have h1 : ⌈(a : ℚ) / b⌉ = (ceilDivNat a b : Nat) := by
    rw [Int.ceil_eq_iff]
    have h2 := Nat.div_add_mod (a + b - 1) b
    have h3 := Nat.mod_lt (a + b - 1) hb
    change b * ceilDivNat a b + _ = _ at h2
    constructor
    · rw [lt_div_iff₀ hbq]
      have : b * ceilDivNat a b < a + b := by omega
      have : ((b * ceilDivNat a b : Nat) : ℚ) < ((a + b : Nat) : ℚ) := by exact_mod_cast this
      push_cast at this ⊢
      linarith
    · rw [div_le_iff₀ hbq]
      have : a ≤ b * ceilDivNat a b := by omega
      have : (a : ℚ) ≤ ((b * ceilDivNat a b : Nat) : ℚ) := by exact_mod_cast this
      push_cast at this ⊢
      linarith
  rw [h1]
  simp

theorem IsRounding.ceil {a b : Nat} (ha : a ≤ 2 ^ 52) (hb : b ≤ 2 ^ 52) : ⌈rnd (a / b)⌉ = ⌈(a : ℚ) / b⌉ := by
  have h0 : 0 ≤ (a : ℚ) / b := by positivity
  have h1 : 0 ≤ rnd (a / b) := hr.le_of_le (float64_of_int 0 (by norm_num) (by simp)) h0
  apply le_antisymm
  · obtain ⟨c, hc⟩ := Int.eq_ofNat_of_zero_le (Int.ceil_nonneg h0)
    rw [hc, Int.ceil_le]
    have := (hr.nat_lt_div (t := c) ha hb).not
    rw [not_lt, not_lt] at this
    exact this.mpr (by have := Int.le_ceil ((a : ℚ) / b); rw [hc] at this; exact_mod_cast this)
  · obtain ⟨c, hc⟩ := Int.eq_ofNat_of_zero_le (Int.ceil_nonneg h1)
    rw [hc, Int.ceil_le]
    have := (hr.nat_lt_div (t := c) ha hb).not
    rw [not_lt, not_lt] at this
    exact this.mp (by have := Int.le_ceil (rnd (a / b)); rw [hc] at this; exact_mod_cast this)

end Modred
