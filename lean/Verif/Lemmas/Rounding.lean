import Verif.Lemmas.Float
import Mathlib.Tactic.Linarith
import Mathlib.Tactic.Ring

/-! Helper lemmas about rounding errors. -/

namespace Modred

/-- Multiples of the smallest positive number. -/
def OnGrid (x : ℚ) : Prop := ∃ k e : ℤ, -1074 ≤ e ∧ x = k * 2 ^ e

theorem IsFloat64.onGrid {x : ℚ} (h : IsFloat64 x) : OnGrid x := by
  obtain ⟨m, e, -, he, hx⟩ := h
  exact ⟨m, e, he, hx⟩

theorem two_zpow_add_nat (e : ℤ) (s : Nat) : (2 : ℚ) ^ (e + s) = 2 ^ e * 2 ^ s := by
  rw [zpow_add₀ (by norm_num), zpow_natCast]

theorem OnGrid.add {x y : ℚ} (hx : OnGrid x) (hy : OnGrid y) : OnGrid (x + y) := by
  obtain ⟨k, e, he, rfl⟩ := hx
  obtain ⟨l, f, hf, rfl⟩ := hy
  rcases le_total e f with h | h
  · obtain ⟨s, rfl⟩ : ∃ s : Nat, f = e + s := ⟨(f - e).toNat, by omega⟩
    exact ⟨k + l * 2 ^ s, e, he, by rw [two_zpow_add_nat]; push_cast; ring⟩
  · obtain ⟨s, rfl⟩ : ∃ s : Nat, e = f + s := ⟨(e - f).toNat, by omega⟩
    exact ⟨k * 2 ^ s + l, f, hf, by rw [two_zpow_add_nat]; push_cast; ring⟩

/-- Next to a positive multiple of the smallest number there is a number in double precision with a relative distance of
at most `2 ^ (-53)`. -/
theorem near_float_pos {k : Nat} {e : ℤ} (he : -1074 ≤ e) :
    ∃ y, IsFloat64 y ∧ |y - k * 2 ^ e| ≤ (k * 2 ^ e) / 2 ^ 53 := by
  have h2 : (0 : ℚ) < 2 ^ e := zpow_pos (by norm_num) e
  by_cases hk : k ≤ 2 ^ 53
  · refine ⟨k * 2 ^ e, ⟨k, e, by rw [abs_of_nonneg (by omega)]; exact_mod_cast hk, he, by push_cast; rfl⟩, ?_⟩
    rw [sub_self, abs_zero]
    positivity
  · have hk0 : k ≠ 0 := by omega
    have hlo := Nat.pow_log_le_self 2 hk0
    have hhi := Nat.lt_pow_succ_log_self (b := 2) (by norm_num) k
    have hlog : 53 ≤ Nat.log 2 k := Nat.le_log_of_pow_le (by norm_num) (by omega)
    obtain ⟨s, hs⟩ : ∃ s, Nat.log 2 k = 52 + s := ⟨Nat.log 2 k - 52, by omega⟩
    rw [hs, pow_add] at hlo
    rw [hs, show (52 + s).succ = 53 + s by omega, pow_add] at hhi
    have hps : (0 : ℚ) < 2 ^ s := by positivity
    have hloq : (2 : ℚ) ^ 52 * 2 ^ s ≤ k := by exact_mod_cast hlo
    have hhiq : (k : ℚ) < 2 ^ 53 * 2 ^ s := by exact_mod_cast hhi
    let q : ℤ := round ((k : ℚ) / 2 ^ s)
    have hq : |(k : ℚ) / 2 ^ s - q| ≤ 1 / 2 := abs_sub_round _
    have hq0 : (q : ℚ) ≤ 2 ^ 53 := by
      have : (q : ℚ) < 2 ^ 53 + 1 := by
        have h3 : (k : ℚ) / 2 ^ s < 2 ^ 53 := by rw [div_lt_iff₀ hps]; exact hhiq
        have := (abs_le.mp hq).1
        linarith
      have h4 : q < 2 ^ 53 + 1 := by exact_mod_cast this
      have : q ≤ 2 ^ 53 := by omega
      exact_mod_cast this
    have hq1 : (0 : ℚ) ≤ q := by
      have h3 : (2 : ℚ) ^ 52 ≤ (k : ℚ) / 2 ^ s := by rw [le_div_iff₀ hps]; exact hloq
      have := (abs_le.mp hq).2
      have h4 : (1 : ℚ) ≤ 2 ^ 52 := by norm_num
      linarith
    refine ⟨q * 2 ^ (e + s), ⟨q, e + s, ?_, by omega, rfl⟩, ?_⟩
    · rw [abs_of_nonneg (by exact_mod_cast hq1)]
      exact_mod_cast hq0
    · rw [two_zpow_add_nat]
      have h5 : (q : ℚ) * (2 ^ e * 2 ^ s) - k * 2 ^ e = (q - k / 2 ^ s) * (2 ^ e * 2 ^ s) := by
        have : (k : ℚ) / 2 ^ s * 2 ^ s = k := div_mul_cancel₀ _ (ne_of_gt hps)
        rw [sub_mul, mul_comm ((2 : ℚ) ^ e), ← mul_assoc ((k : ℚ) / 2 ^ s), this]
      rw [h5, abs_mul, abs_of_pos (a := (2 : ℚ) ^ e * 2 ^ s) (by positivity), abs_sub_comm]
      calc |(k : ℚ) / 2 ^ s - q| * (2 ^ e * 2 ^ s) ≤ 1 / 2 * (2 ^ e * 2 ^ s) :=
            mul_le_mul_of_nonneg_right hq (by positivity)
        _ = (2 ^ 52 * 2 ^ s) * 2 ^ e / 2 ^ 53 := by ring
        _ ≤ k * 2 ^ e / 2 ^ 53 := by
            apply div_le_div_of_nonneg_right _ (by positivity)
            exact mul_le_mul_of_nonneg_right hloq h2.le

theorem near_float {x : ℚ} (hx : OnGrid x) : ∃ y, IsFloat64 y ∧ |y - x| ≤ |x| / 2 ^ 53 := by
  obtain ⟨k, e, he, rfl⟩ := hx
  have h2 : (0 : ℚ) < 2 ^ e := zpow_pos (by norm_num) e
  rcases le_total 0 k with h | h
  · obtain ⟨n, rfl⟩ := Int.eq_ofNat_of_zero_le h
    obtain ⟨y, h1, h3⟩ := near_float_pos (k := n) he
    refine ⟨y, h1, ?_⟩
    rw [abs_of_nonneg (a := ((n : ℤ) : ℚ) * 2 ^ e) (by positivity)]
    exact_mod_cast h3
  · obtain ⟨n, hn⟩ := Int.eq_ofNat_of_zero_le (show 0 ≤ -k by omega)
    obtain rfl : k = -n := by omega
    obtain ⟨y, h1, h3⟩ := near_float_pos (k := n) he
    refine ⟨-y, float64_neg h1, ?_⟩
    have h4 : ((-(n : ℤ) : ℤ) : ℚ) * 2 ^ e = -(n * 2 ^ e) := by push_cast; ring
    rw [h4, abs_neg, abs_of_nonneg (a := (n : ℚ) * 2 ^ e) (by positivity), ← abs_neg]
    convert h3 using 2
    ring

/-- Relative error of one addition. -/
theorem IsRounding.add_error {rnd : ℚ → ℚ} (hr : IsRounding rnd) {x y : ℚ} (hx : IsFloat64 x) (hy : IsFloat64 y) :
    |rnd (x + y) - (x + y)| ≤ |x + y| / 2 ^ 53 := by
  obtain ⟨z, h1, h2⟩ := near_float (hx.onGrid.add hy.onGrid)
  exact (hr.nearest _ z h1).trans h2

/-- Error of a sum in some order: with `n` additions at most `(1 + u) ^ n - 1` times the sum of the absolute values. -/
theorem foldl_add_error {rnd : ℚ → ℚ} (hr : IsRounding rnd) (xs : List ℚ) (hxs : ∀ x ∈ xs, IsFloat64 x) (a A E : ℚ)
    (ha : IsFloat64 a) (hE : |a - E| ≤ A * ((1 + 1 / 2 ^ 53) ^ n - 1)) (hA : |E| ≤ A) :
    IsFloat64 (xs.foldl (fun s x => rnd (s + x)) a) ∧
      |xs.foldl (fun s x => rnd (s + x)) a - (E + xs.sum)| ≤
        (A + (xs.map abs).sum) * ((1 + 1 / 2 ^ 53) ^ (n + xs.length) - 1) := by
  induction xs generalizing a A E n with
  | nil => exact ⟨ha, by simpa using hE⟩
  | cons x xs ih =>
    have hx := hxs x (by simp)
    have h0 := hr.add_error ha hx
    obtain ⟨u, hu, hu0⟩ : ∃ u : ℚ, u = 1 / 2 ^ 53 ∧ 0 < u := ⟨_, rfl, by positivity⟩
    rw [← hu] at hE ih ⊢
    rw [div_eq_mul_one_div, ← hu] at h0
    have hg : 0 ≤ (1 + u) ^ n - 1 := by
      have := one_le_pow₀ (show (1 : ℚ) ≤ 1 + u by linarith) (n := n)
      linarith
    have hA0 : 0 ≤ A := (abs_nonneg _).trans hA
    have key : |rnd (a + x) - (E + x)| ≤ (A + |x|) * ((1 + u) ^ (n + 1) - 1) := by
      have e1 : |rnd (a + x) - (E + x)| ≤ |rnd (a + x) - (a + x)| + |a - E| := by
        have : rnd (a + x) - (E + x) = (rnd (a + x) - (a + x)) + (a - E) := by ring
        rw [this]
        exact abs_add_le _ _
      have e2 : |a + x| ≤ |a - E| + (A + |x|) := by
        have : a + x = (a - E) + (E + x) := by ring
        rw [this]
        refine (abs_add_le _ _).trans ?_
        have := abs_add_le E x
        linarith
      have e3 := mul_le_mul_of_nonneg_right e2 hu0.le
      have e4 : A * ((1 + u) ^ n - 1) ≤ (A + |x|) * ((1 + u) ^ n - 1) :=
        mul_le_mul_of_nonneg_right (by linarith [abs_nonneg x]) hg
      have e5 : |a - E| * (1 + u) ≤ (A + |x|) * ((1 + u) ^ n - 1) * (1 + u) :=
        mul_le_mul_of_nonneg_right (hE.trans e4) (by linarith)
      have e6 : (A + |x|) * ((1 + u) ^ (n + 1) - 1) = (A + |x|) * ((1 + u) ^ n - 1) * (1 + u) + (A + |x|) * u := by
        rw [pow_succ]; ring
      linarith
    obtain ⟨h1, h2⟩ := ih (fun y hy => hxs y (by simp [hy])) (rnd (a + x)) (A + |x|) (E + x) (hr.mem _) key
      ((abs_add_le _ _).trans (by linarith))
    refine ⟨h1, ?_⟩
    rw [List.foldl_cons, List.sum_cons, List.map_cons, List.sum_cons, List.length_cons, ← add_assoc E, ← add_assoc A,
      show n + (xs.length + 1) = n + 1 + xs.length by omega]
    exact h2

end Modred
