import Verif.Lemmas.Float

/-! Helper lemmas about `find_assignments` in double precision. -/

namespace Modred

variable {α : Type*}

theorem argmin_eq {K : Type*} [LinearOrder K] (l : List K) (i : Nat) (hi : i < l.length)
    (hle : ∀ j (hj : j < l.length), l[i] ≤ l[j]) (hlt : ∀ j (hj : j < i), l[i] < l[j]) : argmin l = i := by
  have hne : l ≠ [] := by rintro rfl; simp at hi
  apply le_antisymm
  · by_contra hc
    have h1 := argmin_first l hne i (by omega)
    have h2 := hle _ (argmin_lt l hne)
    exact absurd h1 (not_lt.mpr h2)
  · by_contra hc
    have h1 := hlt (argmin l) (by omega)
    have h2 := argmin_le l hne i hi
    exact absurd h1 (not_lt.mpr h2)

/-- The distances of `1, ..., r` from `x`, each changed by `f`. -/
def distances (f : ℚ → ℚ) (r : Nat) (x : ℚ) : List ℚ := (List.range r).map fun i => |f ((i + 1 : Nat) - x)|

section
variable {f : ℚ → ℚ} (hf : ∀ {x y}, x ≤ y → f x ≤ f y) {r q : Nat} {x : ℚ}

include hf

theorem argmin_below (hh : f (1 / 2) = 1 / 2) (hh' : f (-(1 / 2)) = -(1 / 2)) (h0 : f 0 = 0) (h1 : f (-1) = -1)
    (hq : 1 ≤ q) (hqr : q ≤ r) (hx : q ≤ x) (hx' : x ≤ q + 1 / 2) : argmin (distances f r x) = q - 1 := by
  have hmid : |f ((q : ℚ) - x)| ≤ 1 / 2 := by
    rw [abs_le]
    constructor
    · rw [← hh']; exact hf (by linarith)
    · have : f ((q : ℚ) - x) ≤ f 0 := hf (by linarith)
      rw [h0] at this
      linarith
  have hup : ∀ i : Nat, q + 1 ≤ i → |f ((q : ℚ) - x)| ≤ |f ((i : ℚ) - x)| := by
    intro i hi
    refine hmid.trans (le_trans ?_ (le_abs_self _))
    rw [← hh]
    have : ((q + 1 : Nat) : ℚ) ≤ i := by exact_mod_cast hi
    push_cast at this
    exact hf (by linarith)
  have hlow : ∀ i : Nat, i < q → |f ((q : ℚ) - x)| < |f ((i : ℚ) - x)| := by
    intro i hi
    have : ((i + 1 : Nat) : ℚ) ≤ q := by exact_mod_cast hi
    push_cast at this
    have h2 : f ((i : ℚ) - x) ≤ f (-1) := hf (by linarith)
    rw [h1] at h2
    have h3 := neg_abs_le (f ((i : ℚ) - x))
    linarith
  have e : q - 1 + 1 = q := by omega
  refine argmin_eq _ _ (by simp [distances]; omega) (fun j hj => ?_) fun j hj => ?_
  · simp only [distances, List.getElem_map, List.getElem_range, e]
    rcases lt_trichotomy (j + 1) q with h | h | h
    · exact (hlow _ h).le
    · rw [h]
    · exact hup _ h
  · simp only [distances, List.getElem_map, List.getElem_range, e]
    exact hlow _ (by omega)

theorem argmin_above (hh : f (1 / 2) = 1 / 2) (h0 : f 0 = 0) (hex : 1 ≤ q → f (q - x) = q - x) (hqr : q + 1 ≤ r)
    (hx : q + 1 / 2 < x) (hx' : x ≤ q + 1) : argmin (distances f r x) = q := by
  have hmid : |f (((q + 1 : Nat) : ℚ) - x)| ≤ 1 / 2 := by
    push_cast
    rw [abs_le]
    constructor
    · have : f 0 ≤ f ((q : ℚ) + 1 - x) := hf (by linarith)
      rw [h0] at this
      linarith
    · rw [← hh]; exact hf (by linarith)
  have hup : ∀ i : Nat, q + 1 ≤ i → |f (((q + 1 : Nat) : ℚ) - x)| ≤ |f ((i : ℚ) - x)| := by
    intro i hi
    have hi' : ((q + 1 : Nat) : ℚ) ≤ i := by exact_mod_cast hi
    have h2 : f (((q + 1 : Nat) : ℚ) - x) ≤ f ((i : ℚ) - x) := hf (by linarith)
    have h3 : f 0 ≤ f (((q + 1 : Nat) : ℚ) - x) := hf (by push_cast; linarith)
    rw [h0] at h3
    rw [abs_of_nonneg h3, abs_of_nonneg (h3.trans h2)]
    exact h2
  have hlow : ∀ i : Nat, 1 ≤ i → i ≤ q → |f (((q + 1 : Nat) : ℚ) - x)| < |f ((i : ℚ) - x)| := by
    intro i hi hiq
    have : (i : ℚ) ≤ q := by exact_mod_cast hiq
    have h2 : f ((i : ℚ) - x) ≤ f (q - x) := hf (by linarith)
    rw [hex (by omega)] at h2
    have h3 := neg_abs_le (f ((i : ℚ) - x))
    linarith
  refine argmin_eq _ _ (by simp [distances]; omega) (fun j hj => ?_) fun j hj => ?_
  · simp only [distances, List.getElem_map, List.getElem_range]
    rcases Nat.lt_or_ge j q with h | h
    · exact (hlow _ (by omega) (by omega)).le
    · exact hup _ (by omega)
  · simp only [distances, List.getElem_map, List.getElem_range]
    exact hlow _ (by omega) (by omega)

theorem argmin_few (h0 : f 0 = 0) (hr : 1 ≤ r) (hx : x ≤ 1) : argmin (distances f r x) = 0 := by
  refine argmin_eq _ _ (by simp [distances]; omega) (fun j hj => ?_) fun j hj => absurd hj (by omega)
  simp only [distances, List.getElem_map, List.getElem_range]
  have hi' : (1 : ℚ) ≤ ((j + 1 : Nat) : ℚ) := by exact_mod_cast Nat.succ_le_succ (Nat.zero_le j)
  have h2 : f (((0 + 1 : Nat) : ℚ) - x) ≤ f (((j + 1 : Nat) : ℚ) - x) := hf (by push_cast at *; linarith)
  have h3 : f 0 ≤ f (((0 + 1 : Nat) : ℚ) - x) := hf (by push_cast; linarith)
  rw [h0] at h3
  rw [abs_of_nonneg h3, abs_of_nonneg (h3.trans h2)]
  exact h2

end

theorem cumsum_ones (r : Nat) (x : ℚ) :
    ((cumsum (List.replicate r (1 : ℚ))).map fun c => |c - x|) = distances id r x := by
  apply List.ext_getElem
  · simp [cumsum, cumsumFrom_length, distances]
  · intro i h1 h2
    simp [cumsum, cumsumFrom_length] at h1
    have h3 : min (i + 1) r = i + 1 := by omega
    simp only [distances, List.getElem_map, cumsum, cumsumFrom_getElem, List.take_replicate, List.sum_replicate,
      List.getElem_range, h3, id, zero_add, nsmul_eq_mul, mul_one]

section
variable {rnd : ℚ → ℚ} (hr : IsRounding rnd)
include hr

theorem cumsumFromFl_ones (a r : Nat) (h : a + r ≤ 2 ^ 53) :
    cumsumFromFl rnd a (List.replicate r 1) = (List.range r).map fun i => ((a + i + 1 : Nat) : ℚ) := by
  induction r generalizing a with
  | zero => rfl
  | succ r ih =>
    have e : rnd ((a : ℚ) + 1) = ((a + 1 : Nat) : ℚ) := by
      have := hr.nat (n := a + 1) (by omega)
      push_cast at this ⊢
      exact this
    rw [List.replicate_succ, cumsumFromFl, e, ih (a + 1) (by omega), List.range_succ_eq_map, List.map_cons, List.map_map]
    congr 1
    refine List.map_congr_left fun i _ => ?_
    simp only [Function.comp]
    congr 1
    omega

theorem cumsumFl_ones (r : Nat) (x : ℚ) (h : r ≤ 2 ^ 53) :
    ((cumsumFl rnd (List.replicate r (1 : ℚ))).map fun c => |rnd (c - x)|) = distances rnd r x := by
  cases r with
  | zero => rfl
  | succ r =>
    have := cumsumFromFl_ones hr 1 r (by omega)
    rw [Nat.cast_one] at this
    rw [List.replicate_succ, cumsumFl, this, distances, List.range_succ_eq_map, List.map_cons, List.map_cons, List.map_map,
      List.map_map]
    congr 1
    · push_cast
      simp only [List.map_inj_left, Function.comp]
      intro i _
      congr 3
      push_cast
      ring

theorem sumFl_ones (r : Nat) (h : r ≤ 2 ^ 53) : sumFl rnd (List.replicate r (1 : ℚ)) = r := by
  have key : ∀ a : Nat, a + r ≤ 2 ^ 53 → (List.replicate r (1 : ℚ)).foldl (fun acc w => rnd (acc + w)) (a : ℚ) = ((a + r : Nat) : ℚ) := by
    clear h
    induction r with
    | zero => intro a _; rfl
    | succ r ih =>
      intro a ha
      have e : rnd ((a : ℚ) + 1) = ((a + 1 : Nat) : ℚ) := by
        have := hr.nat (n := a + 1) (by omega)
        push_cast at this ⊢
        exact this
      rw [List.replicate_succ, List.foldl_cons, e, ih (a + 1) (by omega)]
      congr 1
      omega
  have := key 0 (by omega)
  rw [Nat.cast_zero, zero_add] at this
  exact this

/-- Subtracting the integer part is exact. -/
theorem float64_sub_nat {x : ℚ} {q : Nat} (hx : IsFloat64 x) (hq : 1 ≤ q) (h1 : q ≤ x) (h2 : x ≤ q + 1) :
    rnd (q - x) = q - x := by
  apply hr.fix
  rw [← neg_sub]
  apply float64_neg
  obtain ⟨m, e, hm, he, rfl⟩ := hx
  rcases le_or_gt 0 e with h | h
  · obtain ⟨j, rfl⟩ := Int.eq_ofNat_of_zero_le h
    rw [zpow_natCast] at h1 h2 ⊢
    refine float64_of_int (m * 2 ^ j - q) ?_ (by push_cast; ring)
    have h3 : (q : ℤ) ≤ m * 2 ^ j := by exact_mod_cast h1
    have h4 : m * 2 ^ j ≤ q + 1 := by exact_mod_cast h2
    rw [abs_of_nonneg (by omega)]
    omega
  · obtain ⟨j, hj⟩ := Int.eq_ofNat_of_zero_le (neg_nonneg.mpr h.le)
    obtain rfl : e = -j := by omega
    have hp : (0 : ℚ) < 2 ^ j := by positivity
    rw [zpow_neg, zpow_natCast, ← div_eq_mul_inv] at h1 h2 ⊢
    have hq' : (1 : ℚ) ≤ q := by exact_mod_cast hq
    refine float64_of_div (m - q * 2 ^ j) j (by omega) ?_ (by push_cast; rw [sub_mul, div_mul_cancel₀ _ hp.ne'])
    rw [le_div_iff₀ hp] at h1
    have h3 : (q : ℤ) * 2 ^ j ≤ m := by exact_mod_cast h1
    have h4 : (0 : ℤ) ≤ q * 2 ^ j := by positivity
    rw [abs_of_nonneg (by omega)]
    have := abs_of_nonneg (h4.trans h3)
    omega

/-- The next worker gets as many tasks as without rounding. -/
theorem step_eq (r k : Nat) (hr1 : 1 ≤ r) (hrb : r < 2 ^ 52) (hk : k + 1 ≤ 2 ^ 52) :
    argmin (distances rnd r (rnd (r / ((k + 1 : Nat) : ℚ)))) = argmin (distances id r (r / ((k + 1 : Nat) : ℚ))) := by
  set x : ℚ := r / ((k + 1 : Nat) : ℚ) with hx
  have hk0 : (0 : ℚ) < ((k + 1 : Nat) : ℚ) := by exact_mod_cast Nat.succ_pos k
  obtain ⟨q, hq⟩ : ∃ q, q = r / (k + 1) := ⟨_, rfl⟩
  have hdm := Nat.div_add_mod r (k + 1)
  have hml := Nat.mod_lt r (Nat.succ_pos k)
  rw [← hq] at hdm
  simp only [Nat.succ_eq_add_one] at hml
  have hqr : q ≤ r := hq ▸ Nat.div_le_self _ _
  have hqx : (q : ℚ) ≤ x := by
    rw [hx, le_div_iff₀ hk0]
    have : q * (k + 1) ≤ r := by rw [mul_comm]; omega
    exact_mod_cast this
  have hxq : x ≤ q + 1 := by
    rw [hx, div_le_iff₀ hk0]
    have : r ≤ (q + 1) * (k + 1) := by
      rw [show (q + 1) * (k + 1) = (k + 1) * q + (k + 1) by ring]
      omega
    exact_mod_cast this
  have f0 : rnd 0 = 0 := hr.fix (float64_of_int 0 (by norm_num) (by simp))
  have f1 : rnd (-1) = -1 := hr.fix (float64_of_int (-1) (by norm_num) (by simp))
  have fh : rnd (1 / 2) = 1 / 2 := hr.fix (float64_of_div 1 1 (by norm_num) (by norm_num) (by norm_num))
  have fh' : rnd (-(1 / 2)) = -(1 / 2) := hr.fix (float64_of_div (-1) 1 (by norm_num) (by norm_num) (by norm_num))
  have fq : IsFloat64 (q : ℚ) := float64_of_int q (by rw [abs_of_nonneg (by omega)]; omega) (by simp)
  have fq1 : IsFloat64 ((q : ℚ) + 1) :=
    float64_of_int (q + 1) (by rw [abs_of_nonneg (by omega)]; omega) (by push_cast; ring)
  have hqx' : (q : ℚ) ≤ rnd x := hr.le_of_le fq hqx
  have hxq' : rnd x ≤ q + 1 := hr.ge_of_le fq1 hxq
  have fqh : IsFloat64 ((q : ℚ) + 1 / 2) := by
    have := IsRounding.half (t := 2 * q + 1) (by omega)
    have e : ((2 * q + 1 : Nat) : ℚ) / 2 = q + 1 / 2 := by push_cast; ring
    rwa [e] at this
  rcases Nat.eq_zero_or_pos q with h0 | h0
  · subst h0
    rw [Nat.cast_zero, zero_add] at hxq hxq'
    rw [argmin_few hr.mono f0 hr1 hxq', argmin_few (f := id) (fun h => h) rfl hr1 hxq]
  rcases le_or_gt x (q + 1 / 2) with h | h
  · rw [argmin_below hr.mono fh fh' f0 f1 h0 hqr hqx' (hr.ge_of_le fqh h),
      argmin_below (f := id) (fun h => h) rfl rfl rfl rfl h0 hqr hqx h]
  · have hlt : q + 1 / 2 < rnd x := by
      have e : ((2 * q + 1 : Nat) : ℚ) / 2 = q + 1 / 2 := by push_cast; ring
      have := hr.half_lt_div (t := 2 * q + 1) (a := r) (b := k + 1) hrb.le hk (by rw [e]; exact h)
      rw [e] at this
      exact this
    have hq1 : q + 1 ≤ r := by
      by_contra hc
      have hqe : q = r := by omega
      have : x ≤ q := by
        rw [hqe, hx]
        exact div_le_self (by positivity) (by exact_mod_cast Nat.succ_le_succ (Nat.zero_le k))
      linarith
    rw [argmin_above hr.mono fh f0 (fun _ => float64_sub_nat hr (hr.mem x) h0 hqx' hxq') hq1 hlt hxq',
      argmin_above (f := id) (fun h => h) rfl rfl (fun _ => rfl) hq1 h hxq]

theorem assignLoopFl_ones (tasks : List α) (k first : Nat) (hn : tasks.length < 2 ^ 52) (hk : k ≤ 2 ^ 52) :
    assignLoopFl rnd tasks (List.replicate tasks.length 1) k first =
      assignLoop tasks (List.replicate tasks.length (1 : ℚ)) k first := by
  induction k generalizing first with
  | zero => rfl
  | succ k ih =>
    rw [assignLoopFl, assignLoop]
    simp only [List.drop_replicate, List.length_replicate]
    by_cases h : tasks.length - first = 0
    · rw [if_neg (not_not.mpr h), if_neg (not_not.mpr h), ih first (by omega)]
    · rw [if_pos h, if_pos h, sumFl_ones hr _ (by omega), cumsumFl_ones hr _ _ (by omega), cumsum_ones, List.sum_replicate,
        nsmul_eq_mul, mul_one, step_eq hr _ _ (by omega) (by omega) hk, ih _ (by omega)]

end

end Modred
