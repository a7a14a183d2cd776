import Verif.Lemmas.AssignFloat

/-! Helper lemmas about `find_assignments` with weights in double precision. -/

namespace Modred

variable {α : Type*}

/-- The smallest exponent, kept symbolic so that no power of it is computed. -/
theorem float64_iff : ∃ N : Nat, ∀ x, IsFloat64 x ↔ ∃ m e : ℤ, |m| ≤ 2 ^ 53 ∧ -(N : ℤ) ≤ e ∧ x = m * 2 ^ e :=
  ⟨1074, fun _ => Iff.rfl⟩

section
variable {N : Nat} (hN : ∀ x, IsFloat64 x ↔ ∃ m e : ℤ, |m| ≤ 2 ^ 53 ∧ -(N : ℤ) ≤ e ∧ x = m * 2 ^ e)
include hN

theorem float64_grid {x : ℚ} (h : IsFloat64 x) (hx : 0 ≤ x) : ∃ k : Nat, x = k / 2 ^ N := by
  obtain ⟨m, e, hm, he, rfl⟩ := (hN x).mp h
  have hp : (0 : ℚ) < 2 ^ e := by positivity
  have hm0 : 0 ≤ m := by
    by_contra hc
    have : (m : ℚ) < 0 := by exact_mod_cast not_le.mp hc
    nlinarith
  obtain ⟨a, rfl⟩ := Int.eq_ofNat_of_zero_le hm0
  obtain ⟨j, hj⟩ := Int.eq_ofNat_of_zero_le (show 0 ≤ e + N by omega)
  obtain rfl : e = j - N := by omega
  refine ⟨a * 2 ^ j, ?_⟩
  rw [zpow_sub₀ two_ne_zero, zpow_natCast, zpow_natCast]
  push_cast
  ring

theorem float64_nearby (k : Nat) : ∃ d : Nat, 0 < d ∧ (d = 1 ∨ d * 2 ^ 52 ≤ k) ∧
    IsFloat64 (((k / d * d : Nat) : ℚ) / 2 ^ N) ∧ IsFloat64 ((((k / d + 1) * d : Nat) : ℚ) / 2 ^ N) := by
  have key : ∀ a j : Nat, a ≤ 2 ^ 53 → IsFloat64 (((a * 2 ^ j : Nat) : ℚ) / 2 ^ N) := by
    intro a j ha
    refine (hN _).mpr ⟨a, j - N, by rw [abs_of_nonneg (by omega)]; exact_mod_cast ha, by omega, ?_⟩
    rw [zpow_sub₀ two_ne_zero, zpow_natCast, zpow_natCast]
    push_cast
    ring
  rcases Nat.lt_or_ge k (2 ^ 53) with h | h
  · refine ⟨1, one_pos, .inl rfl, ?_, ?_⟩
    · have := key k 0 h.le
      simpa using this
    · have := key (k + 1) 0 h
      simpa using this
  · have hk : k ≠ 0 := by omega
    have hlog : 52 ≤ Nat.log 2 k := by
      have := Nat.log_mono_right (b := 2) h
      rw [Nat.log_pow (by norm_num)] at this
      omega
    obtain ⟨j, hj⟩ := Nat.exists_eq_add_of_le hlog
    have h1 := Nat.pow_log_le_self 2 hk
    have h2 := Nat.lt_pow_succ_log_self (b := 2) (by norm_num) k
    rw [hj] at h1 h2
    have e1 : 2 ^ (52 + j) = 2 ^ j * 2 ^ 52 := by rw [pow_add, mul_comm]
    have e2 : 2 ^ (52 + j + 1) = 2 ^ 53 * 2 ^ j := by rw [show 52 + j + 1 = 53 + j by omega, pow_add]
    rw [e1] at h1
    rw [e2] at h2
    have h3 : k / 2 ^ j < 2 ^ 53 := Nat.div_lt_of_lt_mul (by rwa [mul_comm] at h2)
    exact ⟨2 ^ j, by positivity, .inr h1, key _ _ h3.le, key _ _ h3⟩

variable {rnd : ℚ → ℚ} (hr : IsRounding rnd)
include hr

theorem IsRounding.le_rel (k : Nat) : rnd (k / 2 ^ N) ≤ k / 2 ^ N * (1 + 1 / 2 ^ 52) := by
  obtain ⟨d, hd, h1, h2, -⟩ := float64_nearby hN k
  have hp : (0 : ℚ) < 2 ^ N := by positivity
  rcases h1 with rfl | h1
  · rw [Nat.div_one, mul_one] at h2
    rw [hr.fix h2]
    have : (0 : ℚ) ≤ k / 2 ^ N := by positivity
    linarith
  · have h3 := hr.nearest (k / 2 ^ N) _ h2
    have h4 : ((k / d * d : Nat) : ℚ) ≤ k := by exact_mod_cast Nat.div_mul_le_self k d
    have h5 : (k : ℚ) ≤ ((k / d * d : Nat) : ℚ) + d := by
      have := Nat.lt_div_mul_add (a := k) hd
      exact_mod_cast this.le
    have h6 : (d : ℚ) * 2 ^ 52 ≤ k := by exact_mod_cast h1
    rw [← sub_div, abs_div (_ - _) (2 ^ N : ℚ), abs_of_pos hp, abs_of_nonpos (a := ((k / d * d : Nat) : ℚ) - k) (by linarith)] at h3
    have h7 : -(((k / d * d : Nat) : ℚ) - k) / 2 ^ N ≤ (k / 2 ^ 52) / 2 ^ N := by
      refine div_le_div_of_nonneg_right ?_ hp.le
      rw [le_div_iff₀ (by norm_num)]
      nlinarith
    have h8 := (le_abs_self _).trans (h3.trans h7)
    have e : (k : ℚ) / 2 ^ N * (1 + 1 / 2 ^ 52) = k / 2 ^ N + k / 2 ^ 52 / 2 ^ N := by ring
    rw [e]
    linarith

theorem IsRounding.not_absorbed {s w : ℚ} (hs : IsFloat64 s) (hw : IsFloat64 w) (hs0 : 0 ≤ s) (hw0 : 0 < w)
    (h : s < 2 ^ 53 * w) : s < rnd (s + w) := by
  have hp : (0 : ℚ) < 2 ^ N := by positivity
  obtain ⟨k, rfl⟩ := float64_grid hN hs hs0
  obtain ⟨l, rfl⟩ := float64_grid hN hw hw0.le
  obtain ⟨d, hd, h1, -, h2⟩ := float64_nearby hN k
  have hl : (1 : ℚ) ≤ l := by
    rw [lt_div_iff₀ hp, zero_mul] at hw0
    have : 0 < l := by exact_mod_cast hw0
    exact_mod_cast this
  have h3 := hr.nearest (k / 2 ^ N + l / 2 ^ N) _ h2
  have h4 : (k : ℚ) < (((k / d + 1) * d : Nat) : ℚ) := by
    have := Nat.lt_div_mul_add (a := k) hd
    rw [Nat.add_mul, one_mul]
    exact_mod_cast this
  have h5 : (((k / d + 1) * d : Nat) : ℚ) ≤ k + d := by
    have := Nat.div_mul_le_self k d
    rw [Nat.add_mul, one_mul]
    exact_mod_cast Nat.add_le_add_right this d
  have hkl : (k : ℚ) < 2 ^ 53 * l := by
    rw [← mul_div_assoc] at h
    exact (div_lt_div_iff_of_pos_right hp).mp h
  have h6 : (d : ℚ) < 2 * l := by
    rcases h1 with rfl | h1
    · push_cast; linarith
    · have : (d : ℚ) * 2 ^ 52 ≤ k := by exact_mod_cast h1
      nlinarith
  by_contra hc
  rw [not_lt] at hc
  rw [← add_div, ← sub_div, abs_div _ (2 ^ N : ℚ), abs_of_pos hp] at h3
  have h7 : |(((k / d + 1) * d : Nat) : ℚ) - (k + l)| < l := by
    rw [abs_lt]
    constructor <;> linarith
  have h8 := h3.trans_lt ((div_lt_div_iff_of_pos_right hp).mpr h7)
  rw [add_div] at h8
  have h9 := neg_abs_le (rnd (k / 2 ^ N + l / 2 ^ N) - (k / 2 ^ N + l / 2 ^ N))
  linarith

/-- A difference of different numbers is not rounded to zero. -/
theorem IsRounding.sub_neg {x y : ℚ} (hx : IsFloat64 x) (hy : IsFloat64 y) (hx0 : 0 ≤ x) (hy0 : 0 ≤ y) (h : x < y) :
    rnd (x - y) < 0 := by
  have hp : (0 : ℚ) < 2 ^ N := by positivity
  obtain ⟨k, rfl⟩ := float64_grid hN hx hx0
  obtain ⟨l, rfl⟩ := float64_grid hN hy hy0
  have hkl : k < l := by exact_mod_cast (div_lt_div_iff_of_pos_right hp).mp h
  have hf : IsFloat64 (-(1 / 2 ^ N)) := by
    apply float64_neg
    refine (hN _).mpr ⟨1, -N, by norm_num, le_rfl, ?_⟩
    rw [zpow_neg, zpow_natCast]
    simp
  have h1 : (k : ℚ) / 2 ^ N - l / 2 ^ N ≤ -(1 / 2 ^ N) := by
    rw [← sub_div, ← neg_div]
    refine div_le_div_of_nonneg_right ?_ hp.le
    have : ((k + 1 : Nat) : ℚ) ≤ l := by exact_mod_cast hkl
    push_cast at this
    linarith
  have h2 := hr.ge_of_le hf h1
  have h3 : (0 : ℚ) < 1 / 2 ^ N := by positivity
  linarith

theorem foldFl_bound (ws : List ℚ) (hws : ∀ w ∈ ws, IsFloat64 w ∧ 0 ≤ w) : ∀ a, IsFloat64 a → 0 ≤ a →
    IsFloat64 (ws.foldl (fun acc w => rnd (acc + w)) a) ∧ a ≤ ws.foldl (fun acc w => rnd (acc + w)) a ∧
      ws.foldl (fun acc w => rnd (acc + w)) a ≤ (a + ws.sum) * (1 + 1 / 2 ^ 52) ^ ws.length := by
  induction ws with
  | nil => intro a ha ha0; exact ⟨ha, le_rfl, by simp⟩
  | cons w ws ih =>
    intro a ha ha0
    obtain ⟨hw, hw0⟩ := hws w (by simp)
    have h0 : a ≤ rnd (a + w) := hr.le_of_le ha (by linarith)
    obtain ⟨h1, h2, h3⟩ := ih (fun w hw => hws w (by simp [hw])) (rnd (a + w)) (hr.mem _) (ha0.trans h0)
    refine ⟨h1, h0.trans h2, h3.trans ?_⟩
    rw [List.sum_cons, List.length_cons, pow_succ' _ ws.length, ← mul_assoc]
    refine mul_le_mul_of_nonneg_right ?_ (by positivity)
    have hs : 0 ≤ ws.sum := List.sum_nonneg fun w hw => (hws w (by simp [hw])).2
    obtain ⟨k, hk⟩ := float64_grid hN ha ha0
    obtain ⟨l, hl⟩ := float64_grid hN hw hw0
    have h4 := hr.le_rel hN (k + l)
    rw [Nat.cast_add, add_div, ← hk, ← hl] at h4
    nlinarith

omit hN hr in
theorem pow_small (n : Nat) (h : n ≤ 2 ^ 51) : ((1 : ℚ) + 1 / 2 ^ 52) ^ n ≤ 2 := by
  have key : ∀ m : Nat, m ≤ 2 ^ 51 → ((1 : ℚ) + 1 / 2 ^ 52) ^ m ≤ 1 + m / 2 ^ 51 := by
    intro m
    induction m with
    | zero => intro _; simp
    | succ m ih =>
      intro hm
      rw [pow_succ]
      have h1 := ih (by omega)
      have h2 : (m : ℚ) ≤ 2 ^ 51 := by exact_mod_cast (show m ≤ 2 ^ 51 by omega)
      push_cast
      nlinarith
  have h2 : (n : ℚ) ≤ 2 ^ 51 := by exact_mod_cast h
  have := key n h
  have h3 : (n : ℚ) / 2 ^ 51 ≤ 1 := by rw [div_le_one (by norm_num)]; exact h2
  linarith

omit hN hr in
theorem cumsumFl_length (ws : List ℚ) : (cumsumFl rnd ws).length = ws.length := by
  have : ∀ (a : ℚ) (ws : List ℚ), (cumsumFromFl rnd a ws).length = ws.length := by
    intro a ws
    induction ws generalizing a with
    | nil => rfl
    | cons w ws ih => simp [cumsumFromFl, ih]
  cases ws with
  | nil => rfl
  | cons w ws => simp [cumsumFl, this]

omit hN in
theorem cumsumFl_getElem (ws : List ℚ) (hws : ∀ w ∈ ws, IsFloat64 w) (i : Nat) (h : i < (cumsumFl rnd ws).length) :
    (cumsumFl rnd ws)[i] = sumFl rnd (ws.take (i + 1)) := by
  have key : ∀ (ws : List ℚ) (a : ℚ) (i : Nat) (h : i < (cumsumFromFl rnd a ws).length),
      (cumsumFromFl rnd a ws)[i] = (ws.take (i + 1)).foldl (fun acc w => rnd (acc + w)) a := by
    intro ws
    induction ws with
    | nil => intro a i h; simp [cumsumFromFl] at h
    | cons w ws ih =>
      intro a i h
      cases i with
      | zero => simp [cumsumFromFl]
      | succ i =>
        rw [List.take_succ_cons, List.foldl_cons]
        exact ih _ i _
  cases ws with
  | nil => simp [cumsumFl] at h
  | cons w ws =>
    have e : rnd (0 + w) = w := by rw [zero_add]; exact hr.fix (hws w (by simp))
    have e2 : cumsumFl rnd (w :: ws) = cumsumFromFl rnd 0 (w :: ws) := by
      rw [cumsumFromFl, e, cumsumFl]
    simp only [e2]
    exact key _ _ _ _

/-- The last worker takes all, if the last weight is not lost by rounding. -/
theorem argmin_last (rest : List ℚ) (hne : rest ≠ []) (hws : ∀ w ∈ rest, IsFloat64 w ∧ 0 ≤ w)
    (hlen : rest.length ≤ 2 ^ 51) (hlast : 0 < rest.getLast hne) (hsum : rest.sum ≤ 2 ^ 52 * rest.getLast hne) :
    argmin ((cumsumFl rnd rest).map fun c => |rnd (c - sumFl rnd rest)|) = rest.length - 1 := by
  have hpos : 0 < rest.length := List.length_pos_iff.mpr hne
  have f0 : IsFloat64 0 := float64_of_int 0 (by norm_num) (by simp)
  have hb : ∀ l : List ℚ, (∀ w ∈ l, w ∈ rest) → IsFloat64 (sumFl rnd l) ∧ 0 ≤ sumFl rnd l := fun l hl => by
    obtain ⟨h1, h2, -⟩ := foldFl_bound hN hr l (fun w hw => hws w (hl w hw)) 0 f0 le_rfl
    exact ⟨h1, h2⟩
  have hself := hb rest fun w h => h
  -- sums grow
  have hmono : ∀ i j, i ≤ j → sumFl rnd (rest.take i) ≤ sumFl rnd (rest.take j) := by
    intro i j hij
    obtain ⟨t, rfl⟩ := Nat.exists_eq_add_of_le hij
    rw [List.take_add]
    unfold sumFl
    rw [List.foldl_append]
    have h1 := hb (rest.take i) fun w h => List.mem_of_mem_take h
    exact (foldFl_bound hN hr _ (fun w hw => hws w (List.mem_of_mem_drop (List.mem_of_mem_take hw))) _ h1.1 h1.2).2.1
  have hlt : sumFl rnd (rest.take (rest.length - 1)) < sumFl rnd rest := by
    rw [← List.dropLast_eq_take]
    have e : sumFl rnd rest = rnd (sumFl rnd rest.dropLast + rest.getLast hne) := by
      conv_lhs => rw [← List.dropLast_append_getLast hne]
      unfold sumFl
      rw [List.foldl_append]
      rfl
    rw [e]
    have hsub : ∀ w ∈ rest.dropLast, w ∈ rest := fun w h => List.dropLast_subset _ h
    have h1 := hb rest.dropLast hsub
    have h2 := hws _ (List.getLast_mem hne)
    refine hr.not_absorbed hN h1.1 h2.1 h1.2 hlast ?_
    obtain ⟨-, -, h3⟩ := foldFl_bound hN hr rest.dropLast (fun w hw => hws w (hsub w hw)) 0 f0 le_rfl
    have hs0 : 0 ≤ rest.dropLast.sum := List.sum_nonneg fun w hw => (hws w (hsub w hw)).2
    have h4 : (0 + rest.dropLast.sum) * (1 + 1 / 2 ^ 52) ^ rest.dropLast.length ≤ rest.dropLast.sum * 2 := by
      rw [zero_add]
      exact mul_le_mul_of_nonneg_left (pow_small _ (by rw [List.length_dropLast]; omega)) hs0
    have h5 : rest.sum = rest.dropLast.sum + rest.getLast hne := by
      conv_lhs => rw [← List.dropLast_append_getLast hne]
      rw [List.sum_append, List.sum_singleton]
    have h6 := h3.trans h4
    change sumFl rnd rest.dropLast ≤ _ at h6
    linarith
  have hws' : ∀ w ∈ rest, IsFloat64 w := fun w h => (hws w h).1
  have hzero : |rnd (sumFl rnd rest - sumFl rnd rest)| = 0 := by rw [sub_self, hr.fix f0, abs_zero]
  have hl : sumFl rnd (rest.take (rest.length - 1 + 1)) = sumFl rnd rest := by
    rw [Nat.sub_add_cancel hpos, List.take_length]
  refine argmin_eq _ _ (by simp [cumsumFl_length]; omega) (fun j hj => ?_) fun j hj => ?_
  · simp only [List.getElem_map, cumsumFl_getElem hr rest hws', hl, hzero]
    exact abs_nonneg _
  · simp only [List.getElem_map, cumsumFl_getElem hr rest hws', hl, hzero]
    rw [abs_pos]
    have h1 := hmono (j + 1) (rest.length - 1) (by omega)
    have h2 := hb (rest.take (j + 1)) fun w h => List.mem_of_mem_take h
    exact (hr.sub_neg hN h2.1 hself.1 h2.2 hself.2 (h1.trans_lt hlt)).ne

end

/-! ### The loop -/

section
variable (rnd : ℚ → ℚ)

theorem assignLoopFl_length (tasks : List α) (weights : List ℚ) (k first : Nat) :
    (assignLoopFl rnd tasks weights k first).length = k := by
  induction k generalizing first with
  | zero => rfl
  | succ k ih =>
    rw [assignLoopFl]
    dsimp only
    split <;> simp [ih]

theorem assignLoopFl_prefix (tasks : List α) (weights : List ℚ) (k first : Nat) :
    (assignLoopFl rnd tasks weights k first).flatten <+: tasks.drop first := by
  induction k generalizing first with
  | zero => simp [assignLoopFl]
  | succ k ih =>
    rw [assignLoopFl]
    dsimp only
    split
    · generalize argmin (K := ℚ) _ = a
      have e1 : a + first + 1 - first = a + 1 := by omega
      have e2 : a + first + 1 = first + (a + 1) := by omega
      rw [e1, e2, List.flatten_cons]
      have := ih (first + (a + 1))
      have h2 : tasks.drop first = (tasks.drop first).take (a + 1) ++ tasks.drop (first + (a + 1)) := by
        rw [← List.drop_drop, List.take_append_drop]
      conv_rhs => rw [h2]
      exact (List.prefix_append_right_inj _).mpr this
    · simpa using ih first

end

theorem assignLoopFl_complete {rnd : ℚ → ℚ} (hr : IsRounding rnd) (tasks : List α) (weights : List ℚ)
    (hlen : weights.length = tasks.length) (hws : ∀ w ∈ weights, IsFloat64 w ∧ 0 ≤ w) (hn : weights.length ≤ 2 ^ 51)
    (hlast : ∀ h : weights ≠ [], 0 < weights.getLast h ∧ weights.sum ≤ 2 ^ 52 * weights.getLast h) (k first : Nat)
    (hf : first ≤ weights.length) :
    (assignLoopFl rnd tasks weights (k + 1) first).flatten = tasks.drop first := by
  obtain ⟨N, hN⟩ := float64_iff
  induction k generalizing first with
  | zero =>
    rw [assignLoopFl]
    dsimp only
    split
    · rename_i hne
      have hne' : weights.drop first ≠ [] := by
        intro h'; simp [h'] at hne
      have hw' : ∀ w ∈ weights.drop first, IsFloat64 w ∧ 0 ≤ w := fun w h => hws w (List.mem_of_mem_drop h)
      have hfl := (foldFl_bound hN hr (weights.drop first) hw' 0
        (float64_of_int 0 (by norm_num) (by simp)) le_rfl).1
      have e : rnd (sumFl rnd (weights.drop first) / ((0 + 1 : Nat) : ℚ)) = sumFl rnd (weights.drop first) := by
        rw [zero_add, Nat.cast_one, div_one]
        exact hr.fix hfl
      have hwne : weights ≠ [] := by rintro rfl; simp at hne'
      have hg : (weights.drop first).getLast hne' = weights.getLast hwne := List.getLast_drop _
      obtain ⟨h1, h2⟩ := hlast hwne
      have hs : (weights.drop first).sum ≤ weights.sum := by
        have h3 := List.sum_take_add_sum_drop weights first
        have h4 : 0 ≤ (weights.take first).sum :=
          List.sum_nonneg fun w hw => (hws w (List.mem_of_mem_take hw)).2
        linarith
      rw [e, argmin_last hN hr _ hne' hw' (by rw [List.length_drop]; omega) (by rw [hg]; exact h1)
        (by rw [hg]; exact hs.trans h2), assignLoopFl, List.flatten_cons, List.flatten_nil, List.append_nil,
        List.take_of_length_le]
      rw [List.length_drop, List.length_drop]
      omega
    · rename_i hne
      simp at hne
      rw [assignLoopFl, List.flatten_cons, List.flatten_nil, List.append_nil, List.drop_eq_nil_of_le (by omega)]
  | succ k ih =>
    rw [assignLoopFl]
    dsimp only
    split
    · rename_i hne
      generalize hl : ((cumsumFl rnd (weights.drop first)).map _) = l
      have hll : l.length = weights.length - first := by
        rw [← hl, List.length_map, cumsumFl_length, List.length_drop]
      have hal : argmin l < l.length := argmin_lt l (by
        intro h0
        rw [h0] at hll
        simp at hll hne
        omega)
      generalize argmin l = a at hal
      have e1 : a + first + 1 - first = a + 1 := by omega
      have e2 : a + first + 1 = first + (a + 1) := by omega
      rw [e1, e2, List.flatten_cons, ih (first + (a + 1)) (by omega), ← List.drop_drop, List.take_append_drop]
    · rw [List.flatten_cons, List.nil_append]
      exact ih first hf

end Modred
