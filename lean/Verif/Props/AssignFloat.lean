import Verif.Props.Assign
import Verif.Lemmas.WeightsFloat
import Mathlib.Order.Interval.Finset.Basic
import Mathlib.Data.Finset.Max

/-!
# Task assignment and loop counts in double precision (C78)
-/

namespace Modred

variable {α : Type*} {rnd : ℚ → ℚ}

/-- There is such a rounding. -/
theorem exists_rounding : ∃ rnd, IsRounding rnd := by
  have key : ∀ x : ℚ, ∃ y, IsFloat64 y ∧ ∀ z, IsFloat64 z → |y - x| ≤ |z - x| := by
    obtain ⟨N, hN⟩ := float64_iff
    intro x
    have hp : (0 : ℚ) < 2 ^ N := by positivity
    have hgrid : ∀ z, IsFloat64 z → ∃ k : ℤ, z = k / 2 ^ N := by
      intro z hz
      rcases le_total 0 z with h | h
      · obtain ⟨k, hk⟩ := float64_grid hN hz h
        exact ⟨k, by rw [hk]; simp⟩
      · obtain ⟨k, hk⟩ := float64_grid hN (float64_neg hz) (by linarith)
        exact ⟨-k, by push_cast; rw [neg_div, ← hk, neg_neg]⟩
    -- candidates not farther from `x` than zero
    let S : Finset ℤ := (Finset.Icc ⌊(x - |x|) * 2 ^ N⌋ ⌈(x + |x|) * 2 ^ N⌉)
    classical
    let T : Finset ℤ := S.filter fun k => IsFloat64 ((k : ℚ) / 2 ^ N)
    have h0 : (0 : ℤ) ∈ T := by
      simp only [T, S, Finset.mem_filter, Finset.mem_Icc]
      refine ⟨⟨?_, ?_⟩, by simpa using float64_of_int (x := 0) 0 (by norm_num) (by simp)⟩
      · rw [Int.floor_le_iff, Int.cast_zero, zero_add]
        have : (x - |x|) * 2 ^ N ≤ 0 := mul_nonpos_of_nonpos_of_nonneg (by linarith [le_abs_self x]) hp.le
        linarith
      · rw [Int.le_ceil_iff, Int.cast_zero, zero_sub]
        have : 0 ≤ (x + |x|) * 2 ^ N := mul_nonneg (by linarith [neg_abs_le x]) hp.le
        linarith
    obtain ⟨k, hk, hmin⟩ := Finset.exists_min_image T (fun k : ℤ => |(k : ℚ) / 2 ^ N - x|) ⟨0, h0⟩
    refine ⟨k / 2 ^ N, (Finset.mem_filter.mp hk).2, fun z hz => ?_⟩
    obtain ⟨l, rfl⟩ := hgrid z hz
    rcases le_or_gt |(l : ℚ) / 2 ^ N - x| |x| with h | h
    · refine hmin l ?_
      simp only [T, S, Finset.mem_filter, Finset.mem_Icc]
      rw [abs_le] at h
      refine ⟨⟨?_, ?_⟩, hz⟩
      · rw [Int.floor_le_iff]
        have : (x - |x|) * 2 ^ N ≤ l := by rw [← le_div_iff₀ hp]; linarith
        linarith
      · rw [Int.le_ceil_iff]
        have : (l : ℚ) ≤ (x + |x|) * 2 ^ N := by rw [← div_le_iff₀ hp]; linarith
        linarith
    · have := hmin 0 h0
      simp only [Int.cast_zero, zero_div, zero_sub, abs_neg] at this
      exact this.trans h.le
  choose f hf1 hf2 using key
  exact ⟨f, hf1, hf2⟩

/-- **C78.** Without weights, rounding changes nothing: all that is proved about `find_assignments` with exact numbers
holds in double precision, for less than 2^52 tasks. -/
theorem C78_default_weights_exact (hr : IsRounding rnd) (p : Nat) (hp : p ≤ 2 ^ 52) (tasks : List α)
    (hn : tasks.length < 2 ^ 52) :
    findAssignmentsFl rnd p tasks none = findAssignments (K := ℚ) p tasks none :=
  assignLoopFl_ones hr tasks p 0 hn hp

/-- **C78.** In particular nothing is lost and the loads differ by at most one. -/
theorem C78_default_weights_balanced (hr : IsRounding rnd) (p : Nat) (hp1 : 1 ≤ p) (hp : p ≤ 2 ^ 52) (tasks : List α)
    (hn : tasks.length < 2 ^ 52) :
    (findAssignmentsFl rnd p tasks none).length = p ∧ (findAssignmentsFl rnd p tasks none).flatten = tasks ∧
      ∀ a ∈ findAssignmentsFl rnd p tasks none,
        tasks.length / p ≤ a.length ∧ a.length ≤ (tasks.length + (p - 1)) / p := by
  rw [C78_default_weights_exact hr p hp tasks hn]
  have h := C01_default_assignment_partitions_tasks (K := ℚ) p hp1 tasks
  exact ⟨h.1, h.2, C02_default_assignment_balanced p hp1 tasks⟩

/-- **C78.** The loop counts of `vectorspace.py`, which are computed in double precision, are exact. -/
theorem C78_loop_counts (hr : IsRounding rnd) (a b : Nat) (hb : 0 < b) (ha : a ≤ 2 ^ 52) (hb' : b ≤ 2 ^ 52) :
    ceilDivFl rnd a b = (a + b - 1) / b := by
  unfold ceilDivFl
  rw [hr.ceil ha hb', ← ceilDivNat_eq_ceil a b hb]
  rfl

/-- **C78.** So are the limits. -/
theorem C78_limits (hr : IsRounding rnd) (maxVecsPerNode : Option Nat) (procs nodes : Nat) (hp : 3 * procs ≤ 2 ^ 52)
    (hn : nodes ≤ 2 ^ 52) : limitsFl rnd maxVecsPerNode procs nodes = limits maxVecsPerNode procs nodes := by
  unfold limitsFl limits ceilDivFl
  have e : (3 * procs : ℚ) / nodes = ((3 * procs : Nat) : ℚ) / nodes := by push_cast; rfl
  dsimp only
  rw [e, hr.ceil hp hn]
  simp only [hr.nat_lt_div hp hn]

/-- **C78.** With any weights, the assignments are consecutive and in order, one for each worker. -/
theorem C78_weights_prefix (rnd : ℚ → ℚ) (p : Nat) (tasks : List α) (weights : List ℚ) :
    (findAssignmentsFl rnd p tasks (some weights)).length = p ∧
      (findAssignmentsFl rnd p tasks (some weights)).flatten <+: tasks :=
  ⟨assignLoopFl_length _ _ _ _ _, assignLoopFl_prefix _ _ _ _ _⟩

/-- **C78.** Nothing is lost if the last weight is positive and not negligible: at least 2^-52 of the sum of all. -/
theorem C78_weights_complete_partial (hr : IsRounding rnd) (p : Nat) (hp : 1 ≤ p) (tasks : List α) (weights : List ℚ)
    (hlen : weights.length = tasks.length) (hn : tasks.length ≤ 2 ^ 51) (hw : ∀ w ∈ weights, IsFloat64 w ∧ 0 ≤ w)
    (hlast : ∀ h : weights ≠ [], 0 < weights.getLast h ∧ weights.sum ≤ 2 ^ 52 * weights.getLast h) :
    (findAssignmentsFl rnd p tasks (some weights)).flatten = tasks := by
  obtain ⟨k, rfl⟩ : ∃ k, p = k + 1 := ⟨p - 1, by omega⟩
  have := assignLoopFl_complete hr tasks weights hlen hw (by omega) hlast k 0 (Nat.zero_le _)
  rwa [List.drop_zero] at this

/-- The hypotheses can be met: weights 5, 1/4, 7/4, 1/2, 1/2 as in the tests. -/
example : (∃ rnd, IsRounding rnd) ∧ (∀ w ∈ [(5 : ℚ), 1/4, 7/4, 1/2, 1/2], IsFloat64 w ∧ 0 ≤ w) ∧
    (∀ h : [(5 : ℚ), 1/4, 7/4, 1/2, 1/2] ≠ [], 0 < [(5 : ℚ), 1/4, 7/4, 1/2, 1/2].getLast h ∧
      [(5 : ℚ), 1/4, 7/4, 1/2, 1/2].sum ≤ 2 ^ 52 * [(5 : ℚ), 1/4, 7/4, 1/2, 1/2].getLast h) := by
  refine ⟨exists_rounding, ?_, fun h => by norm_num⟩
  simp only [List.mem_cons, List.not_mem_nil, or_false]
  rintro w (rfl | rfl | rfl | rfl | rfl)
  · exact ⟨float64_of_int 5 (by norm_num) (by norm_num), by norm_num⟩
  · exact ⟨float64_of_div 1 2 (by norm_num) (by norm_num) (by norm_num), by norm_num⟩
  · exact ⟨float64_of_div 7 2 (by norm_num) (by norm_num) (by norm_num), by norm_num⟩
  · exact ⟨float64_of_div 1 1 (by norm_num) (by norm_num) (by norm_num), by norm_num⟩
  · exact ⟨float64_of_div 1 1 (by norm_num) (by norm_num) (by norm_num), by norm_num⟩

theorem rnd_absorbs (hr : IsRounding rnd) : rnd (2 ^ 54 + 1) = 2 ^ 54 := by
  have f : IsFloat64 (2 ^ 54) := float64_of_nat_pow 1 54 (by norm_num) (by norm_num)
  have h1 := hr.nearest (2 ^ 54 + 1) _ f
  have h2 : (2 : ℚ) ^ 54 ≤ rnd (2 ^ 54 + 1) := hr.le_of_le f (by norm_num)
  rw [show |(2 : ℚ) ^ 54 - (2 ^ 54 + 1)| = 1 by norm_num, abs_le] at h1
  obtain ⟨m, e, hm, he, h⟩ := hr.mem (2 ^ 54 + 1)
  rw [h] at h1 h2 ⊢
  have hm' := abs_le.mp hm
  have he2 : 2 ≤ e ∨ e ≤ 1 := by omega
  rcases he2 with he2 | he2
  · obtain ⟨j, hj⟩ := Int.eq_ofNat_of_zero_le (show 0 ≤ e - 2 by omega)
    obtain rfl : e = ((j + 2 : Nat) : ℤ) := by push_cast; omega
    rw [zpow_natCast] at h1 h2 ⊢
    have h3 : m * 2 ^ (j + 2) ≤ 2 ^ 54 + 2 := by
      have : (m : ℚ) * 2 ^ (j + 2) ≤ 2 ^ 54 + 2 := by linarith [h1.2]
      exact_mod_cast this
    have h4 : 2 ^ 54 ≤ m * 2 ^ (j + 2) := by exact_mod_cast h2
    have h5 : m * 2 ^ (j + 2) = 4 * (m * 2 ^ j) := by ring
    have h6 : m * 2 ^ (j + 2) = 2 ^ 54 := by omega
    exact_mod_cast h6
  · have h3 : (2 : ℚ) ^ e ≤ 2 ^ (1 : ℤ) := zpow_le_zpow_right₀ (by norm_num) he2
    have h4 : (m : ℚ) ≤ 2 ^ 53 := by exact_mod_cast hm'.2
    have hp : (0 : ℚ) < 2 ^ e := by positivity
    apply le_antisymm _ h2
    rw [zpow_one] at h3
    nlinarith

/-- **C78, violation.** With positive weights a task can be lost: one worker, two tasks with weights 2^54 and 1.  Their sum
is rounded to the first of them, however ties are broken, and the second task is assigned to nobody. -/
theorem C78_small_weight_task_lost_violation (hr : IsRounding rnd) :
    findAssignmentsFl rnd 1 ["a", "b"] (some [2 ^ 54, 1]) = [["a"]] := by
  have f : IsFloat64 (2 ^ 54) := float64_of_nat_pow 1 54 (by norm_num) (by norm_num)
  have f0 : rnd 0 = 0 := hr.fix (float64_of_int 0 (by norm_num) (by simp))
  have e1 : rnd (2 ^ 54) = 2 ^ 54 := hr.fix f
  have e2 := rnd_absorbs hr
  have e3 : argmin [(0 : ℚ), 0] = 0 := by decide +kernel
  unfold findAssignmentsFl
  simp only [assignLoopFl, List.drop_zero, sumFl, List.foldl_cons, List.foldl_nil, zero_add, e1, e2, Nat.cast_one, div_one,
    cumsumFl, cumsumFromFl, List.map_cons, List.map_nil, sub_self, f0, abs_zero, e3]
  rfl

end Modred
