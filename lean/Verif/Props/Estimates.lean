import Verif.Props.Calls
import Verif.Props.VectorSpace
import Mathlib.Algebra.Order.BigOperators.Group.Finset
import Mathlib.Algebra.Order.BigOperators.Ring.Finset
import Mathlib.Tactic.Linarith
import Mathlib.Tactic.Positivity
import Mathlib.Tactic.FieldSimp
import Mathlib.Tactic.NormNum

/-!
# The printed time estimates (C76)
-/

namespace Modred

variable {V K : Type*}

theorem sum_count_le_countP (P : Call → Bool) (S : Finset Call) (h : ∀ e ∈ S, P e = true)
    (l : List Call) : ∑ e ∈ S, l.count e ≤ l.countP P := by
  induction l with
  | nil => simp
  | cons a l ih =>
    simp only [List.count_cons, Finset.sum_add_distrib, List.countP_cons]
    refine Nat.add_le_add ih ?_
    have h1 : ∑ e ∈ S, (if (a == e) = true then 1 else 0) = if a ∈ S then 1 else 0 := by
      simp only [beq_iff_eq]
      rw [Finset.sum_ite_eq]
    rw [h1]
    by_cases ha : a ∈ S
    · rw [if_pos ha, if_pos (h a ha)]
    · rw [if_neg ha]; exact Nat.zero_le _

/-- Some rank makes at least the average number of calls. -/
theorem exists_busy (p : Nat) (hp : 1 ≤ p) (calls : Nat → List Call) (S : Finset Call)
    (hS : ∀ e ∈ S, e.isGet = false) (N : ℚ) (hN : N ≤ ((∑ e ∈ S, total p calls e : ℕ) : ℚ))
    (getTime opTime : ℚ) (hg : 0 ≤ getTime) (ho : 0 ≤ opTime) :
    ∃ r, r < p ∧ N * opTime / p ≤ callTime getTime opTime (calls r) := by
  have h1 : N ≤ ∑ r ∈ Finset.range p, ((calls r).countP (fun e => !e.isGet) : ℚ) := by
    refine hN.trans ?_
    unfold total
    rw [Finset.sum_comm]
    push_cast
    refine Finset.sum_le_sum fun r _ => ?_
    have := sum_count_le_countP (fun e => !e.isGet) S (fun e he => by simp [hS e he]) (calls r)
    exact_mod_cast this
  have hp' : (0 : ℚ) < p := by exact_mod_cast hp
  have h2 : ∑ r ∈ Finset.range p, (N / p : ℚ) ≤
      ∑ r ∈ Finset.range p, ((calls r).countP (fun e => !e.isGet) : ℚ) := by
    rw [Finset.sum_const, Finset.card_range, nsmul_eq_mul, mul_div_cancel₀ _ hp'.ne']
    exact h1
  obtain ⟨r, hr, h3⟩ := Finset.exists_le_of_sum_le ⟨0, Finset.mem_range.mpr hp⟩ h2
  refine ⟨r, Finset.mem_range.mp hr, ?_⟩
  unfold callTime
  have h4 := mul_le_mul_of_nonneg_right h3 ho
  have h5 : (0 : ℚ) ≤ (calls r).countP Call.isGet * getTime := mul_nonneg (Nat.cast_nonneg _) hg
  rw [mul_div_right_comm]
  linarith

/-- The calls `inner i j` with `i < m` and `j < n`. -/
def innerCalls (c : Nat → Nat → Call) (m n : Nat) : Finset Call :=
  ((Finset.range m) ×ˢ (Finset.range n)).image fun ij => c ij.1 ij.2

theorem sum_innerCalls (c : Nat → Nat → Call) (hc : ∀ i j i' j', c i j = c i' j' → i = i' ∧ j = j')
    (m n : Nat) (g : Call → Nat) :
    ∑ e ∈ innerCalls c m n, g e = ∑ i ∈ Finset.range m, ∑ j ∈ Finset.range n, g (c i j) := by
  unfold innerCalls
  rw [Finset.sum_image, Finset.sum_product]
  intro x _ y _ h
  have := hc _ _ _ _ h
  exact Prod.ext this.1 this.2

/-- **C76, partial.** Some rank needs at least the time that `compute_inner_product_array` estimates
for the inner products.  Missing: the time for `get`, which is overestimated
(`C76_inner_product_estimate_violation`). -/
theorem C76_inner_product_estimate_partial [Zero K] (l : Limits) (p nodes : Nat) (hp : 1 ≤ p)
    (hmx : 2 ≤ l.perProc) (ip : V → V → K) (rows cols : List V) (getTime ipTime : ℚ)
    (hg : 0 ≤ getTime) (hi : 0 ≤ ipTime) :
    ∃ r, r < p ∧ ipEstimate l p nodes rows.length cols.length 0 ipTime ≤
      callTime getTime ipTime (ipCalls p l.perProc ip rows cols r) / 60 := by
  obtain ⟨r, hr, h⟩ := exists_busy p hp (ipCalls p l.perProc ip rows cols)
    (innerCalls .inner rows.length cols.length)
    (by
      intro e he
      obtain ⟨ij, _, rfl⟩ := Finset.mem_image.mp he
      rfl)
    (rows.length * cols.length) (by
      rw [sum_innerCalls _ (fun i j i' j' h => by cases h; exact ⟨rfl, rfl⟩)]
      have h1 : ∑ i ∈ Finset.range rows.length, ∑ j ∈ Finset.range cols.length, 1 ≤
          ∑ i ∈ Finset.range rows.length, ∑ j ∈ Finset.range cols.length,
            total p (ipCalls p l.perProc ip rows cols) (.inner i j) := by
        refine Finset.sum_le_sum fun i hi => Finset.sum_le_sum fun j hj => ?_
        rw [C75_inner_products p l.perProc ip rows cols hp hmx i j (Finset.mem_range.mp hi)
          (Finset.mem_range.mp hj)]
        omega
      simp only [Finset.sum_const, Finset.card_range, smul_eq_mul, mul_one] at h1
      exact_mod_cast h1)
    getTime ipTime hg hi
  refine ⟨r, hr, ?_⟩
  unfold ipEstimate
  dsimp only
  rw [mul_zero, add_zero]
  exact div_le_div_of_nonneg_right h (by norm_num)

/-- **C76, partial.** The same for `compute_symm_inner_product_array`. -/
theorem C76_symmetric_estimate_partial [Zero K] (l : Limits) (p nodes : Nat) (hp : 1 ≤ p)
    (hmx : 2 ≤ l.perProc) (ip : V → V → K) (vecs : List V) (getTime ipTime : ℚ)
    (hg : 0 ≤ getTime) (hi : 0 ≤ ipTime) :
    ∃ r, r < p ∧ symmEstimate l p nodes vecs.length 0 ipTime ≤
      callTime getTime ipTime (symmCalls p l.perProc ip vecs r) / 60 := by
  obtain ⟨r, hr, h⟩ := exists_busy p hp (symmCalls p l.perProc ip vecs)
    (innerCalls .inner vecs.length vecs.length)
    (by
      intro e he
      obtain ⟨ij, _, rfl⟩ := Finset.mem_image.mp he
      rfl)
    (vecs.length ^ 2 / 2) (by
      rw [sum_innerCalls _ (fun i j i' j' h => by cases h; exact ⟨rfl, rfl⟩)]
      set g := fun i j => total p (symmCalls p l.perProc ip vecs) (.inner i j) with hgdef
      have h1 : ∑ i ∈ Finset.range vecs.length, ∑ j ∈ Finset.range vecs.length, 1 ≤
          ∑ i ∈ Finset.range vecs.length, ∑ j ∈ Finset.range vecs.length, (g i j + g j i) := by
        refine Finset.sum_le_sum fun i hi => Finset.sum_le_sum fun j hj => ?_
        rw [Finset.mem_range] at hi hj
        rcases Nat.lt_trichotomy i j with h | h | h
        · exact (C75_symmetric_mirrored p l.perProc ip vecs hp hmx i j hi hj h).1
        · subst h
          have := C75_symmetric_diagonal p l.perProc ip vecs hp hmx i hi
          simp only [hgdef]
          omega
        · have := (C75_symmetric_mirrored p l.perProc ip vecs hp hmx j i hj hi h).1
          simp only [hgdef]
          omega
      simp only [Finset.sum_add_distrib] at h1
      rw [Finset.sum_comm (f := fun i j => g j i)] at h1
      simp only [Finset.sum_const, Finset.card_range, smul_eq_mul, mul_one] at h1
      have h2 : ((vecs.length * vecs.length : ℕ) : ℚ) ≤
          ((∑ i ∈ Finset.range vecs.length, ∑ j ∈ Finset.range vecs.length, g i j +
            ∑ i ∈ Finset.range vecs.length, ∑ j ∈ Finset.range vecs.length, g i j : ℕ) : ℚ) := by
        exact_mod_cast h1
      rw [Nat.cast_add, Nat.cast_mul] at h2
      rw [sq, div_le_iff₀ (by norm_num)]
      linarith)
    getTime ipTime hg hi
  refine ⟨r, hr, ?_⟩
  unfold symmEstimate
  dsimp only
  rw [mul_zero, add_zero]
  refine div_le_div_of_nonneg_right (le_trans (le_of_eq ?_) h) (by norm_num)
  ring

/-- **C76, partial.** The same for the multiplications and additions of `lin_combine`. -/
theorem C76_lin_combine_estimate_partial [Add V] (l : Limits) (p nodes : Nat) (hp : 1 ≤ p)
    (hmx : 2 ≤ l.perProc) (mul : V → K → V) (basis : List V) (numSums : Nat)
    (coeff : Nat → Nat → K) (getTime addScaleTime : ℚ) (hg : 0 ≤ getTime) (hi : 0 ≤ addScaleTime) :
    ∃ r, r < p ∧ lcEstimate l p nodes basis.length numSums 0 addScaleTime ≤
      callTime getTime addScaleTime (combineCalls p l.perProc mul basis numSums coeff r) / 60 := by
  obtain ⟨r, hr, h⟩ := exists_busy p hp (combineCalls p l.perProc mul basis numSums coeff)
    (innerCalls .scale basis.length numSums)
    (by
      intro e he
      obtain ⟨ij, _, rfl⟩ := Finset.mem_image.mp he
      rfl)
    (numSums * basis.length) (by
      rw [sum_innerCalls _ (fun i j i' j' h => by cases h; exact ⟨rfl, rfl⟩)]
      have h1 : ∑ i ∈ Finset.range basis.length, ∑ j ∈ Finset.range numSums, 1 ≤
          ∑ i ∈ Finset.range basis.length, ∑ j ∈ Finset.range numSums,
            total p (combineCalls p l.perProc mul basis numSums coeff) (.scale i j) := by
        refine Finset.sum_le_sum fun i hi => Finset.sum_le_sum fun j hj => ?_
        rw [C75_scalings p l.perProc mul basis numSums coeff hp hmx i j (Finset.mem_range.mp hi)
          (Finset.mem_range.mp hj)]
      simp only [Finset.sum_const, Finset.card_range, smul_eq_mul, mul_one] at h1
      rw [mul_comm]
      exact_mod_cast h1)
    getTime addScaleTime hg hi
  refine ⟨r, hr, ?_⟩
  unfold lcEstimate
  dsimp only
  rw [mul_zero, zero_div, zero_add]
  refine div_le_div_of_nonneg_right (le_trans (le_of_eq ?_) h) (by norm_num)
  ring

/-- The limits of the examples: three vectors in memory, one process. -/
example : limits (some 3) 1 1 = ⟨3, 3⟩ := by decide +kernel

/-- **C76, violated.** On one process with three vectors in memory, four rows and four columns: if a
`get` takes three seconds and an inner product no time, `compute_inner_product_array` announces "at
least" one minute, but its calls take three quarters of a minute. -/
theorem C76_inner_product_estimate_violation :
    let ip : Unit → Unit → Int := fun _ _ => 1
    let vecs := [(), (), (), ()]
    limits (some 3) 1 1 = ⟨3, 3⟩ ∧ ipEstimate ⟨3, 3⟩ 1 1 4 4 3 0 = 1 ∧
      callTime 3 0 (ipCalls 1 3 ip vecs vecs 0) / 60 = 3 / 4 := by
  dsimp only
  refine ⟨by decide +kernel, by norm_num [ipEstimate], ?_⟩
  have h : (ipCalls 1 3 (fun _ _ => (1 : Int)) [(), (), (), ()] [(), (), (), ()] 0).countP
    Call.isGet = 15 := by decide +kernel
  rw [callTime, h]
  norm_num

/-- **C76, violated.** The same for `compute_symm_inner_product_array` with four vectors: half a
minute announced, two fifths needed. -/
theorem C76_symmetric_estimate_violation :
    let ip : Unit → Unit → Int := fun _ _ => 1
    let vecs := [(), (), (), ()]
    symmEstimate ⟨3, 3⟩ 1 1 4 3 0 = 1 / 2 ∧
      callTime 3 0 (symmCalls 1 3 ip vecs 0) / 60 = 2 / 5 := by
  dsimp only
  refine ⟨by norm_num [symmEstimate], ?_⟩
  have h : (symmCalls 1 3 (fun _ _ => (1 : Int)) [(), (), (), ()] 0).countP
    Call.isGet = 8 := by decide +kernel
  rw [callTime, h]
  norm_num

/-- **C76, violated.** The same for `lin_combine` with one basis vector and four sums: a quarter of a
minute announced, a fifth needed. -/
theorem C76_lin_combine_estimate_violation :
    let mul : Int → Int → Int := fun v a => v * a
    lcEstimate ⟨3, 3⟩ 1 1 1 4 3 0 = 1 / 4 ∧
      callTime 3 0 (combineCalls 1 3 mul [1] 4 (fun _ _ => 1) 0) / 60 = 1 / 5 := by
  dsimp only
  refine ⟨by norm_num [lcEstimate], ?_⟩
  have h : (combineCalls 1 3 (fun v a : Int => v * a) [1] 4 (fun _ _ => 1) 0).countP
    Call.isGet = 4 := by decide +kernel
  rw [callTime, h]
  norm_num

end Modred
