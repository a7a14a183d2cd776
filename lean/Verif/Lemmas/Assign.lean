import Verif.Model.Assign
import Mathlib.Algebra.Order.BigOperators.Group.List
import Mathlib.Tactic.Linarith
import Mathlib.Tactic.Ring
import Mathlib.Tactic.FieldSimp
import Mathlib.Tactic.Push
import Mathlib.Data.Nat.Cast.Order.Field

/-! Helper lemmas about the model of `find_assignments`. -/

namespace Modred

variable {α K : Type*}

section
variable [Semiring K]

theorem cumsumFrom_length (a : K) (ws : List K) : (cumsumFrom a ws).length = ws.length := by
  induction ws generalizing a with
  | nil => rfl
  | cons w ws ih => simp [cumsumFrom, ih]

theorem cumsumFrom_getElem (a : K) (ws : List K) (i : Nat) (h : i < (cumsumFrom a ws).length) :
    (cumsumFrom a ws)[i] = a + (ws.take (i + 1)).sum := by
  induction ws generalizing a i with
  | nil => simp [cumsumFrom] at h
  | cons w ws ih =>
    cases i with
    | zero => simp [cumsumFrom]
    | succ i => simp [cumsumFrom, ih, add_assoc]

end

section
variable [LinearOrder K]

theorem exists_min_mem (l : List K) (h : l ≠ []) : ∃ x ∈ l, ∀ y ∈ l, x ≤ y := by
  induction l with
  | nil => exact absurd rfl h
  | cons a l ih =>
    by_cases hl : l = []
    · subst hl; exact ⟨a, by simp, by simp⟩
    · obtain ⟨x, hx, hm⟩ := ih hl
      rcases le_total a x with hax | hxa
      · exact ⟨a, by simp, by
          intro y hy
          rcases List.mem_cons.mp hy with rfl | hy
          · exact le_rfl
          · exact hax.trans (hm y hy)⟩
      · exact ⟨x, by simp [hx], by
          intro y hy
          rcases List.mem_cons.mp hy with rfl | hy
          · exact hxa
          · exact hm y hy⟩

theorem argmin_lt (l : List K) (h : l ≠ []) : argmin l < l.length := by
  unfold argmin
  apply List.findIdx_lt_length_of_exists
  obtain ⟨x, hx, hm⟩ := exists_min_mem l h
  exact ⟨x, hx, by simpa using hm⟩

theorem argmin_le (l : List K) (h : l ≠ []) (i : Nat) (hi : i < l.length) :
    l[argmin l]'(argmin_lt l h) ≤ l[i] := by
  have := List.findIdx_getElem (p := fun x => l.all fun y => decide (x ≤ y)) (w := argmin_lt l h)
  simp only [List.all_eq_true, decide_eq_true_eq] at this
  exact this _ (List.getElem_mem hi)

theorem argmin_first (l : List K) (h : l ≠ []) (i : Nat) (hi : i < argmin l) :
    l[argmin l]'(argmin_lt l h) < l[i]'(hi.trans (argmin_lt l h)) := by
  have hn := List.not_of_lt_findIdx (p := fun x => l.all fun y => decide (x ≤ y)) hi
  simp only [List.all_eq_false, decide_eq_true_eq, not_le] at hn
  obtain ⟨y, hy, hlt⟩ := hn
  obtain ⟨j, hj, rfl⟩ := List.getElem_of_mem hy
  exact (argmin_le l h j hj).trans_lt hlt

end

section
variable [Field K] [LinearOrder K]

/-- Number of tasks the next worker takes. -/
def stepSize (rest : List K) (w : K) : Nat :=
  argmin ((cumsum rest).map fun c => |c - w|) + 1

theorem assignLoop_succ (tasks : List α) (weights : List K) (k first : Nat) :
    assignLoop tasks weights (k + 1) first =
      if (weights.drop first).length ≠ 0 then
        let m := stepSize (weights.drop first) ((weights.drop first).sum / ((k + 1 : Nat) : K))
        (tasks.drop first).take m :: assignLoop tasks weights k (first + m)
      else [] :: assignLoop tasks weights k first := by
  rw [assignLoop]
  simp only [stepSize]
  congr 1
  generalize argmin (K := K) _ = a
  have e1 : a + first + 1 - first = a + 1 := by omega
  have e2 : a + first + 1 = first + (a + 1) := by omega
  rw [e1, e2]

theorem stepSize_pos (rest : List K) (w : K) : 1 ≤ stepSize rest w := by simp [stepSize]

theorem stepSize_le (rest : List K) (w : K) (h : rest ≠ []) : stepSize rest w ≤ rest.length := by
  have hne : ((cumsum rest).map fun c => |c - w|) ≠ [] := by
    intro h'
    have := congrArg List.length h'
    simp [cumsum, cumsumFrom_length] at this
    exact h this
  have := argmin_lt _ hne
  simp only [List.length_map, cumsum, cumsumFrom_length] at this
  simp only [stepSize, cumsum]; omega

theorem stepSize_best (rest : List K) (w : K) (h : rest ≠ []) (j : Nat) (hj : 1 ≤ j)
    (hj' : j ≤ rest.length) :
    |(rest.take (stepSize rest w)).sum - w| ≤ |(rest.take j).sum - w| := by
  have hne : ((cumsum rest).map fun c => |c - w|) ≠ [] := by
    intro h'
    have := congrArg List.length h'
    simp [cumsum, cumsumFrom_length] at this
    exact h this
  have := argmin_le _ hne (j - 1) (by simp [cumsum, cumsumFrom_length]; omega)
  simp only [List.getElem_map, cumsum, cumsumFrom_getElem, zero_add] at this
  rw [Nat.sub_add_cancel hj] at this
  exact this

theorem stepSize_first (rest : List K) (w : K) (h : rest ≠ []) (j : Nat) (hj : 1 ≤ j)
    (hj' : j < stepSize rest w) :
    |(rest.take (stepSize rest w)).sum - w| < |(rest.take j).sum - w| := by
  have hne : ((cumsum rest).map fun c => |c - w|) ≠ [] := by
    intro h'
    have := congrArg List.length h'
    simp [cumsum, cumsumFrom_length] at this
    exact h this
  have := argmin_first _ hne (j - 1) (by unfold stepSize at hj'; omega)
  simp only [List.getElem_map, cumsum, cumsumFrom_getElem, zero_add] at this
  rw [Nat.sub_add_cancel hj] at this
  exact this

theorem assignLoop_length (tasks : List α) (weights : List K) (k first : Nat) :
    (assignLoop tasks weights k first).length = k := by
  induction k generalizing first with
  | zero => simp [assignLoop]
  | succ k ih =>
    rw [assignLoop_succ]
    split <;> simp [ih]

/-- What is assigned is always an initial part of the remaining tasks. -/
theorem assignLoop_prefix (tasks : List α) (weights : List K) (k first : Nat) :
    (assignLoop tasks weights k first).flatten <+: tasks.drop first := by
  induction k generalizing first with
  | zero => simp [assignLoop]
  | succ k ih =>
    rw [assignLoop_succ]
    split
    · simp only [List.flatten_cons]
      have := ih (first + stepSize (weights.drop first)
        ((weights.drop first).sum / ((k + 1 : Nat) : K)))
      set m := stepSize (weights.drop first) ((weights.drop first).sum / ((k + 1 : Nat) : K))
      have h2 : tasks.drop first = (tasks.drop first).take m ++ tasks.drop (first + m) := by
        rw [← List.drop_drop, List.take_append_drop]
      conv_rhs => rw [h2]
      exact (List.prefix_append_right_inj _).mpr this
    · simpa using ih first

end

section
variable [Field K] [LinearOrder K] [IsStrictOrderedRing K]

/-- The last worker takes everything up to the last task of non-zero weight. -/
theorem stepSize_last (rest : List K) (h : rest ≠ []) :
    (rest.take (stepSize rest rest.sum)).sum = rest.sum := by
  have hp : 1 ≤ rest.length := List.length_pos_iff.mpr h
  have := stepSize_best rest rest.sum h rest.length hp le_rfl
  simp only [List.take_length, sub_self, abs_zero] at this
  have h0 := abs_eq_zero.mp (le_antisymm this (abs_nonneg _))
  linarith

theorem sum_drop_eq_zero_of_last (rest : List K) (h : rest ≠ []) :
    (rest.drop (stepSize rest rest.sum)).sum = 0 := by
  have h1 := stepSize_last rest h
  have h2 := List.sum_take_add_sum_drop rest (stepSize rest rest.sum)
  linarith

/-- Tasks of non-negative weight that no worker gets all have weight zero. -/
theorem assignLoop_dropped (tasks : List α) (weights : List K) (hlen : tasks.length = weights.length)
    (hw : ∀ w ∈ weights, 0 ≤ w) (k first : Nat) (hf : first ≤ weights.length) :
    ∀ i (hi : i < weights.length),
      first + (assignLoop tasks weights (k + 1) first).flatten.length ≤ i → weights[i] = 0 := by
  induction k generalizing first with
  | zero =>
    intro i hi hle
    rw [assignLoop_succ] at hle
    split at hle
    · rename_i hne
      have hne' : weights.drop first ≠ [] := by
        intro h'; simp [h'] at hne
      simp only [zero_add, Nat.cast_one, div_one, assignLoop, List.flatten_cons,
        List.flatten_nil, List.append_nil, List.length_take, List.length_drop] at hle
      have hs := sum_drop_eq_zero_of_last _ hne'
      set m := stepSize (weights.drop first) (weights.drop first).sum with hm
      have hml := stepSize_le (weights.drop first) (weights.drop first).sum hne'
      rw [← hm] at hml
      rw [List.drop_drop] at hs
      rw [List.length_drop] at hml
      have hmem : weights[i] ∈ weights.drop (first + m) := by
        rw [List.mem_iff_getElem]
        refine ⟨i - (first + m), by simp; omega, ?_⟩
        rw [List.getElem_drop]
        congr 1; omega
      have hnn : ∀ w ∈ weights.drop (first + m), 0 ≤ w :=
        fun w h => hw w (List.mem_of_mem_drop h)
      have h1 := List.single_le_sum hnn _ hmem
      have h2 := hnn _ hmem
      linarith
    · rename_i hne
      simp at hne
      omega
  | succ k ih =>
    intro i hi hle
    rw [assignLoop_succ] at hle
    split at hle
    · rename_i hne
      have hne' : weights.drop first ≠ [] := by
        intro h'; simp [h'] at hne
      simp only [List.flatten_cons, List.length_append, List.length_take, List.length_drop] at hle
      have hml := stepSize_le (weights.drop first)
        ((weights.drop first).sum / ((k + 1 + 1 : Nat) : K)) hne'
      set m := stepSize (weights.drop first)
        ((weights.drop first).sum / ((k + 1 + 1 : Nat) : K)) with hm
      rw [List.length_drop] at hml
      refine ih (first + m) (by omega) i hi ?_
      omega
    · rename_i hne
      simp at hne
      omega

/-- If the last weight is positive nothing is dropped. -/
theorem assignLoop_complete (tasks : List α) (weights : List K)
    (hlen : tasks.length = weights.length) (hw : ∀ w ∈ weights, 0 ≤ w)
    (hlast : ∀ h : weights ≠ [], 0 < weights.getLast h) (k : Nat) :
    (assignLoop tasks weights (k + 1) 0).flatten = tasks := by
  have hp := assignLoop_prefix tasks weights (k + 1) 0
  rw [List.drop_zero] at hp
  apply hp.eq_of_length
  by_contra hne
  have hle := hp.length_le
  have hlt : (assignLoop tasks weights (k + 1) 0).flatten.length < tasks.length := by omega
  have hwne : weights ≠ [] := by
    intro h; subst h; simp at hlen; subst hlen; simp at hlt
  have := assignLoop_dropped tasks weights hlen hw k 0 (by omega) (weights.length - 1)
    (by have := List.length_pos_iff.mpr hwne; omega) (by omega)
  have h2 := hlast hwne
  rw [List.getLast_eq_getElem] at h2
  linarith

/-! ### Equal weights -/

omit [IsStrictOrderedRing K] in
theorem stepSize_ones (r : Nat) (hr : 1 ≤ r) (w : K) :
    1 ≤ stepSize (List.replicate r (1 : K)) w ∧ stepSize (List.replicate r (1 : K)) w ≤ r ∧
    (∀ j, 1 ≤ j → j ≤ r →
      |((stepSize (List.replicate r (1 : K)) w : Nat) : K) - w| ≤ |(j : K) - w|) := by
  have hne : List.replicate r (1 : K) ≠ [] := by
    intro h; have := congrArg List.length h; simp at this; omega
  have hle := stepSize_le (List.replicate r (1 : K)) w hne
  rw [List.length_replicate] at hle
  refine ⟨stepSize_pos _ _, hle, ?_⟩
  intro j hj hj'
  have := stepSize_best (List.replicate r (1 : K)) w hne j hj (by simpa using hj')
  simpa [List.take_replicate, min_eq_left hle, min_eq_left hj'] using this

/-- The number of equal-weight tasks taken next stays between the bounds `q` and `c`
on the average load, and keeps the average of the rest between them. -/
theorem stepSize_bracket (r k q c : Nat) (hr : 1 ≤ r) (hq : q * (k + 1) ≤ r)
    (hc : r ≤ c * (k + 1)) (hqc : c ≤ q + 1) :
    let m := stepSize (List.replicate r (1 : K)) ((r : K) / ((k + 1 : Nat) : K))
    q ≤ m ∧ m ≤ c ∧ q * k ≤ r - m ∧ r - m ≤ c * k := by
  intro m
  have hk : (0 : K) < ((k + 1 : Nat) : K) := by exact_mod_cast Nat.succ_pos k
  obtain ⟨h1, h2, h3⟩ := stepSize_ones (K := K) r hr ((r : K) / ((k + 1 : Nat) : K))
  change 1 ≤ m at h1
  change m ≤ r at h2
  set x : K := (r : K) / ((k + 1 : Nat) : K) with hx
  change ∀ j, 1 ≤ j → j ≤ r → |(m : K) - x| ≤ |(j : K) - x| at h3
  have hqx : (q : K) ≤ x := by
    rw [hx, le_div_iff₀ hk]; exact_mod_cast hq
  have hxc : x ≤ (c : K) := by
    rw [hx, div_le_iff₀ hk]; exact_mod_cast hc
  have hc1 : 1 ≤ c := by
    rcases Nat.eq_zero_or_pos c with h | h
    · subst h; simp at hc; omega
    · exact h
  have hqr : q ≤ r := le_trans (Nat.le_mul_of_pos_right q (Nat.succ_pos k)) hq
  have hqm : q ≤ m := by
    by_contra hlt
    have hlt : m < q := by omega
    have := h3 q (by omega) hqr
    rw [abs_of_nonpos (by linarith : (q : K) - x ≤ 0)] at this
    have hmx : (m : K) < q := by exact_mod_cast hlt
    rw [abs_of_nonpos (by linarith : (m : K) - x ≤ 0)] at this
    linarith
  have hmc : m ≤ c := by
    by_contra hlt
    have hlt : c < m := by omega
    have := h3 c hc1 (by omega)
    rw [abs_of_nonneg (by linarith : 0 ≤ (c : K) - x)] at this
    have hmx : (c : K) < m := by exact_mod_cast hlt
    rw [abs_of_nonneg (by linarith : 0 ≤ (m : K) - x)] at this
    linarith
  -- if the bound is attained exactly, so is the choice
  have hxe : ∀ t : Nat, 1 ≤ t → r = t * (k + 1) → m = t := by
    intro t ht hrt
    have hxt : x = (t : K) := by
      rw [hx, div_eq_iff hk.ne', hrt]; push_cast; ring
    have := h3 t ht (by rw [hrt]; exact Nat.le_mul_of_pos_right t (Nat.succ_pos k))
    rw [hxt, sub_self, abs_zero] at this
    have h0 := abs_eq_zero.mp (le_antisymm this (abs_nonneg _))
    have : (m : K) = t := by linarith
    exact_mod_cast this
  refine ⟨hqm, hmc, ?_, ?_⟩
  · -- lower bound for the rest
    have e1 : q * (k + 1) = q * k + q := by ring
    rcases Nat.lt_or_ge q m with hlt | hge
    · -- m = q + 1 = c
      have hmq : m = q + 1 := by omega
      rcases Nat.lt_or_ge (q * (k + 1)) r with h | h
      · omega
      · have hre : r = q * (k + 1) := by omega
        have hq1 : 1 ≤ q := by
          rcases Nat.eq_zero_or_pos q with h0 | h0
          · subst h0; simp at hre; omega
          · exact h0
        have := hxe q hq1 hre
        omega
    · omega
  · have e1 : c * (k + 1) = c * k + c := by ring
    rcases Nat.lt_or_ge m c with hlt | hge
    · rcases Nat.lt_or_ge r (c * (k + 1)) with h | h
      · omega
      · have hre : r = c * (k + 1) := by omega
        have := hxe c hc1 hre
        omega
    · omega

theorem assignLoop_ones_balanced (tasks : List α) (q c : Nat) (hqc : c ≤ q + 1) (k first : Nat)
    (hq : q * k ≤ tasks.length - first) (hc : tasks.length - first ≤ c * k) :
    ∀ a ∈ assignLoop tasks (List.replicate tasks.length (1 : K)) k first,
      q ≤ a.length ∧ a.length ≤ c := by
  induction k generalizing first with
  | zero => simp [assignLoop]
  | succ k ih =>
    intro a ha
    rw [assignLoop_succ] at ha
    simp only [List.drop_replicate, List.length_replicate, List.sum_replicate, nsmul_eq_mul,
      mul_one] at ha
    split at ha
    · rename_i hne
      have hb := stepSize_bracket (K := K) (tasks.length - first) k q c (by omega) hq hc hqc
      simp only at hb
      obtain ⟨h1, h2, h3, h4⟩ := hb
      obtain ⟨-, hle, -⟩ := stepSize_ones (K := K) (tasks.length - first) (by omega)
        (((tasks.length - first : Nat) : K) / ((k + 1 : Nat) : K))
      rcases List.mem_cons.mp ha with rfl | ha
      · rw [List.length_take, List.length_drop, min_eq_left hle]
        exact ⟨h1, h2⟩
      · refine ih _ ?_ ?_ a ha <;> rw [← Nat.sub_sub] <;> assumption
    · rename_i hne
      have h0 : tasks.length - first = 0 := by omega
      rw [h0] at hq
      have hq0 : q = 0 := by
        rcases Nat.eq_zero_or_pos q with h | h
        · exact h
        · have := Nat.mul_pos h (Nat.succ_pos k)
          simp only [Nat.succ_eq_add_one] at this; omega
      rcases List.mem_cons.mp ha with rfl | ha
      · simp [hq0]
      · exact ih first (by simp [hq0]) (by omega) a ha

/-- With no more tasks than workers each task goes to its own worker. -/
theorem assignLoop_ones_few (tasks : List α) (k first : Nat) (h : tasks.length - first ≤ k) :
    assignLoop tasks (List.replicate tasks.length (1 : K)) k first =
      (tasks.drop first).map (fun t => [t]) ++
        List.replicate (k - (tasks.length - first)) [] := by
  induction k generalizing first with
  | zero =>
    have : tasks.drop first = [] := List.drop_eq_nil_of_le (by omega)
    simp [assignLoop, this]
  | succ k ih =>
    rw [assignLoop_succ]
    simp only [List.drop_replicate, List.length_replicate, List.sum_replicate, nsmul_eq_mul,
      mul_one]
    split
    · rename_i hne
      have hb := stepSize_bracket (K := K) (tasks.length - first) k 0 1 (by omega) (by simp)
        (by omega) (by omega)
      simp only at hb
      have hp := stepSize_pos (List.replicate (tasks.length - first) (1 : K))
        (((tasks.length - first : Nat) : K) / ((k + 1 : Nat) : K))
      have h1 : stepSize (List.replicate (tasks.length - first) (1 : K))
        (((tasks.length - first : Nat) : K) / ((k + 1 : Nat) : K)) = 1 := by omega
      rw [h1, ih (first + 1) (by omega)]
      have hf : first < tasks.length := by omega
      rw [List.drop_eq_getElem_cons hf]
      simp only [List.take_succ_cons, List.take_zero, List.map_cons, List.cons_append]
      congr 3
      omega
    · rename_i hne
      have hd : tasks.drop first = [] := List.drop_eq_nil_of_le (by omega)
      rw [ih first (by omega), hd]
      have h0 : tasks.length - first = 0 := by omega
      simp [h0, List.replicate_succ]

end

theorem checkForEmptyTasks_eq (as : List (List α)) :
    checkForEmptyTasks as = as.any fun a => a.isEmpty := by
  have key : ∀ (b : Bool) (as : List (List α)),
      as.foldl (fun empty a => if a.length = 0 ∧ empty = false then true else empty) b =
        (b || as.any fun a => a.isEmpty) := by
    intro b as
    induction as generalizing b with
    | nil => simp
    | cons a as ih =>
      simp only [List.foldl_cons, List.any_cons, ih]
      cases b <;> cases a <;> simp
  unfold checkForEmptyTasks
  rw [key, Bool.false_or]

end Modred
