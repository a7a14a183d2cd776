import Verif.Spec.Calls
import Verif.Spec.Spmd
import Verif.Lemmas.Calls
import Mathlib.Data.Nat.Init

/-!
# How often vectors are retrieved and inner products are computed (C75)
-/

namespace Modred

variable {V K : Type*}

/-! ### The calls are those of the programs -/

/-- **C75.** Without the record of the calls, the program is that of
`compute_inner_product_array` up to the sum over the ranks. -/
theorem C75_inner_product_program [Add K] (p tag mx : Nat) (ip : V → V → K) (rows cols : List V) :
    ∃ L, ipProg p tag mx ip rows cols = L ++ allreduceArr p tag ∧
      ∀ st r, (exec (ipLoopsL p mx ip rows cols) st r).1 = exec L (fun r => (st r).1) r := by
  obtain ⟨L, h1, h2⟩ := ipLoopsL_erases p tag mx ip rows cols
  exact ⟨L, h1, exec_fst h2⟩

/-- **C75.** The same for `compute_symm_inner_product_array`. -/
theorem C75_symmetric_program [Add K] (p tag mx : Nat) (ip : V → V → K) (vecs : List V) :
    ∃ L, symmProg p tag mx ip vecs = L ++ allreduceArr p tag ∧
      ∀ st r, (exec (symmLoopsL p mx ip vecs) st r).1 = exec L (fun r => (st r).1) r := by
  obtain ⟨L, h1, h2⟩ := symmLoopsL_erases p tag mx ip vecs
  exact ⟨L, h1, exec_fst h2⟩

/-- **C75.** The same for `lin_combine`. -/
theorem C75_lin_combine_program [Add V] (p mx : Nat) (mul : V → K → V) (basis : List V)
    (numSums : Nat) (coeff : Nat → Nat → K) (st : Nat → Logged (LCState V)) (r : Nat) :
    (exec (lcProgL p mx mul basis numSums coeff) st r).1 =
      exec (lcProg p mx mul basis numSums coeff) (fun r => (st r).1) r :=
  exec_fst (lcProgL_erases p mx mul basis numSums coeff) st r

/-- **C75.** In every interleaving each rank makes the calls `ipCalls`, in this order. -/
theorem C75_inner_product_calls_every_interleaving [Add K] [Zero K] (p mx : Nat) (ip : V → V → K)
    (rows cols : List V) :
    EveryInterleaving p (ipLoopsL p mx ip rows cols)
      (fun r => ((ipInit r, ipBurn) : Logged (IPState V K)))
      fun r s => s.2 = ipCalls p mx ip rows cols r := by
  obtain ⟨L, h1, h2⟩ := ipLoopsL_erases p 0 mx ip rows cols
  have hm := ipProg_matched p 0 mx ip rows cols
  rw [h1] at hm
  refine everyInterleaving_of_matched (erases_matched h2 fun R hR => hm R ?_) fun r _ => rfl
  simp [hR]

/-- **C75.** The same for `compute_symm_inner_product_array`. -/
theorem C75_symmetric_calls_every_interleaving [Add K] [Zero K] (p mx : Nat) (hp : 1 ≤ p)
    (ip : V → V → K) (vecs : List V) :
    EveryInterleaving p (symmLoopsL p mx ip vecs)
      (fun r => ((ipInit r, symmBurn) : Logged (IPState V K)))
      fun r s => s.2 = symmCalls p mx ip vecs r := by
  obtain ⟨L, h1, h2⟩ := symmLoopsL_erases p 0 mx ip vecs
  have hm := symmProg_matched p 0 mx hp ip vecs
  rw [h1] at hm
  refine everyInterleaving_of_matched (erases_matched h2 fun R hR => hm R ?_) fun r _ => rfl
  simp [hR]

/-- **C75.** The same for `lin_combine`. -/
theorem C75_lin_combine_calls_every_interleaving [Add V] (p mx : Nat) (mul : V → K → V)
    (basis : List V) (numSums : Nat) (coeff : Nat → Nat → K) :
    EveryInterleaving p (lcProgL p mx mul basis numSums coeff)
      (fun r => ((lcInit r, lcBurn) : Logged (LCState V)))
      fun r s => s.2 = combineCalls p mx mul basis numSums coeff r :=
  everyInterleaving_of_matched (erases_matched (lcProgL_erases p mx mul basis numSums coeff)
    (lcProg_matched p mx mul basis numSums coeff)) fun r _ => rfl

/-! ### Inner product array -/

section
variable [Zero K] (p mx : Nat) (ip : V → V → K) (rows cols : List V)

theorem ip_getRow_total (hp : 1 ≤ p) (hmx : 2 ≤ mx) (i : Nat) :
    total p (ipCalls p mx ip rows cols) (.getRow i) =
      (if i < rows.length then 1 else 0) + if i = 0 then 2 * p else 0 := by
  unfold total
  rw [Finset.sum_congr rfl fun r hr =>
    ipCalls_count p mx hp ip rows cols r (Finset.mem_range.mp hr) (.getRow i)]
  have h1 : ∀ a b is, takeInc (.getRow i) a b is = 0 := fun _ _ _ => rfl
  simp only [count_map_getRow, count_map_getCol, h1, Finset.sum_const_zero, Nat.add_zero]
  rw [Finset.sum_add_distrib, sum_chunks p 0 rows.length (mx - 1) _ hp (by omega) (by omega) (le_refl _)
    i, Finset.sum_const, Finset.card_range, Nat.add_comm]
  congr 1
  · simp
  · by_cases h : i = 0
    · subst h; rw [if_pos rfl, show ipBurn.count (.getRow 0) = 2 from rfl]; simp; omega
    · rw [if_neg h]
      have : ipBurn.count (.getRow i) = 0 := by
        refine List.count_eq_zero_of_not_mem ?_
        simp [ipBurn, h]
      simp [this]

/-- **C75.** Each row vector (after the swap, the rows are the smaller set) is retrieved once, plus
the first one twice by every rank before the loops. -/
theorem C75_row_retrievals (hp : 1 ≤ p) (hmx : 2 ≤ mx) (i : Nat) (hi : i < rows.length) :
    total p (ipCalls p mx ip rows cols) (.getRow i) = 1 + if i = 0 then 2 * p else 0 := by
  rw [ip_getRow_total p mx ip rows cols hp hmx, if_pos hi]

theorem maxLen_pos {p n : Nat} (hp : 1 ≤ p) (hn : 1 ≤ n) : 1 ≤ maxLen (rangeTasks p 0 n) := by
  have h := (rangeTasks_active p 0 n hp).2 0
  have h1 := h.mpr (by omega)
  have h2 := length_le_maxLen (ls := rangeTasks p 0 n) (r := 0)
  omega

theorem ipWarning_announced (hp : 1 ≤ p) (hmx : 2 ≤ mx) {m : Nat} (hm : 1 ≤ m) (n : Nat) :
    announced (ipWarning p mx m n) = ceilDivNat (maxLen (rangeTasks p 0 m)) (mx - 1) := by
  have h1 := div_lt_ceilDivNat (m := maxLen (rangeTasks p 0 m)) (k := 0) (c := mx - 1) (by omega)
    (maxLen_pos hp hm)
  rw [Nat.zero_div] at h1
  unfold ipWarning
  dsimp only
  split
  · rfl
  · simp only [announced]; omega

/-- **C75.** Each column vector is retrieved exactly as often as the warning says (once if there is
no warning), plus the first one once by every rank before the loops. -/
theorem C75_column_retrievals (hp : 1 ≤ p) (hmx : 2 ≤ mx) (hrows : rows ≠ []) (j : Nat)
    (hj : j < cols.length) :
    total p (ipCalls p mx ip rows cols) (.getCol j) =
      announced (ipWarning p mx rows.length cols.length) + if j = 0 then p else 0 := by
  have hm : 1 ≤ rows.length := List.length_pos_iff.mpr hrows
  rw [ipWarning_announced p mx hp hmx hm]
  unfold total
  rw [Finset.sum_congr rfl fun r hr =>
    ipCalls_count p mx hp ip rows cols r (Finset.mem_range.mp hr) (.getCol j)]
  have h1 : ∀ a b is, takeInc (.getCol j) a b is = 0 := fun _ _ _ => rfl
  simp only [count_map_getRow, count_map_getCol, h1, Finset.sum_const_zero, Nat.add_zero,
    Nat.zero_add, Finset.sum_const, Finset.card_range, smul_eq_mul]
  rw [Finset.sum_add_distrib, ← Finset.mul_sum, sum_chunks p 0 cols.length 1 _ hp (by omega) (le_refl _)
    (by simp [ceilDivNat]) j, if_pos ⟨Nat.zero_le _, hj⟩, Finset.sum_const, Finset.card_range,
    Nat.add_comm, Nat.mul_one]
  congr 1
  by_cases h : j = 0
  · subst h; rw [if_pos rfl, show ipBurn.count (.getCol 0) = 1 from rfl]; simp
  · rw [if_neg h]
    have : ipBurn.count (.getCol j) = 0 := by
      refine List.count_eq_zero_of_not_mem ?_
      simp [ipBurn, h]
    simp [this]

/-- **C75.** Each inner product is computed by exactly one rank and once, plus that of the first row
and column twice by every rank before the loops. -/
theorem C75_inner_products (hp : 1 ≤ p) (hmx : 2 ≤ mx) (i j : Nat) (hi : i < rows.length)
    (hj : j < cols.length) :
    total p (ipCalls p mx ip rows cols) (.inner i j) = 1 + if i = 0 ∧ j = 0 then 2 * p else 0 := by
  unfold total
  rw [Finset.sum_congr rfl fun r hr =>
    ipCalls_count p mx hp ip rows cols r (Finset.mem_range.mp hr) (.inner i j)]
  simp only [count_map_getRow, count_map_getCol, Nat.zero_add]
  rw [Finset.sum_add_distrib, Finset.sum_const, Finset.card_range, Nat.add_comm]
  congr 1
  · have h1 := sum_chunks p 0 rows.length (mx - 1) _ hp (by omega) (by omega) (le_refl _) i
    have h2 := sum_chunks p 0 cols.length 1 (maxLen (rangeTasks p 0 cols.length)) hp (by omega)
      (le_refl _) (by simp [ceilDivNat]) j
    rw [if_pos ⟨Nat.zero_le _, hi⟩] at h1
    rw [if_pos ⟨Nat.zero_le _, hj⟩, Finset.sum_comm] at h2
    refine Eq.trans ?_ h1
    refine Finset.sum_congr rfl fun r _ => Finset.sum_congr rfl fun k _ => ?_
    rw [count_between]
    by_cases h : (chunkBounds ((rangeTasks p 0 rows.length).getD r []) k (mx - 1)).1 ≤ i ∧
        i < (chunkBounds ((rangeTasks p 0 rows.length).getD r []) k (mx - 1)).2
    · simp only [takeInc, if_pos h]
      exact h2
    · simp only [takeInc, if_neg h, Finset.sum_const_zero]
  · by_cases h : i = 0 ∧ j = 0
    · rw [h.1, h.2, if_pos ⟨rfl, rfl⟩, show ipBurn.count (.inner 0 0) = 2 from rfl]; simp; omega
    · rw [if_neg h]
      have : ipBurn.count (.inner i j) = 0 := by
        refine List.count_eq_zero_of_not_mem ?_
        simp [ipBurn]; omega
      simp [this]

end

/-- **C75.** A warning is printed exactly if a vector has to be retrieved more than once, and it names
the number of the vectors concerned: columns, basis vectors, vectors. -/
theorem C75_warning_numbers (p mx m n : Nat) :
    (∀ w, ipWarning p mx m n = some w → w.1 = n ∧ 2 ≤ w.2) ∧
      (∀ w, lcWarning p mx n m = some w → w.1 = n ∧ 2 ≤ w.2) ∧
        ∀ w, symmWarning p mx n = some w → w.1 = n ∧ 2 ≤ w.2 := by
  refine ⟨fun w h => ?_, fun w h => ?_, fun w h => ?_⟩
  · unfold ipWarning at h
    dsimp only at h
    split at h
    · cases h; exact ⟨rfl, by omega⟩
    · cases h
  · unfold lcWarning at h
    dsimp only at h
    split at h
    · cases h; exact ⟨rfl, by omega⟩
    · cases h
  · unfold symmWarning at h
    dsimp only at h
    split at h
    · cases h; exact ⟨rfl, by omega⟩
    · cases h

/-- Seven columns are retrieved twice each on two ranks, and five rows once. -/
example : ipWarning 2 3 5 7 = some (7, 2) := by decide +kernel

/-! ### Linear combinations -/

section
variable [Add V] (p mx : Nat) (mul : V → K → V) (basis : List V) (numSums : Nat)
  (coeff : Nat → Nat → K)

/-- **C75.** Each basis vector is retrieved exactly as often as the warning says (once if there is no
warning), plus the first one twice by every rank before the loops. -/
theorem C75_basis_retrievals (hp : 1 ≤ p) (hmx : 2 ≤ mx) (hs : 1 ≤ numSums) (i : Nat)
    (hi : i < basis.length) :
    total p (combineCalls p mx mul basis numSums coeff) (.getBasis i) =
      announced (lcWarning p mx basis.length numSums) + if i = 0 then 2 * p else 0 := by
  have hw : announced (lcWarning p mx basis.length numSums) =
      ceilDivNat (maxLen (rangeTasks p 0 numSums)) (mx - 1) := by
    have h1 := div_lt_ceilDivNat (m := maxLen (rangeTasks p 0 numSums)) (k := 0) (c := mx - 1)
      (by omega) (maxLen_pos hp hs)
    rw [Nat.zero_div] at h1
    unfold lcWarning
    dsimp only
    split
    · rfl
    · simp only [announced]; omega
  rw [hw]
  unfold total
  rw [Finset.sum_congr rfl fun r hr =>
    combineCalls_count p mx hp mul basis numSums coeff r (Finset.mem_range.mp hr) (.getBasis i)]
  have h1 : ∀ a b is, lcInc (.getBasis i) a b is = 0 := fun _ _ _ => rfl
  simp only [count_map_getBasis, h1, Finset.sum_const_zero, Nat.add_zero, Finset.sum_const,
    Finset.card_range, smul_eq_mul]
  rw [Finset.sum_add_distrib, ← Finset.mul_sum, sum_chunks p 0 basis.length 1 _ hp (by omega)
    (le_refl _) (by simp [ceilDivNat]) i, if_pos ⟨Nat.zero_le _, hi⟩, Finset.sum_const,
    Finset.card_range, Nat.add_comm, Nat.mul_one]
  congr 1
  by_cases h : i = 0
  · subst h; rw [if_pos rfl, show lcBurn.count (.getBasis 0) = 2 from rfl]; simp; omega
  · rw [if_neg h]
    have : lcBurn.count (.getBasis i) = 0 := by
      refine List.count_eq_zero_of_not_mem ?_
      simp [lcBurn, h]
    simp [this]

/-- **C75.** Each basis vector is multiplied by its coefficient for each sum by exactly one rank and
once. -/
theorem C75_scalings (hp : 1 ≤ p) (hmx : 2 ≤ mx) (i j : Nat) (hi : i < basis.length)
    (hj : j < numSums) :
    total p (combineCalls p mx mul basis numSums coeff) (.scale i j) = 1 := by
  unfold total
  rw [Finset.sum_congr rfl fun r hr =>
    combineCalls_count p mx hp mul basis numSums coeff r (Finset.mem_range.mp hr) (.scale i j)]
  have h0 : lcBurn.count (.scale i j) = 0 := by
    refine List.count_eq_zero_of_not_mem ?_
    simp [lcBurn]
  simp only [count_map_getBasis, Nat.zero_add, h0]
  have h1 := sum_chunks p 0 numSums (mx - 1) _ hp (by omega) (by omega) (le_refl _) j
  have h2 := sum_chunks p 0 basis.length 1 (maxLen (rangeTasks p 0 basis.length)) hp (by omega)
    (le_refl _) (by simp [ceilDivNat]) i
  rw [if_pos ⟨Nat.zero_le _, hj⟩] at h1
  rw [if_pos ⟨Nat.zero_le _, hi⟩, Finset.sum_comm] at h2
  refine Eq.trans ?_ h1
  refine Finset.sum_congr rfl fun r _ => Finset.sum_congr rfl fun k _ => ?_
  rw [count_between]
  by_cases h : (chunkBounds ((rangeTasks p 0 numSums).getD r []) k (mx - 1)).1 ≤ j ∧
      j < (chunkBounds ((rangeTasks p 0 numSums).getD r []) k (mx - 1)).2
  · simp only [lcInc, if_pos h]
    exact h2
  · simp only [lcInc, if_neg h, Finset.sum_const_zero]

end

example : lcWarning 1 3 4 5 = some (4, 3) := by decide +kernel

/-! ### Symmetric inner products -/

section
variable [Zero K] (p mx : Nat) (ip : V → V → K) (vecs : List V)

/-- **C75.** Vector `j` is retrieved once as a row and once as a column for every chunk of
`(max_vecs_per_proc - 1) * num_procs` rows before its own, plus the first one twice by every rank
before the loops. -/
theorem C75_symmetric_retrievals (hp : 1 ≤ p) (hmx : 2 ≤ mx) (j : Nat) (hj : j < vecs.length) :
    total p (symmCalls p mx ip vecs) (.getRow j) + total p (symmCalls p mx ip vecs) (.getCol j) =
      1 + j / ((mx - 1) * p) + if j = 0 then 2 * p else 0 := by
  have h := symm_get_total p mx hp hmx ip vecs j hj
  unfold total
  rw [h.1, h.2]
  omega

/-- **C75, partial.** The number in the warning is an upper bound, and right for the vectors of the
last chunk.  For the other vectors it is wrong (`C75_symmetric_warning_violation`). -/
theorem C75_symmetric_warning_partial (hp : 1 ≤ p) (hmx : 2 ≤ mx) (j : Nat) (hj : j < vecs.length) :
    total p (symmCalls p mx ip vecs) (.getRow j) + total p (symmCalls p mx ip vecs) (.getCol j) ≤
        announced (symmWarning p mx vecs.length) + (if j = 0 then 2 * p else 0) ∧
      (j / ((mx - 1) * p) = (vecs.length - 1) / ((mx - 1) * p) →
        total p (symmCalls p mx ip vecs) (.getRow j) +
          total p (symmCalls p mx ip vecs) (.getCol j) =
        announced (symmWarning p mx vecs.length) + if j = 0 then 2 * p else 0) := by
  have hc : 1 ≤ (mx - 1) * p := Nat.mul_pos (by omega) hp
  have h := C75_symmetric_retrievals p mx ip vecs hp hmx j hj
  have h1 : announced (symmWarning p mx vecs.length) = ceilDivNat vecs.length ((mx - 1) * p) := by
    have h2 := div_lt_ceilDivNat (m := vecs.length) (k := 0) (c := (mx - 1) * p) hc (by omega)
    rw [Nat.zero_div] at h2
    unfold symmWarning
    dsimp only
    split
    · rfl
    · simp only [announced]; omega
  have h2 := div_lt_ceilDivNat hc hj
  have h3 : ceilDivNat vecs.length ((mx - 1) * p) = (vecs.length - 1) / ((mx - 1) * p) + 1 := by
    unfold ceilDivNat
    rw [← Nat.add_div_right _ hc]
    congr 1
    omega
  rw [h, h1]
  omega

/-- **C75, violated.** The warning of `compute_symm_inner_product_array` says that each of the three
vectors will be retrieved two times; the second one is retrieved once. -/
theorem C75_symmetric_warning_violation (v : V) :
    symmWarning 1 3 3 = some (3, 2) ∧
      total 1 (symmCalls 1 3 ip [v, v, v]) (.getRow 1) +
        total 1 (symmCalls 1 3 ip [v, v, v]) (.getCol 1) = 1 :=
  ⟨rfl, C75_symmetric_retrievals 1 3 ip [v, v, v] (le_refl _) (by omega) 1 (by simp)⟩

/-- Inner products within a chunk, by the ranks `a` and `b` that have the rows. -/
theorem symm_inner_same (hp : 1 ≤ p) (hmx : 2 ≤ mx) : ∃ F : Nat → Nat → Nat,
    (∀ S, S ≤ vecs.length → IsBlocks p S (min vecs.length (S + (mx - 1) * p)) (F S)) ∧
    (∀ i j, i < vecs.length → j < vecs.length → i / ((mx - 1) * p) = j / ((mx - 1) * p) →
      ∀ S A, S = i / ((mx - 1) * p) * ((mx - 1) * p) →
        A = min p (min vecs.length (S + (mx - 1) * p) - S) → ∀ a b, a < A → b < A →
        F S a ≤ i → i < F S (a + 1) → F S b ≤ j → j < F S (b + 1) →
        total p (symmCalls p mx ip vecs) (.inner i j) =
          ((if i ≤ j ∧ a = b then 1 else 0) +
            if (b < a ∧ a - b ≤ A / 2) ∨ (a < b ∧ A - (b - a) ≤ A / 2) then 1 else 0) +
          if i = 0 ∧ j = 0 then 2 * p else 0) ∧
    (∀ i j, i < vecs.length → j < vecs.length → i / ((mx - 1) * p) < j / ((mx - 1) * p) →
      total p (symmCalls p mx ip vecs) (.inner i j) = 1 ∧
        total p (symmCalls p mx ip vecs) (.inner j i) = 0) := by
  have hc : 1 ≤ (mx - 1) * p := Nat.mul_pos (by omega) hp
  obtain ⟨F, hF, htot⟩ := symm_inner_total p mx hp hmx ip vecs
  have hburn : ∀ i j, p * symmBurn.count (.inner i j) = if i = 0 ∧ j = 0 then 2 * p else 0 := by
    intro i j
    by_cases h : i = 0 ∧ j = 0
    · rw [h.1, h.2, if_pos ⟨rfl, rfl⟩, show symmBurn.count (.inner 0 0) = 2 from rfl, Nat.mul_comm]
    · rw [if_neg h]
      have : symmBurn.count (.inner i j) = 0 := by
        refine List.count_eq_zero_of_not_mem ?_
        simp [symmBurn]; omega
      rw [this, Nat.mul_zero]
  refine ⟨F, hF, ?_, ?_⟩
  · intro i j hi hj hij S A hS hA a b ha hb h1 h2 h3 h4
    have hbi := div_mul_bounds hc hi
    have hbj := div_mul_bounds hc hj
    rw [← hij] at hbj
    rw [← hS] at hbi hbj
    have hB := hF S (by omega)
    generalize hE : min vecs.length (S + (mx - 1) * p) = E at *
    unfold total
    rw [htot i j hi S E hS hE.symm a (by omega) h1 h2, hburn, ← hA,
      sum_exchange_count (b := b) hB (by omega) ha hb (by rw [ceil_half (by omega)]; omega) h3 h4,
      ceil_half (by omega), if_neg (show ¬ (E ≤ j ∧ j < vecs.length) by omega), Nat.add_zero,
      Nat.add_comm]
    congr 2
    refine if_congr ⟨fun h => ⟨h.1, ?_⟩, fun h => ⟨h.1, h.2 ▸ h4⟩⟩ rfl rfl
    exact block_unique hB.mono (h1.trans h.1) h.2 h3 h4
  · intro i j hi hj hij
    have hbi := div_mul_bounds hc hi
    have hbj := div_mul_bounds hc hj
    have hmul : (i / ((mx - 1) * p) + 1) * ((mx - 1) * p) ≤
      j / ((mx - 1) * p) * ((mx - 1) * p) := Nat.mul_le_mul_right _ hij
    rw [Nat.succ_mul] at hmul
    constructor
    · have hB := hF (i / ((mx - 1) * p) * ((mx - 1) * p)) (by omega)
      obtain ⟨a, ha, h1, h2⟩ := block_active hp hB hbi.1 hbi.2
      have h3 := hB.mono (show a + 1 ≤ p by omega)
      rw [hB.last] at h3
      unfold total
      rw [htot i j hi _ _ rfl rfl a ha h1 h2, hburn, if_neg (by omega), if_neg (by omega),
        sum_exchange_off hB (by omega) ha (by omega), if_pos (by omega)]
    · have hB := hF (j / ((mx - 1) * p) * ((mx - 1) * p)) (by omega)
      obtain ⟨a, ha, h1, h2⟩ := block_active hp hB hbj.1 hbj.2
      unfold total
      rw [htot j i hj _ _ rfl rfl a ha h1 h2, hburn, if_neg (by omega), if_neg (by omega),
        sum_exchange_off hB (by omega) ha (by omega), if_neg (by omega)]

/-- **C75.** Of two vectors in different chunks, only the entry above the diagonal is computed, by
exactly one rank and once. -/
theorem C75_symmetric_other_chunk (hp : 1 ≤ p) (hmx : 2 ≤ mx) (i j : Nat) (hi : i < vecs.length)
    (hj : j < vecs.length) (hij : i / ((mx - 1) * p) < j / ((mx - 1) * p)) :
    total p (symmCalls p mx ip vecs) (.inner i j) = 1 ∧
      total p (symmCalls p mx ip vecs) (.inner j i) = 0 := by
  obtain ⟨_, _, _, h⟩ := symm_inner_same p mx ip vecs hp hmx
  exact h i j hi hj hij

/-- **C75.** Each diagonal entry is computed by exactly one rank and once, plus the first one twice
by every rank before the loops. -/
theorem C75_symmetric_diagonal (hp : 1 ≤ p) (hmx : 2 ≤ mx) (i : Nat) (hi : i < vecs.length) :
    total p (symmCalls p mx ip vecs) (.inner i i) = 1 + if i = 0 then 2 * p else 0 := by
  have hc : 1 ≤ (mx - 1) * p := Nat.mul_pos (by omega) hp
  obtain ⟨F, hF, h, _⟩ := symm_inner_same p mx ip vecs hp hmx
  have hbi := div_mul_bounds hc hi
  have hB := hF _ (show i / ((mx - 1) * p) * ((mx - 1) * p) ≤ vecs.length by omega)
  obtain ⟨a, ha, h1, h2⟩ := block_active hp hB hbi.1 hbi.2
  rw [h i i hi hi rfl _ _ rfl rfl a a ha ha h1 h2 h1 h2, if_pos ⟨le_refl _, rfl⟩,
    if_neg (by omega)]
  simp only [and_self]

/-- **C75.** No entry off the diagonal is computed twice. -/
theorem C75_symmetric_at_most_once (hp : 1 ≤ p) (hmx : 2 ≤ mx) (i j : Nat) (hi : i < vecs.length)
    (hj : j < vecs.length) (hij : i ≠ j) :
    total p (symmCalls p mx ip vecs) (.inner i j) ≤ 1 := by
  have hc : 1 ≤ (mx - 1) * p := Nat.mul_pos (by omega) hp
  obtain ⟨F, hF, h, h'⟩ := symm_inner_same p mx ip vecs hp hmx
  rcases Nat.lt_trichotomy (i / ((mx - 1) * p)) (j / ((mx - 1) * p)) with hlt | heq | hgt
  · exact (h' i j hi hj hlt).1.le
  · have hbi := div_mul_bounds hc hi
    have hbj := div_mul_bounds hc hj
    rw [← heq] at hbj
    have hB := hF _ (show i / ((mx - 1) * p) * ((mx - 1) * p) ≤ vecs.length by omega)
    obtain ⟨a, ha, h1, h2⟩ := block_active hp hB hbi.1 hbi.2
    obtain ⟨b, hb, h3, h4⟩ := block_active hp hB hbj.1 hbj.2
    rw [h i j hi hj heq _ _ rfl rfl a b ha hb h1 h2 h3 h4,
      if_neg (show ¬ (i = 0 ∧ j = 0) by omega)]
    split <;> split <;> omega
  · exact (h' j i hj hi hgt).2.le.trans (Nat.zero_le _)

/-- **C75.** Of two mirrored entries at least one is computed, and exactly one if the number of ranks
that have rows of the chunk is odd.  With `num_procs = 1` this is the entry above the diagonal. -/
theorem C75_symmetric_mirrored (hp : 1 ≤ p) (hmx : 2 ≤ mx) (i j : Nat) (hi : i < vecs.length)
    (hj : j < vecs.length) (hij : i < j) :
    1 ≤ total p (symmCalls p mx ip vecs) (.inner i j) +
        total p (symmCalls p mx ip vecs) (.inner j i) ∧
      (min p (vecs.length - i / ((mx - 1) * p) * ((mx - 1) * p)) % 2 = 1 →
        total p (symmCalls p mx ip vecs) (.inner i j) +
          total p (symmCalls p mx ip vecs) (.inner j i) = 1) ∧
      (p = 1 → total p (symmCalls p mx ip vecs) (.inner i j) = 1 ∧
        total p (symmCalls p mx ip vecs) (.inner j i) = 0) := by
  have hc : 1 ≤ (mx - 1) * p := Nat.mul_pos (by omega) hp
  obtain ⟨F, hF, h, h'⟩ := symm_inner_same p mx ip vecs hp hmx
  have hle : i / ((mx - 1) * p) ≤ j / ((mx - 1) * p) := Nat.div_le_div_right hij.le
  rcases Nat.lt_or_eq_of_le hle with hlt | heq
  · have h1 := h' i j hi hj hlt
    omega
  · have hbi := div_mul_bounds hc hi
    have hbj := div_mul_bounds hc hj
    rw [← heq] at hbj
    have hB := hF _ (show i / ((mx - 1) * p) * ((mx - 1) * p) ≤ vecs.length by omega)
    obtain ⟨a, ha, h1, h2⟩ := block_active hp hB hbi.1 hbi.2
    obtain ⟨b, hb, h3, h4⟩ := block_active hp hB hbj.1 hbj.2
    have e1 := h i j hi hj heq _ _ rfl rfl a b ha hb h1 h2 h3 h4
    have e2 := h j i hj hi heq.symm _ _ rfl rfl b a (by rw [← heq]; exact hb)
      (by rw [← heq]; exact ha) (by rw [← heq]; exact h3) (by rw [← heq]; exact h4)
      (by rw [← heq]; exact h1) (by rw [← heq]; exact h2)
    rw [← heq] at e2
    have hpc : p ≤ (mx - 1) * p := Nat.le_mul_of_pos_left p (by omega)
    have hmin : min p (min vecs.length (i / ((mx - 1) * p) * ((mx - 1) * p) + (mx - 1) * p) -
        i / ((mx - 1) * p) * ((mx - 1) * p)) =
        min p (vecs.length - i / ((mx - 1) * p) * ((mx - 1) * p)) := by omega
    rw [hmin] at e1 e2 ha hb
    generalize hA : min p (vecs.length - i / ((mx - 1) * p) * ((mx - 1) * p)) = A at *
    have hAp : A ≤ p := by omega
    rw [if_neg (show ¬ (i = 0 ∧ j = 0) by omega), Nat.add_zero] at e1
    rw [if_neg (show ¬ (j = 0 ∧ i = 0) by omega), if_neg (show ¬ (j ≤ i ∧ b = a) by omega),
      Nat.add_zero, Nat.zero_add] at e2
    have hab : a ≤ b := by
      by_contra hlt
      have := hB.mono (show b + 1 ≤ a by omega)
      omega
    rw [e1, e2]
    rcases Nat.lt_or_eq_of_le hab with hlt | rfl
    · rw [if_neg (show ¬ (i ≤ j ∧ a = b) by omega)]
      refine ⟨?_, fun hodd => ?_, fun hp1 => by omega⟩
      · by_cases h5 : b - a ≤ A / 2
        · rw [if_pos (show (a < b ∧ b - a ≤ A / 2) ∨ _ from .inl ⟨hlt, h5⟩)]; omega
        · rw [if_pos (show (b < a ∧ a - b ≤ A / 2) ∨ (a < b ∧ A - (b - a) ≤ A / 2) by omega)]; omega
      · by_cases h5 : b - a ≤ A / 2
        · rw [if_pos (show (a < b ∧ b - a ≤ A / 2) ∨ _ from .inl ⟨hlt, h5⟩), if_neg (by omega)]
        · rw [if_pos (show (b < a ∧ a - b ≤ A / 2) ∨ (a < b ∧ A - (b - a) ≤ A / 2) by omega),
            if_neg (by omega)]
    · rw [if_pos ⟨hij.le, rfl⟩, if_neg (by omega)]
      omega

/-- **C75, violated.** "Efficiency is achieved by only computing the upper-triangular elements": with
two ranks and two vectors, both mirrored entries are computed; with three ranks and three vectors, an
entry below the diagonal is computed in place of the one above. -/
theorem C75_upper_triangle_violation :
    let ip : Unit → Unit → Int := fun _ _ => 1
    (total 2 (symmCalls 2 3 ip [(), ()]) (.inner 0 1) = 1 ∧
      total 2 (symmCalls 2 3 ip [(), ()]) (.inner 1 0) = 1) ∧
    (total 3 (symmCalls 3 3 ip [(), (), ()]) (.inner 0 1) = 0 ∧
      total 3 (symmCalls 3 3 ip [(), (), ()]) (.inner 1 0) = 1) := by
  decide +kernel

end

end Modred
