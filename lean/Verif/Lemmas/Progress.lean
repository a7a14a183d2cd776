import Verif.Model.Progress
import Verif.Lemmas.InnerProduct
import Verif.Lemmas.SymmInner
import Mathlib.Data.Finset.Card
import Mathlib.Data.Finset.Sum
import Mathlib.Tactic.Linarith
import Mathlib.Tactic.Positivity
import Mathlib.Tactic.FieldSimp

/-! Helper lemmas about progress messages. -/

namespace Modred

variable {ρ V K σ μ β : Type*}

/-! ### Marked programs -/

/-- If every round keeps `P` and does not go down in `le`, then the states at the checks have `P` and
go up. -/
theorem checks_ascend {p : Nat} (P : Nat → σ → Prop) (le : σ → σ → Prop)
    (trans : ∀ a b c, le a b → le b c → le a c) {rank : Nat} (hrank : rank < p)
    (l : MarkedProg σ μ)
    (h : ∀ m ∈ l, ∀ st : Nat → σ, (∀ r, r < p → P r (st r)) →
      ∀ r, r < p → P r (m.2.step st r) ∧ le (st r) (m.2.step st r)) :
    ∀ st : Nat → σ, (∀ r, r < p → P r (st r)) →
      (∀ s ∈ checks rank l st, P rank s ∧ le (st rank) s) ∧ (checks rank l st).Pairwise le := by
  induction l with
  | nil => intro st _; simp [checks]
  | cons m l ih =>
    intro st hst
    have h1 := h m (by simp) st hst
    obtain ⟨h2, h3⟩ := ih (fun m hm => h m (by simp [hm])) (m.2.step st) fun r hr => (h1 r hr).1
    have h4 := h1 rank hrank
    obtain ⟨mark, R⟩ := m
    cases mark with
    | true =>
      simp only [checks, if_true, List.mem_cons, forall_eq_or_imp, List.pairwise_cons]
      exact ⟨⟨h4, fun s hs => ⟨(h2 s hs).1, trans _ _ _ h4.2 (h2 s hs).2⟩⟩,
        fun s hs => (h2 s hs).2, h3⟩
    | false =>
      simp only [checks, Bool.false_eq_true, if_false]
      exact ⟨fun s hs => ⟨(h2 s hs).1, trans _ _ _ h4.2 (h2 s hs).2⟩, h3⟩

/-! ### What is printed -/

theorem printed_sublist (interval prev : ℚ) (l : List (ρ × ClockReading)) :
    (printed interval prev l).Sublist l := by
  induction l generalizing prev with
  | nil => exact List.Sublist.refl _
  | cons c l ih =>
    rw [printed]
    split
    · exact (ih _).cons_cons _
    · exact (ih _).cons _

theorem printed_fst_sublist (interval prev : ℚ) (reports : List ρ) (clock : Nat → ClockReading) :
    ((printed interval prev (reports.zipIdx.map fun x => (x.1, clock x.2))).map
      Prod.fst).Sublist reports := by
  have h := (printed_sublist interval prev
    (reports.zipIdx.map fun x => (x.1, clock x.2))).map Prod.fst
  rw [List.map_map] at h
  have h2 : (reports.zipIdx.map (Prod.fst ∘ fun x => (x.1, clock x.2))) = reports := by
    have : (Prod.fst ∘ fun x : ρ × Nat => (x.1, clock x.2)) = Prod.fst := rfl
    rw [this, List.zipIdx_map_fst]
  rwa [h2] at h

/-! ### Counting -/

section
variable [Zero K] [DecidableEq K]

/-- No entry that is not zero is lost. -/
def Keeps (s s' : IPState V K) : Prop := ∀ i j, s.arr i j ≠ 0 → s'.arr i j ≠ 0

theorem countNonzero_mono {m n : Nat} {a b : Nat → Nat → K}
    (h : ∀ i j, a i j ≠ 0 → b i j ≠ 0) : countNonzero m n a ≤ countNonzero m n b := by
  refine Finset.card_le_card fun x hx => ?_
  rw [Finset.mem_filter] at hx ⊢
  exact ⟨hx.1, h _ _ hx.2⟩

theorem countNonzero_le {m n lo hi : Nat} {a : Nat → Nat → K}
    (h : ∀ i j, a i j ≠ 0 → lo ≤ i ∧ i < hi) : countNonzero m n a ≤ (hi - lo) * n := by
  have : countNonzero m n a ≤ (Finset.Ico lo hi ×ˢ Finset.range n).card := by
    refine Finset.card_le_card fun x hx => ?_
    rw [Finset.mem_filter, Finset.mem_product] at hx
    rw [Finset.mem_product, Finset.mem_Ico]
    exact ⟨h _ _ hx.2, hx.1.2⟩
  rwa [Finset.card_product, Nat.card_Ico, Finset.card_range] at this

theorem countNonzero_all {m n : Nat} {a : Nat → Nat → K}
    (h : ∀ i j, i < m → j < n → a i j ≠ 0) : countNonzero m n a = m * n := by
  unfold countNonzero
  rw [Finset.filter_true_of_mem, Finset.card_product, Finset.card_range, Finset.card_range]
  intro x hx
  rw [Finset.mem_product, Finset.mem_range, Finset.mem_range] at hx
  exact h _ _ hx.1 hx.2

theorem countTriu_le (n : Nat) (a : Nat → Nat → K) : 2 * countTriu n a ≤ n * (n + 1) := by
  have h1 : countTriu n a ≤ ((Finset.range n).sigma fun j => Finset.range (j + 1)).card := by
    refine Finset.card_le_card_of_injOn (fun x => ⟨x.2, x.1⟩) (fun x hx => ?_) ?_
    · simp only [Finset.coe_filter, Set.mem_ofPred_eq, Finset.mem_product, Finset.mem_range, ne_eq,
        ite_eq_right_iff, Classical.not_imp] at hx
      simp only [Finset.coe_sigma, Set.mem_sigma_iff, Finset.mem_coe, Finset.mem_range]
      omega
    · intro x _ y _ h
      simp only [Sigma.mk.injEq, heq_eq_eq] at h
      exact Prod.ext h.2 h.1
  rw [Finset.card_sigma] at h1
  simp only [Finset.card_range] at h1
  have h2 := Finset.sum_range_id_mul_two (n + 1)
  rw [Finset.sum_range_succ'] at h2
  simp only [Nat.add_sub_cancel, Nat.add_zero] at h2
  rw [Nat.mul_comm n]
  omega

end

/-! ### The loops -/

section
variable [Zero K] {rows cols : List V} {ip : V → V → K} {F : Nat → Nat → K}

/-- Some rows from `lo` to `hi` and some columns are at hand, and the entries of the array are right
or zero. -/
structure Filling (rows cols : List V) (F : Nat → Nat → K) (lo hi : Nat) (s : IPState V K) :
    Prop where
  rowsAt : ∃ a b, b ≤ rows.length ∧ (∀ x, a ≤ x → x < b → lo ≤ x ∧ x < hi) ∧ RowsAt rows a b s
  colsAt : ColsOk cols s.colVecs s.colIndices
  arr : ∃ W : Set (Nat × Nat), (∀ x ∈ W, lo ≤ x.1 ∧ x.1 < hi) ∧ ArrInv F W s

theorem Filling.nonzero {lo hi : Nat} {s : IPState V K} (h : Filling rows cols F lo hi s) (i j : Nat)
    (hij : s.arr i j ≠ 0) : lo ≤ i ∧ i < hi := by
  obtain ⟨W, hW, hA⟩ := h.arr
  refine hW (i, j) ?_
  by_contra h1
  exact hij (hA.off i j h1)

theorem ArrInv.keeps {W N : Set (Nat × Nat)} {s s' : IPState V K} (h : ArrInv F W s)
    (h' : ArrInv F (W ∪ N) s') : Keeps s s' := by
  intro i j hij
  have hW : (i, j) ∈ W := by
    by_contra h1
    exact hij (h.off i j h1)
  rw [h'.on i j (Or.inl hW), ← h.on i j hW]
  exact hij

theorem Filling.start {lo hi : Nat} (r : Nat) : Filling rows cols F lo hi (ipInit r) :=
  ⟨⟨0, 0, Nat.zero_le _, fun x _ h => absurd h (Nat.not_lt_zero x), rfl, rfl, by
      simp [ipInit, pySlice]⟩,
    ⟨rfl, fun k w c h => by simp [ipInit] at h⟩,
    ∅, fun x h => absurd h (Set.notMem_empty _),
    ⟨rfl, fun _ _ h => absurd h (Set.notMem_empty _), fun _ _ _ => rfl⟩⟩

theorem Filling.takeCols {lo hi : Nat} {s : IPState V K} (h : Filling rows cols F lo hi s)
    (hF : ∀ i c v w, rows[i]? = some v → cols[c]? = some w → ip v w = F i c)
    {vs : List V} {is : List Nat} (hc : ColsOk cols vs is) :
    Filling rows cols F lo hi (takeCols rows.length cols.length ip s (.cols vs is)) ∧
      Keeps s (Modred.takeCols rows.length cols.length ip s (.cols vs is)) := by
  obtain ⟨a, b, hb, hab, hR⟩ := h.rowsAt
  obtain ⟨W, hW, hA⟩ := h.arr
  obtain ⟨h1, h2⟩ := takeCols_inv rfl rfl hF hb hc ⟨hR, hA⟩
  have h3 := packCols_takeCols rows.length cols.length ip s vs is
  simp only [packCols, IPMsg.cols.injEq] at h3
  refine ⟨⟨⟨a, b, hb, hab, h1⟩, by rw [h3.1, h3.2]; exact hc, _, ?_, h2⟩, hA.keeps h2⟩
  rintro x (hx | hx)
  · exact hW x hx
  · exact hab x.1 hx.1 hx.2.1

theorem Filling.getRows {lo hi : Nat} {s : IPState V K} (h : Filling rows cols F lo hi s)
    {tasks : List (List Nat)} {index size r : Nat}
    (ht : tasks.getD r [] = List.range' lo (hi - lo)) (hhi : hi ≤ rows.length) :
    Filling rows cols F lo hi (getRows rows tasks index size r s) ∧
      Keeps s (Modred.getRows rows tasks index size r s) := by
  refine ⟨⟨⟨(chunkBounds (tasks.getD r []) index size).1,
    (chunkBounds (tasks.getD r []) index size).2, ?_, ?_, rfl, rfl, rfl⟩, h.colsAt, ?_⟩,
    fun i j hij => hij⟩
  · rw [ht]; exact chunkBounds_le _ _ _ _ _ hhi
  · rw [ht]; exact (chunkBounds_spec lo hi index size).2
  · obtain ⟨W, hW, hA⟩ := h.arr
    exact ⟨W, hW, hA.err, hA.on, hA.off⟩

/-- The rounds of one pass of the column loop. -/
theorem colPass_round_keeps {p : Nat} {lo hi : Nat → Nat}
    (hF : ∀ i c v w, rows[i]? = some v → cols[c]? = some w → ip v w = F i c)
    {own : Nat → IPMsg V K}
    (hown : ∀ q, q < p → ∃ vs is, own q = .cols vs is ∧ ColsOk cols vs is)
    (R : Round (IPState V K) (IPMsg V K)) (hR : R ∈ colPass p rows.length cols.length ip own)
    (st : Nat → IPState V K) (hst : ∀ r, r < p → Filling rows cols F (lo r) (hi r) (st r)) (r : Nat)
    (hr : r < p) :
    Filling rows cols F (lo r) (hi r) (R.step st r) ∧ Keeps (st r) (R.step st r) := by
  rcases List.mem_cons.mp hR with rfl | hR
  · rw [localRound_step]
    obtain ⟨vs, is, h1, h2⟩ := hown r hr
    dsimp only
    rw [h1]
    exact (hst r hr).takeCols hF h2
  · rw [List.eq_of_mem_replicate hR, ringRound_step _ _ _ _ hr]
    exact (hst r hr).takeCols hF (hst _ (Nat.mod_lt _ (by omega))).colsAt

theorem Keeps.trans (a b c : IPState V K) (h : Keeps a b) (h' : Keeps b c) : Keeps a c :=
  fun i j hij => h' i j (h i j hij)

/-- All rounds of `compute_inner_product_array`. -/
theorem ipMarked_keeps {p mx : Nat} (hp : 1 ≤ p)
    (hF : ∀ i c v w, rows[i]? = some v → cols[c]? = some w → ip v w = F i c) {f : Nat → Nat}
    (hfp : f p = rows.length) (hfm : Monotone f)
    (hft : ∀ r, r < p → (rangeTasks p 0 rows.length).getD r [] =
      List.range' (f r) (f (r + 1) - f r)) :
    ∀ m ∈ ipMarked p mx ip rows cols, ∀ st : Nat → IPState V K,
      (∀ r, r < p → Filling rows cols F (f r) (f (r + 1)) (st r)) → ∀ r, r < p →
        Filling rows cols F (f r) (f (r + 1)) (m.2.step st r) ∧ Keeps (st r) (m.2.step st r) := by
  obtain ⟨g, hg0, hgp, hgm, hgt⟩ := rangeTasks_blocks p 0 cols.length hp (by omega)
  intro m hm st hst r hr
  obtain ⟨k, -, hm⟩ := List.mem_flatMap.mp hm
  rcases List.mem_cons.mp hm with rfl | hm
  · rw [localRound_step]
    refine (hst r hr).getRows (hft r hr) ?_
    rw [← hfp]
    exact hfm (by omega)
  · obtain ⟨c, -, hm⟩ := List.mem_flatMap.mp hm
    obtain ⟨R, hR, rfl⟩ := List.mem_map.mp hm
    refine colPass_round_keeps hF (fun q hq => ⟨_, _, rfl, ?_⟩) R hR st hst r hr
    rw [hgt q hq]
    refine colsOk_slice _ _ _ (chunkBounds_le _ _ _ _ _ ?_)
    rw [← hgp]
    exact hgm (by omega)

omit [Zero K] in
theorem ownTriangle_cols (n : Nat) (ip : V → V → K) (vecs : List V) (tasksAll : List (List Nat))
    (r : Nat) (s : IPState V K) :
    (ownTriangle n ip vecs tasksAll r s).colVecs = s.colVecs ∧
      (ownTriangle n ip vecs tasksAll r s).colIndices = s.colIndices := by
  have h : ∀ t : IPState V K, t.frame.2.2.2 = s.frame.2.2.2 →
      t.colVecs = s.colVecs ∧ t.colIndices = s.colIndices := by
    intro t ht
    simpa [IPState.frame] using ht
  apply h
  unfold ownTriangle
  dsimp only
  split
  · split
    · rfl
    · rw [foldl_frame fun s rowIndex => ?_]
      · rfl
      · rw [foldl_frame fun s colIndex => ?_]
        · split
          · exact write_frame ..
          · rfl
        · split
          · exact write_frame ..
          · rfl
  · rfl

/-- All rounds of `compute_symm_inner_product_array` in one process. -/
theorem symmMarked_keeps {vecs : List V} {mx : Nat} (hmx : 2 ≤ mx)
    (hF : ∀ i c v w, vecs[i]? = some v → vecs[c]? = some w → ip v w = F i c) :
    ∀ m ∈ symmMarked mx ip vecs, ∀ st : Nat → IPState V K,
      (∀ r, r < 1 → Filling vecs vecs F 0 vecs.length (st r)) → ∀ r, r < 1 →
        Filling vecs vecs F 0 vecs.length (m.2.step st r) ∧ Keeps (st r) (m.2.step st r) := by
  intro m hm st hst r hr
  obtain ⟨S, hS, hm⟩ := List.mem_flatMap.mp hm
  have hS' := pyRange_le hS (by omega)
  dsimp only at hm
  generalize hE : min vecs.length (S + (mx - 1) * 1) = E at hm
  obtain ⟨f, hf0, hfp, hfm, hft⟩ := rangeTasks_blocks 1 S E (le_refl _) (by omega)
  rcases List.mem_cons.mp hm with rfl | hm
  · rw [localRound_step]
    have h := hst r hr
    have hr0 : r = 0 := by omega
    subst hr0
    obtain ⟨W, hW, hA⟩ := h.arr
    have hfp' : f (0 + 1) = E := hfp
    have hle : f (0 + 1) ≤ vecs.length := by omega
    have h1 := ownTriangle_inv rfl hF _ f 0 hle (hft 0 hr) hA
    have h2 := ownTriangle_rows (n := vecs.length) (ip := ip) (vecs := vecs) _ f 0 (hft 0 hr) (st 0)
    refine ⟨⟨⟨_, _, lohi_le hle, fun x _ hx => ⟨Nat.zero_le _, lt_of_lt_of_le hx (lohi_le hle)⟩,
      h2⟩, ?_, _, ?_, h1⟩, hA.keeps h1⟩
    · have h3 := ownTriangle_cols vecs.length ip vecs (rangeTasks 1 S E) 0 (st 0)
      rw [h3.1, h3.2]
      exact h.colsAt
    · rintro x (hx | hx)
      · exact hW x hx
      · obtain ⟨h3, h4, h5⟩ := hx
        exact ⟨Nat.zero_le _, by omega⟩
  · obtain ⟨C, hC, hm⟩ := List.mem_flatMap.mp hm
    obtain ⟨R, hR, rfl⟩ := List.mem_map.mp hm
    have hC' := pyRange_le hC (by omega)
    obtain ⟨g, hg0, hgp, hgm, hgt⟩ :=
      rangeTasks_blocks 1 C (min (C + 1 * 1) vecs.length) (le_refl _) (by omega)
    refine colPass_round_keeps (lo := fun _ => 0) (hi := fun _ => vecs.length) hF (fun q hq => ?_) R hR st
      hst r hr
    have h4 := rectCols_eq (K := K) vecs _ g q (hgt q hq)
    refine ⟨_, _, h4, colsOk_slice _ _ _ (lohi_le ?_)⟩
    have := hgm (show q + 1 ≤ 1 by omega)
    omega

end

end Modred
