import Verif.Props.Progress

/-!
# C99: progress messages of symmetric inner products with any number of processes
-/

namespace Modred

variable {ρ V K σ μ β : Type*}

/-! ### Watched programs -/

theorem watched_append (rank : Nat) (a b : WatchedProg σ μ) (st : Nat → σ) :
    watched rank (a ++ b) st = watched rank a st ++ watched rank b (exec (a.map Prod.snd) st) := by
  induction a generalizing st with
  | nil => rfl
  | cons x a ih =>
    obtain ⟨w, R⟩ := x
    rw [List.cons_append, watched, watched, ih, List.append_assoc, List.map_cons, exec_cons]

/-- From states with `P` the program leads to states with `Q`, and the states of a rank at the checks
do not go down in `le`. -/
def Rising (p rank : Nat) (le : σ → σ → Prop) (P Q : Nat → σ → Prop) (l : WatchedProg σ μ) : Prop :=
  ∀ st : Nat → σ, (∀ r, r < p → P r (st r)) →
    (∀ r, r < p → Q r (exec (l.map Prod.snd) st r)) ∧ le (st rank) (exec (l.map Prod.snd) st rank) ∧
      (∀ s ∈ watched rank l st, le (st rank) s ∧ le s (exec (l.map Prod.snd) st rank)) ∧
      (watched rank l st).Pairwise le

section
variable {p rank : Nat} {le : σ → σ → Prop} {P Q T : Nat → σ → Prop}

theorem Rising.append (trans : ∀ a b c, le a b → le b c → le a c) {a b : WatchedProg σ μ}
    (ha : Rising p rank le P Q a) (hb : Rising p rank le Q T b) : Rising p rank le P T (a ++ b) := by
  intro st hst
  obtain ⟨h1, h2, h3, h4⟩ := ha st hst
  obtain ⟨k1, k2, k3, k4⟩ := hb _ h1
  rw [List.map_append, exec_append, watched_append]
  refine ⟨k1, trans _ _ _ h2 k2, fun s hs => ?_, ?_⟩
  · rcases List.mem_append.mp hs with hs | hs
    · exact ⟨(h3 s hs).1, trans _ _ _ (h3 s hs).2 k2⟩
    · exact ⟨trans _ _ _ h2 (k3 s hs).1, (k3 s hs).2⟩
  · rw [List.pairwise_append]
    exact ⟨h4, k4, fun s hs s' hs' => trans _ _ _ (h3 s hs).2 (k3 s' hs').1⟩

theorem Rising.nil (refl : ∀ a, le a a) : Rising p rank le P P ([] : WatchedProg σ μ) := by
  intro st hst
  rw [List.map_nil, exec_nil]
  exact ⟨hst, refl _, fun s hs => by simp [watched] at hs, by simp [watched]⟩

theorem Rising.flatMap (refl : ∀ a, le a a) (trans : ∀ a b c, le a b → le b c → le a c)
    (L : List β) {f : β → WatchedProg σ μ} (h : ∀ b ∈ L, Rising p rank le P P (f b)) :
    Rising p rank le P P (L.flatMap f) := by
  induction L with
  | nil => exact Rising.nil refl
  | cons b L ih =>
    rw [List.flatMap_cons]
    exact (h b (by simp)).append trans (ih fun b hb => h b (by simp [hb]))

theorem Rising.map (refl : ∀ a, le a a) (trans : ∀ a b c, le a b → le b c → le a c)
    (L : List β) {f : β → (Nat → (Nat → σ) → List σ) × Round σ μ}
    (h : ∀ b ∈ L, Rising p rank le P P [f b]) : Rising p rank le P P (L.map f) := by
  rw [show L.map f = L.flatMap fun b => [f b] from List.map_eq_flatMap]
  exact Rising.flatMap refl trans L h

theorem Rising.one {w : Nat → (Nat → σ) → List σ} {R : Round σ μ}
    (h : ∀ st : Nat → σ, (∀ r, r < p → P r (st r)) → (∀ r, r < p → Q r (R.step st r)) ∧
      le (st rank) (R.step st rank) ∧ (∀ s ∈ w rank st, le (st rank) s ∧ le s (R.step st rank)) ∧
      (w rank st).Pairwise le) : Rising p rank le P Q [(w, R)] := by
  intro st hst
  rw [List.map_singleton, exec_cons, exec_nil]
  simpa only [watched, List.append_nil] using h st hst

theorem Rising.weaken {l : WatchedProg σ μ} (h : Rising p rank le P Q l)
    (hQ : ∀ r s, Q r s → T r s) : Rising p rank le P T l := by
  intro st hst
  obtain ⟨h1, h2⟩ := h st hst
  exact ⟨fun r hr => hQ r _ (h1 r hr), h2⟩

end

/-! ### The double loop, row by row -/

section
variable [Zero K] {ip : V → V → K} {vecs : List V} {F : Nat → Nat → K}

/-- One row. -/
theorem fillRow_inv (hF : ∀ i c v w, vecs[i]? = some v → vecs[c]? = some w → ip v w = F i c) {a b : Nat}
    (hb : b ≤ vecs.length) {vs : List V} {is : List Nat} (hc : ColsOk vecs vs is) {i : Nat} (hai : a ≤ i)
    (hib : i < b) {W : Set (Nat × Nat)} {s : IPState V K} (hs : s.frame = (pySlice vecs a b, a, b, vs, is))
    (hA : ArrInv F W s) :
    let t := s.colVecs.zipIdx.foldl (fillOne vecs.length vecs.length ip i) s
    t.frame = s.frame ∧ ArrInv F (W ∪ {x | x.1 = i ∧ x.2 ∈ is}) t := by
  have hcv : s.colVecs = vs := by
    have := hs; simp only [IPState.frame, Prod.mk.injEq] at this; exact this.2.2.2.1
  let P : Set (Nat × Nat) → IPState V K → Prop := fun W s =>
    s.frame = (pySlice vecs a b, a, b, vs, is) ∧ ArrInv F W s
  dsimp only
  rw [hcv, hs]
  have := foldl_cover (fillOne vecs.length vecs.length ip i) P
    (fun wk => {x | x.1 = i ∧ is[wk.2]? = some x.2}) vs.zipIdx ?_ W s ⟨hs, hA⟩
  · refine ⟨this.1, ?_⟩
    convert this.2 using 1
    ext x
    simp only [Set.mem_union, Set.mem_ofPred_eq]
    constructor
    · rintro (h | ⟨h, h'⟩)
      · exact Or.inl h
      · right
        obtain ⟨k, hk, hk'⟩ := List.getElem_of_mem h'
        have hkv : k < vs.length := by rw [hc.1]; exact hk
        refine ⟨(vs[k], k), ?_, h, ?_⟩
        · rw [List.mk_mem_zipIdx_iff_getElem?]; exact List.getElem?_eq_getElem hkv
        · rw [List.getElem?_eq_getElem hk, hk']
    · rintro (h | ⟨wk, _, h, h'⟩)
      · exact Or.inl h
      · exact Or.inr ⟨h, List.mem_of_getElem? h'⟩
  · rintro ⟨w, k⟩ hwk W s ⟨hf, hA⟩
    rw [List.mk_mem_zipIdx_iff_getElem?] at hwk
    have hk : k < is.length := by
      rw [← hc.1]
      exact (List.getElem?_eq_some_iff.mp hwk).1
    have hci : is[k]? = some is[k] := List.getElem?_eq_getElem hk
    have hcw := hc.2 k w is[k] hwk hci
    have hcn : is[k] < vecs.length := (List.getElem?_eq_some_iff.mp hcw).1
    have hf' := hf
    simp only [IPState.frame, Prod.mk.injEq] at hf'
    obtain ⟨f1, f2, f3, f4, f5⟩ := hf'
    have him : i < vecs.length := by omega
    have hrow : (pySlice vecs a b)[i - a]? = some (vecs[i]'him) := by
      rw [pySlice_getElem? _ _ _ _ (by omega), show a + (i - a) = i by omega,
        List.getElem?_eq_getElem]
    refine ⟨by rw [fillOne_frame, hf], ?_⟩
    have : fillOne vecs.length vecs.length ip i s (w, k) =
        s.write vecs.length vecs.length i is[k] (ip (vecs[i]'him) w) := by
      unfold fillOne
      rw [f1, f2, f5, hrow, hci]
    rw [this]
    have hset : {x : Nat × Nat | x.1 = i ∧ is[k]? = some x.2} = {(i, is[k])} := by
      ext ⟨x, y⟩
      simp only [Set.mem_ofPred_eq, hci, Option.some.injEq, Set.mem_singleton_iff,
        Prod.mk.injEq]
      constructor
      · rintro ⟨h, h'⟩; exact ⟨h, h'.symm⟩
      · rintro ⟨h, h'⟩; exact ⟨h, h'.symm⟩
    dsimp only
    rw [hset]
    exact hA.write (by omega) hcn (hF i _ _ w (List.getElem?_eq_getElem (by omega)) hcw)

/-- The states after each row do not go down and end with the state after all rows. -/
theorem rowStates_ascend (hF : ∀ i c v w, vecs[i]? = some v → vecs[c]? = some w → ip v w = F i c) {a b : Nat}
    (hb : b ≤ vecs.length) {vs : List V} {is : List Nat} (hc : ColsOk vecs vs is)
    {W : Set (Nat × Nat)} {s : IPState V K} (hs : s.frame = (pySlice vecs a b, a, b, vs, is))
    (hA : ArrInv F W s) :
    (∀ t ∈ rowStates vecs.length vecs.length ip s, Keeps s t ∧ Keeps t (fill vecs.length vecs.length ip s)) ∧
      (rowStates vecs.length vecs.length ip s).Pairwise Keeps := by
  obtain ⟨step, hstep⟩ : ∃ step : IPState V K → Nat → IPState V K, step = fun s rowIndex =>
      s.colVecs.zipIdx.foldl (fillOne vecs.length vecs.length ip rowIndex) s := ⟨_, rfl⟩
  have hrow : ∀ i, a ≤ i → i < b → ∀ W (s : IPState V K), s.frame = (pySlice vecs a b, a, b, vs, is) → ArrInv F W s →
      (step s i).frame = (pySlice vecs a b, a, b, vs, is) ∧ ArrInv F (W ∪ {x | x.1 = i ∧ x.2 ∈ is}) (step s i) := by
    intro i h1 h2 W s hs hA
    have := fillRow_inv hF hb hc h1 h2 hs hA
    rw [hstep]
    exact ⟨this.1.trans hs, this.2⟩
  have hrows : ∀ k j, a ≤ j → j + k ≤ b → ∀ W (s : IPState V K), s.frame = (pySlice vecs a b, a, b, vs, is) → ArrInv F W s →
      ((List.range' j k).foldl step s).frame = (pySlice vecs a b, a, b, vs, is) ∧
        Keeps s ((List.range' j k).foldl step s) ∧ ∃ W', ArrInv F W' ((List.range' j k).foldl step s) := by
    intro k
    induction k with
    | zero => exact fun j _ _ W s hs hA => ⟨hs, fun _ _ h => h, W, hA⟩
    | succ k ih =>
      intro j hj hk W s hs hA
      rw [List.range'_succ, List.foldl_cons]
      obtain ⟨h1, h2⟩ := hrow j hj (by omega) W s hs hA
      obtain ⟨k1, k2, k3⟩ := ih (j + 1) (by omega) (by omega) _ _ h1 h2
      exact ⟨k1, Keeps.trans _ _ _ (hA.keeps h2) k2, k3⟩
  have hs' := hs
  simp only [IPState.frame, Prod.mk.injEq] at hs'
  obtain ⟨f1, f2, f3, f4, f5⟩ := hs'
  have hfill : rowStates vecs.length vecs.length ip s =
      (List.range (b - a)).map fun k => (List.range' a (k + 1)).foldl step s := by
    unfold rowStates
    rw [f2, f3, hstep]
  have later : ∀ k l, k ≤ l → l ≤ b - a →
      Keeps ((List.range' a k).foldl step s) ((List.range' a l).foldl step s) := by
    intro k l hkl hl
    rcases Nat.lt_or_ge b a with hba | hba
    · rw [show k = 0 by omega, show l = 0 by omega]
      exact fun _ _ h => h
    obtain ⟨d, rfl⟩ := Nat.exists_eq_add_of_le hkl
    rw [← List.range'_append_1, List.foldl_append]
    obtain ⟨h1, -, W', h2⟩ := hrows k a (le_refl _) (by omega) W s hs hA
    exact (hrows d (a + k) (by omega) (by omega) W' _ h1 h2).2.1
  have hend : fill vecs.length vecs.length ip s = (List.range' a (b - a)).foldl step s := by
    have hlen : (pySlice vecs a b).length = b - a := pySlice_length _ _ _ (by omega)
    unfold fill
    rw [f1, hlen, f2, f3, hstep]
    split
    · rfl
    · rename_i h
      rw [show b - a = 0 by omega]
      rfl
  rw [hfill, hend]
  refine ⟨fun t ht => ?_, ?_⟩
  · obtain ⟨k, hk, rfl⟩ := List.mem_map.mp ht
    rw [List.mem_range] at hk
    exact ⟨later 0 (k + 1) (by omega) (by omega), later (k + 1) (b - a) (by omega) (le_refl _)⟩
  · rw [List.pairwise_map]
    refine List.Pairwise.imp_of_mem (R := (· < ·)) ?_ List.pairwise_lt_range
    intro x y hx hy hxy
    rw [List.mem_range] at hx hy
    exact later _ _ (by omega) (by omega)

end

/-! ### All rounds -/

section
variable [Zero K] {ip : V → V → K} {vecs : List V} {F : Nat → Nat → K}

/-- Some columns are at hand, and the entries of the array are right or zero. -/
def SymmFilling (vecs : List V) (F : Nat → Nat → K) (s : IPState V K) : Prop :=
  ColsOk vecs s.colVecs s.colIndices ∧ ∃ W, ArrInv F W s

/-- The rank's rows of the chunk are at hand, too. -/
def ChunkFilling (vecs : List V) (F : Nat → Nat → K) (f : Nat → Nat) (r : Nat) (s : IPState V K) : Prop :=
  RowsAt vecs (lohi f r).1 (lohi f r).2 s ∧ SymmFilling vecs F s

theorem ChunkFilling.takeCols (hF : ∀ i c v w, vecs[i]? = some v → vecs[c]? = some w → ip v w = F i c) {f : Nat → Nat} {r : Nat}
    (hle : f (r + 1) ≤ vecs.length) {s : IPState V K} (h : ChunkFilling vecs F f r s) {vs : List V} {is : List Nat}
    (hc : ColsOk vecs vs is) : ChunkFilling vecs F f r (takeCols vecs.length vecs.length ip s (.cols vs is)) ∧
      Keeps s (Modred.takeCols vecs.length vecs.length ip s (.cols vs is)) := by
  obtain ⟨hR, -, W, hA⟩ := h
  obtain ⟨h1, h2⟩ := takeCols_inv rfl rfl hF (lohi_le hle) hc ⟨hR, hA⟩
  have h3 := packCols_takeCols vecs.length vecs.length ip s vs is
  simp only [packCols, IPMsg.cols.injEq] at h3
  exact ⟨⟨h1, by rw [h3.1, h3.2]; exact hc, _, h2⟩, hA.keeps h2⟩

omit [Zero K] in
theorem exchange_step (p n : Nat) (ip : V → V → K) (tasksAll : List (List Nat)) (A : Nat)
    (hact : ∀ r, (tasksAll.getD r []).length > 0 ↔ r < A) (dk : Nat × Nat) (hd : dk.1 + 1 ≤ A) (st : Nat → IPState V K) (r : Nat) :
    (exchangeRound p n ip tasksAll A dk.1 dk.2).received st r =
      if r < A then some (exchMsg tasksAll (fun q => (st q).rowVecs) A r dk) else none := by
  by_cases hqa : r < A
  · have h1 := (hact r).mpr hqa
    have hsrc : (r + (A - (dk.1 + 1))) % A < A := Nat.mod_lt _ (by omega)
    have h2 := (hact _).mpr hsrc
    rw [if_pos hqa]
    simp only [Round.received]
    have hrecv : (exchangeRound p n ip tasksAll A dk.1 dk.2).recv r =
        some ⟨(r + (A - (dk.1 + 1))) % A, (r + (A - (dk.1 + 1))) % A * (p + 1) + r⟩ := by
      dsimp only [exchangeRound]
      rw [if_pos h1, exchange_source _ _ _ hd]
    rw [hrecv]
    simp only [Option.bind_some]
    dsimp only [exchangeRound]
    rw [if_pos h2]
    rfl
  · rw [if_neg hqa]
    simp only [Round.received]
    have hrecv : (exchangeRound p n ip tasksAll A dk.1 dk.2).recv r = none := by
      dsimp only [exchangeRound]
      rw [if_neg (by rw [hact]; exact hqa)]
    rw [hrecv]
    rfl

theorem Keeps.refl (s : IPState V K) : Keeps s s := fun _ _ h => h

/-- The whole loop. -/
theorem symmWatched_rising {p mx : Nat} (hp : 1 ≤ p) (hmx : 2 ≤ mx)
    (hF : ∀ i c v w, vecs[i]? = some v → vecs[c]? = some w → ip v w = F i c) {rank : Nat} (hrank : rank < p) :
    Rising p rank Keeps (fun _ => SymmFilling vecs F) (fun _ => SymmFilling vecs F) (symmWatched p mx ip vecs) := by
  unfold symmWatched
  refine Rising.flatMap Keeps.refl Keeps.trans _ fun S hS => ?_
  have hc : 1 ≤ (mx - 1) * p := Nat.mul_pos (by omega) hp
  have hS' := pyRange_le hS hc
  dsimp only
  generalize hE : min vecs.length (S + (mx - 1) * p) = E
  obtain ⟨f, hf0, hfp, hfm, hft⟩ := rangeTasks_blocks p S E hp (by omega)
  obtain ⟨hA, hact⟩ := rangeTasks_active p S E hp
  have hle : ∀ r, r < p → f (r + 1) ≤ vecs.length := by
    intro r hr
    have := hfm (show r + 1 ≤ p by omega)
    omega
  rw [hA, List.cons_append, ← List.singleton_append]
  refine Rising.weaken (Q := fun r => ChunkFilling vecs F f r) ?_ fun r s h => h.2
  refine Rising.append (Q := fun r => ChunkFilling vecs F f r) Keeps.trans (Rising.one fun st hst => ?_)
    (Rising.append (Q := fun r => ChunkFilling vecs F f r) Keeps.trans
      (Rising.flatMap Keeps.refl Keeps.trans _ fun d hd => Rising.map Keeps.refl Keeps.trans _ fun k hk => Rising.one fun st hst => ?_)
      (Rising.flatMap Keeps.refl Keeps.trans _ fun C hC => Rising.map Keeps.refl Keeps.trans _ fun R hR => Rising.one fun st hst => ?_))
  · -- the rank's own triangle
    have tri : ∀ r, r < p → ChunkFilling vecs F f r (ownTriangle vecs.length ip vecs (rangeTasks p S E) r (st r)) ∧
        Keeps (st r) (ownTriangle vecs.length ip vecs (rangeTasks p S E) r (st r)) := by
      intro r hr
      obtain ⟨hcols, W, hW⟩ := hst r hr
      have h1 := ownTriangle_inv rfl hF _ f r (hle r hr) (hft r hr) hW
      have h2 := ownTriangle_rows (n := vecs.length) (ip := ip) (vecs := vecs) _ f r (hft r hr) (st r)
      have h3 := ownTriangle_cols vecs.length ip vecs (rangeTasks p S E) r (st r)
      exact ⟨⟨h2, by rw [h3.1, h3.2]; exact hcols, _, h1⟩, hW.keeps h1⟩
    simp only [localRound_step]
    exact ⟨fun r hr => (tri r hr).1, (tri rank hrank).2, by simp, List.Pairwise.nil⟩
  · -- exchange of vectors
    rw [List.mem_range] at hd
    have hd1 : d + 1 ≤ min p (E - S) := (numSets_lt hd).1
    have hmsg : ∀ r, r < min p (E - S) → ∃ vs is, exchMsg (K := K) (rangeTasks p S E) (fun q => (st q).rowVecs) (min p (E - S)) r (d, k) =
        .cols vs is ∧ ColsOk vecs vs is := by
      intro r hr
      have hq : (r + (min p (E - S) - (d + 1))) % min p (E - S) < p :=
        lt_of_lt_of_le (Nat.mod_lt _ (by omega)) (Nat.min_le_left _ _)
      refine ⟨_, _, rfl, colsOk_pySlice ?_ _ _⟩
      have hrows := (hst _ hq).1.2.2
      dsimp only at hrows ⊢
      rw [hrows, hft _ hq]
      have hact' := (hact ((r + (min p (E - S) - (d + 1))) % min p (E - S))).mpr (Nat.mod_lt _ (by omega))
      rw [hft _ hq, List.length_range'] at hact'
      unfold lohi
      rw [if_pos (by omega)]
      exact colsOk_slice _ _ _ (hle _ hq)
    have hrec := fun r => exchange_step p vecs.length ip (rangeTasks p S E) (min p (E - S)) hact (d, k) hd1 st r
    dsimp only at hrec
    have hstep : ∀ r, r < p → ChunkFilling vecs F f r ((exchangeRound p vecs.length ip (rangeTasks p S E) (min p (E - S)) d k).step st r) ∧
        Keeps (st r) ((exchangeRound p vecs.length ip (rangeTasks p S E) (min p (E - S)) d k).step st r) := by
      intro r hr
      unfold Round.step
      rw [hrec]
      by_cases hra : r < min p (E - S)
      · rw [if_pos hra]
        obtain ⟨vs, is, h1, h2⟩ := hmsg r hra
        rw [h1]
        exact (hst r hr).takeCols hF (hle r hr) h2
      · rw [if_neg hra]
        exact ⟨hst r hr, Keeps.refl _⟩
    refine ⟨fun r hr => (hstep r hr).1, (hstep rank hrank).2, ?_⟩
    unfold exchangeStates Round.step
    rw [hrec]
    by_cases hra : rank < min p (E - S)
    · rw [if_pos hra]
      obtain ⟨vs, is, h1, h2⟩ := hmsg rank hra
      rw [h1]
      obtain ⟨⟨r1, r2, r3⟩, -, W, hW⟩ := hst rank hrank
      have hfr : ({ st rank with colVecs := vs, colIndices := is } : IPState V K).frame =
          (pySlice vecs (lohi f rank).1 (lohi f rank).2, (lohi f rank).1, (lohi f rank).2, vs, is) := by
        simp [IPState.frame, r1, r2, r3]
      exact rowStates_ascend hF (lohi_le (hle rank hrank)) h2 hfr ⟨hW.err, hW.on, hW.off⟩
    · rw [if_neg hra]
      exact ⟨by simp, List.Pairwise.nil⟩
  · -- the rectangle
    have hC' := pyRange_le hC (by omega)
    obtain ⟨g, hg0, hgp, hgm, hgt⟩ := rangeTasks_blocks p C (min (C + 1 * p) vecs.length) hp (by omega)
    have hstep : ∀ r, r < p → ChunkFilling vecs F f r (R.step st r) ∧ Keeps (st r) (R.step st r) := by
      intro r hr
      rcases List.mem_cons.mp hR with rfl | hR
      · rw [localRound_step]
        dsimp only
        rw [rectCols_eq (K := K) vecs _ g r (hgt r hr)]
        refine (hst r hr).takeCols hF (hle r hr) (colsOk_slice _ _ _ (lohi_le ?_))
        have := hgm (show r + 1 ≤ p by omega)
        omega
      · rw [List.eq_of_mem_replicate hR, ringRound_step _ _ _ _ hr]
        exact (hst r hr).takeCols hF (hle r hr) (hst _ (Nat.mod_lt _ (by omega))).2.1
    refine ⟨fun r hr => (hstep r hr).1, (hstep rank hrank).2, ?_⟩
    unfold rectStates
    split
    · simp only [List.mem_singleton, forall_eq]
      exact ⟨⟨(hstep rank hrank).2, Keeps.refl _⟩, List.pairwise_singleton _ _⟩
    · exact ⟨by simp, List.Pairwise.nil⟩

end

/-! ### The property -/

theorem map_snd_watch (l : Prog σ μ) (f : Round σ μ → Nat → (Nat → σ) → List σ) : (l.map fun R => (f R, R)).map Prod.snd = l := by
  rw [List.map_map]
  exact List.map_id l

/-- **C99.** The reports are those of the loops of `compute_symm_inner_product_array`: without the
watches the program is the same. -/
theorem C99_symmetric_all_program [Add K] (p tag mx : Nat) (ip : V → V → K) (vecs : List V) :
    (symmWatched p mx ip vecs).map Prod.snd ++ allreduceArr p tag = symmProg p tag mx ip vecs := by
  simp only [symmWatched, symmProg, symmChunk, List.map_flatMap, List.map_cons, List.map_append, List.map_map, Function.comp_def, List.map_id']

/-- **C99.** If a rank looks at the clock during an exchange, then at last with the array it has
after the exchange. -/
theorem C99_exchange_last (p n : Nat) (ip : V → V → K) (tasksAll : List (List Nat)) (A d k rank : Nat) (st : Nat → IPState V K)
    (s : IPState V K) (hs : (exchangeStates p n ip tasksAll A d k rank st).getLast? = some s) (hrows : (st rank).rowVecs ≠ []) :
    s = (exchangeRound p n ip tasksAll A d k).step st rank := by
  unfold exchangeStates at hs
  unfold Round.step
  split at hs
  · rename_i vs is h
    rw [h]
    change s = fill n n ip _
    unfold fill
    rw [if_pos (List.length_pos_iff.mpr hrows)]
    unfold rowStates at hs
    dsimp only at hs ⊢
    generalize hm : (st rank).endRow - (st rank).startRow = m at hs ⊢
    cases m with
    | zero => simp at hs
    | succ m =>
      rw [List.range_succ, List.map_append, List.map_singleton, List.getLast?_concat] at hs
      exact (Option.some.inj hs).symm
  · simp at hs

section
variable [Zero K] [DecidableEq K]

/-- **C99, partial.** With any number of processes the percentages of each rank never go down and
are at least zero, but only bounded by 100 for each process. -/
theorem C99_symmetric_all_partial (p mx : Nat) (hp : 1 ≤ p) (hmx : 2 ≤ mx) (ip : V → V → K) (vecs : List V) (rank : Nat)
    (hrank : rank < p) :
    (∀ x ∈ symmReportsAll p mx ip vecs rank, 0 ≤ x ∧ x ≤ 100 * p) ∧ (symmReportsAll p mx ip vecs rank).Pairwise (· ≤ ·) := by
  let F : Nat → Nat → K := fun i c => match vecs[i]?, vecs[c]? with
    | some v, some w => ip v w
    | _, _ => 0
  have hF : ∀ i c v w, vecs[i]? = some v → vecs[c]? = some w → ip v w = F i c := by
    intro i c v w h1 h2
    simp only [F, h1, h2]
  obtain ⟨-, -, -, h⟩ := symmWatched_rising hp hmx hF hrank ipInit fun r _ =>
    ⟨⟨rfl, fun k w c h => by simp [ipInit] at h⟩, ∅, rfl, fun _ _ h => absurd h (Set.notMem_empty _), fun _ _ _ => rfl⟩
  refine ⟨fun x hx => ?_, ?_⟩
  · obtain ⟨s, -, rfl⟩ := List.mem_map.mp hx
    refine ⟨by unfold symmPercentAll; positivity, ?_⟩
    unfold symmPercentAll
    have h1 : (2 : ℚ) * countTriu vecs.length s.arr ≤ vecs.length * (vecs.length + 1) := by
      exact_mod_cast countTriu_le vecs.length s.arr
    have hp0 : (0 : ℚ) ≤ p := by positivity
    have h2 : (countTriu vecs.length s.arr * p / (vecs.length * (vecs.length + 1) / 2) : ℚ) ≤ p := by
      refine div_le_of_le_mul₀ (by positivity) hp0 ?_
      nlinarith
    linarith
  · unfold symmReportsAll
    rw [List.pairwise_map]
    refine h.imp fun {a b} hab => ?_
    unfold symmPercentAll
    have h1 : (countTriu vecs.length a.arr : ℚ) ≤ countTriu vecs.length b.arr := by
      refine Nat.cast_le.mpr (countNonzero_mono fun i j hij => ?_)
      split at hij
      · rename_i hle
        rw [if_pos hle]
        exact hab i j hij
      · exact absurd rfl hij
    gcongr

theorem checks_watched (rank : Nat) (good : σ → Bool) (l : MarkedProg σ μ) (st : Nat → σ) :
    (checks rank l st).filter good = watched rank (l.map fun m =>
      ((fun rank st => if m.1 ∧ good (m.2.step st rank) then [m.2.step st rank] else []), m.2)) st := by
  induction l generalizing st with
  | nil => rfl
  | cons m l ih =>
    obtain ⟨mark, R⟩ := m
    rw [List.map_cons, watched, ← ih, checks]
    cases mark
    · simp
    · by_cases hg : good (R.step st rank)
      · simp [hg]
      · simp [hg]

/-- **C99.** In one process the reports are those of the program with marks, so `C99_symmetric`
applies. -/
theorem C99_symmetric_one (mx : Nat) (ip : V → V → K) (vecs : List V) :
    symmReportsAll 1 mx ip vecs 0 = symmReports mx ip vecs := by
  unfold symmReportsAll symmReports
  have h2 : ∀ A, A ≤ 1 → ceilDivNat (A - 1) 2 = 0 := by
    intro A hA
    unfold ceilDivNat
    omega
  rw [checks_watched]
  have hpc : symmPercentAll (K := K) (V := V) 1 vecs.length = symmPercent vecs.length := by
    funext s
    unfold symmPercentAll symmPercent
    rw [Nat.cast_one]
  rw [hpc]
  congr 2
  unfold symmWatched symmMarked
  rw [List.map_flatMap]
  refine List.flatMap_congr fun S _ => ?_
  dsimp only
  have h1 : ((rangeTasks 1 S (min vecs.length (S + (mx - 1) * 1))).filter fun t => t ≠ []).length ≤ 1 := by
    refine (List.length_filter_le _ _).trans ?_
    rw [rangeTasks_length]
  rw [h2 _ h1, List.map_cons, List.map_flatMap]
  simp only [List.map_map, List.range_zero, List.flatMap_nil, List.cons_append, List.nil_append]
  congr 1
  · simp only [Nat.mul_one]
    refine List.flatMap_congr fun C _ => List.map_congr_left fun R _ => ?_
    simp only [Function.comp, Prod.mk.injEq, and_true, true_and, decide_eq_true_eq]
    rfl

end

/-- Five vectors on two processes. -/
example : symmReportsAll 2 2 (fun (v w : ℚ) => v * w) [1, 2, 3, 4, 5] 1 = [40 / 3, 80 / 3, 40, 40, 160 / 3, 200 / 3, 200 / 3, 80] := by
  decide +kernel

/-- **C99, violated.** Two vectors on two processes: "Completed 133.3% of inner products". -/
theorem C99_symmetric_parallel_violation : symmReportsAll 2 2 (fun (v w : ℚ) => v * w) [1, 2] 0 = [400 / 3] := by
  decide +kernel

end Modred
