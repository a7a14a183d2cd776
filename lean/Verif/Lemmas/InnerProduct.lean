import Verif.Lemmas.Blocks

/-! Helper lemmas about the inner product loops. -/

namespace Modred

variable {α β V K σ μ X : Type*}

/-! ### Folds and local programs -/

/-- Each pass of a loop covers some more points. -/
theorem foldl_cover (f : σ → β → σ) (P : Set X → σ → Prop) (A : β → Set X) (L : List β)
    (h : ∀ b ∈ L, ∀ W s, P W s → P (W ∪ A b) (f s b)) :
    ∀ W s, P W s → P (W ∪ {x | ∃ b ∈ L, x ∈ A b}) (L.foldl f s) := by
  induction L with
  | nil => intro W s hP; simpa using hP
  | cons b L ih =>
    intro W s hP
    have h1 := h b (by simp) W s hP
    have h2 := ih (fun b hb => h b (by simp [hb])) _ _ h1
    rw [List.foldl_cons]
    convert h2 using 1
    ext x
    simp only [List.mem_cons, exists_eq_or_imp, Set.mem_union, Set.mem_ofPred_eq]
    tauto

/-- On the first `p` ranks a program does local work `g`. -/
def LocalOn (p : Nat) (prog : Prog σ μ) (g : Nat → σ → σ) : Prop :=
  ∀ st r, r < p → exec prog st r = g r (st r)

theorem LocalOn.flatMap {p : Nat} {f : β → Prog σ μ} {g : β → Nat → σ → σ} (l : List β)
    (h : ∀ b ∈ l, LocalOn p (f b) (g b)) :
    LocalOn p (l.flatMap f) (fun r s => l.foldl (fun s b => g b r s) s) := by
  induction l with
  | nil => intro st r _; rfl
  | cons b l ih =>
    intro st r hr
    rw [List.flatMap_cons, exec_append, ih (fun b hb => h b (by simp [hb])) _ r hr,
      h b (by simp) _ r hr]
    rfl

theorem LocalOn.cons {p : Nat} {f g : Nat → σ → σ} {prog : Prog σ μ} (h : LocalOn p prog g) :
    LocalOn p (localRound f :: prog) (fun r s => g r (f r s)) := by
  intro st r hr
  rw [exec_cons, h _ r hr, localRound_step]

theorem LocalOn.append {p : Nat} {f g : Nat → σ → σ} {a b : Prog σ μ} (ha : LocalOn p a f)
    (hb : LocalOn p b g) : LocalOn p (a ++ b) (fun r s => g r (f r s)) := by
  intro st r hr
  rw [exec_append, hb _ r hr, ha _ r hr]

/-! ### Filling the array -/

/-- The loop variables other than the array. -/
def IPState.frame (s : IPState V K) : List V × Nat × Nat × List V × List Nat :=
  (s.rowVecs, s.startRow, s.endRow, s.colVecs, s.colIndices)

theorem write_frame (m n : Nat) (s : IPState V K) (i j : Nat) (v : K) :
    (s.write m n i j v).frame = s.frame := by
  unfold IPState.write; split <;> rfl

theorem fillOne_frame (m n : Nat) (ip : V → V → K) (i : Nat) (s : IPState V K) (w : V × Nat) :
    (fillOne m n ip i s w).frame = s.frame := by
  unfold fillOne
  split
  · exact write_frame ..
  · rfl

theorem foldl_frame {f : IPState V K → β → IPState V K} (h : ∀ s b, (f s b).frame = s.frame)
    (L : List β) (s : IPState V K) : (L.foldl f s).frame = s.frame := by
  induction L generalizing s with
  | nil => rfl
  | cons b L ih => rw [List.foldl_cons, ih, h]

theorem fill_frame (m n : Nat) (ip : V → V → K) (s : IPState V K) :
    (fill m n ip s).frame = s.frame := by
  unfold fill
  split
  · exact foldl_frame (fun s i => foldl_frame (fillOne_frame m n ip i) _ _) _ _
  · rfl

theorem packCols_takeCols (m n : Nat) (ip : V → V → K) (s : IPState V K) (vs : List V)
    (is : List Nat) : packCols (takeCols m n ip s (.cols vs is)) = .cols vs is := by
  have h := fill_frame m n ip { s with colVecs := vs, colIndices := is }
  simp only [IPState.frame, Prod.mk.injEq] at h
  simp [takeCols, packCols, h]

/-- The array holds `F` at the points of `W` and zero elsewhere, and nothing was raised. -/
structure ArrInv [Zero K] (F : Nat → Nat → K) (W : Set (Nat × Nat)) (s : IPState V K) : Prop where
  err : s.err = false
  on : ∀ i j, (i, j) ∈ W → s.arr i j = F i j
  off : ∀ i j, (i, j) ∉ W → s.arr i j = 0

theorem ArrInv.write [Zero K] {F : Nat → Nat → K} {W : Set (Nat × Nat)} {s : IPState V K}
    (h : ArrInv F W s) {m n i j : Nat} (hi : i < m) (hj : j < n) {v : K} (hv : v = F i j) :
    ArrInv F (W ∪ {(i, j)}) (s.write m n i j v) := by
  unfold IPState.write
  rw [if_pos ⟨hi, hj⟩]
  refine ⟨h.err, fun i' j' hm => ?_, fun i' j' hm => ?_⟩
  · dsimp only
    split
    · rename_i he; rw [he.1, he.2, hv]
    · rename_i he
      refine h.on i' j' ?_
      rcases hm with hm | hm
      · exact hm
      · exact absurd (by simpa using hm) he
  · dsimp only
    have h1 : (i', j') ∉ W := fun h2 => hm (Or.inl h2)
    have h2 : ¬ (i' = i ∧ j' = j) := fun h2 => hm (Or.inr (by simpa using h2))
    rw [if_neg h2]
    exact h.off _ _ h1

/-- Rows `a .. b-1` are at hand. -/
def RowsAt (rows : List V) (a b : Nat) (s : IPState V K) : Prop :=
  s.startRow = a ∧ s.endRow = b ∧ s.rowVecs = pySlice rows a b

/-- Columns `is` are at hand. -/
def ColsOk (cols vs : List V) (is : List Nat) : Prop :=
  vs.length = is.length ∧ ∀ (k : Nat) (w : V) (c : Nat), vs[k]? = some w → is[k]? = some c → cols[c]? = some w

section
variable [Zero K] {m n : Nat} {ip : V → V → K} {rows cols : List V} {F : Nat → Nat → K}

theorem fill_inv (hm : rows.length = m) (hn : cols.length = n)
    (hF : ∀ i c v w, rows[i]? = some v → cols[c]? = some w → ip v w = F i c)
    {a b : Nat} (hb : b ≤ m) {vs : List V} {is : List Nat} (hc : ColsOk cols vs is)
    {W : Set (Nat × Nat)} {s : IPState V K} (hs : s.frame = (pySlice rows a b, a, b, vs, is))
    (hA : ArrInv F W s) :
    ArrInv F (W ∪ {x | a ≤ x.1 ∧ x.1 < b ∧ x.2 ∈ is}) (fill m n ip s) := by
  have hlen : (pySlice rows a b).length = b - a := pySlice_length _ _ _ (by omega)
  have hs' := hs
  simp only [IPState.frame, Prod.mk.injEq] at hs'
  obtain ⟨h3, h1, h2, -, -⟩ := hs'
  unfold fill
  rw [h3, hlen, h1, h2]
  rcases Nat.lt_or_ge a b with hlt | hge
  · rw [if_pos (by omega)]
    -- property kept by the loops
    let P : Set (Nat × Nat) → IPState V K → Prop := fun W s =>
      s.frame = (pySlice rows a b, a, b, vs, is) ∧ ArrInv F W s
    have hinner : ∀ i, a ≤ i → i < b → ∀ W (s : IPState V K), P W s →
        P (W ∪ {x | x.1 = i ∧ x.2 ∈ is}) (s.colVecs.zipIdx.foldl (fillOne m n ip i) s) := by
      intro i hai hib W s hP
      have hcv : s.colVecs = vs := by
        have := hP.1; simp only [IPState.frame, Prod.mk.injEq] at this; exact this.2.2.2.1
      rw [hcv]
      have := foldl_cover (fillOne m n ip i) P
        (fun wk => {x | x.1 = i ∧ is[wk.2]? = some x.2}) vs.zipIdx ?_ W s hP
      · convert this using 1
        ext x
        simp only [Set.mem_union, Set.mem_ofPred_eq]
        constructor
        · rintro (h | ⟨h, h'⟩)
          · exact Or.inl h
          · right
            obtain ⟨k, hk, hk'⟩ := List.getElem_of_mem h'
            have hkv : k < vs.length := by rw [hc.1]; exact hk
            refine ⟨(vs[k], k), ?_, h, ?_⟩
            · rw [List.mk_mem_zipIdx_iff_getElem?]; exact List.getElem?_eq_getElem hkv
            · rw [List.getElem?_eq_getElem hk, hk']
        · rintro (h | ⟨wk, _, h, h'⟩)
          · exact Or.inl h
          · exact Or.inr ⟨h, List.mem_of_getElem? h'⟩
      · rintro ⟨w, k⟩ hwk W s ⟨hf, hA⟩
        rw [List.mk_mem_zipIdx_iff_getElem?] at hwk
        have hk : k < is.length := by
          rw [← hc.1]
          exact (List.getElem?_eq_some_iff.mp hwk).1
        have hci : is[k]? = some is[k] := List.getElem?_eq_getElem hk
        have hcw := hc.2 k w is[k] hwk hci
        have hcn : is[k] < n := by
          rw [← hn]
          exact (List.getElem?_eq_some_iff.mp hcw).1
        have hf' := hf
        simp only [IPState.frame, Prod.mk.injEq] at hf'
        obtain ⟨f1, f2, f3, f4, f5⟩ := hf'
        have him : i < rows.length := by omega
        have hrow : (pySlice rows a b)[i - a]? = some (rows[i]'him) := by
          rw [pySlice_getElem? _ _ _ _ (by omega), show a + (i - a) = i by omega,
            List.getElem?_eq_getElem]
        refine ⟨by rw [fillOne_frame, hf], ?_⟩
        have : fillOne m n ip i s (w, k) = s.write m n i is[k] (ip (rows[i]'him) w) := by
          unfold fillOne
          rw [f1, f2, f5, hrow, hci]
        rw [this]
        have hset : {x : Nat × Nat | x.1 = i ∧ is[k]? = some x.2} = {(i, is[k])} := by
          ext ⟨x, y⟩
          simp only [Set.mem_ofPred_eq, hci, Option.some.injEq, Set.mem_singleton_iff,
            Prod.mk.injEq]
          constructor
          · rintro ⟨h, h'⟩; exact ⟨h, h'.symm⟩
          · rintro ⟨h, h'⟩; exact ⟨h, h'.symm⟩
        dsimp only
        rw [hset]
        exact hA.write (by omega) hcn (hF i _ _ w (List.getElem?_eq_getElem (by omega)) hcw)
    have := foldl_cover (fun (s : IPState V K) rowIndex =>
        s.colVecs.zipIdx.foldl (fillOne m n ip rowIndex) s) P
      (fun i => {x | x.1 = i ∧ x.2 ∈ is}) (List.range' a (b - a)) ?_ W s ⟨hs, hA⟩
    · obtain ⟨-, hA⟩ := this
      convert hA using 1
      ext x
      simp only [Set.mem_union, Set.mem_ofPred_eq, List.mem_range'_1]
      constructor
      · rintro (h | ⟨h4, h5, h6⟩)
        · exact Or.inl h
        · exact Or.inr ⟨x.1, ⟨h4, by omega⟩, rfl, h6⟩
      · rintro (h | ⟨i, ⟨h4, h5⟩, h6, h7⟩)
        · exact Or.inl h
        · exact Or.inr ⟨by omega, by omega, h7⟩
    · intro i hi W s hP
      rw [List.mem_range'_1] at hi
      exact hinner i (by omega) (by omega) W s hP
  · rw [if_neg (by omega)]
    have : {x : Nat × Nat | a ≤ x.1 ∧ x.1 < b ∧ x.2 ∈ is} = ∅ := by
      ext x
      simp only [Set.mem_ofPred_eq, Set.mem_empty_iff_false, iff_false]
      omega
    rw [this, Set.union_empty]
    exact hA

theorem takeCols_inv (hm : rows.length = m) (hn : cols.length = n)
    (hF : ∀ i c v w, rows[i]? = some v → cols[c]? = some w → ip v w = F i c)
    {a b : Nat} (hb : b ≤ m) {vs : List V} {is : List Nat} (hc : ColsOk cols vs is)
    {W : Set (Nat × Nat)} {s : IPState V K} (hs : RowsAt rows a b s ∧ ArrInv F W s) :
    RowsAt rows a b (takeCols m n ip s (.cols vs is)) ∧
      ArrInv F (W ∪ {x | a ≤ x.1 ∧ x.1 < b ∧ x.2 ∈ is}) (takeCols m n ip s (.cols vs is)) := by
  obtain ⟨⟨h1, h2, h3⟩, hA⟩ := hs
  have hfr : ({ s with colVecs := vs, colIndices := is } : IPState V K).frame =
      (pySlice rows a b, a, b, vs, is) := by simp [IPState.frame, h1, h2, h3]
  have hf := fill_frame m n ip { s with colVecs := vs, colIndices := is }
  rw [hfr] at hf
  simp only [IPState.frame, Prod.mk.injEq] at hf
  exact ⟨⟨hf.2.1, hf.2.2.1, hf.1⟩, fill_inv hm hn hF hb hc hfr ⟨hA.err, hA.on, hA.off⟩⟩

end

/-! ### Passes around the ring -/

/-- A message that carries columns. -/
def IPMsg.IsCols : IPMsg V K → Prop
  | .cols _ _ => True
  | .arr _ => False

theorem colPass_local (p m n : Nat) (ip : V → V → K) (own : Nat → IPMsg V K)
    (hown : ∀ q, (own q).IsCols) :
    LocalOn p (colPass p m n ip own) (fun r s =>
      (List.range p).foldl (fun s t => takeCols m n ip s (own ((r + (p - 1) * t) % p))) s) := by
  intro st r hr
  rw [colPass, exec_cons, ring_exec _ _ _ _ _ r hr]
  · have hpk : ∀ q, packCols ((localRound (fun rank s => takeCols m n ip s (own rank)) :
        Round (IPState V K) (IPMsg V K)).step st q) = own q := by
      intro q
      rw [localRound_step]
      have := hown q
      dsimp only
      cases h : own q with
      | cols vs is => exact packCols_takeCols m n ip _ vs is
      | arr a => rw [h] at this; exact this.elim
    simp only [hpk]
    obtain ⟨k, rfl⟩ : ∃ k, p = k + 1 := ⟨p - 1, by omega⟩
    have hr0 : List.range (k + 1) = 0 :: List.range' 1 k := by
      rw [List.range_eq_range', List.range'_succ]
    rw [hr0, List.foldl_cons, localRound_step]
    simp [Nat.mod_eq_of_lt hr]
  · intro r s s'
    exact packCols_takeCols m n ip s _ _

theorem colPass_matched (p m n : Nat) (ip : V → V → K) (own : Nat → IPMsg V K) :
    AllMatched p (colPass p m n ip own) := by
  refine AllMatched.cons (localRound_matched _ _) ?_
  intro R hR
  rw [List.eq_of_mem_replicate hR]
  exact ringRound_matched _ _

section
variable [Zero K] {m n : Nat} {ip : V → V → K} {rows cols : List V} {F : Nat → Nat → K}

/-- A pass around the ring covers the columns of all ranks. -/
theorem colPass_inv {p : Nat} (hm : rows.length = m) (hn : cols.length = n)
    (hF : ∀ i c v w, rows[i]? = some v → cols[c]? = some w → ip v w = F i c)
    {own : Nat → IPMsg V K} {vs : Nat → List V} {is : Nat → List Nat}
    (hown : ∀ q, own q = .cols (vs q) (is q)) (hc : ∀ q, q < p → ColsOk cols (vs q) (is q))
    {a b : Nat} (hb : b ≤ m) {r : Nat} (hr : r < p)
    {W : Set (Nat × Nat)} {s : IPState V K} (hs : RowsAt rows a b s ∧ ArrInv F W s) :
    RowsAt rows a b ((List.range p).foldl
        (fun s t => takeCols m n ip s (own ((r + (p - 1) * t) % p))) s) ∧
      ArrInv F (W ∪ {x | a ≤ x.1 ∧ x.1 < b ∧ ∃ q, q < p ∧ x.2 ∈ is q}) ((List.range p).foldl
        (fun s t => takeCols m n ip s (own ((r + (p - 1) * t) % p))) s) := by
  have := foldl_cover (fun s t => takeCols m n ip s (own ((r + (p - 1) * t) % p)))
    (fun W s => RowsAt rows a b s ∧ ArrInv F W s)
    (fun t => {x | a ≤ x.1 ∧ x.1 < b ∧ x.2 ∈ is ((r + (p - 1) * t) % p)}) (List.range p) ?_ W s hs
  · convert this using 2
    ext x
    simp only [Set.mem_union, Set.mem_ofPred_eq, List.mem_range]
    constructor
    · rintro (h | ⟨h1, h2, q, hq, h3⟩)
      · exact Or.inl h
      · obtain ⟨t, ht, rfl⟩ := ring_meets hr hq
        exact Or.inr ⟨t, ht, h1, h2, h3⟩
    · rintro (h | ⟨t, ht, h1, h2, h3⟩)
      · exact Or.inl h
      · exact Or.inr ⟨h1, h2, _, Nat.mod_lt _ (by omega), h3⟩
  · intro t _ W s hP
    rw [hown]
    exact takeCols_inv hm hn hF hb (hc _ (Nat.mod_lt _ (by omega))) hP

end

/-! ### Adding up -/

theorem allreduceArr_matched [Add K] (p tag : Nat) :
    AllMatched p (allreduceArr (V := V) (K := K) p tag) := by
  unfold allreduceArr
  split
  · intro R hR
    obtain ⟨R', hR', rfl⟩ := List.mem_map.mp hR
    exact embed_matched (allreduceProg_matched p tag _ R' hR')
  · exact AllMatched.nil

/-- If all numbers but one are zero, their sum in any order is that one. -/
theorem blockFold_single [AddZeroClass K] {y : Nat → K} {size t : Nat} (hy : ∀ q, q < size → q ≠ t → y q = 0) (lo n : Nat)
    (hn : lo + n < size) :
    blockFold (· + ·) y lo n = if lo ≤ t ∧ t ≤ lo + n then y t else 0 := by
  induction n with
  | zero =>
    unfold blockFold rankFold
    by_cases h : lo = t
    · subst h; rw [if_pos ⟨le_rfl, le_rfl⟩, Nat.add_zero]
    · rw [if_neg (by omega), Nat.add_zero, hy lo (by omega) h]
  | succ n ih =>
    have h1 : blockFold (· + ·) y lo (n + 1) = blockFold (· + ·) y lo n + y (lo + (n + 1)) := rfl
    rw [h1, ih (by omega)]
    by_cases h : lo + (n + 1) = t
    · rw [if_neg (by omega), if_pos (by omega), zero_add, h]
    · rw [hy _ (by omega) h, add_zero]
      by_cases h2 : lo ≤ t ∧ t ≤ lo + n
      · rw [if_pos h2, if_pos (by omega)]
      · rw [if_neg h2, if_neg (by omega)]

theorem blockFold_apply [Add K] (x : Nat → Nat → Nat → K) (lo n i j : Nat) :
    blockFold (fun (a b : Nat → Nat → K) i j => a i j + b i j) x lo n i j =
      blockFold (· + ·) (fun q => x q i j) lo n := by
  induction n with
  | zero => rfl
  | succ n ih => exact congrArg (· + x (lo + (n + 1)) i j) ih

/-- `allreduce` of arrays such that each entry is zero on all ranks but one: that entry.  Nothing is assumed about the
addition but `0 + x = x + 0 = x`. -/
theorem allreduceArr_exec [AddZeroClass K] (p tag : Nat) (st : Nat → IPState V K) (own : Nat → Nat → Nat)
    (hown : ∀ i j q, q < p → q ≠ own i j → (st q).arr i j = 0) (r : Nat) (hr : r < p) :
    exec (allreduceArr p tag) st r =
      { st r with arr := fun i j => if own i j < p then (st (own i j)).arr i j else 0 } := by
  unfold allreduceArr
  split
  · have h := embed_exec (get := IPState.arr) (set := fun (s : IPState V K) a => { s with arr := a })
      (inj := IPMsg.arr) (proj := fun (m : IPMsg V K) => match m with
        | .arr a => some a
        | .cols _ _ => none) (fun _ _ => rfl) (fun _ _ _ => rfl) (fun _ => rfl) (fun _ => rfl)
      (allreduceProg p tag fun (a b : Nat → Nat → K) i j => a i j + b i j) st r
    refine h.trans ?_
    dsimp only
    rw [allreduceProg_exec' _ _ _ _ ?_ hr]
    · congr 1
      funext i j
      have h1 := blockFold_apply (fun q => (st q).arr) 0 (p - 1) i j
      have h2 := blockFold_single (y := fun q => (st q).arr i j) (hown i j) 0 (p - 1) (by omega)
      unfold blockFold at h1 h2
      simp only [Nat.zero_add] at h1 h2
      rw [h1, h2]
      by_cases h3 : own i j < p
      · rw [if_pos h3, if_pos (by omega)]
      · rw [if_neg h3, if_neg (by omega)]
    · intro lo a b hlt
      funext i j
      refine (blockFold_apply _ _ _ i j).trans (Eq.trans ?_ (congrArg₂ (· + ·) (blockFold_apply _ _ _ i j)
        (blockFold_apply _ _ _ i j)).symm)
      rw [blockFold_single (hown i j) _ _ (by omega),
        blockFold_single (hown i j) _ _ (by omega), blockFold_single (hown i j) _ _ (by omega)]
      by_cases h1 : lo ≤ own i j ∧ own i j ≤ lo + a
      · rw [if_pos (by omega), if_pos h1, if_neg (by omega), add_zero]
      · rw [if_neg h1, zero_add]
        by_cases h2 : lo + a + 1 ≤ own i j ∧ own i j ≤ lo + a + 1 + b
        · rw [if_pos (by omega), if_pos h2]
        · rw [if_neg (by omega), if_neg h2]
  · have hp : p = 1 := by omega
    have hr0 : r = 0 := by omega
    subst hp hr0
    rw [exec_nil]
    have : (fun i j => if own i j < 1 then (st (own i j)).arr i j else 0) = (st 0).arr := by
      funext i j
      by_cases h : own i j = 0
      · rw [h, if_pos (by omega)]
      · rw [if_neg (by omega), hown i j 0 (by omega) (fun h' => h h'.symm)]
    rw [this]

/-- If each entry is filled by one rank only, `allreduce` gives the array. -/
theorem allreduceArr_inv [AddZeroClass K] (p tag : Nat) {F : Nat → Nat → K} {W : Nat → Set (Nat × Nat)}
    {st : Nat → IPState V K} (h : ∀ r, r < p → ArrInv F (W r) (st r))
    (huniq : ∀ i j r r', r < p → r' < p → (i, j) ∈ W r → (i, j) ∈ W r' → r = r') (r : Nat) (hr : r < p) :
    (exec (allreduceArr p tag) st r).err = (st r).err ∧ ∀ i j,
      ((∃ r, r < p ∧ (i, j) ∈ W r) → (exec (allreduceArr p tag) st r).arr i j = F i j) ∧
      ((¬ ∃ r, r < p ∧ (i, j) ∈ W r) → (exec (allreduceArr p tag) st r).arr i j = 0) := by
  classical
  have hown : ∀ i j, ∃ t, ∀ q, (q < p ∧ (i, j) ∈ W q) ↔ (t < p ∧ q = t) := by
    intro i j
    by_cases h1 : ∃ r, r < p ∧ (i, j) ∈ W r
    · obtain ⟨t, ht, hW⟩ := h1
      refine ⟨t, fun q => ⟨fun h2 => ⟨ht, huniq i j q t h2.1 ht h2.2 hW⟩, ?_⟩⟩
      rintro ⟨-, rfl⟩
      exact ⟨ht, hW⟩
    · refine ⟨p, fun q => ⟨fun h2 => absurd ⟨q, h2⟩ h1, fun h2 => absurd h2.1 (lt_irrefl _)⟩⟩
  choose own hown using hown
  have hoff : ∀ i j q, q < p → q ≠ own i j → (st q).arr i j = 0 := fun i j q hq hne =>
    (h q hq).off i j fun hW => hne ((hown i j q).mp ⟨hq, hW⟩).2
  rw [allreduceArr_exec p tag st own hoff r hr]
  refine ⟨rfl, fun i j => ⟨?_, fun hno => ?_⟩⟩
  · rintro ⟨q, hq, hW⟩
    obtain ⟨h1, rfl⟩ := (hown i j q).mp ⟨hq, hW⟩
    dsimp only
    rw [if_pos h1, (h _ h1).on i j hW]
  · dsimp only
    rw [if_neg]
    intro h1
    exact hno ⟨own i j, (hown i j _).mpr ⟨h1, rfl⟩⟩

/-! ### The whole program -/

theorem colsOk_slice (cols : List V) (a b : Nat) (hb : b ≤ cols.length) :
    ColsOk cols (pySlice cols a b) (List.range' a (b - a)) := by
  refine ⟨by rw [pySlice_length _ _ _ hb, List.length_range'], ?_⟩
  intro k w c hw hc
  rw [List.getElem?_eq_some_iff] at hc
  obtain ⟨hk, rfl⟩ := hc
  rw [List.length_range'] at hk
  rw [pySlice_getElem? _ _ _ _ (by omega)] at hw
  simpa using hw

theorem ipProg_matched [Add K] (p tag mx : Nat) (ip : V → V → K) (rows cols : List V) :
    AllMatched p (ipProg p tag mx ip rows cols) := by
  unfold ipProg
  refine AllMatched.append (AllMatched.flatMap fun _ _ =>
    AllMatched.cons (localRound_matched _ _) (AllMatched.flatMap fun _ _ => colPass_matched _ _ _ _ _))
    (allreduceArr_matched p tag)

theorem ipProg_exec [AddZeroClass K] (p tag mx : Nat) (hp : 1 ≤ p) (hmx : 2 ≤ mx)
    (ip : V → V → K) (rows cols : List V) {F : Nat → Nat → K}
    (hF : ∀ i c v w, rows[i]? = some v → cols[c]? = some w → ip v w = F i c) (r : Nat)
    (hr : r < p) :
    let s := exec (ipProg p tag mx ip rows cols) ipInit r
    s.err = false ∧ ∀ i j, i < rows.length → j < cols.length → s.arr i j = F i j := by
  obtain ⟨f, hf0, hfp, hfm, hft⟩ := rangeTasks_blocks p 0 rows.length hp (by omega)
  obtain ⟨g, hg0, hgp, hgm, hgt⟩ := rangeTasks_blocks p 0 cols.length hp (by omega)
  have hfle : ∀ r, r ≤ p → f r ≤ rows.length := fun r h => by rw [← hfp]; exact hfm h
  have hgle : ∀ r, r ≤ p → g r ≤ cols.length := fun r h => by rw [← hgp]; exact hgm h
  -- the loops, rank by rank
  let colLoop : Nat → IPState V K → IPState V K := fun r s =>
    (List.range (ceilDivNat (maxLen (rangeTasks p 0 cols.length)) 1)).foldl (fun s colIndex =>
      (List.range p).foldl (fun s t => takeCols rows.length cols.length ip s
        (ownCols cols (rangeTasks p 0 cols.length) colIndex ((r + (p - 1) * t) % p))) s) s
  let loops : Nat → IPState V K → IPState V K := fun r s =>
    (List.range (ceilDivNat (maxLen (rangeTasks p 0 rows.length)) (mx - 1))).foldl
      (fun s rowIndex => colLoop r
        (getRows rows (rangeTasks p 0 rows.length) rowIndex (mx - 1) r s)) s
  have hlocal : ∀ r, r < p →
      exec ((List.range (ceilDivNat (maxLen (rangeTasks p 0 rows.length)) (mx - 1))).flatMap
        fun rowIndex => localRound (getRows rows (rangeTasks p 0 rows.length) rowIndex (mx - 1)) ::
          (List.range (ceilDivNat (maxLen (rangeTasks p 0 cols.length)) 1)).flatMap fun colIndex =>
            colPass p rows.length cols.length ip
              (ownCols cols (rangeTasks p 0 cols.length) colIndex)) ipInit r
        = loops r (ipInit r) := by
    intro r hr
    refine LocalOn.flatMap _ (fun rowIndex _ => LocalOn.cons (LocalOn.flatMap _
      (fun colIndex _ => colPass_local _ _ _ _ _ (fun q => ?_)))) _ r hr
    simp [ownCols, IPMsg.IsCols]
  -- one pass of the column loop covers all columns
  have hcol : ∀ r, r < p → ∀ a b, b ≤ rows.length → ∀ W (s : IPState V K),
      RowsAt rows a b s ∧ ArrInv F W s →
      RowsAt rows a b (colLoop r s) ∧
        ArrInv F (W ∪ {x | a ≤ x.1 ∧ x.1 < b ∧ x.2 < cols.length}) (colLoop r s) := by
    intro r hr a b hb W s hs
    have := foldl_cover (fun s colIndex =>
      (List.range p).foldl (fun s t => takeCols rows.length cols.length ip s
        (ownCols cols (rangeTasks p 0 cols.length) colIndex ((r + (p - 1) * t) % p))) s)
      (fun W s => RowsAt rows a b s ∧ ArrInv F W s)
      (fun k => {x | a ≤ x.1 ∧ x.1 < b ∧ ∃ q, q < p ∧ x.2 ∈
        List.range' (chunkBounds ((rangeTasks p 0 cols.length).getD q []) k 1).1
          ((chunkBounds ((rangeTasks p 0 cols.length).getD q []) k 1).2 -
            (chunkBounds ((rangeTasks p 0 cols.length).getD q []) k 1).1)})
      (List.range (ceilDivNat (maxLen (rangeTasks p 0 cols.length)) 1)) ?_ W s hs
    · convert this using 2
      ext x
      simp only [Set.mem_union, Set.mem_ofPred_eq, List.mem_range, List.mem_range'_1]
      refine or_congr_right ⟨?_, ?_⟩
      · rintro ⟨h1, h2, h3⟩
        obtain ⟨q, hq, h4, h5⟩ := exists_block hg0 hgp (Nat.zero_le x.2) h3
        have h6 := mem_chunk (g q) (g (q + 1)) 1 x.2 (le_refl 1) h4 h5
        refine ⟨(x.2 - g q) / 1, ?_, h1, h2, q, hq, ?_⟩
        · have h7 := length_le_maxLen (ls := rangeTasks p 0 cols.length) (r := q)
          rw [hgt q hq, List.length_range'] at h7
          exact div_lt_ceilDivNat (le_refl 1) (by omega)
        · rw [hgt q hq]
          omega
      · rintro ⟨k, _, h1, h2, q, hq, h3, h4⟩
        refine ⟨h1, h2, ?_⟩
        rw [hgt q hq] at h3 h4
        have h5 := chunkBounds_spec (g q) (g (q + 1)) k 1
        have h6 := (h5.2 x.2 h3 (by omega)).2
        have h7 := hgle (q + 1) (by omega)
        omega
    · intro k _ W s hP
      refine colPass_inv (own := ownCols cols (rangeTasks p 0 cols.length) k) rfl rfl hF
        (fun q => rfl) ?_ hb hr hP
      intro q hq
      rw [hgt q hq]
      exact colsOk_slice _ _ _ (chunkBounds_le _ _ _ _ _ (hgle _ (by omega)))
  -- all row chunks
  have hall : ∀ r, r < p → ArrInv F {x | f r ≤ x.1 ∧ x.1 < f (r + 1) ∧ x.2 < cols.length}
      (loops r (ipInit r)) := by
    intro r hr
    have := foldl_cover (fun s rowIndex => colLoop r
        (getRows rows (rangeTasks p 0 rows.length) rowIndex (mx - 1) r s))
      (fun W s => ArrInv F W s)
      (fun k => {x |
        (chunkBounds ((rangeTasks p 0 rows.length).getD r []) k (mx - 1)).1 ≤ x.1 ∧
        x.1 < (chunkBounds ((rangeTasks p 0 rows.length).getD r []) k (mx - 1)).2 ∧
        x.2 < cols.length})
      (List.range (ceilDivNat (maxLen (rangeTasks p 0 rows.length)) (mx - 1))) ?_ ∅ (ipInit r)
      ⟨rfl, fun _ _ h => absurd h (Set.notMem_empty _), fun _ _ _ => rfl⟩
    · convert this using 2
      ext x
      simp only [Set.mem_union, Set.mem_empty_iff_false, false_or, Set.mem_ofPred_eq,
        List.mem_range]
      rw [hft r hr]
      constructor
      · rintro ⟨h1, h2, h3⟩
        have h4 := mem_chunk (f r) (f (r + 1)) (mx - 1) x.1 (by omega) h1 h2
        refine ⟨_, ?_, h4.1, h4.2, h3⟩
        have h7 := length_le_maxLen (ls := rangeTasks p 0 rows.length) (r := r)
        rw [hft r hr, List.length_range'] at h7
        exact div_lt_ceilDivNat (by omega) (by omega)
      · rintro ⟨k, _, h1, h2, h3⟩
        have := (chunkBounds_spec (f r) (f (r + 1)) k (mx - 1)).2 x.1 h1 h2
        exact ⟨this.1, this.2, h3⟩
    · intro k _ W s hP
      refine (hcol r hr (chunkBounds ((rangeTasks p 0 rows.length).getD r []) k (mx - 1)).1
        (chunkBounds ((rangeTasks p 0 rows.length).getD r []) k (mx - 1)).2 ?_ W
        (getRows rows (rangeTasks p 0 rows.length) k (mx - 1) r s)
        ⟨⟨rfl, rfl, rfl⟩, ⟨hP.err, hP.on, hP.off⟩⟩).2
      · rw [hft r hr]; exact chunkBounds_le _ _ _ _ _ (hfle _ (by omega))
  -- the sum
  unfold ipProg
  dsimp only
  rw [exec_append]
  obtain ⟨h1, h2⟩ := allreduceArr_inv p tag (F := F)
    (W := fun r => {x | f r ≤ x.1 ∧ x.1 < f (r + 1) ∧ x.2 < cols.length})
    (fun r hr => (hlocal r hr).symm ▸ hall r hr)
    (fun i j q q' _ _ h1 h2 => block_unique hfm h1.1 h1.2.1 h2.1 h2.2.1) r hr
  refine ⟨?_, fun i j hi hj => (h2 i j).1 ?_⟩
  · rw [h1, hlocal r hr]
    exact (hall r hr).err
  · obtain ⟨q, hq, h1, h2⟩ := exists_block hf0 hfp (Nat.zero_le i) hi
    exact ⟨q, hq, h1, h2, hj⟩

end Modred
