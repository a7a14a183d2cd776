import Verif.Lemmas.InnerProduct
import Verif.Spec.BareArith

/-! Helper lemmas about the symmetric inner product loops. -/

namespace Modred

variable {α β V K σ μ X : Type*}

/-! ### Active ranks -/

/-- The ranks with tasks are the first `min p (b - a)`. -/
theorem rangeTasks_active (p a b : Nat) (hp : 1 ≤ p) :
    ((rangeTasks p a b).filter fun t => t ≠ []).length = min p (b - a) ∧
      ∀ r, ((rangeTasks p a b).getD r []).length > 0 ↔ r < min p (b - a) := by
  rcases Nat.lt_or_ge p (b - a) with h | h
  · have hbal := C02_default_assignment_balanced (K := ℚ) p hp (List.range' a (b - a))
    have hlen := rangeTasks_length p a b
    have hne : ∀ t ∈ rangeTasks p a b, t ≠ [] := by
      intro t ht h0
      have h1 := (hbal t ht).1
      rw [List.length_range', h0, List.length_nil] at h1
      have h2 : 1 ≤ (b - a) / p := (Nat.one_le_div_iff (by omega)).mpr (by omega)
      omega
    rw [Nat.min_eq_left (by omega)]
    constructor
    · rw [List.filter_eq_self.mpr (fun t ht => by simpa using hne t ht), hlen]
    · intro r
      rcases Nat.lt_or_ge r p with hr | hr
      · have hr' : r < (rangeTasks p a b).length := by omega
        have h1 : (rangeTasks p a b).getD r [] = (rangeTasks p a b)[r] := by
          simp [List.getD, hr']
        rw [h1]
        have := hne _ (List.getElem_mem hr')
        have := List.length_pos_iff.mpr this
        omega
      · have h1 : (rangeTasks p a b).getD r [] = [] := by
          rw [List.getD_eq_default _ _ (by omega)]
        rw [h1, List.length_nil]
        omega
  · have hf := C02_few_tasks_idle_workers_last (K := ℚ) p (List.range' a (b - a)) (by simpa using h)
    have hf' : rangeTasks p a b = (List.range' a (b - a)).map (fun t => [t]) ++
        List.replicate (p - (b - a)) [] := by
      rw [rangeTasks]
      simpa using hf
    rw [hf', Nat.min_eq_right h]
    constructor
    · rw [List.filter_append, List.length_append, List.filter_eq_self.mpr, List.filter_eq_nil_iff.mpr]
      · simp
      · intro t ht; rw [List.eq_of_mem_replicate ht]; simp
      · intro t ht; obtain ⟨x, _, rfl⟩ := List.mem_map.mp ht; simp
    · intro r
      rcases Nat.lt_or_ge r (b - a) with hr | hr
      · rw [List.getD_append _ _ _ _ (by simpa using hr)]
        simp [List.getD, hr]
      · rw [List.getD_append_right _ _ _ _ (by simpa using hr)]
        have : ∀ k m, ((List.replicate m ([] : List Nat)).getD k []).length = 0 := by
          intro k m
          rw [List.getD, List.getElem?_replicate]
          split <;> rfl
        rw [this]
        omega

/-! ### The rank's own triangle -/

theorem pySlice_mem_getElem? (l : List α) (a b k : Nat) (x : α) (h : (pySlice l a b)[k]? = some x) :
    a + k < b ∧ l[a + k]? = some x := by
  have hk : a + k < b := by
    have := (List.getElem?_eq_some_iff.mp h).1
    unfold pySlice at this
    rw [List.length_take] at this
    omega
  exact ⟨hk, by rw [← pySlice_getElem? l a b k hk]; exact h⟩

theorem colsOk_pySlice {cols vs : List V} {is : List Nat} (h : ColsOk cols vs is) (a b : Nat) :
    ColsOk cols (pySlice vs a b) (pySlice is a b) := by
  refine ⟨by simp [pySlice, h.1], fun k w c hw hc => ?_⟩
  exact h.2 _ w c (pySlice_mem_getElem? _ _ _ _ _ hw).2 (pySlice_mem_getElem? _ _ _ _ _ hc).2

/-- Bounds of the rows at hand: none if the rank has no rows. -/
def lohi (f : Nat → Nat) (r : Nat) : Nat × Nat := if f r < f (r + 1) then (f r, f (r + 1)) else (0, 0)

theorem lohi_mem (f : Nat → Nat) (r x : Nat) :
    ((lohi f r).1 ≤ x ∧ x < (lohi f r).2) ↔ (f r ≤ x ∧ x < f (r + 1)) := by
  unfold lohi
  split
  · rfl
  · simp only [Nat.not_lt_zero, and_false, false_iff]
    omega

section
variable [Zero K] {n : Nat} {ip : V → V → K} {vecs : List V} {F : Nat → Nat → K}

theorem ownTriangle_rows (tasksAll : List (List Nat)) (f : Nat → Nat) (r : Nat)
    (ht : tasksAll.getD r [] = List.range' (f r) (f (r + 1) - f r)) (s : IPState V K) :
    RowsAt vecs (lohi f r).1 (lohi f r).2 (ownTriangle n ip vecs tasksAll r s) := by
  unfold ownTriangle
  dsimp only
  rw [ht]
  unfold lohi
  rcases Nat.lt_or_ge (f r) (f (r + 1)) with h | h
  · have h1 : (List.range' (f r) (f (r + 1) - f r)).head? = some (f r) := by
      rw [List.head?_range']; simp; omega
    have h2 : (List.range' (f r) (f (r + 1) - f r)).getLast? = some (f (r + 1) - 1) := by
      rw [List.getLast?_range']; simp; omega
    have h3 : f (r + 1) - 1 + 1 = f (r + 1) := by omega
    rw [if_pos h]
    simp only [h1, h2, h3]
    rw [if_neg (by simp)]
    have hfr : ∀ (L : List Nat) (s : IPState V K),
        (L.foldl (fun s rowIndex =>
          (List.range' (rowIndex + 1) (f (r + 1) - (rowIndex + 1))).foldl (fun s colIndex =>
            match s.rowVecs[rowIndex - f r]?, s.rowVecs[colIndex - f r]? with
            | some v, some w => s.write n n rowIndex colIndex (ip v w)
            | _, _ => { s with err := true })
            (match s.rowVecs[rowIndex - f r]? with
              | some v => s.write n n rowIndex rowIndex (ip v v)
              | none => { s with err := true })) s).frame = s.frame := by
      intro L s
      refine foldl_frame (fun s rowIndex => ?_) L s
      rw [foldl_frame (fun s colIndex => ?_)]
      · split
        · exact write_frame ..
        · rfl
      · split
        · exact write_frame ..
        · rfl
    have := hfr (List.range' (f r) (f (r + 1) - f r))
      { s with rowVecs := pySlice vecs (f r) (f (r + 1)), startRow := f r, endRow := f (r + 1) }
    simp only [IPState.frame, Prod.mk.injEq] at this
    exact ⟨this.2.1, this.2.2.1, this.1⟩
  · have h1 : f (r + 1) - f r = 0 := by omega
    rw [if_neg (by omega), h1]
    exact ⟨rfl, rfl, by simp [pySlice]⟩

theorem ownTriangle_inv (hn : vecs.length = n)
    (hF : ∀ i c v w, vecs[i]? = some v → vecs[c]? = some w → ip v w = F i c)
    (tasksAll : List (List Nat)) (f : Nat → Nat) (r : Nat) (hle : f (r + 1) ≤ n)
    (ht : tasksAll.getD r [] = List.range' (f r) (f (r + 1) - f r)) {W : Set (Nat × Nat)}
    {s : IPState V K} (hs : ArrInv F W s) :
    ArrInv F (W ∪ {x | f r ≤ x.1 ∧ x.1 ≤ x.2 ∧ x.2 < f (r + 1)})
      (ownTriangle n ip vecs tasksAll r s) := by
  unfold ownTriangle
  dsimp only
  rw [ht]
  rcases Nat.lt_or_ge (f r) (f (r + 1)) with h | h
  · have h1 : (List.range' (f r) (f (r + 1) - f r)).head? = some (f r) := by
      rw [List.head?_range']; simp; omega
    have h2 : (List.range' (f r) (f (r + 1) - f r)).getLast? = some (f (r + 1) - 1) := by
      rw [List.getLast?_range']; simp; omega
    have h3 : f (r + 1) - 1 + 1 = f (r + 1) := by omega
    simp only [h1, h2, h3]
    rw [if_neg (by simp)]
    generalize f r = a at *
    generalize f (r + 1) = b at *
    have hrow : ∀ i, a ≤ i → i < b → ∃ v, vecs[i]? = some v ∧ (pySlice vecs a b)[i - a]? = some v := by
      intro i hai hib
      have hi : i < vecs.length := by omega
      refine ⟨vecs[i], List.getElem?_eq_getElem hi, ?_⟩
      rw [pySlice_getElem? _ _ _ _ (by omega), show a + (i - a) = i by omega,
        List.getElem?_eq_getElem hi]
    let P : Set (Nat × Nat) → IPState V K → Prop := fun W s =>
      s.rowVecs = pySlice vecs a b ∧ ArrInv F W s
    have hwr : ∀ i j, a ≤ i → i < b → a ≤ j → j < b → ∀ W (s : IPState V K), P W s →
        P (W ∪ {(i, j)}) (match s.rowVecs[i - a]?, s.rowVecs[j - a]? with
            | some v, some w => s.write n n i j (ip v w)
            | _, _ => { s with err := true }) := by
      intro i j h4 h5 h6 h7 W s ⟨hP1, hP2⟩
      obtain ⟨v, hv, hv'⟩ := hrow i h4 h5
      obtain ⟨w, hw, hw'⟩ := hrow j h6 h7
      rw [hP1, hv', hw']
      refine ⟨?_, hP2.write (by omega) (by omega) (hF i j v w hv hw)⟩
      have := write_frame n n s i j (ip v w)
      simp only [IPState.frame, Prod.mk.injEq] at this
      rw [← hP1]
      exact this.1
    have hdiag : ∀ i, a ≤ i → i < b → ∀ W (s : IPState V K), P W s →
        P (W ∪ {(i, i)}) (match s.rowVecs[i - a]? with
            | some v => s.write n n i i (ip v v)
            | none => { s with err := true }) := by
      intro i h4 h5 W s hP
      have := hwr i i h4 h5 h4 h5 W s hP
      obtain ⟨v, hv, hv'⟩ := hrow i h4 h5
      simp only [hP.1, hv'] at this ⊢
      exact this
    have := foldl_cover (fun (s : IPState V K) rowIndex =>
          (List.range' (rowIndex + 1) (b - (rowIndex + 1))).foldl (fun s colIndex =>
            match s.rowVecs[rowIndex - a]?, s.rowVecs[colIndex - a]? with
            | some v, some w => s.write n n rowIndex colIndex (ip v w)
            | _, _ => { s with err := true })
            (match s.rowVecs[rowIndex - a]? with
              | some v => s.write n n rowIndex rowIndex (ip v v)
              | none => { s with err := true })) P
        (fun i => {(i, i)} ∪ {x | ∃ j ∈ List.range' (i + 1) (b - (i + 1)),
          x ∈ ({(i, j)} : Set (Nat × Nat))})
        (List.range' a (b - a)) ?_ W
        { s with rowVecs := pySlice vecs a b, startRow := a, endRow := b }
        ⟨rfl, hs.err, hs.on, hs.off⟩
    · have hset : W ∪ {x : Nat × Nat | a ≤ x.1 ∧ x.1 ≤ x.2 ∧ x.2 < b} =
          W ∪ {x | ∃ i ∈ List.range' a (b - a), x ∈ ({(i, i)} ∪ {x | ∃ j ∈ List.range' (i + 1)
            (b - (i + 1)), x ∈ ({(i, j)} : Set (Nat × Nat))} : Set (Nat × Nat))} := ?_
      · rw [hset]; exact this.2
      ext ⟨x, y⟩
      simp only [Set.mem_union, Set.mem_ofPred_eq, List.mem_range'_1, Set.mem_singleton_iff,
        Prod.mk.injEq]
      constructor
      · rintro (h4 | ⟨h4, h5, h6⟩)
        · exact Or.inl h4
        · refine Or.inr ⟨x, ⟨h4, by omega⟩, ?_⟩
          rcases Nat.lt_or_ge x y with h7 | h7
          · exact Or.inr ⟨y, ⟨h7, by omega⟩, rfl, rfl⟩
          · exact Or.inl ⟨rfl, by omega⟩
      · rintro (h4 | ⟨i, ⟨h4, h5⟩, (⟨h6, h7⟩ | ⟨j, ⟨h6, h7⟩, h8, h9⟩)⟩)
        · exact Or.inl h4
        · exact Or.inr ⟨by omega, by omega, by omega⟩
        · exact Or.inr ⟨by omega, by omega, by omega⟩
    · intro i hi W s hP
      rw [List.mem_range'_1] at hi
      have hd := hdiag i (by omega) (by omega) W s hP
      have := foldl_cover (fun (s : IPState V K) colIndex =>
            match s.rowVecs[i - a]?, s.rowVecs[colIndex - a]? with
            | some v, some w => s.write n n i colIndex (ip v w)
            | _, _ => { s with err := true }) P (fun j => {(i, j)})
          (List.range' (i + 1) (b - (i + 1))) ?_ _ _ hd
      · rw [Set.union_assoc] at this
        exact this
      · intro j hj W s hP
        rw [List.mem_range'_1] at hj
        exact hwr i j (by omega) (by omega) (by omega) (by omega) W s hP
  · have h1 : f (r + 1) - f r = 0 := by omega
    rw [h1]
    have : {x : Nat × Nat | f r ≤ x.1 ∧ x.1 ≤ x.2 ∧ x.2 < f (r + 1)} = ∅ := by
      ext x
      simp only [Set.mem_ofPred_eq, Set.mem_empty_iff_false, iff_false]
      omega
    rw [this, Set.union_empty]
    exact ⟨hs.err, hs.on, hs.off⟩

end

/-! ### Pairwise exchange -/

theorem exchange_source (r d A : Nat) (hd : d + 1 ≤ A) :
    pyMod ((r : Int) - d - 1) A = (r + (A - (d + 1))) % A := by
  have := pyMod_sub r (d + 1) A hd
  rw [← this]
  congr 1
  push_cast
  ring

theorem exchangeRound_matched (p n : Nat) (ip : V → V → K) (tasksAll : List (List Nat))
    (A : Nat) (hA : A ≤ p) (hact : ∀ r, (tasksAll.getD r []).length > 0 ↔ r < A) (d k : Nat)
    (hd : d + 1 ≤ A) : (exchangeRound p n ip tasksAll A d k).Matched p := by
  constructor
  · intro r hr so hso
    simp only [exchangeRound] at hso
    split at hso
    · rename_i h
      rw [gt_iff_lt, ← gt_iff_lt, hact] at h
      cases hso
      have hdest : (r + d + 1) % A < A := Nat.mod_lt _ (by omega)
      refine ⟨by dsimp only; omega, ?_⟩
      dsimp only [exchangeRound]
      rw [if_pos ((hact _).mpr hdest), exchange_source _ _ _ hd]
      have : ((r + d + 1) % A + (A - (d + 1))) % A = r := by
        rw [Nat.mod_add_mod, show r + d + 1 + (A - (d + 1)) = r + A by omega, Nat.add_mod_right,
          Nat.mod_eq_of_lt h]
      rw [this]
    · cases hso
  · intro r hr ro hro
    simp only [exchangeRound] at hro
    split at hro
    · rename_i h
      rw [gt_iff_lt, ← gt_iff_lt, hact] at h
      cases hro
      dsimp only
      rw [exchange_source _ _ _ hd]
      have hsrc : (r + (A - (d + 1))) % A < A := Nat.mod_lt _ (by omega)
      have hdest : ((r + (A - (d + 1))) % A + d + 1) % A = r := by
        rw [Nat.add_assoc, Nat.mod_add_mod, show r + (A - (d + 1)) + (d + 1) = r + A by omega,
          Nat.add_mod_right, Nat.mod_eq_of_lt h]
      refine ⟨by omega, ?_⟩
      dsimp only [exchangeRound]
      rw [if_pos ((hact _).mpr hsrc), hdest]
      exact ⟨_, rfl, rfl, rfl⟩
    · cases hro

/-- What an active rank gets in an exchange. -/
def exchMsg (tasksAll : List (List Nat)) (R : Nat → List V) (A : Nat) (r : Nat) (dk : Nat × Nat) :
    IPMsg V K :=
  let q := (r + (A - (dk.1 + 1))) % A
  .cols (pySlice (R q) dk.2 (min (dk.2 + 1) (tasksAll.getD q []).length))
    (pySlice (tasksAll.getD q []) dk.2 (min (dk.2 + 1) (tasksAll.getD q []).length))

theorem takeCols_rowVecs (m n : Nat) (ip : V → V → K) (s : IPState V K) (vs : List V)
    (is : List Nat) : (takeCols m n ip s (.cols vs is)).rowVecs = s.rowVecs := by
  have h := fill_frame m n ip { s with colVecs := vs, colIndices := is }
  simp only [IPState.frame, Prod.mk.injEq] at h
  exact h.1

theorem exchange_exec (p n : Nat) (ip : V → V → K) (tasksAll : List (List Nat)) (R : Nat → List V)
    (A : Nat) (hA : A ≤ p) (hact : ∀ r, (tasksAll.getD r []).length > 0 ↔ r < A)
    (L : List (Nat × Nat)) (hL : ∀ dk ∈ L, dk.1 + 1 ≤ A) :
    ∀ (st : Nat → IPState V K), (∀ q, q < p → (st q).rowVecs = R q) → ∀ r, r < p →
      exec (L.map fun dk => exchangeRound p n ip tasksAll A dk.1 dk.2) st r =
        if r < A then L.foldl (fun s dk => takeCols n n ip s (exchMsg tasksAll R A r dk)) (st r)
        else st r := by
  induction L with
  | nil => intro st _ r _; rw [List.map_nil, exec_nil]; simp
  | cons dk L ih =>
    intro st hst r hr
    have hd := hL dk (by simp)
    have hstep : ∀ q, q < p → (exchangeRound p n ip tasksAll A dk.1 dk.2).step st q =
        if q < A then takeCols n n ip (st q) (exchMsg tasksAll R A q dk) else st q := by
      intro q hq
      by_cases hqa : q < A
      · have h1 := (hact q).mpr hqa
        have hsrc : (q + (A - (dk.1 + 1))) % A < A := Nat.mod_lt _ (by omega)
        have h2 := (hact _).mpr hsrc
        rw [if_pos hqa]
        simp only [Round.step, Round.received]
        have hrecv : (exchangeRound p n ip tasksAll A dk.1 dk.2).recv q =
            some ⟨(q + (A - (dk.1 + 1))) % A, (q + (A - (dk.1 + 1))) % A * (p + 1) + q⟩ := by
          dsimp only [exchangeRound]
          rw [if_pos h1, exchange_source _ _ _ hd]
        rw [hrecv]
        simp only [Option.bind_some]
        dsimp only [exchangeRound]
        rw [if_pos h2]
        simp only [Option.map_some]
        rw [hst _ (by omega)]
        rfl
      · rw [if_neg hqa]
        simp only [Round.step, Round.received]
        have hrecv : (exchangeRound p n ip tasksAll A dk.1 dk.2).recv q = none := by
          dsimp only [exchangeRound]
          rw [if_neg (by rw [hact]; exact hqa)]
        rw [hrecv]
        rfl
    rw [List.map_cons, exec_cons, ih (fun dk h => hL dk (by simp [h])) _ _ r hr, hstep r hr]
    · by_cases hra : r < A
      · simp only [if_pos hra, List.foldl_cons]
      · simp only [if_neg hra]
    · intro q hq
      rw [hstep q hq, ← hst q hq]
      split
      · exact takeCols_rowVecs _ _ _ _ _ _
      · rfl

/-! ### One chunk -/

theorem exec_flatMap_cover {p : Nat} {prog : β → Prog σ μ} (P : Nat → Set X → σ → Prop)
    (A : β → Nat → Set X) (L : List β)
    (h : ∀ b ∈ L, ∀ st r, r < p → ∀ W, P r W (st r) → P r (W ∪ A b r) (exec (prog b) st r)) :
    ∀ st r, r < p → ∀ W, P r W (st r) →
      P r (W ∪ {x | ∃ b ∈ L, x ∈ A b r}) (exec (L.flatMap prog) st r) := by
  induction L with
  | nil => intro st r _ W hP; simpa [exec_nil] using hP
  | cons b L ih =>
    intro st r hr W hP
    have h1 := h b (by simp) st r hr W hP
    have h2 := ih (fun b hb => h b (by simp [hb])) _ r hr _ h1
    rw [List.flatMap_cons, exec_append]
    convert h2 using 1
    ext x
    simp only [List.mem_cons, exists_eq_or_imp, Set.mem_union, Set.mem_ofPred_eq]
    tauto

/-- Number of exchanges for `A` active ranks. -/
abbrev numSets (A : Nat) : Nat := ceilDivNat (A - 1) 2

/-- The entries rank `r` fills for the chunk of rows `f 0 .. E-1`. -/
def chunkSet (f : Nat → Nat) (A E n r : Nat) : Set (Nat × Nat) :=
  {x | f r ≤ x.1 ∧ x.1 < f (r + 1) ∧ ((x.1 ≤ x.2 ∧ x.2 < f (r + 1)) ∨
    (∃ d, d < numSets A ∧ f ((r + (A - (d + 1))) % A) ≤ x.2 ∧
      x.2 < f ((r + (A - (d + 1))) % A + 1)) ∨ (E ≤ x.2 ∧ x.2 < n))}

theorem pyRange_covers (a b c x : Nat) (hc : 1 ≤ c) :
    (∃ s ∈ pyRange a b c, s ≤ x ∧ x < min (s + c) b) ↔ a ≤ x ∧ x < b := by
  unfold pyRange
  constructor
  · rintro ⟨s, hs, h1, h2⟩
    obtain ⟨k, _, rfl⟩ := List.mem_map.mp hs
    omega
  · rintro ⟨h1, h2⟩
    refine ⟨a + (x - a) / c * c, List.mem_map.mpr ⟨(x - a) / c, ?_, rfl⟩, ?_⟩
    · rw [List.mem_range]
      exact div_lt_ceilDivNat hc (by omega)
    · have h3 := Nat.div_add_mod (x - a) c
      have h4 := Nat.mod_lt (x - a) hc
      rw [Nat.mul_comm] at h3
      generalize (x - a) / c * c = y at *
      omega

theorem pyRange_le {a b c s : Nat} (hs : s ∈ pyRange a b c) (hc : 1 ≤ c) : a ≤ s ∧ s < b := by
  unfold pyRange at hs
  obtain ⟨k, hk, rfl⟩ := List.mem_map.mp hs
  rw [List.mem_range] at hk
  unfold ceilDivNat at hk
  have h1 : k * c < (b - a + c - 1) / c * c := Nat.mul_lt_mul_of_pos_right hk hc
  have h2 : (b - a + c - 1) / c * c ≤ b - a + c - 1 := Nat.div_mul_le_self _ _
  have h3 : (k + 1) * c ≤ (b - a + c - 1) / c * c := Nat.mul_le_mul_right _ hk
  rw [Nat.succ_mul] at h3
  exact ⟨Nat.le_add_right _ _, by omega⟩

theorem rectCols_eq (vecs : List V) (ts : List (List Nat)) (g : Nat → Nat) (q : Nat)
    (ht : ts.getD q [] = List.range' (g q) (g (q + 1) - g q)) :
    rectCols (K := K) vecs ts q = .cols (pySlice vecs (lohi g q).1 (lohi g q).2)
      (List.range' (lohi g q).1 ((lohi g q).2 - (lohi g q).1)) := by
  unfold rectCols lohi
  dsimp only
  rw [ht]
  rcases Nat.lt_or_ge (g q) (g (q + 1)) with h | h
  · have h1 : (List.range' (g q) (g (q + 1) - g q)).head? = some (g q) := by
      rw [List.head?_range']; simp; omega
    have h2 : (List.range' (g q) (g (q + 1) - g q)).getLast? = some (g (q + 1) - 1) := by
      rw [List.getLast?_range']; simp; omega
    have h3 : g (q + 1) - 1 + 1 = g (q + 1) := by omega
    rw [if_pos h]
    simp only [h1, h2, h3]
  · rw [if_neg (by omega), show g (q + 1) - g q = 0 by omega]
    simp [pySlice]

theorem lohi_le {g : Nat → Nat} {q n : Nat} (h : g (q + 1) ≤ n) : (lohi g q).2 ≤ n := by
  unfold lohi
  split
  · exact h
  · exact Nat.zero_le _

theorem rectCols_isCols (vecs : List V) (ts : List (List Nat)) (q : Nat) :
    (rectCols (K := K) vecs ts q).IsCols := by
  unfold rectCols
  dsimp only
  split <;> trivial

theorem symmChunk_eq (p n mx : Nat) (ip : V → V → K) (vecs : List V) (S : Nat) :
    let E := min n (S + (mx - 1) * p)
    let ts := rangeTasks p S E
    let A := (ts.filter fun t => t ≠ []).length
    symmChunk p n mx ip vecs S = (localRound (ownTriangle n ip vecs ts) ::
      ((List.range (numSets A)).flatMap fun d => (List.range (maxLen ts)).map fun k => (d, k)).map
        fun dk => exchangeRound p n ip ts A dk.1 dk.2) ++
      (pyRange E n p).flatMap fun C =>
        colPass p n n ip (rectCols vecs (rangeTasks p C (min (C + p) n))) := by
  have h1 : ∀ m, ceilDivNat m 1 = m := fun m => by simp [ceilDivNat]
  simp only [symmChunk, h1, Nat.one_mul, List.map_flatMap, List.map_map, Function.comp_def, numSets]

theorem numSets_lt {A d : Nat} (hd : d < numSets A) : d + 1 ≤ A ∧ d + 2 ≤ A := by
  unfold numSets ceilDivNat at hd
  omega

theorem symmChunk_matched (p n mx : Nat) (hp : 1 ≤ p) (ip : V → V → K) (vecs : List V) (S : Nat) :
    AllMatched p (symmChunk p n mx ip vecs S) := by
  rw [symmChunk_eq]
  obtain ⟨hA, hact⟩ := rangeTasks_active p S (min n (S + (mx - 1) * p)) hp
  rw [hA]
  refine AllMatched.append (AllMatched.cons (localRound_matched _ _) ?_)
    (AllMatched.flatMap fun _ _ => colPass_matched _ _ _ _ _)
  intro R hR
  obtain ⟨⟨d, k⟩, hdk, rfl⟩ := List.mem_map.mp hR
  obtain ⟨d', hd', hdk⟩ := List.mem_flatMap.mp hdk
  obtain ⟨k', _, hdk⟩ := List.mem_map.mp hdk
  cases hdk
  exact exchangeRound_matched _ _ _ _ _ (Nat.min_le_left _ _) hact _ _
    (numSets_lt (List.mem_range.mp hd')).1

section
variable [Zero K] {n : Nat} {ip : V → V → K} {vecs : List V} {F : Nat → Nat → K}

theorem symmChunk_inv (p mx : Nat) (hp : 1 ≤ p) (hn : vecs.length = n)
    (hF : ∀ i c v w, vecs[i]? = some v → vecs[c]? = some w → ip v w = F i c) (S : Nat)
    (hS : S ≤ n) {f : Nat → Nat} (hfp : f p = min n (S + (mx - 1) * p)) (hfm : Monotone f)
    (hft : ∀ r, r < p → (rangeTasks p S (min n (S + (mx - 1) * p))).getD r [] =
      List.range' (f r) (f (r + 1) - f r)) (st : Nat → IPState V K) (r : Nat) (hr : r < p)
    (W : Set (Nat × Nat)) (hW : ArrInv F W (st r)) :
    ArrInv F (W ∪ chunkSet f (min p (min n (S + (mx - 1) * p) - S)) (min n (S + (mx - 1) * p)) n r)
      (exec (symmChunk p n mx ip vecs S) st r) := by
  rw [symmChunk_eq]
  obtain ⟨hA, hact⟩ := rangeTasks_active p S (min n (S + (mx - 1) * p)) hp
  rw [hA]
  generalize hE : min n (S + (mx - 1) * p) = E at *
  have hEn : E ≤ n := by omega
  have hfle : ∀ q, q ≤ p → f q ≤ n := fun q hq => le_trans (hfm hq) (by omega)
  generalize rangeTasks p S E = ts at *
  generalize hAA : min p (E - S) = A at *
  have hAp : A ≤ p := by omega
  have hlen : ∀ q, q < p → (ts.getD q []).length = f (q + 1) - f q := by
    intro q hq; rw [hft q hq, List.length_range']
  have hblk : ∀ q, q < p → (f q < f (q + 1) ↔ q < A) := by
    intro q hq; rw [← hact, hlen q hq]; omega
  rw [List.cons_append, exec_cons, exec_append]
  generalize hL : ((List.range (numSets A)).flatMap fun d =>
    (List.range (maxLen ts)).map fun k => (d, k)) = L
  have hLmem : ∀ dk, dk ∈ L ↔ dk.1 < numSets A ∧ dk.2 < maxLen ts := by
    rintro ⟨d, k⟩
    rw [← hL]
    simp
  have hL1 : ∀ dk ∈ L, dk.1 + 1 ≤ A := fun dk h => (numSets_lt ((hLmem dk).mp h).1).1
  -- own triangle
  have h0 : ∀ q, q < p → RowsAt vecs (lohi f q).1 (lohi f q).2
      ((localRound (ownTriangle n ip vecs ts) : Round (IPState V K) (IPMsg V K)).step st q) := by
    intro q hq
    rw [localRound_step]
    exact ownTriangle_rows _ _ _ (hft q hq) _
  have h1 : ArrInv F (W ∪ {x | f r ≤ x.1 ∧ x.1 ≤ x.2 ∧ x.2 < f (r + 1)})
      ((localRound (ownTriangle n ip vecs ts) : Round (IPState V K) (IPMsg V K)).step st r) := by
    rw [localRound_step]
    exact ownTriangle_inv (n := n) hn hF ts f r (hfle _ (by omega)) (hft r hr) hW
  have h1' := h0 r hr
  generalize (localRound (ownTriangle n ip vecs ts) : Round (IPState V K) (IPMsg V K)).step st = st1
    at *
  -- exchanges
  have h2 : RowsAt vecs (lohi f r).1 (lohi f r).2
        (exec (L.map fun dk => exchangeRound p n ip ts A dk.1 dk.2) st1 r) ∧
      ArrInv F ((W ∪ {x | f r ≤ x.1 ∧ x.1 ≤ x.2 ∧ x.2 < f (r + 1)}) ∪
        {x | f r ≤ x.1 ∧ x.1 < f (r + 1) ∧ ∃ d, d < numSets A ∧ f ((r + (A - (d + 1))) % A) ≤ x.2 ∧
          x.2 < f ((r + (A - (d + 1))) % A + 1)})
        (exec (L.map fun dk => exchangeRound p n ip ts A dk.1 dk.2) st1 r) := by
    rw [exchange_exec p n ip ts (fun q => pySlice vecs (lohi f q).1 (lohi f q).2) A hAp hact L hL1
      st1 (fun q hq => (h0 q hq).2.2) r hr]
    by_cases hrA : r < A
    · rw [if_pos hrA]
      have := foldl_cover (fun s dk => takeCols n n ip s (exchMsg ts
          (fun q => pySlice vecs (lohi f q).1 (lohi f q).2) A r dk))
        (fun W s => RowsAt vecs (lohi f r).1 (lohi f r).2 s ∧ ArrInv F W s)
        (fun dk => {x | (lohi f r).1 ≤ x.1 ∧ x.1 < (lohi f r).2 ∧
          x.2 ∈ pySlice (ts.getD ((r + (A - (dk.1 + 1))) % A) []) dk.2
            (min (dk.2 + 1) (ts.getD ((r + (A - (dk.1 + 1))) % A) []).length)}) L ?_ _ _ ⟨h1', h1⟩
      · convert this using 2
        congr 1
        ext x
        simp only [Set.mem_ofPred_eq]
        constructor
        · rintro ⟨h3, h4, d, hd, h5, h6⟩
          have h7 := (lohi_mem f r x.1).mpr ⟨h3, h4⟩
          have hqp : (r + (A - (d + 1))) % A < p :=
            lt_of_lt_of_le (Nat.mod_lt _ (by omega)) hAp
          refine ⟨(d, x.2 - f ((r + (A - (d + 1))) % A)), (hLmem _).mpr ⟨hd, ?_⟩, h7.1, h7.2, ?_⟩ <;>
            dsimp only <;> generalize (r + (A - (d + 1))) % A = q at *
          · have h8 := length_le_maxLen (ls := ts) (r := q)
            have := hlen q hqp
            omega
          · refine List.mem_of_getElem? (i := 0) ?_
            have := hlen q hqp
            rw [pySlice_getElem? _ _ _ _ (by omega), hft q hqp, Nat.add_zero,
              List.getElem?_range' (by omega)]
            congr 1
            omega
        · rintro ⟨⟨d, k⟩, hdk, h3, h4, h5⟩
          have h7 := (lohi_mem f r x.1).mp ⟨h3, h4⟩
          have hd := ((hLmem _).mp hdk).1
          have hqp : (r + (A - (d + 1))) % A < p :=
            lt_of_lt_of_le (Nat.mod_lt _ (by omega)) hAp
          refine ⟨h7.1, h7.2, d, hd, ?_⟩
          dsimp only at h5
          generalize (r + (A - (d + 1))) % A = q at *
          obtain ⟨j, hj⟩ := List.mem_iff_getElem?.mp h5
          have h6 := List.mem_of_getElem? (pySlice_mem_getElem? _ _ _ _ _ hj).2
          rw [hft q hqp, List.mem_range'_1] at h6
          omega
      · rintro ⟨d, k⟩ hdk W s hP
        have hd := hL1 _ hdk
        have hqA : (r + (A - (d + 1))) % A < A := Nat.mod_lt _ (by omega)
        refine takeCols_inv hn hn hF (lohi_le (hfle _ (by omega))) ?_ hP
        refine colsOk_pySlice ?_ _ _
        dsimp only
        generalize (r + (A - (d + 1))) % A = q at *
        rw [hft q (by omega)]
        have hlt := (hblk q (by omega)).mpr hqA
        have : lohi f q = (f q, f (q + 1)) := by unfold lohi; rw [if_pos hlt]
        rw [this]
        exact colsOk_slice _ _ _ (by rw [hn]; exact hfle _ (by omega))
    · rw [if_neg hrA]
      have hemp : {x : Nat × Nat | f r ≤ x.1 ∧ x.1 < f (r + 1) ∧ ∃ d, d < numSets A ∧
          f ((r + (A - (d + 1))) % A) ≤ x.2 ∧ x.2 < f ((r + (A - (d + 1))) % A + 1)} = ∅ := by
        ext x
        simp only [Set.mem_ofPred_eq, Set.mem_empty_iff_false, iff_false]
        rintro ⟨h3, h4, -⟩
        exact hrA ((hblk r hr).mp (by omega))
      rw [hemp, Set.union_empty]
      exact ⟨h1', h1⟩
  generalize exec (L.map fun dk => exchangeRound p n ip ts A dk.1 dk.2) st1 = st2 at *
  -- rectangle
  have hloc : exec ((pyRange E n p).flatMap fun C =>
      colPass p n n ip (rectCols vecs (rangeTasks p C (min (C + p) n)))) st2 r = _ :=
    LocalOn.flatMap _ (fun C _ => colPass_local p n n ip _ (fun q => rectCols_isCols _ _ _)) _ r hr
  rw [hloc]
  have := foldl_cover (fun (s : IPState V K) C => (List.range p).foldl (fun s t =>
      takeCols n n ip s (rectCols vecs (rangeTasks p C (min (C + p) n)) ((r + (p - 1) * t) % p))) s)
    (fun W s => RowsAt vecs (lohi f r).1 (lohi f r).2 s ∧ ArrInv F W s)
    (fun C => {x | f r ≤ x.1 ∧ x.1 < f (r + 1) ∧ C ≤ x.2 ∧ x.2 < min (C + p) n})
    (pyRange E n p) ?_ _ _ h2
  · convert this.2 using 1
    rw [Set.union_assoc, Set.union_assoc]
    congr 1
    ext x
    have hcov := pyRange_covers E n p x.2 hp
    simp only [chunkSet, Set.mem_union, Set.mem_ofPred_eq]
    constructor
    · rintro ⟨h3, h4, (⟨h5, h6⟩ | h5 | h5)⟩
      · exact Or.inl ⟨h3, h5, h6⟩
      · exact Or.inr (Or.inl ⟨h3, h4, h5⟩)
      · obtain ⟨C, hC, h6, h7⟩ := hcov.mpr h5
        exact Or.inr (Or.inr ⟨C, hC, h3, h4, h6, h7⟩)
    · rintro (⟨h3, h4, h5⟩ | ⟨h3, h4, h5⟩ | ⟨C, hC, h3, h4, h5, h6⟩)
      · exact ⟨h3, by omega, Or.inl ⟨h4, h5⟩⟩
      · exact ⟨h3, h4, Or.inr (Or.inl h5)⟩
      · exact ⟨h3, h4, Or.inr (Or.inr (hcov.mp ⟨C, hC, h5, h6⟩))⟩
  · intro C hC W s hP
    have hCn := pyRange_le hC hp
    obtain ⟨g, hg0, hgp, hgm, hgt⟩ := rangeTasks_blocks p C (min (C + p) n) hp (by omega)
    have hgle : ∀ q, q < p → g (q + 1) ≤ n := fun q hq => le_trans (hgm hq) (by omega)
    have hcp := colPass_inv (p := p) (own := fun q => if q < p then rectCols vecs
          (rangeTasks p C (min (C + p) n)) q else .cols [] []) (vs := fun q => if q < p then
            pySlice vecs (lohi g q).1 (lohi g q).2 else []) (is := fun q => if q < p then
            List.range' (lohi g q).1 ((lohi g q).2 - (lohi g q).1) else []) hn hn hF ?_ ?_
        (lohi_le (hfle _ (by omega))) hr hP
    · have hif : ∀ t, (r + (p - 1) * t) % p < p := fun t => Nat.mod_lt _ (by omega)
      simp only [if_pos (hif _)] at hcp
      convert hcp using 2
      congr 1
      ext x
      simp only [Set.mem_ofPred_eq]
      rw [← and_assoc, ← lohi_mem f r x.1, and_assoc]
      refine and_congr_right fun _ => and_congr_right fun _ => ?_
      constructor
      · rintro ⟨h3, h4⟩
        obtain ⟨q, hq, h5, h6⟩ := exists_block hg0 hgp h3 h4
        have := (lohi_mem g q x.2).mpr ⟨h5, h6⟩
        refine ⟨q, hq, ?_⟩
        rw [if_pos hq, List.mem_range'_1]
        omega
      · rintro ⟨q, hq, h3⟩
        rw [if_pos hq, List.mem_range'_1] at h3
        have := (lohi_mem g q x.2).mp (by omega)
        have h4 := hgm (Nat.zero_le q)
        have h5 := hgm (show q + 1 ≤ p from hq)
        omega
    · intro q
      split
      · rename_i hq
        exact rectCols_eq _ _ _ _ (hgt q hq)
      · rfl
    · intro q hq
      rw [if_pos hq, if_pos hq]
      exact colsOk_slice _ _ _ (by rw [hn]; exact lohi_le (hgle q hq))

end

/-! ### The whole program -/

theorem symmProg_matched [Add K] (p tag mx : Nat) (hp : 1 ≤ p) (ip : V → V → K) (vecs : List V) :
    AllMatched p (symmProg p tag mx ip vecs) := by
  unfold symmProg
  exact AllMatched.append (AllMatched.flatMap fun _ _ => symmChunk_matched _ _ _ hp _ _ _)
    (allreduceArr_matched p tag)

theorem ceil_half {A : Nat} (hA : 1 ≤ A) : numSets A = A / 2 := by
  unfold numSets ceilDivNat
  congr 1
  omega

/-- After the sum over the ranks each entry is either right or zero, and of two mirrored entries at
least one is right. -/
theorem symmProg_exec [AddZeroClass K] (p tag mx : Nat) (hp : 1 ≤ p) (hmx : 2 ≤ mx)
    (ip : V → V → K) (vecs : List V) {F : Nat → Nat → K}
    (hF : ∀ i c v w, vecs[i]? = some v → vecs[c]? = some w → ip v w = F i c) (r : Nat)
    (hr : r < p) :
    let s := exec (symmProg p tag mx ip vecs) ipInit r
    s.err = false ∧ (∀ i j, s.arr i j = F i j ∨ s.arr i j = 0) ∧
      ∀ i j, i ≤ j → j < vecs.length → s.arr i j = F i j ∨ (i < j ∧ s.arr j i = F j i) := by
  generalize hn : vecs.length = n
  have hc : 1 ≤ (mx - 1) * p := Nat.mul_pos (by omega) hp
  have hex : ∀ S, ∃ f : Nat → Nat, S ≤ n → f 0 = S ∧ f p = min n (S + (mx - 1) * p) ∧ Monotone f ∧
      ∀ r, r < p → (rangeTasks p S (min n (S + (mx - 1) * p))).getD r [] =
        List.range' (f r) (f (r + 1) - f r) := by
    intro S
    by_cases hS : S ≤ n
    · obtain ⟨f, hf⟩ := rangeTasks_blocks p S (min n (S + (mx - 1) * p)) hp (by omega)
      exact ⟨f, fun _ => hf⟩
    · exact ⟨id, fun h => absurd h hS⟩
  choose f hf using hex
  let W : Nat → Set (Nat × Nat) := fun r => {x | ∃ S ∈ pyRange 0 n ((mx - 1) * p), x ∈
    chunkSet (f S) (min p (min n (S + (mx - 1) * p) - S)) (min n (S + (mx - 1) * p)) n r}
  have hall : ∀ r, r < p → ArrInv F (W r) (exec ((pyRange 0 n ((mx - 1) * p)).flatMap fun S =>
      symmChunk p n mx ip vecs S) ipInit r) := by
    intro r hr
    have := exec_flatMap_cover (p := p) (prog := fun S => symmChunk p n mx ip vecs S)
      (fun _ W s => ArrInv F W s) (fun S r => chunkSet (f S) (min p (min n (S + (mx - 1) * p) - S))
        (min n (S + (mx - 1) * p)) n r) (pyRange 0 n ((mx - 1) * p)) ?_ ipInit r hr ∅
      ⟨rfl, fun _ _ h => absurd h (Set.notMem_empty _), fun _ _ _ => rfl⟩
    · rw [Set.empty_union] at this
      exact this
    · intro S hS st r hr W hW
      have hSn : S ≤ n := (pyRange_le hS hc).2.le
      exact symmChunk_inv p mx hp hn hF S hSn (hf S hSn).2.1 (hf S hSn).2.2.1 (hf S hSn).2.2.2 st r
        hr W hW
  have huniq : ∀ i j r r', r < p → r' < p → (i, j) ∈ W r → (i, j) ∈ W r' → r = r' := by
    rintro i j r r' hr hr' ⟨S, hS, h1, h2, -⟩ ⟨S', hS', h3, h4, -⟩
    dsimp only at h1 h2 h3 h4
    have hSn : S ≤ n := (pyRange_le hS hc).2.le
    have hSn' : S' ≤ n := (pyRange_le hS' hc).2.le
    obtain ⟨k, _, rfl⟩ := List.mem_map.mp hS
    obtain ⟨k', _, rfl⟩ := List.mem_map.mp hS'
    have e : ∀ k r, r < p → 0 + k * ((mx - 1) * p) ≤ n →
        f (0 + k * ((mx - 1) * p)) r ≤ i → i < f (0 + k * ((mx - 1) * p)) (r + 1) →
        k = i / ((mx - 1) * p) := by
      intro k r hr hkn h1 h2
      have hk := hf _ hkn
      have h5 := hk.2.2.1 (Nat.zero_le r)
      have h6 := hk.2.2.1 (show r + 1 ≤ p from hr)
      symm
      apply Nat.div_eq_of_lt_le
      · omega
      · rw [Nat.succ_mul]; omega
    have hk := e k r hr hSn h1 h2
    have hk' := e k' r' hr' hSn' h3 h4
    rw [← hk'] at hk
    subst hk
    exact block_unique (hf _ hSn).2.2.1 h1 h2 h3 h4
  have hcov : ∀ i j, i ≤ j → j < n →
      (∃ r, r < p ∧ (i, j) ∈ W r) ∨ (i < j ∧ ∃ r, r < p ∧ (j, i) ∈ W r) := by
    intro i j hij hjn
    obtain ⟨S, hS, h1, h2⟩ := (pyRange_covers 0 n _ i hc).mpr ⟨Nat.zero_le _, by omega⟩
    have hSn : S ≤ n := (pyRange_le hS hc).2.le
    obtain ⟨hf0, hfp, hfm, hft⟩ := hf S hSn
    generalize hE : min n (S + (mx - 1) * p) = E at *
    have hact := (rangeTasks_active p S E hp).2
    generalize hAA : min p (E - S) = A at *
    have hblk : ∀ q, q < p → f S q < f S (q + 1) → q < A := by
      intro q hq h; rw [← hact, hft q hq, List.length_range']; omega
    obtain ⟨a, ha, h3, h4⟩ := exists_block hf0 hfp h1 (by omega)
    have hmem : ∀ r x, r < p → x ∈ chunkSet (f S) A E n r → x ∈ W r := by
      intro r x hr hx
      exact ⟨S, hS, by rw [hE, hAA]; exact hx⟩
    rcases Nat.lt_or_ge j E with hjE | hjE
    · obtain ⟨b, hb, h5, h6⟩ := exists_block hf0 hfp (show S ≤ j by omega) hjE
      have hab : a ≤ b := by
        by_contra h
        have := hfm (show b + 1 ≤ a by omega)
        omega
      rcases Nat.eq_or_lt_of_le hab with rfl | hlt
      · exact Or.inl ⟨a, ha, hmem _ _ ha ⟨h3, h4, Or.inl ⟨hij, h6⟩⟩⟩
      · have hbA := hblk b hb (by omega)
        have hij' : i < j := by
          rcases Nat.eq_or_lt_of_le hij with h | h
          · exfalso
            subst h
            have := block_unique hfm h3 h4 h5 h6
            omega
          · exact h
        have hsets : numSets A = A / 2 := ceil_half (by omega)
        rcases Nat.lt_or_ge (numSets A) (b - a) with hd | hd
        · refine Or.inl ⟨a, ha, hmem _ _ ha ⟨h3, h4, Or.inr (Or.inl ⟨A - (b - a) - 1, by omega, ?_⟩)⟩⟩
          have : (a + (A - (A - (b - a) - 1 + 1))) % A = b := by
            rw [show a + (A - (A - (b - a) - 1 + 1)) = b by omega, Nat.mod_eq_of_lt hbA]
          rw [this]
          exact ⟨h5, h6⟩
        · refine Or.inr ⟨hij', b, hb, hmem _ _ hb ⟨h5, h6, Or.inr (Or.inl ⟨b - a - 1, by omega, ?_⟩)⟩⟩
          have : (b + (A - (b - a - 1 + 1))) % A = a := by
            rw [show b + (A - (b - a - 1 + 1)) = a + A by omega, Nat.add_mod_right,
              Nat.mod_eq_of_lt (by omega)]
          rw [this]
          exact ⟨h3, h4⟩
    · exact Or.inl ⟨a, ha, hmem _ _ ha ⟨h3, h4, Or.inr (Or.inr ⟨hjE, hjn⟩)⟩⟩
  unfold symmProg
  dsimp only
  rw [hn, exec_append]
  obtain ⟨he, hen⟩ := allreduceArr_inv p tag hall huniq r hr
  have hon := fun i j => (hen i j).1
  have hoff := fun i j => (hen i j).2
  refine ⟨?_, fun i j => ?_, fun i j hij hj => ?_⟩
  · rw [he]; exact (hall r hr).err
  · by_cases h : ∃ r, r < p ∧ (i, j) ∈ W r
    · exact Or.inl (hon i j h)
    · exact Or.inr (hoff i j h)
  · rcases hcov i j hij hj with h | ⟨h, h'⟩
    · exact Or.inl (hon i j h)
    · exact Or.inr ⟨h, hon j i h'⟩

/-- Mirroring gives the right entries. -/
theorem symmetrize_eq [BareArith K] [DecidableEq K] {M F : Nat → Nat → K} {n : Nat}
    (h1 : ∀ i j, M i j = F i j ∨ M i j = 0)
    (h2 : ∀ i j, i ≤ j → j < n → M i j = F i j ∨ (i < j ∧ M j i = F j i))
    (hF : ∀ i j, i < n → j < n → F j i = star (F i j)) (i j : Nat) (hi : i < n) (hj : j < n) :
    symmetrize M i j = F i j := by
  have star_zero : star (0 : K) = 0 := BareArith.star_zero'
  have hup : ∀ i j, i < j → j < n → M i j + star (M j i) *
      (if M i j = 0 ∧ star (M j i) ≠ 0 then (1 : K) else 0) = F i j := by
    intro i j hij hj
    have hstar := hF j i (by omega) (by omega)
    by_cases h0 : M i j = 0
    · have : star (M j i) * (if M i j = 0 ∧ star (M j i) ≠ 0 then (1 : K) else 0) =
          star (M j i) := by
        by_cases h3 : star (M j i) = 0
        · simp [h3]
        · simp [h0, h3]
      rw [this, h0, zero_add]
      rcases h2 i j hij.le hj with h | ⟨-, h⟩
      · rw [h] at h0
        rcases h1 j i with h' | h'
        · rw [h', ← hstar]
        · rw [h', star_zero, h0]
      · rw [h, ← hstar]
    · have : ¬ (M i j = 0 ∧ star (M j i) ≠ 0) := fun h => h0 h.1
      rw [if_neg this, mul_zero, add_zero]
      rcases h1 i j with h | h
      · exact h
      · exact absurd h h0
  unfold symmetrize
  dsimp only
  rcases Nat.lt_trichotomy i j with h | h | h
  · rw [if_pos (show i + 0 ≤ j by omega), if_pos (show i + 1 ≤ j by omega),
      if_neg (show ¬ j + 1 ≤ i by omega), star_zero, add_zero]
    exact hup i j h hj
  · subst h
    simp only [le_refl, if_true, if_neg (show ¬ i + 1 ≤ i by omega), star_zero,
      zero_mul, add_zero]
    rcases h2 i i (le_refl _) hi with h | h
    · exact h
    · omega
  · rw [if_neg (show ¬ i + 0 ≤ j by omega), if_pos (show j + 1 ≤ i by omega),
      if_pos (show j + 1 ≤ i by omega), zero_add, hup j i h hi, ← hF j i hj hi]

end Modred
