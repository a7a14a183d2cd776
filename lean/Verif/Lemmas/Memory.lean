import Verif.Spec.Spmd
import Verif.Lemmas.SymmInner
import Verif.Lemmas.LinCombine

/-!
# Bounds that hold at every moment
-/

namespace Modred

variable {σ μ τ ν V K : Type*}

/-- The round keeps `Q` of local states, given that messages have `M`, and its messages have `M`. -/
structure Round.Keeps (R : Round σ μ) (Q : σ → Prop) (M : μ → Prop) : Prop where
  send_ok : ∀ r so s, R.send r = some so → Q s → M (so.msg s)
  upd_ok : ∀ r s m, Q s → (∀ x, m = some x → M x) → Q (R.upd r s m)

theorem always_of_keeps {p : Nat} {prog : Prog σ μ} {st : Nat → σ} {Q : σ → Prop} {M : μ → Prop}
    (h : ∀ R ∈ prog, R.Keeps Q M) (hst : ∀ r, Q (st r)) : Always p prog st Q M := by
  intro sync n s hrun
  generalize hs0 : Sys.start st = s0 at hrun
  induction hrun with
  | refl s => subst hs0; exact ⟨hst, by simp [Sys.start]⟩
  | tail hrun hstep ih =>
    obtain ⟨hQ, hM⟩ := ih hs0
    cases hstep with
    | sendNone r k R hr hk hpc hs => exact ⟨hQ, hM⟩
    | sendSome r k R so hr hk hpc hs =>
      refine ⟨hQ, ?_⟩
      intro a b t m hm
      dsimp only [setBox] at hm
      split at hm
      · rcases List.mem_append.mp hm with hm | hm
        · exact hM _ _ _ m hm
        · rw [List.mem_singleton] at hm
          subst hm
          exact (h R (List.mem_of_getElem? hk)).send_ok r so _ hs (hQ r)
      · exact hM _ _ _ m hm
    | recvNone r k R hr hk hpc hs =>
      refine ⟨?_, hM⟩
      intro q
      dsimp only
      by_cases hq : q = r
      · subst hq
        rw [Function.update_self]
        exact (h R (List.mem_of_getElem? hk)).upd_ok q _ none (hQ q) (by simp)
      · rw [Function.update_of_ne hq]; exact hQ q
    | recvSome r k R ro m rest hr hk hpc hs hm =>
      refine ⟨?_, ?_⟩
      · intro q
        dsimp only
        by_cases hq : q = r
        · subst hq
          rw [Function.update_self]
          refine (h R (List.mem_of_getElem? hk)).upd_ok q _ (some m) (hQ q) ?_
          rintro x ⟨⟩
          exact hM ro.src q ro.tag m (by rw [hm]; simp)
        · rw [Function.update_of_ne hq]; exact hQ q
      · intro a b t m' hm'
        dsimp only [setBox] at hm'
        split at hm'
        · exact hM ro.src r ro.tag m' (by rw [hm]; exact List.mem_cons_of_mem _ hm')
        · exact hM _ _ _ m' hm'
    | wait r k R hr hk hpc hw => exact ⟨hQ, hM⟩
    | barrier r k R hr hk hpc hb => exact ⟨hQ, hM⟩

theorem localRound_keeps {f : Nat → σ → σ} {Q : σ → Prop} {M : μ → Prop}
    (h : ∀ r s, Q s → Q (f r s)) : (localRound f : Round σ μ).Keeps Q M where
  send_ok r so s hs _ := by simp [localRound] at hs
  upd_ok r s m hs _ := h r s hs

theorem ringRound_keeps {p : Nat} {pack : σ → μ} {upd : Nat → σ → μ → σ} {Q : σ → Prop}
    {M : μ → Prop} (h1 : ∀ s, Q s → M (pack s)) (h2 : ∀ r s m, Q s → M m → Q (upd r s m)) :
    (ringRound p pack upd).Keeps Q M where
  send_ok r so s hs hq := by
    simp only [ringRound, Option.some.injEq] at hs
    subst hs
    exact h1 s hq
  upd_ok r s m hq hm := by
    cases m with
    | none => exact hq
    | some m => exact h2 r s m hq (hm m rfl)

theorem pySlice_length_le (l : List V) (a b : Nat) : (pySlice l a b).length ≤ b - a := by
  unfold pySlice
  rw [List.length_take]
  omega

theorem chunkBounds_sub_le (tasks : List Nat) (i c : Nat) :
    (chunkBounds tasks i c).2 - (chunkBounds tasks i c).1 ≤ c := by
  unfold chunkBounds
  split
  · dsimp only; omega
  · simp

/-! ### Inner products -/

/-- At most `m` row vectors and one column vector. -/
def IPHeld (m : Nat) (s : IPState V K) : Prop := s.rowVecs.length ≤ m ∧ s.colVecs.length ≤ 1

/-- At most one vector. -/
def IPMsgSmall : IPMsg V K → Prop
  | .cols vecs _ => vecs.length ≤ 1
  | .arr _ => True

theorem takeCols_held {m a b : Nat} {ip : V → V → K} {s : IPState V K} {x : IPMsg V K}
    (hs : IPHeld m s) (hx : IPMsgSmall x) : IPHeld m (takeCols a b ip s x) := by
  cases x with
  | arr _ => exact hs
  | cols vs is =>
    have h := fill_frame a b ip { s with colVecs := vs, colIndices := is }
    simp only [IPState.frame, Prod.mk.injEq] at h
    unfold takeCols IPHeld
    dsimp only
    rw [h.1, h.2.2.2.1]
    exact ⟨hs.1, hx⟩

theorem colPass_keeps {p m a b : Nat} {ip : V → V → K} {own : Nat → IPMsg V K}
    (hown : ∀ r, IPMsgSmall (own r)) :
    ∀ R ∈ colPass p a b ip own, R.Keeps (IPHeld m) IPMsgSmall := by
  intro R hR
  rcases List.mem_cons.mp hR with rfl | hR
  · exact localRound_keeps fun r s hs => takeCols_held hs (hown r)
  · rw [List.eq_of_mem_replicate hR]
    exact ringRound_keeps (fun s hs => hs.2) fun r s x hs hx => takeCols_held hs hx

theorem allreduceArr_keeps [Add K] {p tag m : Nat} :
    ∀ R ∈ (allreduceArr p tag : Prog (IPState V K) (IPMsg V K)), R.Keeps (IPHeld m) IPMsgSmall := by
  intro R hR
  unfold allreduceArr at hR
  split at hR
  · obtain ⟨R', _, rfl⟩ := List.mem_map.mp hR
    constructor
    · intro r so s hs _
      simp only [Round.embed, Option.map_eq_some_iff] at hs
      obtain ⟨so', _, rfl⟩ := hs
      trivial
    · intro r s x hs _
      exact hs
  · simp at hR

theorem ipProg_keeps [Add K] (p tag mx : Nat) (ip : V → V → K) (rows cols : List V) :
    ∀ R ∈ ipProg p tag mx ip rows cols, R.Keeps (IPHeld (mx - 1)) IPMsgSmall := by
  intro R hR
  unfold ipProg at hR
  dsimp only at hR
  rcases List.mem_append.mp hR with hR | hR
  · obtain ⟨i, _, hR⟩ := List.mem_flatMap.mp hR
    rcases List.mem_cons.mp hR with rfl | hR
    · refine localRound_keeps fun r s hs => ⟨?_, hs.2⟩
      exact (pySlice_length_le _ _ _).trans (chunkBounds_sub_le _ _ _)
    · obtain ⟨j, _, hR⟩ := List.mem_flatMap.mp hR
      exact colPass_keeps (fun r => (pySlice_length_le _ _ _).trans (chunkBounds_sub_le _ _ _)) R hR
  · exact allreduceArr_keeps R hR

/-! ### Symmetric inner products -/

theorem rangeTasks_getD_le (p a b r : Nat) (hp : 1 ≤ p) :
    ((rangeTasks p a b).getD r []).length ≤ (b - a + (p - 1)) / p := by
  rcases Nat.lt_or_ge r p with hr | hr
  · have h := C02_default_assignment_balanced (K := ℚ) p hp (List.range' a (b - a))
    have hl := rangeTasks_length p a b
    rw [List.getD, List.getElem?_eq_getElem (by omega), Option.getD_some]
    have := (h _ (List.getElem_mem (by rw [← hl] at hr; exact hr))).2
    rw [List.length_range'] at this
    exact this
  · rw [List.getD, List.getElem?_eq_none (by rw [rangeTasks_length]; exact hr)]
    simp

/-- The slice from the first to the last task has as many entries as there are tasks. -/
theorem slice_of_tasks_le (vecs : List V) (p a b r : Nat) (hp : 1 ≤ p) (hab : a ≤ b)
    {first last : Nat} (h1 : ((rangeTasks p a b).getD r []).head? = some first)
    (h2 : ((rangeTasks p a b).getD r []).getLast? = some last) :
    (pySlice vecs first (last + 1)).length ≤ (b - a + (p - 1)) / p := by
  refine le_trans ?_ (rangeTasks_getD_le p a b r hp)
  refine (pySlice_length_le _ _ _).trans ?_
  rcases Nat.lt_or_ge r p with hr | hr
  · obtain ⟨f, _, _, _, hf⟩ := rangeTasks_blocks p a b hp hab
    rw [hf r hr] at h1 h2 ⊢
    rw [List.head?_range'] at h1
    rw [List.getLast?_range'] at h2
    rw [List.length_range']
    split at h1 <;> simp_all
    omega
  · rw [List.getD, List.getElem?_eq_none (by rw [rangeTasks_length]; exact hr)] at h1
    simp at h1

theorem held_of_frame {m : Nat} {s s' : IPState V K} (h : s'.frame = s.frame) (hs : IPHeld m s) :
    IPHeld m s' := by
  simp only [IPState.frame, Prod.mk.injEq] at h
  unfold IPHeld
  rw [h.1, h.2.2.2.1]
  exact hs

theorem ownTriangle_held {n m : Nat} {ip : V → V → K} {vecs : List V} {tasksAll : List (List Nat)}
    {r : Nat} {s : IPState V K} (hs : IPHeld m s)
    (h : ∀ first last, (tasksAll.getD r []).head? = some first →
      (tasksAll.getD r []).getLast? = some last → (pySlice vecs first (last + 1)).length ≤ m) :
    IPHeld m (ownTriangle n ip vecs tasksAll r s) := by
  unfold ownTriangle
  dsimp only
  split
  · rename_i first last h1 h2
    have hb := h first last h1 h2
    split
    · exact ⟨hb, hs.2⟩
    · refine held_of_frame (foldl_frame (fun s i => ?_) _ _) ⟨hb, hs.2⟩
      refine (foldl_frame (fun s j => ?_) _ _).trans ?_
      · split
        · exact write_frame ..
        · rfl
      · split
        · exact write_frame ..
        · rfl
  · exact ⟨Nat.zero_le _, hs.2⟩

theorem symmProg_keeps [Add K] (p tag mx : Nat) (hp : 1 ≤ p) (ip : V → V → K) (vecs : List V) :
    ∀ R ∈ symmProg p tag mx ip vecs, R.Keeps (IPHeld (mx - 1)) IPMsgSmall := by
  intro R hR
  unfold symmProg at hR
  rcases List.mem_append.mp hR with hR | hR
  · obtain ⟨start, hstart, hR⟩ := List.mem_flatMap.mp hR
    have hlt : start ≤ vecs.length := by
      unfold pyRange at hstart
      obtain ⟨k, hk, rfl⟩ := List.mem_map.mp hstart
      rw [List.mem_range] at hk
      rw [Nat.zero_add]
      unfold ceilDivNat at hk
      generalize (mx - 1) * p = c at hk ⊢
      rcases Nat.eq_zero_or_pos c with rfl | hc
      · simp
      · have h1 := (Nat.lt_div_iff_mul_lt hc).mp hk
        omega
    unfold symmChunk at hR
    dsimp only at hR
    rcases List.mem_append.mp hR with hR | hR
    · rcases List.mem_cons.mp hR with rfl | hR
      · refine localRound_keeps fun r s hs => ownTriangle_held hs fun first last h1 h2 => ?_
        refine (slice_of_tasks_le vecs p _ _ r hp (by omega) h1 h2).trans ?_
        have : (min vecs.length (start + (mx - 1) * p) - start + (p - 1)) / p ≤
            (p * (mx - 1) + (p - 1)) / p := Nat.div_le_div_right (by rw [Nat.mul_comm p]; omega)
        refine this.trans ?_
        rw [Nat.mul_add_div hp, Nat.div_eq_of_lt (by omega : p - 1 < p), Nat.add_zero]
      · obtain ⟨si, _, hR⟩ := List.mem_flatMap.mp hR
        obtain ⟨k, _, rfl⟩ := List.mem_map.mp hR
        constructor
        · intro r so s hs _
          unfold exchangeRound at hs
          dsimp only at hs
          split at hs
          · cases hs
            exact (pySlice_length_le _ _ _).trans (by omega)
          · cases hs
        · intro r s x hs hx
          cases x with
          | none => exact hs
          | some x => exact takeCols_held hs (hx x rfl)
    · obtain ⟨sc, hsc, hR⟩ := List.mem_flatMap.mp hR
      have hle : sc ≤ vecs.length := by
        unfold pyRange at hsc
        obtain ⟨k, hk, rfl⟩ := List.mem_map.mp hsc
        rw [List.mem_range] at hk
        unfold ceilDivNat at hk
        have h1 := (Nat.lt_div_iff_mul_lt (by omega : 0 < 1 * p)).mp hk
        omega
      refine colPass_keeps (fun r => ?_) R hR
      unfold rectCols
      dsimp only
      split
      · rename_i first last h1 h2
        refine (slice_of_tasks_le vecs p _ _ r hp (by omega) h1 h2).trans ?_
        have : (min (sc + 1 * p) vecs.length - sc + (p - 1)) / p ≤ (p * 1 + (p - 1)) / p :=
          Nat.div_le_div_right (by omega)
        refine this.trans ?_
        rw [Nat.mul_add_div hp, Nat.div_eq_of_lt (by omega : p - 1 < p), Nat.add_zero]
      · exact Nat.zero_le _
  · exact allreduceArr_keeps R hR

/-! ### Linear combinations -/

/-- At most `m` layers of sums and one basis vector. -/
def LCHeld (m : Nat) (s : LCState V) : Prop := s.sumLayers.length ≤ m ∧ s.basisVecs.length ≤ 1

theorem takeBasis_held [Add V] {m : Nat} {mul : V → K → V} {coeff : Nat → Nat → K} {s : LCState V}
    {x : List V × List Nat} (hs : LCHeld m s) (hx : x.1.length ≤ 1) :
    LCHeld m (takeBasis mul coeff s x) := by
  have h1 : ∀ (s : LCState V) j wk, LCHeld m s → LCHeld m (addLayer mul coeff j s wk) := by
    intro s j wk hs
    unfold addLayer
    split
    · refine ⟨?_, hs.2⟩
      dsimp only
      rw [List.length_set]
      exact hs.1
    · exact hs
  have h2 : ∀ (L : List (V × Nat)) j (s : LCState V), LCHeld m s →
      LCHeld m (L.foldl (addLayer mul coeff j) s) := by
    intro L j
    induction L with
    | nil => intro s hs; exact hs
    | cons a L ih => intro s hs; exact ih _ (h1 s j a hs)
  unfold takeBasis addLayers
  have h3 : ∀ (L : List Nat) (s : LCState V), LCHeld m s → LCHeld m (L.foldl (fun s sumIndex =>
      s.basisVecs.zipIdx.foldl (addLayer mul coeff sumIndex) s) s) := by
    intro L
    induction L with
    | nil => intro s hs; exact hs
    | cons a L ih => intro s hs; exact ih _ (h2 _ a s hs)
  exact h3 _ _ ⟨hs.1, hx⟩

theorem putSums_held {m : Nat} {s : LCState V} (hs : LCHeld m s) : LCHeld m (putSums s) := by
  unfold putSums
  generalize List.range' s.startSum (s.endSum - s.startSum) = L
  induction L generalizing s with
  | nil => exact hs
  | cons a L ih =>
    rw [List.foldl_cons]
    apply ih
    split
    · exact hs
    · exact hs

theorem lcProg_keeps [Add V] (p mx : Nat) (mul : V → K → V) (basis : List V) (numSums : Nat)
    (coeff : Nat → Nat → K) : ∀ R ∈ lcProg p mx mul basis numSums coeff,
      R.Keeps (LCHeld (mx - 1)) fun m => m.1.length ≤ 1 := by
  intro R hR
  unfold lcProg at hR
  dsimp only at hR
  obtain ⟨i, _, hR⟩ := List.mem_flatMap.mp hR
  rcases List.mem_append.mp hR with hR | hR
  · rcases List.mem_cons.mp hR with rfl | hR
    · refine localRound_keeps fun r s hs => ⟨?_, hs.2⟩
      unfold startSums
      dsimp only
      rw [List.length_replicate]
      exact chunkBounds_sub_le _ _ _
    · obtain ⟨j, _, hR⟩ := List.mem_flatMap.mp hR
      rcases List.mem_cons.mp hR with rfl | hR
      · exact localRound_keeps fun r s hs => takeBasis_held hs
          ((pySlice_length_le _ _ _).trans (chunkBounds_sub_le _ _ _))
      · rw [List.eq_of_mem_replicate hR]
        exact ringRound_keeps (fun s hs => hs.2) fun r s x hs hx => takeBasis_held hs hx
  · rw [List.mem_singleton] at hR
    subst hR
    exact localRound_keeps fun r s hs => putSums_held hs

end Modred
