import Verif.Lemmas.Shared
import Verif.Lemmas.LinCombine
import Verif.Lemmas.Memory

/-! Helper lemmas about `lin_combine` on a shared store. -/

namespace Modred

variable {σ μ V K : Type*}

theorem lock_invariant {prog : Prog σ μ} {st : Nat → σ} {P : Nat → σ → Prop} (h0 : ∀ r, P r (st r))
    (h : ∀ R ∈ prog, ∀ r s m, P r s → P r (R.upd r s m)) (k r : Nat) : P r (lock prog st k r) := by
  have : ∀ (l : Prog σ μ), (∀ R ∈ l, R ∈ prog) → ∀ st : Nat → σ, (∀ r, P r (st r)) → ∀ r, P r (exec l st r) := by
    intro l
    induction l with
    | nil => intro _ st h0 r; exact h0 r
    | cons R l ih =>
      intro hl st h0 r
      rw [exec_cons]
      exact ih (fun R hR => hl R (by simp [hR])) _ (fun r => h R (hl R (by simp)) r _ _ (h0 r)) r
  exact this _ (fun R hR => List.mem_of_mem_take hR) st h0 r

/-! ### Puts one by one -/

theorem putOne_bounds (j : Nat) (s : LCState V) :
    (putOne j s).startSum = s.startSum ∧ (putOne j s).endSum = s.endSum ∧ (putOne j s).sumLayers = s.sumLayers := by
  unfold putOne
  split
  · split <;> exact ⟨rfl, rfl, rfl⟩
  · exact ⟨rfl, rfl, rfl⟩

/-- One iteration of the loop of `putSums`. -/
def putIter (s : LCState V) (sumIndex : Nat) : LCState V :=
  match s.sumLayers[sumIndex - s.startSum]? with
  | some layer => { s with puts := s.puts ++ [(sumIndex, layer)] }
  | none => { s with err := true }

theorem putOne_eq (j : Nat) (s : LCState V) (h : s.startSum + j < s.endSum) : putOne j s = putIter s (s.startSum + j) := by
  unfold putOne putIter
  rw [if_pos h, Nat.add_sub_cancel_left]
  cases s.sumLayers[j]? <;> rfl

theorem puts_fold (c : Nat) (s : LCState V) (hc : s.endSum - s.startSum ≤ c) :
    (List.range c).foldl (fun s j => putOne j s) s = putSums s := by
  have hb : ∀ m, ((List.range m).foldl (fun s j => putOne j s) s).startSum = s.startSum ∧
      ((List.range m).foldl (fun s j => putOne j s) s).endSum = s.endSum := by
    intro m
    induction m with
    | zero => exact ⟨rfl, rfl⟩
    | succ m ih =>
      rw [List.range_succ, List.foldl_append, List.foldl_cons, List.foldl_nil]
      have := putOne_bounds m ((List.range m).foldl (fun s j => putOne j s) s)
      exact ⟨this.1.trans ih.1, this.2.1.trans ih.2⟩
  have h : ∀ m, (List.range m).foldl (fun s j => putOne j s) s =
      (List.range' s.startSum (min m (s.endSum - s.startSum))).foldl putIter s := by
    intro m
    induction m with
    | zero => simp
    | succ m ih =>
      rw [List.range_succ, List.foldl_append, List.foldl_cons, List.foldl_nil]
      rcases Nat.lt_or_ge (s.startSum + m) s.endSum with hlt | hge
      · rw [putOne_eq _ _ (by rw [(hb m).1, (hb m).2]; exact hlt), (hb m).1, ih,
          show min m (s.endSum - s.startSum) = m by omega, show min (m + 1) (s.endSum - s.startSum) = m + 1 by omega,
          List.range'_concat, List.foldl_append, List.foldl_cons, List.foldl_nil, Nat.one_mul]
      · have : putOne m ((List.range m).foldl (fun s j => putOne j s) s) = (List.range m).foldl (fun s j => putOne j s) s := by
          have hn : ∀ s' : LCState V, ¬ s'.startSum + m < s'.endSum → putOne m s' = s' := by
            intro s' h
            unfold putOne
            rw [if_neg h]
          refine hn _ ?_
          rw [(hb m).1, (hb m).2]
          omega
        rw [this, ih]
        congr 2
        omega
  rw [h c, Nat.min_eq_right hc]
  rfl

/-! ### Variables that rounds leave alone -/

section
variable [Add V]

/-- The variables that adding layers leaves alone. -/
def LCState.frame (s : LCState V) : Nat × Nat × List (Nat × Option V) := (s.startSum, s.endSum, s.puts)

theorem takeBasis_frame (mul : V → K → V) (coeff : Nat → Nat → K) (s : LCState V) (m : List V × List Nat) :
    (takeBasis mul coeff s m).frame = s.frame := by
  have h1 : ∀ j (s : LCState V) wk, (addLayer mul coeff j s wk).frame = s.frame := by
    intro j s wk
    unfold addLayer
    split <;> rfl
  have h2 : ∀ j (L : List (V × Nat)) (s : LCState V), (L.foldl (addLayer mul coeff j) s).frame = s.frame := by
    intro j L
    induction L with
    | nil => intro s; rfl
    | cons wk L ih => intro s; rw [List.foldl_cons, ih, h1]
  have h3 : ∀ (J : List Nat) (s : LCState V), (J.foldl (fun s j =>
      s.basisVecs.zipIdx.foldl (addLayer mul coeff j) s) s).frame = s.frame := by
    intro J
    induction J with
    | nil => intro s; rfl
    | cons j J ih => intro s; rw [List.foldl_cons, ih, h2]
  exact h3 _ _

theorem basisLoop_frame (p : Nat) (mul : V → K → V) (coeff : Nat → Nat → K) (basis : List V) (r : Nat) (s : LCState V) :
    (basisLoop p mul coeff basis r s).frame = s.frame := by
  have h1 : ∀ k (L : List Nat) (s : LCState V), (L.foldl (fun s t => takeBasis mul coeff s
      (ownBasis basis (rangeTasks p 0 basis.length) k ((r + (p - 1) * t) % p))) s).frame = s.frame := by
    intro k L
    induction L with
    | nil => intro s; rfl
    | cons t L ih => intro s; rw [List.foldl_cons, ih, takeBasis_frame]
  unfold basisLoop
  generalize List.range (maxLen (rangeTasks p 0 basis.length)) = L
  induction L generalizing s with
  | nil => rfl
  | cons k L ih => rw [List.foldl_cons, ih, h1]

theorem chunkBounds_size_le (tasks : List Nat) (index size : Nat) :
    (chunkBounds tasks index size).2 - (chunkBounds tasks index size).1 ≤ size := by
  unfold chunkBounds
  split
  · dsimp only; omega
  · simp

/-! ### The program with the store fixed -/

variable (p mx : Nat) (mul : V → K → V) (bp sp : List Nat) (coeff : Nat → Nat → K)

/-- What `lin_combine` does with fixed basis vectors, with the puts one by one. -/
def lcFlat (w : Nat → V) : Prog (LCState V) (List V × List Nat) :=
  (lcShared p mx mul bp sp coeff).map fun R => R.fix w

variable {p mx mul bp sp coeff}

theorem lcFlat_exec (w : Nat → V) (r : Nat) (hr : r < p) :
    exec (lcFlat p mx mul bp sp coeff w) lcInit r =
      exec (lcProg p mx mul (bp.map w) sp.length coeff) lcInit r := by
  have h1 : ∀ m, ceilDivNat m 1 = m := fun m => by simp [ceilDivNat]
  have hA : exec (lcProg p mx mul (bp.map w) sp.length coeff) lcInit r =
      (List.range (ceilDivNat (maxLen (rangeTasks p 0 sp.length)) (mx - 1))).foldl
      (fun s k => putSums (basisLoop p mul coeff (bp.map w) r
        (startSums (rangeTasks p 0 sp.length) k (mx - 1) r s))) (lcInit r) := by
    unfold lcProg
    dsimp only
    rw [h1]
    refine LocalOn.flatMap (g := fun k r s => putSums (basisLoop p mul coeff (bp.map w) r
        (startSums (rangeTasks p 0 sp.length) k (mx - 1) r s))) _ (fun k _ => ?_) _ r hr
    refine LocalOn.append (g := fun _ s => putSums s) (LocalOn.cons (LocalOn.flatMap _ fun kb _ =>
      basisPass_local p mul coeff _)) ?_
    intro st r _
    rw [exec_cons, exec_nil, localRound_step]
  have hB : exec (lcFlat p mx mul bp sp coeff w) lcInit r =
      (List.range (ceilDivNat (maxLen (rangeTasks p 0 sp.length)) (mx - 1))).foldl
      (fun s k => (List.range (mx - 1)).foldl (fun s j => putOne j s) (basisLoop p mul coeff (bp.map w) r
        (startSums (rangeTasks p 0 sp.length) k (mx - 1) r s))) (lcInit r) := by
    unfold lcFlat lcShared
    dsimp only
    rw [h1, List.map_append, exec_append, List.map_flatMap]
    change exec (_ : Prog (LCState V) (List V × List Nat)) lcInit r = _
    refine LocalOn.flatMap (g := fun k r s => (List.range (mx - 1)).foldl (fun s j => putOne j s)
      (basisLoop p mul coeff (bp.map w) r (startSums (rangeTasks p 0 sp.length) k (mx - 1) r s))) _ (fun k _ => ?_) _ r hr
    rw [List.map_append, List.map_cons, List.map_flatMap]
    refine LocalOn.append (g := fun _ s => (List.range (mx - 1)).foldl (fun s j => putOne j s) s) ?_ ?_
    · refine LocalOn.cons (f := startSums (rangeTasks p 0 sp.length) k (mx - 1)) ?_
      unfold basisLoop
      rw [List.length_map]
      refine LocalOn.flatMap (g := fun kb r s => (List.range p).foldl (fun s t => takeBasis mul coeff s
        (ownBasis (bp.map w) (rangeTasks p 0 bp.length) kb ((r + (p - 1) * t) % p))) s) _ fun kb _ => ?_
      rw [List.map_cons, List.map_replicate]
      exact basisPass_local p mul coeff fun rank => ownBasis (bp.map w) (rangeTasks p 0 bp.length) kb rank
    · intro st r _
      rw [List.map_map]
      generalize List.range (mx - 1) = L
      induction L generalizing st with
      | nil => rfl
      | cons j L ih =>
        rw [List.map_cons, exec_cons, ih]
        rfl
  rw [hA, hB]
  congr 1
  funext s k
  refine puts_fold _ _ ?_
  have := basisLoop_frame p mul coeff (bp.map w) r (startSums (rangeTasks p 0 sp.length) k (mx - 1) r s)
  simp only [LCState.frame, Prod.mk.injEq] at this
  rw [this.1, this.2.1]
  exact chunkBounds_size_le _ _ _

theorem mem_lcShared {R : SharedRound (LCState V) (List V × List Nat) V} (h : R ∈ lcShared p mx mul bp sp coeff) :
    (∃ k, R = (localRound (startSums (rangeTasks p 0 sp.length) k (mx - 1))).share) ∨
    (∃ b, R = readRound fun rank s w => takeBasis mul coeff s (ownBasis (bp.map w) (rangeTasks p 0 bp.length) b rank)) ∨
    R = (ringRound p (fun s => (s.basisVecs, s.basisIndices)) fun _ s m => takeBasis mul coeff s m).share ∨
    (∃ j, R = putRound sp j) ∨ R = barrierRound := by
  unfold lcShared at h
  dsimp only at h
  rcases List.mem_append.mp h with h | h
  · obtain ⟨k, -, h⟩ := List.mem_flatMap.mp h
    rcases List.mem_append.mp h with h | h
    · rcases List.mem_cons.mp h with h | h
      · exact Or.inl ⟨k, h⟩
      · obtain ⟨b, -, h⟩ := List.mem_flatMap.mp h
        rcases List.mem_cons.mp h with h | h
        · exact Or.inr (Or.inl ⟨b, h⟩)
        · exact Or.inr (Or.inr (Or.inl (List.eq_of_mem_replicate h)))
    · obtain ⟨j, -, h⟩ := List.mem_map.mp h
      exact Or.inr (Or.inr (Or.inr (Or.inl ⟨j, h.symm⟩)))
  · exact Or.inr (Or.inr (Or.inr (Or.inr (List.mem_singleton.mp h))))

theorem lcShared_matched {R : SharedRound (LCState V) (List V × List Nat) V} (h : R ∈ lcShared p mx mul bp sp coeff)
    (w : Nat → V) : (R.fix w).Matched p := by
  rcases mem_lcShared h with ⟨k, rfl⟩ | ⟨b, rfl⟩ | rfl | ⟨j, rfl⟩ | rfl
  · exact localRound_matched p _
  · exact localRound_matched p fun rank s => takeBasis mul coeff s (ownBasis (bp.map w) (rangeTasks p 0 bp.length) b rank)
  · exact ringRound_matched _ _
  · exact localRound_matched p fun _ s => putOne j s
  · constructor <;> intro r _ _ h <;> simp [SharedRound.fix, barrierRound] at h

/-- Rounds read places of basis handles only. -/
theorem lcShared_reads {R : SharedRound (LCState V) (List V × List Nat) V} (h : R ∈ lcShared p mx mul bp sp coeff)
    {w w' : Nat → V} (hw : ∀ q ∈ bp, w q = w' q) : R.fix w = R.fix w' := by
  rcases mem_lcShared h with ⟨k, rfl⟩ | ⟨b, rfl⟩ | rfl | ⟨j, rfl⟩ | rfl
  · rfl
  · have : bp.map w = bp.map w' := List.map_congr_left hw
    simp only [SharedRound.fix, readRound, this]
  · rfl
  · rfl
  · rfl

/-- What is put is noted. -/
theorem lcShared_log {R : SharedRound (LCState V) (List V × List Nat) V} (h : R ∈ lcShared p mx mul bp sp coeff)
    (r : Nat) (s : LCState V) (w : Nat → V) (m : Option (List V × List Nat)) :
    ((R.upd r s w m).puts = s.puts ∧ ∀ q, R.put r (R.upd r s w m) q = none) ∨
    ∃ j o, (R.upd r s w m).puts = s.puts ++ [(j, o)] ∧ ∀ q, R.put r (R.upd r s w m) q = if sp[j]? = some q then o else none := by
  rcases mem_lcShared h with ⟨k, rfl⟩ | ⟨b, rfl⟩ | rfl | ⟨j, rfl⟩ | rfl
  · exact Or.inl ⟨rfl, fun _ => rfl⟩
  · refine Or.inl ⟨?_, fun _ => rfl⟩
    have := takeBasis_frame mul coeff s (ownBasis (bp.map w) (rangeTasks p 0 bp.length) b r)
    simp only [LCState.frame, Prod.mk.injEq] at this
    exact this.2.2
  · refine Or.inl ⟨?_, fun _ => rfl⟩
    cases m with
    | none => rfl
    | some m =>
      have := takeBasis_frame mul coeff s m
      simp only [LCState.frame, Prod.mk.injEq] at this
      exact this.2.2
  · obtain ⟨h1, h2, h3⟩ := putOne_bounds j s
    have hput : ∀ q, (putRound (μ := List V × List Nat) sp j).put r ((putRound sp j).upd r s w m) q =
        if (putOne j s).startSum + j < (putOne j s).endSum ∧ sp[(putOne j s).startSum + j]? = some q then
          ((putOne j s).sumLayers[j]?).join else none := fun _ => rfl
    by_cases hlt : s.startSum + j < s.endSum
    · cases hl : s.sumLayers[j]? with
      | none =>
        refine Or.inl ⟨?_, fun q => ?_⟩
        · simp [putRound, putOne, hl]
          split <;> rfl
        · rw [hput, h3, hl]
          simp
      | some layer =>
        refine Or.inr ⟨s.startSum + j, layer, ?_, fun q => ?_⟩
        · simp [putRound, putOne, hl, hlt]
        · rw [hput, h1, h2, h3, hl]
          simp [hlt]
    · refine Or.inl ⟨?_, fun q => ?_⟩
      · simp [putRound, putOne, hlt]
      · rw [hput, h1, h2]
        simp [hlt]
  · exact Or.inl ⟨rfl, fun _ => rfl⟩

theorem lcFlat_getElem? {w : Nat → V} {k : Nat} {R : SharedRound (LCState V) (List V × List Nat) V}
    (hk : (lcShared p mx mul bp sp coeff)[k]? = some R) :
    (lcFlat p mx mul bp sp coeff w)[k]? = some (R.fix w) := by
  simp [lcFlat, hk]

/-- Notes are not deleted. -/
theorem lcFlat_puts_mono (w : Nat → V) (r : Nat) {k k' : Nat} (hkk : k ≤ k')
    (hk : k' ≤ (lcShared p mx mul bp sp coeff).length) :
    (lock (lcFlat p mx mul bp sp coeff w) lcInit k r).puts <+: (lock (lcFlat p mx mul bp sp coeff w) lcInit k' r).puts := by
  obtain ⟨d, rfl⟩ := Nat.exists_eq_add_of_le hkk
  clear hkk
  induction d with
  | zero => exact List.prefix_refl _
  | succ d ih =>
    refine (ih (by omega)).trans ?_
    have hk' : (lcShared p mx mul bp sp coeff)[k + d]? = some (lcShared p mx mul bp sp coeff)[k + d] :=
      List.getElem?_eq_getElem (by omega)
    rw [← Nat.add_assoc, lock_succ (lcFlat_getElem? hk')]
    generalize lock (lcFlat p mx mul bp sp coeff w) lcInit (k + d) = st
    rcases lcShared_log (List.mem_of_getElem? hk') r (st r) w
      (Round.received (((lcShared p mx mul bp sp coeff)[k + d]).fix w) st r) with h | ⟨j, o, h, -⟩
    · change _ <+: (SharedRound.upd _ r (st r) w _).puts
      rw [h.1]
    · change _ <+: (SharedRound.upd _ r (st r) w _).puts
      rw [h]
      exact List.prefix_append _ _

end

/-! ### Each place has one writer -/

theorem rangeTasks_disjoint {p n r r' j : Nat} (hp : 1 ≤ p) (hr : r < p) (hr' : r' < p)
    (h : j ∈ (rangeTasks p 0 n).getD r []) (h' : j ∈ (rangeTasks p 0 n).getD r' []) : r = r' := by
  obtain ⟨f, -, -, hm, hf⟩ := rangeTasks_blocks p 0 n hp (by omega)
  rw [hf r hr, List.mem_range'_1] at h
  rw [hf r' hr', List.mem_range'_1] at h'
  rcases Nat.lt_trichotomy r r' with hlt | heq | hgt
  · have : f (r + 1) ≤ f r' := hm hlt
    omega
  · exact heq
  · have : f (r' + 1) ≤ f r := hm hgt
    omega

section
variable [AddCommMonoid V] {p mx : Nat} {mul : V → K → V} {bp sp : List Nat} {coeff : Nat → Nat → K} {w0 : Nat → V}

/-- The sum that belongs to a number. -/
def lcSum (mul : V → K → V) (bp : List Nat) (coeff : Nat → Nat → K) (w0 : Nat → V) (j : Nat) : V :=
  ∑ i : Fin bp.length, mul (w0 bp[i]) (coeff i j)

theorem lcFlat_puts (hp : 1 ≤ p) (hmx : 2 ≤ mx) (hbp : bp ≠ []) {r : Nat} (hr : r < p) :
    (exec (lcFlat p mx mul bp sp coeff w0) lcInit r).err = false ∧
    (exec (lcFlat p mx mul bp sp coeff w0) lcInit r).puts = ((rangeTasks p 0 sp.length).getD r []).map fun j =>
      (j, some (lcSum mul bp coeff w0 j)) := by
  rw [lcFlat_exec w0 r hr]
  have := lcProg_exec p mx hp hmx mul (bp.map w0) (by simpa using hbp) sp.length coeff
    (x := fun i j => mul ((bp.map w0).getD i (w0 0)) (coeff i j)) (fun i j w hw => by
      simp only [List.getD_eq_getElem?_getD, hw, Option.getD_some]) r hr
  refine ⟨this.1, this.2.trans ?_⟩
  refine List.map_congr_left fun j _ => ?_
  rw [List.length_map, ← Fin.sum_univ_eq_sum_range (fun i => mul ((bp.map w0).getD i (w0 0)) (coeff i j))]
  unfold lcSum
  refine congrArg (fun v => (j, some v)) (Finset.sum_congr rfl fun i _ => ?_)
  rw [List.getD_eq_getElem?_getD, List.getElem?_map, List.getElem?_eq_getElem i.2]
  rfl

/-- Everything noted at any time. -/
theorem lcFlat_noted (hp : 1 ≤ p) (hmx : 2 ≤ mx) (hbp : bp ≠ []) {r : Nat} (hr : r < p) {k : Nat}
    (hk : k ≤ (lcShared p mx mul bp sp coeff).length) {j : Nat} {o : Option V}
    (h : (j, o) ∈ (lock (lcFlat p mx mul bp sp coeff w0) lcInit k r).puts) :
    j ∈ (rangeTasks p 0 sp.length).getD r [] ∧ o = some (lcSum mul bp coeff w0 j) := by
  have h1 := (lcFlat_puts_mono w0 r hk (le_refl _)).subset h
  have h2 : lock (lcFlat p mx mul bp sp coeff w0) lcInit (lcShared p mx mul bp sp coeff).length =
      exec (lcFlat p mx mul bp sp coeff w0) lcInit := by
    have : (lcShared p mx mul bp sp coeff).length = (lcFlat p mx mul bp sp coeff w0).length := by
      simp [lcFlat]
    rw [lock, this, List.take_length]
  rw [h2, (lcFlat_puts hp hmx hbp hr).2] at h1
  obtain ⟨j', hj', he⟩ := List.mem_map.mp h1
  simp only [Prod.mk.injEq] at he
  obtain ⟨rfl, rfl⟩ := he
  exact ⟨hj', rfl⟩

/-- What the places hold when some sums have been put. -/
structure LcHeld (p : Nat) (sp : List Nat) (f : Nat → V) (w0 : Nat → V) (L : Nat → LCState V) (W : Nat → V) : Prop where
  put : ∀ r < p, ∀ j o q, (j, o) ∈ (L r).puts → sp[j]? = some q → W q = f j
  other : ∀ q, (∀ r < p, ∀ j o, (j, o) ∈ (L r).puts → sp[j]? ≠ some q) → W q = w0 q

/-- What a round of the shared program notes and puts, in lock step. -/
theorem lcShared_log_at {k : Nat} {R : SharedRound (LCState V) (List V × List Nat) V}
    (hk : (lcShared p mx mul bp sp coeff)[k]? = some R) (r : Nat) :
    let L := lock (lcFlat p mx mul bp sp coeff w0) lcInit
    ((L (k + 1) r).puts = (L k r).puts ∧ ∀ q, R.put r (L (k + 1) r) q = none) ∨
    ∃ j o, (L (k + 1) r).puts = (L k r).puts ++ [(j, o)] ∧
      ∀ q, R.put r (L (k + 1) r) q = if sp[j]? = some q then o else none := by
  intro L
  have hs : L (k + 1) = (R.fix w0).step (L k) := lock_succ (lcFlat_getElem? hk)
  rw [hs]
  exact lcShared_log (List.mem_of_getElem? hk) r (L k r) w0 (Round.received (R.fix w0) (L k) r)

theorem lcShared_lock (hp : 1 ≤ p) (hmx : 2 ≤ mx) (hbp : bp ≠ []) (hsp : sp.Nodup)
    (hstab : ∀ k R w, (lcShared p mx mul bp sp coeff)[k]? = some R →
      (∀ q, (∀ r < p, ∀ j o, (j, o) ∈ (lock (lcFlat p mx mul bp sp coeff w0) lcInit k r).puts → sp[j]? ≠ some q) →
        w q = w0 q) → R.fix w = R.fix w0) :
    ∀ k, k ≤ (lcShared p mx mul bp sp coeff).length →
      (sLock p (lcShared p mx mul bp sp coeff) lcInit w0 k).1 = lock (lcFlat p mx mul bp sp coeff w0) lcInit k ∧
      LcHeld p sp (lcSum mul bp coeff w0) w0 (lock (lcFlat p mx mul bp sp coeff w0) lcInit k)
        (sLock p (lcShared p mx mul bp sp coeff) lcInit w0 k).2 := by
  intro k
  induction k with
  | zero =>
    intro _
    exact ⟨rfl, ⟨fun r _ j o q h => absurd h (by simp [lock, exec_nil, lcInit]), fun q _ => rfl⟩⟩
  | succ k ih =>
    intro hkl
    obtain ⟨ih1, ih2⟩ := ih (by omega)
    have hk : (lcShared p mx mul bp sp coeff)[k]? = some (lcShared p mx mul bp sp coeff)[k] :=
      List.getElem?_eq_getElem (by omega)
    generalize (lcShared p mx mul bp sp coeff)[k] = R at hk
    have hloc : (sLock p (lcShared p mx mul bp sp coeff) lcInit w0 (k + 1)).1 =
        lock (lcFlat p mx mul bp sp coeff w0) lcInit (k + 1) := by
      rw [sLock_succ hk, lock_succ (lcFlat_getElem? hk)]
      unfold sharedStepLock
      dsimp only
      rw [ih1, hstab k R _ hk ih2.other]
    refine ⟨hloc, ?_⟩
    have hlog := fun r => lcShared_log_at (w0 := w0) hk r
    dsimp only at hlog
    have hwrote : ∀ r, r < p → ∀ q, Wrote p (lcShared p mx mul bp sp coeff) lcInit w0 k r q →
        ∃ j, sp[j]? = some q ∧ j ∈ (rangeTasks p 0 sp.length).getD r [] ∧
          (j, some (lcSum mul bp coeff w0 j)) ∈ (lock (lcFlat p mx mul bp sp coeff w0) lcInit (k + 1) r).puts ∧
          R.put r ((sLock p (lcShared p mx mul bp sp coeff) lcInit w0 (k + 1)).1 r) q = some (lcSum mul bp coeff w0 j) := by
      rintro r hr q ⟨R', hR', hne⟩
      rw [hk, Option.some.injEq] at hR'
      subst hR'
      rw [hloc] at hne ⊢
      rcases hlog r with ⟨-, h⟩ | ⟨j, o, h, hput⟩
      · exact absurd (h q) hne
      · have hmem : (j, o) ∈ (lock (lcFlat p mx mul bp sp coeff w0) lcInit (k + 1) r).puts := by rw [h]; simp
        obtain ⟨hj, rfl⟩ := lcFlat_noted hp hmx hbp hr hkl hmem
        rw [hput] at hne
        by_cases hq : sp[j]? = some q
        · exact ⟨j, hq, hj, hmem, by rw [hput, if_pos hq]⟩
        · rw [if_neg hq] at hne
          exact absurd rfl hne
    have hinj : ∀ {i j q : Nat}, sp[i]? = some q → sp[j]? = some q → i = j := by
      intro i j q hi hj
      obtain ⟨hil, hi⟩ := List.getElem?_eq_some_iff.mp hi
      obtain ⟨hjl, hj⟩ := List.getElem?_eq_some_iff.mp hj
      exact (List.Nodup.getElem_inj_iff hsp).mp (hi.trans hj.symm)
    have hkeep : ∀ q, (∀ r < p, ¬ Wrote p (lcShared p mx mul bp sp coeff) lcInit w0 k r q) →
        (sLock p (lcShared p mx mul bp sp coeff) lcInit w0 (k + 1)).2 q =
          (sLock p (lcShared p mx mul bp sp coeff) lcInit w0 k).2 q := by
      intro q hq
      refine (sLock_const (Nat.le_succ k) hkl fun j r h1 h2 hr => ?_).symm
      obtain rfl : j = k := by omega
      exact hq r hr
    have hnew : ∀ q r, r < p → Wrote p (lcShared p mx mul bp sp coeff) lcInit w0 k r q → ∀ j, sp[j]? = some q →
        (sLock p (lcShared p mx mul bp sp coeff) lcInit w0 (k + 1)).2 q = lcSum mul bp coeff w0 j := by
      intro q r hr hw j hj
      obtain ⟨j', hj', hjr, -, hput⟩ := hwrote r hr q hw
      obtain rfl := hinj hj hj'
      refine sLock_put hk hr hput fun r' hr' hne hw' => ?_
      obtain ⟨j', hj', hjr', -, -⟩ := hwrote r' hr' q hw'
      obtain rfl := hinj hj hj'
      exact hne (rangeTasks_disjoint hp hr' hr hjr' hjr)
    constructor
    · intro r hr j o q hmem hq
      by_cases hw : ∃ r < p, Wrote p (lcShared p mx mul bp sp coeff) lcInit w0 k r q
      · obtain ⟨r', hr', hw⟩ := hw
        exact hnew q r' hr' hw j hq
      · push Not at hw
        rw [hkeep q hw]
        rcases hlog r with ⟨h, -⟩ | ⟨j', o', h, hput⟩
        · rw [h] at hmem
          exact ih2.put r hr j o q hmem hq
        · rw [h] at hmem
          rcases List.mem_append.mp hmem with hmem | hmem
          · exact ih2.put r hr j o q hmem hq
          · simp only [List.mem_singleton, Prod.mk.injEq] at hmem
            obtain ⟨rfl, rfl⟩ := hmem
            have ho := (lcFlat_noted hp hmx hbp hr hkl (j := j) (o := o) (w0 := w0) (by rw [h]; simp)).2
            refine absurd ⟨R, hk, ?_⟩ (hw r hr)
            rw [hloc, hput, if_pos hq, ho]
            simp
    · intro q hq
      rw [hkeep q ?_]
      · refine ih2.other q fun r hr j o hmem => hq r hr j o ?_
        exact (lcFlat_puts_mono w0 r (Nat.le_succ k) hkl).subset hmem
      · intro r hr hw
        obtain ⟨j, hj, -, hmem, -⟩ := hwrote r hr q hw
        exact hq r hr j _ hmem hj

/-- Who writes where. -/
theorem lcShared_wrote (hp : 1 ≤ p) (hmx : 2 ≤ mx) (hbp : bp ≠ [])
    (hlock : ∀ k, k ≤ (lcShared p mx mul bp sp coeff).length →
      (sLock p (lcShared p mx mul bp sp coeff) lcInit w0 k).1 = lock (lcFlat p mx mul bp sp coeff w0) lcInit k)
    {k r q : Nat} (hr : r < p) (hw : Wrote p (lcShared p mx mul bp sp coeff) lcInit w0 k r q) :
    ∃ j, sp[j]? = some q ∧ j ∈ (rangeTasks p 0 sp.length).getD r [] := by
  have hkl := hw.lt
  obtain ⟨R, hk, hne⟩ := hw
  rw [hlock (k + 1) hkl] at hne
  have hlog := lcShared_log_at (w0 := w0) hk r
  dsimp only at hlog
  rcases hlog with ⟨-, h⟩ | ⟨j, o, h, hput⟩
  · exact absurd (h q) hne
  · rw [hput] at hne
    by_cases hq : sp[j]? = some q
    · exact ⟨j, hq, (lcFlat_noted hp hmx hbp hr hkl (j := j) (o := o) (w0 := w0) (by rw [h]; simp)).1⟩
    · rw [if_neg hq] at hne
      exact absurd rfl hne

/-- A round that reads the store. -/
def Reading (R : SharedRound σ μ V) : Prop := ∃ w w', R.fix w ≠ R.fix w'

/-- The program works, if it reads what the basis places hold at the start. -/
theorem lcShared_works (hp : 1 ≤ p) (hmx : 2 ≤ mx) (hbp : bp ≠ []) (hsp : sp.Nodup)
    (hstab : ∀ k R w, (lcShared p mx mul bp sp coeff)[k]? = some R →
      (∀ q, (∀ r < p, ∀ j o, (j, o) ∈ (lock (lcFlat p mx mul bp sp coeff w0) lcInit k r).puts → sp[j]? ≠ some q) →
        w q = w0 q) → R.fix w = R.fix w0)
    (hsep : ∀ k k' r r' q R, r < p → r' < p → r ≠ r' → (lcShared p mx mul bp sp coeff)[k]? = some R → Reading R →
      q ∈ bp → q ∈ sp → Wrote p (lcShared p mx mul bp sp coeff) lcInit w0 k' r' q →
      k < k' ∧ BarrierIn (lcShared p mx mul bp sp coeff) k k') :
    Works p (lcShared p mx mul bp sp coeff) lcInit w0 fun st w =>
      (∀ r, r < p → (st r).err = false) ∧ Combined mul bp sp coeff w0 w := by
  have hlock := lcShared_lock hp hmx hbp hsp hstab
  have hlock1 := fun k hk => (hlock k hk).1
  refine ⟨⟨fun k _ q => q ∈ bp ∧ ∃ R, (lcShared p mx mul bp sp coeff)[k]? = some R ∧ Reading R, ?_⟩, ?_, ?_, ?_⟩
  · constructor
    · intro k R r w _ hk hw
      by_cases hR : Reading R
      · have := lcShared_reads (List.mem_of_getElem? hk) fun q hq => hw q ⟨hq, R, hk, hR⟩
        exact congrArg (fun S : Round _ _ => S.upd r _) this
      · unfold Reading at hR
        push Not at hR
        exact congrArg (fun S : Round _ _ => S.upd r _) (hR w _)
    · intro k k' r r' q hr hr' hne hkk hw h
      obtain ⟨j, hj, hjr⟩ := lcShared_wrote hp hmx hbp hlock1 hr hw
      rcases h with hw' | ⟨hq, R, hR, hread⟩
      · obtain ⟨j', hj', hjr'⟩ := lcShared_wrote hp hmx hbp hlock1 hr' hw'
        obtain ⟨hil, hi⟩ := List.getElem?_eq_some_iff.mp hj
        obtain ⟨hjl, hj⟩ := List.getElem?_eq_some_iff.mp hj'
        obtain rfl := (List.Nodup.getElem_inj_iff hsp).mp (hi.trans hj.symm)
        exact absurd (rangeTasks_disjoint hp hr hr' hjr hjr') hne
      · have := (hsep k' k r' r q R hr' hr (Ne.symm hne) hR hread hq (List.mem_of_getElem? hj) hw).1
        omega
    · rintro k k' r r' q hr hr' hne hkk ⟨hq, R, hR, hread⟩ hw
      obtain ⟨j, hj, -⟩ := lcShared_wrote hp hmx hbp hlock1 hr' hw
      exact (hsep k k' r r' q R hr hr' hne hR hread hq (List.mem_of_getElem? hj) hw).2
  · intro R hR
    obtain ⟨k, hk, hR⟩ := List.getElem_of_mem hR
    rw [fixed_length] at hk
    have h1 : (lcShared p mx mul bp sp coeff)[k]? = some (lcShared p mx mul bp sp coeff)[k] :=
      List.getElem?_eq_getElem hk
    have h2 := fixed_getElem? (p := p) (st := lcInit) (w0 := w0) h1
    rw [List.getElem?_eq_getElem (by rw [fixed_length]; exact hk), Option.some.injEq, hR] at h2
    rw [h2]
    exact lcShared_matched (List.getElem_mem _) _
  · refine ⟨barrierRound, ?_, rfl⟩
    unfold lcShared
    dsimp only
    rw [List.getLast?_append]
    rfl
  · obtain ⟨h1, h2⟩ := hlock _ (le_refl _)
    have h3 : lock (lcFlat p mx mul bp sp coeff w0) lcInit (lcShared p mx mul bp sp coeff).length =
        exec (lcFlat p mx mul bp sp coeff w0) lcInit := by
      have : (lcShared p mx mul bp sp coeff).length = (lcFlat p mx mul bp sp coeff w0).length := by
        simp [lcFlat]
      rw [lock, this, List.take_length]
    rw [h1, h3]
    rw [h3] at h2
    refine ⟨fun r hr => (lcFlat_puts hp hmx hbp hr).1, ⟨fun k hk => ?_, fun q hq => ?_⟩⟩
    · have hmem : k ∈ (rangeTasks p 0 sp.length).flatten := by
        rw [rangeTasks_flatten _ _ _ hp, List.mem_range'_1]
        omega
      obtain ⟨t, ht, hkt⟩ := List.mem_flatten.mp hmem
      obtain ⟨r', hr', rfl⟩ := List.getElem_of_mem ht
      have hr'p : r' < p := by rw [rangeTasks_length] at hr'; exact hr'
      refine h2.put r' hr'p k (some (lcSum mul bp coeff w0 k)) _ ?_ (List.getElem?_eq_getElem hk)
      rw [(lcFlat_puts hp hmx hbp hr'p).2]
      refine List.mem_map.mpr ⟨k, ?_, rfl⟩
      rw [List.getD_eq_getElem?_getD, List.getElem?_eq_getElem hr']
      exact hkt
    · refine h2.other q fun r' hr' j o hmem hj => hq (List.mem_of_getElem? hj)

end

/-- `lin_combine` with places of sums apart from places of basis vectors. -/
theorem lcShared_disjoint_works [AddCommMonoid V] (p mx : Nat) (hp : 1 ≤ p) (hmx : 2 ≤ mx) (mul : V → K → V)
    (bp sp : List Nat) (hbp : bp ≠ []) (hsp : sp.Nodup) (hdisj : ∀ q ∈ bp, q ∉ sp) (coeff : Nat → Nat → K)
    (store : Nat → V) :
    Works p (lcShared p mx mul bp sp coeff) lcInit store fun st w =>
      (∀ r, r < p → (st r).err = false) ∧ Combined mul bp sp coeff store w := by
  refine lcShared_works hp hmx hbp hsp (fun k R w hk hw => ?_) ?_
  · refine lcShared_reads (List.mem_of_getElem? hk) fun q hq => hw q fun r hr j o _ hj => ?_
    exact hdisj q hq (List.mem_of_getElem? hj)
  · intro k k' r r' q R _ _ _ _ _ hq hq' _
    exact absurd hq' (hdisj q hq)

/-- Places of the rounds of `lcShared` when one round of sums suffices. -/
theorem lcShared_one_round [Add V] {p mx : Nat} (hp : 1 ≤ p) (mul : V → K → V) (bp sp : List Nat)
    (coeff : Nat → Nat → K) (hfit : sp.length ≤ p * (mx - 1)) :
    lcShared p mx mul bp sp coeff = [barrierRound] ∨
    lcShared p mx mul bp sp coeff =
      ((localRound (startSums (rangeTasks p 0 sp.length) 0 (mx - 1))).share ::
      (List.range (maxLen (rangeTasks p 0 bp.length))).flatMap fun basisIndex =>
        readRound (fun rank s w => takeBasis mul coeff s
          (ownBasis (bp.map w) (rangeTasks p 0 bp.length) basisIndex rank)) ::
          List.replicate (p - 1) (ringRound p (fun s => (s.basisVecs, s.basisIndices))
            fun _ s m => takeBasis mul coeff s m).share) ++
      ((List.range (mx - 1)).map (putRound sp) ++ [barrierRound]) := by
  have h1 : ∀ m, ceilDivNat m 1 = m := fun m => by simp [ceilDivNat]
  have hmax : maxLen (rangeTasks p 0 sp.length) ≤ mx - 1 := by
    have hle : ∀ t ∈ rangeTasks p 0 sp.length, t.length ≤ mx - 1 := by
      intro t ht
      obtain ⟨r, hr, rfl⟩ := List.getElem_of_mem ht
      have h := rangeTasks_getD_le p 0 sp.length r hp
      rw [List.getD_eq_getElem?_getD, List.getElem?_eq_getElem hr, Option.getD_some] at h
      refine h.trans ?_
      refine (Nat.div_le_div_right (c := p) (show sp.length - 0 + (p - 1) ≤ p * (mx - 1) + (p - 1) by omega)).trans ?_
      rw [Nat.mul_add_div (by omega), Nat.div_eq_of_lt (by omega)]
      omega
    unfold maxLen
    generalize rangeTasks p 0 sp.length = ts at hle
    induction ts with
    | nil => simp
    | cons t ts ih =>
      rw [List.map_cons, List.foldr_cons]
      exact max_le (hle t (by simp)) (ih fun t ht => hle t (by simp [ht]))
  have hit : ceilDivNat (maxLen (rangeTasks p 0 sp.length)) (mx - 1) = 0 ∨
      ceilDivNat (maxLen (rangeTasks p 0 sp.length)) (mx - 1) = 1 := by
    unfold ceilDivNat
    generalize maxLen (rangeTasks p 0 sp.length) = m at hmax
    rcases Nat.eq_zero_or_pos (mx - 1) with h0 | hpos
    · rw [h0]
      simp
    · have : (m + (mx - 1) - 1) / (mx - 1) < 2 := by
        rw [Nat.div_lt_iff_lt_mul hpos]
        omega
      generalize (m + (mx - 1) - 1) / (mx - 1) = x at this ⊢; omega
  unfold lcShared
  dsimp only
  rw [h1]
  rcases hit with h | h
  · left
    rw [h]
    rfl
  · right
    rw [h]
    simp

/-- `lin_combine` with one round of sums. -/
theorem lcShared_one_round_works [AddCommMonoid V] (p mx : Nat) (hp : 1 ≤ p) (hmx : 2 ≤ mx) (mul : V → K → V)
    (bp sp : List Nat) (hbp : bp ≠ []) (hsp : sp.Nodup) (hfit : sp.length ≤ p * (mx - 1)) (coeff : Nat → Nat → K)
    (store : Nat → V) :
    Works p (lcShared p mx mul bp sp coeff) lcInit store fun st w =>
      (∀ r, r < p → (st r).err = false) ∧ Combined mul bp sp coeff store w := by
  -- rounds before the puts, and after them
  obtain ⟨A, C, hprog, hA, hC, hlast⟩ : ∃ A C, lcShared p mx mul bp sp coeff = A ++ C ∧
      (∀ R ∈ A, (∀ r s q, R.put r s q = none) ∧
        ∀ r s w m, (R.upd r s w m).puts = s.puts) ∧ (∀ R ∈ C, ∀ w w', R.fix w = R.fix w') ∧
      (A ≠ [] → 2 ≤ p → ∃ R, A.getLast? = some R ∧ R.barrier = true) := by
    rcases lcShared_one_round hp mul bp sp coeff hfit with h | h
    · refine ⟨[], [barrierRound], h, by simp, ?_, fun h => absurd rfl h⟩
      intro R hR
      rw [List.mem_singleton.mp hR]
      exact fun _ _ => rfl
    · have hframe : ∀ (s : LCState V) m, (takeBasis mul coeff s m).puts = s.puts := by
        intro s m
        have := takeBasis_frame mul coeff s m
        simp only [LCState.frame, Prod.mk.injEq] at this
        exact this.2.2
      refine ⟨_, _, h, ?_, ?_, ?_⟩
      · intro R hR
        rcases List.mem_cons.mp hR with rfl | hR
        · exact ⟨fun _ _ _ => rfl, fun _ _ _ _ => rfl⟩
        · obtain ⟨b, -, hR⟩ := List.mem_flatMap.mp hR
          rcases List.mem_cons.mp hR with rfl | hR
          · exact ⟨fun _ _ _ => rfl, fun _ s _ _ => hframe s _⟩
          · rw [List.eq_of_mem_replicate hR]
            refine ⟨fun _ _ _ => rfl, fun _ s _ m => ?_⟩
            cases m with
            | none => rfl
            | some m => exact hframe s m
      · intro R hR w w'
        rcases List.mem_append.mp hR with hR | hR
        · obtain ⟨j, -, rfl⟩ := List.mem_map.mp hR
          rfl
        · rw [List.mem_singleton.mp hR]
          rfl
      · intro _ h2
        have hlen : 0 < maxLen (rangeTasks p 0 bp.length) := by
          by_contra hcon
          have h0 : maxLen (rangeTasks p 0 bp.length) = 0 := by omega
          have hmem : 0 ∈ (rangeTasks p 0 bp.length).flatten := by
            rw [rangeTasks_flatten _ _ _ hp, List.mem_range'_1]
            have := List.length_pos_iff.mpr hbp
            omega
          obtain ⟨t, ht, h0t⟩ := List.mem_flatten.mp hmem
          obtain ⟨r, hr, rfl⟩ := List.getElem_of_mem ht
          have := length_le_maxLen (ls := rangeTasks p 0 bp.length) (r := r)
          rw [List.getD_eq_getElem?_getD, List.getElem?_eq_getElem hr, Option.getD_some, h0] at this
          rw [List.length_eq_zero_iff.mp (Nat.le_zero.mp this)] at h0t
          simp at h0t
        obtain ⟨m, hm⟩ : ∃ m, maxLen (rangeTasks p 0 bp.length) = m + 1 := ⟨_, (Nat.succ_pred_eq_of_pos hlen).symm⟩
        obtain ⟨n, hn⟩ : ∃ n, p - 1 = n + 1 := ⟨p - 2, by omega⟩
        refine ⟨(ringRound p (fun s => (s.basisVecs, s.basisIndices)) fun _ s m => takeBasis mul coeff s m).share, ?_, rfl⟩
        rw [hm, List.range_succ, List.flatMap_append, ← List.cons_append, List.getLast?_append, List.flatMap_singleton,
          hn, List.replicate_succ', ← List.cons_append, List.getLast?_append]
        rfl
  -- nothing is noted before the puts
  have hnone : ∀ k, k ≤ A.length → ∀ r, (lock (lcFlat p mx mul bp sp coeff store) lcInit k r).puts = [] := by
    intro k
    induction k with
    | zero => intro _ r; rfl
    | succ k ih =>
      intro hk r
      have hget : (lcShared p mx mul bp sp coeff)[k]? = some A[k] := by
        rw [hprog, List.getElem?_append_left (by omega), List.getElem?_eq_getElem (by omega)]
      rw [lock_succ (lcFlat_getElem? hget)]
      exact ((hA _ (List.getElem_mem _)).2 r _ _ _).trans (ih (by omega) r)
  have hpos : ∀ k R, (lcShared p mx mul bp sp coeff)[k]? = some R → (k < A.length ∧ R ∈ A) ∨ (A.length ≤ k ∧ R ∈ C) := by
    intro k R hk
    rw [hprog] at hk
    rcases Nat.lt_or_ge k A.length with h | h
    · rw [List.getElem?_append_left h] at hk
      exact Or.inl ⟨h, List.mem_of_getElem? hk⟩
    · rw [List.getElem?_append_right h] at hk
      exact Or.inr ⟨h, List.mem_of_getElem? hk⟩
  refine lcShared_works hp hmx hbp hsp (fun k R w hk hw => ?_) ?_
  · rcases hpos k R hk with ⟨h, -⟩ | ⟨-, h⟩
    · have : w = store := by
        funext q
        refine hw q fun r _ j o hmem => ?_
        rw [hnone k (by omega) r] at hmem
        simp at hmem
      rw [this]
    · exact hC R h _ _
  · rintro k k' r r' q R hr hr' hne hk ⟨w, w', hread⟩ _ _ ⟨R', hk', hput⟩
    rcases hpos k R hk with ⟨h, -⟩ | ⟨-, h⟩
    · rcases hpos k' R' hk' with ⟨-, h'⟩ | ⟨h', -⟩
      · exact absurd ((hA R' h').1 _ _ _) hput
      · obtain ⟨Rb, hRb, hb⟩ := hlast (by rintro rfl; simp at h) (by omega)
        rw [List.getLast?_eq_getElem?] at hRb
        refine ⟨by omega, A.length - 1, Rb, by omega, by omega, ?_, hb⟩
        rw [hprog, List.getElem?_append_left (by omega)]
        exact hRb
    · exact absurd (hC R h w w') hread

end Modred
