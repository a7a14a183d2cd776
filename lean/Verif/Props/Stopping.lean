import Verif.Lemmas.Stopping
import Verif.Props.StagesFiles

/-!
# A method raises on one process, and on several (C87)
-/

namespace Modred

variable {σ μ V : Type*}

/-! ### `call_and_bcast` -/

section
variable {X Y K : Type*} {p tag : Nat} {A : List (SharedRound (RankState X Y V K) (StageMsg Y V K) V)}
  {first last : SharedRound (RankState X Y V K) (StageMsg Y V K) V} {st : Nat → RankState X Y V K} {w : Nat → V}
  {rd : Nat → Nat → Nat → Prop}

/-- The rounds of `comm.bcast`. -/
abbrev bcastStage (p tag : Nat) : List (SharedRound (RankState X Y V K) (StageMsg Y V K) V) :=
  (if p > 1 then bcastProg p tag else []).map fun R =>
    (R.embed RankState.outputs RankState.setOutputs StageMsg.value StageMsg.toValue).share

/-- Rank 0 raises in the call, the others wait for its broadcast. -/
theorem call_raises (hp : 1 ≤ p) (hrace : RaceFree p (A ++ (first :: bcastStage p tag ++ [last])) st w rd)
    (hm : AllMatched p (fixed p (A ++ (first :: bcastStage p tag ++ [last])) st w)) (hA : ∀ T ∈ A, T.Keeps RankState.raised)
    (hgood : ∀ r, r < p → ((sLock p A st w A.length).1 r).raised = none) {e : Err}
    (hzero : ∀ m, (first.upd 0 ((sLock p A st w A.length).1 0) (sLock p A st w A.length).2 m).raised = some e)
    (hother : ∀ r s w m, r ≠ 0 → (first.upd r s w m).raised = s.raised) :
    EndsRaising p (A ++ (first :: bcastStage p tag ++ [last])) RankState.raised st w fun r => if r = 0 then some e else none := by
  have hbefore : ∀ j r, j ≤ A.length → r < p →
      ((sLock p (A ++ (first :: bcastStage p tag ++ [last])) st w j).1 r).raised = none := by
    intro j r hj hr
    rw [sLock_append_left hj]
    exact sLock_keeps hA (hgood r hr) hj
  have hfirst : (A ++ (first :: bcastStage p tag ++ [last]))[A.length]? = some first := by simp
  refine endsRaising_zero hp hrace hm (k := A.length) (by simp) (fun j hj => hbefore j 0 hj hp) ?_ fun r hr0 hr => ?_
  · rw [sLock_succ hfirst, sLock_append_left (le_refl _)]
    exact hzero _
  · have hp1 : p > 1 := by omega
    have hround : ∀ i, i < p - 1 → (A ++ (first :: bcastStage p tag ++ [last]))[A.length + 1 + i]? =
        some ((bcastRound tag (1 + i)).embed RankState.outputs RankState.setOutputs StageMsg.value StageMsg.toValue).share := by
      intro i hi
      rw [List.getElem?_append_right (by omega), show A.length + 1 + i - A.length = i + 1 by omega, List.cons_append,
        List.getElem?_cons_succ]
      unfold bcastStage
      rw [if_pos hp1]
      unfold bcastProg
      rw [List.getElem?_append_left (by simpa using hi), List.getElem?_map, List.getElem?_map, List.getElem?_range' hi]
      simp
    have hlater : ∀ i, i ≤ p - 1 →
        ((sLock p (A ++ (first :: bcastStage p tag ++ [last])) st w (A.length + 1 + i)).1 r).raised = none := by
      intro i
      induction i with
      | zero =>
        intro _
        rw [Nat.add_zero, sLock_succ hfirst]
        refine (hother r _ _ _ (by omega)).trans ?_
        exact hbefore _ r (le_refl _) hr
      | succ i ih =>
        intro hi
        rw [← Nat.add_assoc, sLock_succ (hround i (by omega))]
        exact ih (by omega)
    refine ⟨A.length + 1 + (r - 1), _, by omega, hround (r - 1) (by omega), .inl ⟨⟨0, tag⟩, ?_, rfl⟩, fun j hj => ?_⟩
    · change (bcastRound (α := Option Y) tag (1 + (r - 1))).recv r = _
      simp [bcastRound, show 1 + (r - 1) = r by omega]
    · rcases Nat.lt_or_ge A.length j with hlt | hge
      · obtain ⟨i, rfl⟩ := Nat.exists_eq_add_of_lt hlt
        rw [show A.length + i + 1 = A.length + 1 + i by omega]
        exact hlater i (by omega)
      · exact hbefore j r hge hr

theorem inStage_keeps {τ ν : Type*} {get : RankState X Y V K → τ} {set : RankState X Y V K → τ → RankState X Y V K}
    {inj : ν → StageMsg Y V K} {proj : StageMsg Y V K → Option ν} {shape : List (SharedRound τ ν V)}
    {P : RankState X Y V K → List (SharedRound τ ν V)} (hset : ∀ s t, (set s t).raised = s.raised) :
    ∀ T ∈ inStage get set inj proj shape P, T.Keeps RankState.raised := by
  intro T hT r s w m h
  obtain ⟨k, hk, rfl⟩ := List.mem_mapIdx.mp hT
  dsimp only
  split
  · rw [hset]
    exact h
  · exact h

theorem note_keeps {ρ : Type*} (s : RankState X Y V K) (res : Except Err ρ)
    (set : RankState X Y V K → ρ → RankState X Y V K) (hset : ∀ s v, (set s v).raised = s.raised) (h : s.raised ≠ none) :
    (s.note res set).raised ≠ none := by
  cases res with
  | error e => exact Option.some_ne_none e
  | ok v =>
    change (set s v).raised ≠ none
    rw [hset]
    exact h

theorem callStage_quiet (tag : Nat) (f : X → Except Err Y) (set : X → Y → X) (st : Nat → RankState X Y V K) (w : Nat → V) :
    Fenced p (callStage p tag f set) st w fun _ _ => True := by
  have hm : AllMatched p (localRound (fun rank (s : RankState X Y V K) =>
        if rank = 0 then s.note (f s.obj) fun s y => s.setOutputs (some y) else s.setOutputs none) ::
      ((if p > 1 then bcastProg (α := Option Y) p tag else []).map
        (Round.embed (RankState.outputs (X := X) (V := V) (K := K)) RankState.setOutputs
          (StageMsg.value (V := V) (K := K)) StageMsg.toValue)) ++
      [localRound fun _ s => match s.outputs with
        | some y => { s with obj := set s.obj y }
        | none => { s with raised := some .typeError }]) := by
    refine AllMatched.append (AllMatched.cons (localRound_matched _ _) ?_) (AllMatched.cons (localRound_matched _ _) AllMatched.nil)
    intro R hR
    obtain ⟨R, hR', rfl⟩ := List.mem_map.mp hR
    refine embed_matched ?_
    split at hR'
    · exact bcastProg_matched _ _ R hR'
    · cases hR'
  have hq := Fenced.quiet (p := p) (V := V) (w0 := w) (st := st) hm
  rw [List.map_append, List.map_cons, List.map_map] at hq
  exact hq.mono fun _ _ _ => trivial

section
variable [AddCommMonoid V] [Semiring K] [StarRing K] [DecidableEq K]

theorem stage_keeps (p tag mx : Nat) (ip : V → V → K) (cast : K → K → K) (mul : V → K → V) (stage : Stage X Y V K) :
    ∀ T ∈ stage.prog p tag mx ip cast mul, T.Keeps RankState.raised := by
  have hip : ∀ jobOf (set : X → (Nat → Nat → K) → X), ∀ T ∈ ipStage (Y := Y) (V := V) jobOf set, T.Keeps RankState.raised := by
    intro jobOf set T hT
    unfold ipStage at hT
    dsimp only at hT
    rcases List.mem_append.mp hT with hT | hT
    · rcases List.mem_cons.mp hT with rfl | hT
      · exact fun _ _ _ _ h => h
      · exact inStage_keeps (set := RankState.setIp) (fun _ _ => rfl) T hT
    · rw [List.mem_singleton.mp hT]
      exact fun _ s _ _ h => note_keeps s _ _ (fun _ _ => rfl) h
  cases stage with
  | innerProducts rows cols set => unfold Stage.prog; exact hip _ _
  | symmInnerProducts vecs set => unfold Stage.prog; exact hip _ _
  | callAndBcast f set =>
    intro T hT
    unfold Stage.prog callStage at hT
    rcases List.mem_append.mp hT with hT | hT
    · rcases List.mem_cons.mp hT with rfl | hT
      · intro r s w m h
        change (if r = 0 then s.note _ _ else s.setOutputs none).raised ≠ none
        split
        · exact note_keeps s _ _ (fun _ _ => rfl) h
        · exact h
      · obtain ⟨R, -, rfl⟩ := List.mem_map.mp hT
        exact fun _ _ _ _ h => h
    · rw [List.mem_singleton.mp hT]
      intro r s w m h
      change (match s.outputs with
        | some y => { s with obj := set s.obj y }
        | none => { s with raised := some .typeError }).raised ≠ none
      split
      · exact h
      · exact Option.some_ne_none _
  | compute f =>
    intro T hT
    rw [List.mem_singleton.mp hT]
    exact fun _ s _ _ h => note_keeps s _ _ (fun _ _ => rfl) h
  | linCombine sums basis coeff indices =>
    intro T hT
    unfold Stage.prog lcStage at hT
    rcases List.mem_append.mp hT with hT | hT
    · rcases List.mem_cons.mp hT with rfl | hT
      · exact fun _ s _ _ h => note_keeps s _ _ (fun _ _ => rfl) h
      · exact inStage_keeps (set := RankState.setLc) (fun _ _ => rfl) T hT
    · rw [List.mem_singleton.mp hT]
      intro r s w m h
      change (if s.lc.err then { s with raised := some .indexError } else s).raised ≠ none
      split
      · exact Option.some_ne_none _
      · exact h

theorem stagesProg_append (p tag mx : Nat) (ip : V → V → K) (cast : K → K → K) (mul : V → K → V) (A B : List (Stage X Y V K)) :
    stagesProg p tag mx ip cast mul (A ++ B) = stagesProg p tag mx ip cast mul A ++ stagesProg p tag mx ip cast mul B := by
  simp [stagesProg]

/-- **C87, violation.** If what rank 0 calls for all in `parallel.call_and_bcast` raises, then in every interleaving only rank 0
raises, and the other processes wait for the broadcast for ever. -/
theorem C87_call_violation (procs nodes : Nat) (hp : 1 ≤ procs) (hn : 1 ≤ nodes) (request : Option Nat) (tag : Nat)
    (ip : V → V → K) (cast : K → K → K) (mul : V → K → V) {before : List (Stage X Y V K)} {x x1 : X} {w w1 : Nat → V}
    (h : StagesMean (procs * ((limits request procs nodes).perProc - 1)) ip cast mul before x w x1 w1)
    {f : X → Except Err Y} {e : Err} (hf : f x1 = .error e) (set : X → Y → X) (after : List (Stage X Y V K)) :
    EndsRaising procs (stagesProg procs tag (limits request procs nodes).perProc ip cast mul (before ++ .callAndBcast f set :: after))
      RankState.raised (fun _ => RankState.start x) w fun r => if r = 0 then some e else none := by
  rw [← List.singleton_append, ← List.append_assoc, stagesProg_append]
  refine EndsRaising.append ?_ _
  have hA := stages_work procs nodes hp hn request tag ip cast mul h (fun _ => RankState.start x) fun _ => ⟨rfl, rfl⟩
  obtain ⟨⟨rd, hrace, -⟩, hm, -⟩ := hA.append (B := callStage procs tag f set) fun st' w' _ => callStage_quiet tag f set st' w'
  rw [stagesProg_append, show stagesProg procs tag (limits request procs nodes).perProc ip cast mul [.callAndBcast f set] =
    callStage procs tag f set by simp [stagesProg, Stage.prog]]
  refine call_raises hp hrace hm ?_ (fun r hr => (hA.post.1 r hr).1) (fun m => ?_) fun r s w m hr => ?_
  · intro T hT
    obtain ⟨stage, -, hT⟩ := List.mem_flatMap.mp hT
    exact stage_keeps _ _ _ _ _ _ stage T hT
  · change (if 0 = 0 then RankState.note _ (f _) _ else _).raised = _
    rw [if_pos rfl, (hA.post.1 0 hp).2, hf]
    rfl
  · change (if r = 0 then RankState.note _ (f _) _ else _).raised = _
    rw [if_neg hr]
    rfl

/-- A round in which every rank raises. -/
theorem all_raise (procs nodes : Nat) (hp : 1 ≤ procs) (hn : 1 ≤ nodes) (request : Option Nat) (tag : Nat)
    (ip : V → V → K) (cast : K → K → K) (mul : V → K → V) {before : List (Stage X Y V K)} {x x1 : X} {w w1 : Nat → V}
    (h : StagesMean (procs * ((limits request procs nodes).perProc - 1)) ip cast mul before x w x1 w1)
    (work : Nat → RankState X Y V K → RankState X Y V K) {e : Err} (hwork : ∀ r s, s.obj = x1 → (work r s).raised = some e)
    (after : List (SharedRound (RankState X Y V K) (StageMsg Y V K) V)) :
    EndsRaising procs (stagesProg procs tag (limits request procs nodes).perProc ip cast mul before ++ (localRound work).share :: after)
      RankState.raised (fun _ => RankState.start x) w fun _ => some e := by
  rw [← List.singleton_append, ← List.append_assoc]
  refine EndsRaising.append ?_ _
  have hA := stages_work procs nodes hp hn request tag ip cast mul h (fun _ => RankState.start x) fun _ => ⟨rfl, rfl⟩
  obtain ⟨⟨rd, hrace, -⟩, hm, -⟩ := hA.append (B := [(localRound work).share]) fun st' w' _ =>
    (Fenced.work (p := procs) (σ := RankState X Y V K) (μ := StageMsg Y V K) work).mono (post' := fun _ _ => True) fun _ _ _ => trivial
  refine endsRaising_all hrace hm (k := (stagesProg procs tag (limits request procs nodes).perProc ip cast mul before).length)
    (by simp) (fun j r hj hr => ?_) fun r hr => ?_
  · rw [sLock_append_left hj]
    refine sLock_keeps (fun T hT => ?_) (hA.post.1 r hr).1 hj
    obtain ⟨stage, -, hT⟩ := List.mem_flatMap.mp hT
    exact stage_keeps _ _ _ _ _ _ stage T hT
  · rw [sLock_succ (R := (localRound work).share) (by simp), sLock_append_left (le_refl _)]
    exact hwork r _ (hA.post.1 r hr).2

/-- **C87.** If work that every process does on its own raises, all processes raise the same exception. -/
theorem C87_computation_partial (procs nodes : Nat) (hp : 1 ≤ procs) (hn : 1 ≤ nodes) (request : Option Nat) (tag : Nat)
    (ip : V → V → K) (cast : K → K → K) (mul : V → K → V) {before : List (Stage X Y V K)} {x x1 : X} {w w1 : Nat → V}
    (h : StagesMean (procs * ((limits request procs nodes).perProc - 1)) ip cast mul before x w x1 w1)
    {f : X → Except Err X} {e : Err} (hf : f x1 = .error e) (after : List (Stage X Y V K)) :
    EndsRaising procs (stagesProg procs tag (limits request procs nodes).perProc ip cast mul (before ++ .compute f :: after))
      RankState.raised (fun _ => RankState.start x) w fun _ => some e := by
  rw [stagesProg_append, show stagesProg procs tag (limits request procs nodes).perProc ip cast mul (.compute f :: after) =
    (localRound fun _ s => s.note (f s.obj) fun s x => { s with obj := x }).share ::
      stagesProg procs tag (limits request procs nodes).perProc ip cast mul after by simp [stagesProg, Stage.prog]]
  refine all_raise procs nodes hp hn request tag ip cast mul h _ (fun r s hs => ?_) _
  rw [hs, hf]
  rfl

/-- **C87.** If the coefficients of `lin_combine` cannot be computed, as before there is a decomposition, or do not fit to the
vectors, all processes raise the same exception, and nothing is put. -/
theorem C87_lin_combine_partial (procs nodes : Nat) (hp : 1 ≤ procs) (hn : 1 ≤ nodes) (request : Option Nat) (tag : Nat)
    (ip : V → V → K) (cast : K → K → K) (mul : V → K → V) {before : List (Stage X Y V K)} {x x1 : X} {w w1 : Nat → V}
    (h : StagesMean (procs * ((limits request procs nodes).perProc - 1)) ip cast mul before x w x1 w1)
    {sums basis : List Nat} {coeff : X → Except Err (CoeffArray K)} {indices : Option (List Int)} {e : Err}
    (hf : ((coeff x1).bind fun c => lcCoeffs sums.length basis.length c indices) = .error e) (after : List (Stage X Y V K)) :
    EndsRaising procs (stagesProg procs tag (limits request procs nodes).perProc ip cast mul
      (before ++ .linCombine sums basis coeff indices :: after))
      RankState.raised (fun _ => RankState.start x) w fun _ => some e := by
  rw [stagesProg_append]
  unfold stagesProg
  rw [List.flatMap_cons]
  unfold Stage.prog lcStage
  refine all_raise procs nodes hp hn request tag ip cast mul h _ (fun r s hs => ?_) _
  rw [hs, hf]
  rfl

end

end

/-! ### Saving and loading -/

section
variable {X R Stored : Type*} {p : Nat} {put : NpArray R → Except Err Stored} {get : Stored → Except Err (NpArray R)}

theorem fileStage_keeps (tag : Nat) (stage : FileStage X R) : ∀ T ∈ FileStage.prog put get p tag stage, T.Keeps RankState.raised := by
  intro T hT r s w m h
  cases stage with
  | save items =>
    rcases List.mem_append.mp hT with hT | hT
    · obtain ⟨item, -, rfl⟩ := List.mem_map.mp hT
      change (if r = 0 then s.note _ _ else s).raised ≠ none
      split
      · exact note_keeps s _ _ (fun _ _ => rfl) h
      · exact h
    · rw [List.mem_singleton.mp hT]
      exact h
  | load src set =>
    rcases List.mem_append.mp hT with hT | hT
    · rcases List.mem_cons.mp hT with rfl | hT
      · change (if r = 0 then s.note _ _ else s.setOutputs none).raised ≠ none
        split
        · exact note_keeps s _ _ (fun _ _ => rfl) h
        · exact h
      · obtain ⟨R, -, rfl⟩ := List.mem_map.mp hT
        exact h
    · rw [List.mem_singleton.mp hT]
      change (match s.outputs with
        | some y => { s with obj := set s.obj y }
        | none => { s with raised := some .typeError }).raised ≠ none
      split
      · exact h
      · exact Option.some_ne_none _

theorem files_keep (tag : Nat) (stages : List (FileStage X R)) : ∀ T ∈ filesProg put get p tag stages, T.Keeps RankState.raised := by
  intro T hT
  obtain ⟨stage, -, hT⟩ := List.mem_flatMap.mp hT
  exact fileStage_keeps tag stage T hT

/-- **C87, violation.** If `get_array` raises, as when there is no such file, then in every interleaving only rank 0 raises, and
the other processes wait for the broadcast for ever. -/
theorem C87_load_violation (procs : Nat) (hp : 1 ≤ procs) (tag : Nat) {before : List (FileStage X R)} {x x1 : X}
    {w w1 : Places Stored} (h : FileMeans put get before x w x1 w1) {src : Nat} {e : Err} (hf : getFrom get src w1 = .error e)
    (set : X → NpArray R → X) (after : List (FileStage X R)) :
    EndsRaising procs (filesProg put get procs tag (before ++ .load src set :: after)) RankState.raised (fun _ => RankState.start x) w
      fun r => if r = 0 then some e else none := by
  have hsplit : filesProg put get procs tag (before ++ .load src set :: after) =
      (filesProg put get procs tag before ++ loadRounds procs tag get src set) ++ filesProg put get procs tag after := by
    simp [filesProg, FileStage.prog]
  rw [hsplit]
  refine EndsRaising.append ?_ _
  have hzero : ∀ T ∈ filesProg put get procs tag before ++ loadRounds procs tag get src set,
      T.ZeroOnly ∧ ∀ w, (T.fix w).Matched procs := fun T hT =>
    (List.mem_append.mp hT).elim (files_zero tag before T) (fileStage_zero (put := put) tag (.load src set) T)
  obtain ⟨hgood, hw⟩ := (files_work hp tag h).post (fun _ => RankState.start x) fun _ _ => ⟨rfl, rfl⟩
  refine call_raises hp (zero_race fun T hT => (hzero T hT).1) (fixed_matched fun T hT => (hzero T hT).2)
    (files_keep tag before) (fun r hr => (hgood r hr).1) (fun m => ?_) fun r s w m hr => ?_
  · change (if 0 = 0 then RankState.note _ (getFrom get src _) _ else _).raised = _
    rw [if_pos rfl, hw, hf]
    rfl
  · change (if r = 0 then RankState.note _ (getFrom get src _) _ else _).raised = _
    rw [if_neg hr]
    rfl

/-- **C87, violation.** If an array cannot be put, as there is none yet or it cannot be written, then in every interleaving only
rank 0 raises, and the other processes wait at the barrier for ever. -/
theorem C87_save_violation (procs : Nat) (hp : 1 ≤ procs) (tag : Nat) {before : List (FileStage X R)} {x x1 : X}
    {w w1 w2 : Places Stored} (h : FileMeans put get before x w x1 w1) {items items' : List (Nat × (X → Except Err (NpArray R)))}
    (hi : putItems put x1 items w1 = .ok w2) {dest : Nat} {value : X → Except Err (NpArray R)} {e : Err}
    (hf : (value x1).bind put = .error e) (after : List (FileStage X R)) :
    EndsRaising procs (filesProg put get procs tag (before ++ .save (items ++ (dest, value) :: items') :: after)) RankState.raised
      (fun _ => RankState.start x) w fun r => if r = 0 then some e else none := by
  have hsplit : filesProg put get procs tag (before ++ .save (items ++ (dest, value) :: items') :: after) =
      (filesProg put get procs tag before ++ FileStage.prog put get procs tag (.save (items ++ (dest, value) :: items'))) ++
        filesProg put get procs tag after := by
    simp [filesProg]
  rw [hsplit]
  refine EndsRaising.append ?_ _
  have hzero : ∀ T ∈ filesProg put get procs tag before ++
      FileStage.prog put get procs tag (.save (items ++ (dest, value) :: items')), T.ZeroOnly ∧ ∀ w, (T.fix w).Matched procs :=
    fun T hT => (List.mem_append.mp hT).elim (files_zero tag before T) (fileStage_zero tag _ T)
  obtain ⟨hgood, hw⟩ := (files_work hp tag h).post (fun _ => RankState.start x) fun _ _ => ⟨rfl, rfl⟩
  obtain ⟨hgood2, hw2⟩ := saveRounds_post hp items (put := put) (w := (sLock procs (filesProg put get procs tag before)
    (fun _ => RankState.start x) w (filesProg put get procs tag before).length).2) (w' := w2) (by rw [hw]; exact hi) _ hgood
  have hsplit2 : filesProg put get procs tag before ++ FileStage.prog put get procs tag (.save (items ++ (dest, value) :: items')) =
      (filesProg put get procs tag before ++ items.map fun item => saveRound put item.1 item.2) ++
        (saveRound put dest value :: items'.map (fun item => saveRound put item.1 item.2) ++ [barrierRound]) := by
    simp [FileStage.prog]
  have hkeep : ∀ T ∈ filesProg put get procs tag before ++ FileStage.prog put get procs tag (.save (items ++ (dest, value) :: items')),
      T.Keeps RankState.raised := fun T hT =>
    (List.mem_append.mp hT).elim (files_keep tag before T) (fileStage_keeps tag _ T)
  rw [hsplit2] at hzero hkeep ⊢
  have hBlen : (items'.map fun item => saveRound put item.1 item.2).length = items'.length := List.length_map _
  have hBmem : ∀ T ∈ items'.map (fun item => saveRound put item.1 item.2), ∃ d v, T = saveRound put d v := by
    intro T hT
    obtain ⟨item, -, rfl⟩ := List.mem_map.mp hT
    exact ⟨_, _, rfl⟩
  generalize (items'.map fun item => saveRound put item.1 item.2) = B at hzero hkeep hBlen hBmem ⊢
  generalize hA : (filesProg put get procs tag before ++ items.map fun item => saveRound put item.1 item.2) = A at hzero hkeep ⊢
  have hlock : sLock procs A (fun _ => RankState.start x) w A.length =
      sLock procs (items.map fun item => saveRound put item.1 item.2)
        (sLock procs (filesProg put get procs tag before) (fun _ => RankState.start x) w (filesProg put get procs tag before).length).1
        (sLock procs (filesProg put get procs tag before) (fun _ => RankState.start x) w (filesProg put get procs tag before).length).2
        items.length := by
    rw [← hA, List.length_append, List.length_map, sLock_append_right]
  have hgoodA : ∀ r, r < procs → ((sLock procs A (fun _ => RankState.start x) w A.length).1 r).Good x1 := by
    rw [hlock]
    exact hgood2
  have hbefore : ∀ B j r, j ≤ A.length → r < procs →
      ((sLock procs (A ++ B) (fun _ => RankState.start x) w j).1 r).raised = none := by
    intro B j r hj hr
    rw [sLock_append_left hj]
    exact sLock_keeps (fun T hT => hkeep T (List.mem_append_left _ hT)) (hgoodA r hr).1 hj
  have hfirst : (A ++ (saveRound put dest value :: B ++ [barrierRound]))[A.length]? =
      some (saveRound put dest value) := by simp
  refine endsRaising_zero hp (zero_race fun T hT => (hzero T hT).1) (fixed_matched fun T hT => (hzero T hT).2) (k := A.length)
    (by simp) (fun j hj => hbefore _ j 0 hj hp) ?_ fun r hr0 hr => ?_
  · rw [sLock_succ hfirst, sLock_append_left (le_refl _)]
    change (if 0 = 0 then RankState.note _ ((value _).bind put) _ else _).raised = _
    rw [if_pos rfl, (hgoodA 0 hp).2, hf]
    rfl
  · refine ⟨A.length + 1 + items'.length, barrierRound, by omega, ?_, .inr rfl, fun j hj => ?_⟩
    · rw [List.getElem?_append_right (by omega), show A.length + 1 + items'.length - A.length = items'.length + 1 by omega,
        List.cons_append, List.getElem?_cons_succ, List.getElem?_append_right (by omega), hBlen, Nat.sub_self]
      rfl
    · rcases Nat.le_total j A.length with hle | hle
      · exact hbefore _ j r hle hr
      · induction j, hle using Nat.le_induction with
        | base => exact hbefore _ _ r (le_refl _) hr
        | succ j hle ih =>
          have hlt : j < (A ++ (saveRound put dest value :: B ++
              [barrierRound])).length := by
            simp only [List.length_append, List.length_cons, hBlen, List.length_nil]
            omega
          have hmem : (A ++ (saveRound put dest value :: B ++
              [barrierRound]))[j] ∈ saveRound put dest value :: B ++
              [barrierRound] := by
            rw [List.getElem_append_right hle]
            exact List.getElem_mem _
          rw [sLock_succ (List.getElem?_eq_getElem hlt)]
          generalize (A ++ (saveRound put dest value :: B ++
              [barrierRound]))[j] = T at hmem
          have hT : ∀ s w m, (T.upd r s w m).raised = s.raised := by
            intro s w m
            rcases List.mem_append.mp hmem with hmem | hmem
            · have : ∃ d v, T = saveRound put d v := by
                rcases List.mem_cons.mp hmem with rfl | hmem
                · exact ⟨_, _, rfl⟩
                · exact hBmem T hmem
              obtain ⟨d, v, rfl⟩ := this
              change (if r = 0 then s.note _ _ else s).raised = _
              rw [if_neg (by omega)]
            · rw [List.mem_singleton.mp hmem]
              rfl
          refine (hT _ _ _).trans (ih (by omega))

end

/-! ### The methods -/

section
variable {R Stored : Type*} {put : NpArray R → Except Err Stored} {get : Stored → Except Err (NpArray R)}

theorem bind_error {α β : Type*} {t : Except Err α} {f : α → Except Err β} {e : Err} (h : t.bind f = .error e) :
    t = .error e ∨ ∃ a, t = .ok a ∧ f a = .error e := by
  cases t with
  | error e' => exact .inl (congrArg _ (Except.error.inj h))
  | ok a => exact .inr ⟨a, rfl, h⟩

/-- **C87, violation.** `PODHandles.get_decomp`: what one process raises is raised by rank 0 only. -/
theorem C87_pod_get_violation (procs : Nat) (hp : 1 ≤ procs) (tag a b : Nat) {e : Err} {w : Places Stored}
    (h : podGetDecomp get a b w = .error e) (x : PodSaved R) :
    EndsRaising procs (filesProg put get procs tag (podGetStages a b)) RankState.raised (fun _ => RankState.start x) w
      fun r => if r = 0 then some e else none := by
  rcases bind_error h with h | ⟨v, h1, h⟩
  · exact C87_load_violation procs hp tag (before := []) (.nil _ _) h _ _
  · rcases bind_error h with h | ⟨v', h2, h⟩
    · exact C87_load_violation procs hp tag (before := [_]) (.load h1 (.nil _ _)) h _ _
    · cases h

/-- **C87, violation.** `BPODHandles.get_decomp`: what one process raises is raised by rank 0 only. -/
theorem C87_bpod_get_violation (procs : Nat) (hp : 1 ≤ procs) (tag a b c : Nat) {e : Err} {w : Places Stored}
    (h : bpodGetDecomp get a b c w = .error e) (x : BpodSaved R) :
    EndsRaising procs (filesProg put get procs tag (bpodGetStages a b c)) RankState.raised (fun _ => RankState.start x) w
      fun r => if r = 0 then some e else none := by
  rcases bind_error h with h | ⟨v1, h1, h⟩
  · exact C87_load_violation procs hp tag (before := []) (.nil _ _) h _ _
  · rcases bind_error h with h | ⟨v2, h2, h⟩
    · exact C87_load_violation procs hp tag (before := [_]) (.load h1 (.nil _ _)) h _ _
    · rcases bind_error h with h | ⟨v3, h3, h⟩
      · exact C87_load_violation procs hp tag (before := [_, _]) (.load h1 (.load h2 (.nil _ _))) h _ _
      · cases h

/-- **C87, violation.** The methods that save one attribute and those that load one, as `put_proj_coeffs` and
`get_proj_coeffs`: what one process raises is raised by rank 0 only. -/
theorem C87_attribute_violation (procs : Nat) (hp : 1 ≤ procs) (tag : Nat) (attr : Attr) (place : Nat) (obj : Held R) (e : Err)
    (w : Places Stored) :
    (putAttr put attr obj place w = .error e →
      EndsRaising procs (filesProg put get procs tag (putAttrStages attr place)) RankState.raised (fun _ => RankState.start obj) w
        fun r => if r = 0 then some e else none) ∧
    (getAttr get attr place w obj = .error e →
      EndsRaising procs (filesProg put get procs tag (getAttrStages attr place)) RankState.raised (fun _ => RankState.start obj) w
        fun r => if r = 0 then some e else none) := by
  refine ⟨fun h => ?_, fun h => ?_⟩
  · refine C87_save_violation procs hp tag (before := []) (items := []) (.nil _ _) (w2 := w) rfl ?_ _
    unfold putAttr at h
    unfold heldArray
    cases ha : obj attr with
    | none => rw [ha] at h; cases h; rfl
    | some a =>
      rw [ha] at h
      dsimp only [putTo] at h
      change put a = _
      cases hput : put a with
      | error e' => rw [hput] at h; exact congrArg _ (Except.error.inj h)
      | ok f => rw [hput] at h; cases h
  · rcases bind_error h with h | ⟨v, h1, h⟩
    · exact C87_load_violation procs hp tag (before := []) (.nil _ _) h _ _
    · cases h

end

section
variable {𝕜 : Type*} [RCLike 𝕜] [DecidableEq 𝕜] {E : Type*} [AddCommGroup E] [Module 𝕜 E] (lib : PodObjLib 𝕜)

/-- **C87, violation.** `PODHandles.compute_decomp`, if there are vectors: what one process raises is raised by rank 0 only. -/
theorem C87_pod_decomp_violation (procs nodes : Nat) (hp : 1 ≤ procs) (hn : 1 ≤ nodes) (request : Option Nat) (tag : Nat)
    (ip : E → E → 𝕜) (hsymm : ∀ u v, ip u v = star (ip v u)) (cast : 𝕜 → 𝕜 → 𝕜)
    (hcast : ∀ a b u v, cast (ip a b) (ip u v) = ip u v) (vecs : List Nat) (hvecs : vecs ≠ []) (atol rtol : Option ℝ)
    (x : PodObj 𝕜 Nat) (w : Nat → E) {g : PodObj 𝕜 E} {e : Err}
    (hrun : (x.held w).computeDecomp lib ip (vecs.map w) atol rtol = (.error e, g)) :
    EndsRaising procs (stagesProg procs tag (limits request procs nodes).perProc ip cast (fun v c => c • v)
      (podDecompStages lib vecs atol rtol)) RankState.raised (fun _ => RankState.start x) w
      fun r => if r = 0 then some e else none := by
  unfold PodObj.computeDecomp at hrun
  dsimp only at hrun
  rw [if_neg (by simpa using hvecs), squareArr_eq] at hrun
  unfold PodObj.computeEigendecomp at hrun
  dsimp only at hrun
  cases he : utilEigh lib.eigh lib.argsort (Matrix.of fun i j : Fin vecs.length => ip (w vecs[i]) (w vecs[j])) atol rtol true with
  | ok d =>
    rw [he] at hrun
    cases hrun
  | error e' =>
    rw [he] at hrun
    cases hrun
    have hmean : StagesMean (procs * ((limits request procs nodes).perProc - 1)) ip cast (fun v c => c • v)
        ((podDecompStages lib vecs atol rtol).take 2) x w
        (PodObj.getCorr { x with vecs := some vecs } ⟨vecs.length, Matrix.of fun i j => ip (w vecs[i]) (w vecs[j])⟩) w :=
      .cons (.compute rfl) (.cons (.symmInnerProducts hvecs (fun _ _ _ _ _ _ => hcast _ _ _ _) fun _ _ _ _ => hsymm _ _) (.nil _ _))
    refine C87_call_violation procs nodes hp hn request tag ip cast (fun v c => c • v) hmean (f := podEigen lib atol rtol) ?_ _ []
    dsimp only [podEigen, PodObj.getCorr]
    rw [he]

/-- **C87.** `PODHandles.compute_modes` before there is a decomposition: all processes raise `TypeError`, as one does. -/
theorem C87_pod_modes_partial (procs nodes : Nat) (hp : 1 ≤ procs) (hn : 1 ≤ nodes) (request : Option Nat) (tag : Nat)
    (ip : E → E → 𝕜) (cast : 𝕜 → 𝕜 → 𝕜) (vecs modes : List Nat) (l : List Int) (x : PodObj 𝕜 Nat) (hx : x.decomp = none)
    (w : Nat → E) :
    ((x.held w).computeModes l modes.length none).1 = .error .typeError ∧
    EndsRaising procs (stagesProg procs tag (limits request procs nodes).perProc ip cast (fun v c => c • v)
      (podModesStages vecs modes l)) RankState.raised (fun _ => RankState.start x) w fun _ => some .typeError := by
  refine ⟨?_, C87_lin_combine_partial procs nodes hp hn request tag ip cast (fun v c => c • v) (before := []) (.nil _ _) ?_ []⟩
  · unfold PodObj.computeModes
    simp only [PodObj.held, hx, Option.isSome_none, Bool.false_eq_true, if_false]
  · unfold podBuild
    rw [hx]
    rfl

omit [DecidableEq 𝕜] in
/-- The first stages of `BPODHandles.compute_decomp`. -/
theorem bpodProducts_mean (fit : Nat) (ip : E → E → 𝕜) (hsymm : ∀ u v, ip u v = star (ip v u)) (cast : 𝕜 → 𝕜 → 𝕜)
    (hcast : ∀ a b u v, cast (ip a b) (ip u v) = ip u v) (direct adjoint : List Nat) (hd : direct ≠ []) (ha : adjoint ≠ [])
    (p q : Nat) (hp : p ≠ 0) (atol rtol : Option ℝ) (x : BpodLocal 𝕜) (w : Nat → E) :
    StagesMean fit ip cast (fun v c => c • v) ((bpodDecompStages lib direct adjoint p q atol rtol).take 3) x w
      ⟨{ x.self with directVecs := some direct, adjointVecs := some adjoint },
        some ⟨_, _, Matrix.of fun i j => ip (w adjoint[i]) (w (direct.take p)[j])⟩,
        some ⟨_, _, Matrix.of fun i j =>
          ip (w (adjoint.drop (adjoint.length - lastCount q adjoint.length))[i]) (w direct[j])⟩⟩ w := by
  have hlast0 : adjoint.drop (adjoint.length - lastCount q adjoint.length) ≠ [] := by
    intro h0
    have := congrArg List.length h0
    have hne : adjoint.length ≠ 0 := fun h => ha (List.length_eq_zero_iff.mp h)
    unfold lastCount at this
    simp only [List.length_drop, List.length_nil] at this
    split at this <;> omega
  have hfirst0 : direct.take p ≠ [] := by
    intro h0
    have := congrArg List.length h0
    have hne : direct.length ≠ 0 := fun h => hd (List.length_eq_zero_iff.mp h)
    simp only [List.length_take, List.length_nil] at this
    omega
  exact .cons (.compute rfl) (.cons (.innerProducts ha hfirst0
    (fun _ _ _ _ _ _ _ _ => hcast _ _ _ _) fun _ _ _ _ _ => hsymm _ _)
    (.cons (.innerProducts hlast0 hd (fun _ _ _ _ _ _ _ _ => hcast _ _ _ _)
      fun _ _ _ _ _ => hsymm _ _) (.nil _ _)))

/-- **C87.** `BPODHandles.compute_decomp` for no outputs: all processes raise `ZeroDivisionError`, as one does. -/
theorem C87_bpod_no_outputs_partial (procs nodes : Nat) (hp : 1 ≤ procs) (hn : 1 ≤ nodes) (request : Option Nat) (tag : Nat)
    (ip : E → E → 𝕜) (hsymm : ∀ u v, ip u v = star (ip v u)) (cast : 𝕜 → 𝕜 → 𝕜)
    (hcast : ∀ a b u v, cast (ip a b) (ip u v) = ip u v) (direct adjoint : List Nat) (hd : direct ≠ []) (ha : adjoint ≠ [])
    (p : Nat) (hi : p ≠ 0) (atol rtol : Option ℝ) (x : BpodLocal 𝕜) (w : Nat → E) :
    ((x.self.held w).computeDecomp lib ip (direct.map w) (adjoint.map w) p 0 atol rtol).1 = .error .zeroDivisionError ∧
    EndsRaising procs (stagesProg procs tag (limits request procs nodes).perProc ip cast (fun v c => c • v)
      (bpodDecompStages lib direct adjoint p 0 atol rtol)) RankState.raised (fun _ => RankState.start x) w
      fun _ => some .zeroDivisionError := by
  refine ⟨?_, C87_computation_partial procs nodes hp hn request tag ip cast (fun v c => c • v)
    (bpodProducts_mean lib _ ip hsymm cast hcast direct adjoint hd ha p 0 hi atol rtol x w) (if_pos (.inr rfl)) _⟩
  unfold BpodObj.computeDecomp bpodHankel
  simp [hd, ha, hi]

/-- **C87, violation.** `BPODHandles.compute_decomp`, if there are vectors, inputs and outputs: what one process raises is raised
by rank 0 only. -/
theorem C87_bpod_decomp_violation (procs nodes : Nat) (hp : 1 ≤ procs) (hn : 1 ≤ nodes) (request : Option Nat) (tag : Nat)
    (ip : E → E → 𝕜) (hsymm : ∀ u v, ip u v = star (ip v u)) (cast : 𝕜 → 𝕜 → 𝕜)
    (hcast : ∀ a b u v, cast (ip a b) (ip u v) = ip u v) (direct adjoint : List Nat) (hd : direct ≠ []) (ha : adjoint ≠ [])
    (p q : Nat) (hi : p ≠ 0) (ho : q ≠ 0) (atol rtol : Option ℝ) (x : BpodLocal 𝕜) (w : Nat → E) {g : BpodObj 𝕜 E} {e : Err}
    (hrun : (x.self.held w).computeDecomp lib ip (direct.map w) (adjoint.map w) p q atol rtol = (.error e, g)) :
    EndsRaising procs (stagesProg procs tag (limits request procs nodes).perProc ip cast (fun v c => c • v)
      (bpodDecompStages lib direct adjoint p q atol rtol)) RankState.raised (fun _ => RankState.start x) w
      fun r => if r = 0 then some e else none := by
  unfold BpodObj.computeDecomp at hrun
  dsimp only at hrun
  rw [if_neg (by simp [hd, ha, hi])] at hrun
  have hfirst := arr_eq ip w adjoint (direct.take p) (m := (adjoint.map w).length) (n := min p (direct.map w).length)
    (by simp) (by simp) (adjoint.map w).get (firstEntries (direct.map w).get p) (fun i => by simp)
    (fun j => by simp [firstEntries])
  have hlast := arr_eq ip w (adjoint.drop (adjoint.length - lastCount q adjoint.length)) direct
    (m := lastCount q (adjoint.map w).length) (n := (direct.map w).length)
    (by have := lastCount_le q adjoint.length; simp; omega) (by simp) (lastVecs (adjoint.map w).get q) (direct.map w).get
    (fun i => by simp [lastVecs]) (fun j => by simp)
  have hrun' : (match hankelOf p q ⟨_, _, handlesIp ip (adjoint.map w).get (firstEntries (direct.map w).get p)⟩
      ⟨_, _, handlesIp ip (lastVecs (adjoint.map w).get q) (direct.map w).get⟩ with
      | .error e => (Except.error e, { x.self.held w with directVecs := some (direct.map w), adjointVecs := some (adjoint.map w) })
      | .ok h => BpodObj.computeSvd lib { x.self.held w with
          directVecs := some (direct.map w), adjointVecs := some (adjoint.map w), hankel := some h } atol rtol) = (.error e, g) := by
    unfold hankelOf
    dsimp only
    cases hb : bpodHankel p q (handlesIp ip (adjoint.map w).get (firstEntries (direct.map w).get p))
        (handlesIp ip (lastVecs (adjoint.map w).get q) (direct.map w).get) with
    | error e =>
      rw [hb] at hrun
      exact hrun
    | ok rows =>
      rw [hb] at hrun
      exact hrun
  clear hrun
  rw [hfirst, hlast] at hrun'
  have hmean := bpodProducts_mean lib (procs * ((limits request procs nodes).perProc - 1)) ip hsymm cast hcast direct adjoint hd ha
    p q hi atol rtol x w
  have hlists : ∀ g : BpodLocal 𝕜, bpodListsCall p q g = .ok g := fun g => if_neg fun h => h.elim hi ho
  generalize hA : (⟨adjoint.length, (direct.take p).length, Matrix.of fun i j => ip (w adjoint[i]) (w (direct.take p)[j])⟩ : Arr 𝕜) =
    A at hrun' hmean
  generalize hB : (⟨(adjoint.drop (adjoint.length - lastCount q adjoint.length)).length, direct.length, Matrix.of fun i j =>
    ip (w (adjoint.drop (adjoint.length - lastCount q adjoint.length))[i]) (w direct[j])⟩ : Arr 𝕜) = B at hrun' hmean
  have hcall : bpodHankelCall p q (⟨{ x.self with directVecs := some direct, adjointVecs := some adjoint }, some A, some B⟩ :
      BpodLocal 𝕜) = (hankelOf p q A B).map .inl := by
    unfold bpodHankelCall hankelOf
    dsimp only
    cases bpodHankel p q A.a B.a <;> rfl
  have hlast : StagesMean (procs * ((limits request procs nodes).perProc - 1)) ip cast (fun v c => c • v)
      [Stage.compute (Y := Arr 𝕜 ⊕ BpodSized 𝕜) (bpodListsCall p q)]
      ⟨{ x.self with directVecs := some direct, adjointVecs := some adjoint }, some A, some B⟩ w
      ⟨{ x.self with directVecs := some direct, adjointVecs := some adjoint }, some A, some B⟩ w :=
    .cons (.compute (hlists _)) (.nil _ _)
  have hmean' := hmean.append hlast
  cases hH : hankelOf p q A B with
  | error e' =>
    rw [hH] at hrun' hcall
    cases hrun'
    exact C87_call_violation procs nodes hp hn request tag ip cast (fun v c => c • v) hmean' hcall _ _
  | ok H =>
    rw [hH] at hrun' hcall
    unfold BpodObj.computeSvd at hrun'
    dsimp only at hrun'
    cases hS : utilSvd lib.svd H.a atol rtol with
    | ok d =>
      rw [hS] at hrun'
      cases hrun'
    | error e' =>
      rw [hS] at hrun'
      cases hrun'
      refine C87_call_violation procs nodes hp hn request tag ip cast (fun v c => c • v)
        (hmean'.append (.cons (.callAndBcast hcall) (.nil _ _))) ?_ _ []
      unfold bpodSvdCall
      dsimp only [BpodLocal.store, BpodObj.getHankel]
      rw [hS]

end

/-- Non-vacuity: three processes load a decomposition that was never saved. -/
example : EndsRaising 3 (filesProg (saveArrayText (id : Int → Int)) (loadText false) 3 0 (podGetStages 0 1)) RankState.raised
    (fun _ => RankState.start ⟨.float (.d1 []), .float (.d2 [] true)⟩) (fun _ => none) fun r => if r = 0 then some .osError else none :=
  C87_pod_get_violation 3 (by omega) 0 0 1 rfl _

/-- Non-vacuity: two processes save projection coefficients that were never computed. -/
example : EndsRaising 2 (filesProg (saveArrayText (id : Int → Int)) (loadText false) 2 0 (putAttrStages .projCoeffs 0))
    RankState.raised (fun _ => RankState.start fun _ => none) (fun _ => none) fun r => if r = 0 then some .typeError else none :=
  (C87_attribute_violation 2 (by omega) 0 .projCoeffs 0 _ _ _).1 rfl

/-- Non-vacuity: an inner product that is not positive, and no tolerance. -/
example : ∃ (lib : PodObjLib ℝ) (g : PodObj ℝ ℝ),
    IsEigh (handlesSymmIp (fun u v : ℝ => -(u * v)) ([0].map fun _ => (1 : ℝ)).get)
      (lib.eigh (handlesSymmIp (fun u v : ℝ => -(u * v)) ([0].map fun _ => (1 : ℝ)).get)) ∧
    ((PodObj.new : PodObj ℝ Nat).held fun _ => (1 : ℝ)).computeDecomp lib (fun u v => -(u * v)) ([0].map fun _ => (1 : ℝ)) none none =
      (.error .typeError, g) ∧ ∀ u v : ℝ, -(u * v) = star (-(v * u)) := by
  let lib : PodObjLib ℝ := ⟨fun _ => ⟨fun _ => -1, 1⟩, fun x => Tuple.sort x, fun _ => ⟨0, 0, 0⟩⟩
  have hc : handlesSymmIp (fun u v : ℝ => -(u * v)) ([0].map fun _ => (1 : ℝ)).get = -1 := by
    ext i j
    change Fin 1 at i
    change Fin 1 at j
    change -((([0].map fun _ => (1 : ℝ)).get i) * (([0].map fun _ => (1 : ℝ)).get j)) = _
    rw [Subsingleton.elim i 0, Subsingleton.elim j 0]
    simp
  refine ⟨lib, (((PodObj.new : PodObj ℝ Nat).held fun _ => (1 : ℝ)).computeDecomp lib (fun u v => -(u * v))
    ([0].map fun _ => (1 : ℝ)) none none).2, ?_, Prod.ext ?_ rfl, fun u v => by rw [star_trivial, mul_comm]⟩
  · rw [hc]
    refine ⟨by simp [lib], ?_⟩
    ext i j
    by_cases h : i = j <;> simp [lib, Matrix.one_apply, h]
  · have h : adjustTol (fun _ : Fin 1 => (-1 : ℝ)) none true = .error .typeError := by
      simp [adjustTol, npMin]
    have hu : utilEigh lib.eigh lib.argsort (handlesSymmIp (fun u v : ℝ => -(u * v)) ([0].map fun _ => (1 : ℝ)).get) none none
        true = .error .typeError := by
      unfold utilEigh
      change (match adjustTol (fun _ : Fin 1 => (-1 : ℝ)) none true with
        | .error e => _
        | .ok atol => _) = _
      rw [h]
    unfold PodObj.computeDecomp PodObj.computeEigendecomp
    dsimp only
    rw [if_neg (by simp), hu]

end Modred
