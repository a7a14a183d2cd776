import Verif.Model.StagesFiles
import Verif.Props.Stages
import Verif.Props.Decomp

/-!
# Saving on several processes and loading on several processes (C86)
-/

namespace Modred

variable {σ μ V X R Stored : Type*} {p : Nat}

/-! ### Programs in which only rank 0 uses the store -/

/-- Only rank 0 uses the store in the round. -/
structure SharedRound.ZeroOnly (T : SharedRound σ μ V) : Prop where
  put : ∀ r s q, r ≠ 0 → T.put r s q = none
  upd : ∀ r s w w', r ≠ 0 → T.upd r s w = T.upd r s w'

theorem zero_race {prog : List (SharedRound σ μ V)} {st : Nat → σ} {w : Nat → V} (h : ∀ T ∈ prog, T.ZeroOnly) :
    RaceFree p prog st w fun _ r _ => r = 0 := by
  have hz : ∀ k r q, Wrote p prog st w k r q → r = 0 := by
    rintro k r q ⟨T, hT, hne⟩
    by_contra hr
    exact hne ((h T (List.mem_of_getElem? hT)).put _ _ _ hr)
  refine ⟨fun k T r w' _ hT hq => ?_, fun k k' r r' q _ _ hne _ hw hu => ?_, fun k k' r r' q _ _ hne _ hr hw => ?_⟩
  · by_cases hr : r = 0
    · rw [funext fun q => hq q hr]
    · exact (h T (List.mem_of_getElem? hT)).upd _ _ _ _ hr
  · exact absurd ((hz _ _ _ hw).trans (hu.elim (fun hu => (hz _ _ _ hu).symm) Eq.symm)) hne
  · exact absurd (hr.trans (hz _ _ _ hw).symm) hne

theorem fixed_matched {prog : List (SharedRound σ μ V)} {st : Nat → σ} {w : Nat → V} (h : ∀ T ∈ prog, ∀ w, (T.fix w).Matched p) :
    AllMatched p (fixed p prog st w) := by
  intro T hT
  obtain ⟨k, hk, rfl⟩ := List.getElem_of_mem hT
  rw [fixed_length] at hk
  have h2 := fixed_getElem? (p := p) (st := st) (w0 := w) (List.getElem?_eq_getElem hk)
  rw [List.getElem?_eq_getElem (by rw [fixed_length]; exact hk), Option.some.injEq] at h2
  rw [h2]
  exact h _ (List.getElem_mem hk) _

/-- The program leads from good states to good states. -/
structure ZeroWorks (p : Nat) (prog : List (FileRound X R Stored)) (x : X) (w : Places Stored) (x' : X) (w' : Places Stored) : Prop where
  zero : ∀ T ∈ prog, T.ZeroOnly
  matched : ∀ T ∈ prog, ∀ w, (T.fix w).Matched p
  fence : ∀ k T, prog[k]? = some T → (∃ r s q, T.put r s q ≠ none) → BarrierIn prog k prog.length
  post : ∀ st, (∀ r, r < p → (st r).Good x) →
    (∀ r, r < p → ((sLock p prog st w prog.length).1 r).Good x') ∧ (sLock p prog st w prog.length).2 = w'

theorem ZeroWorks.append {A B : List (FileRound X R Stored)} {x x' x'' : X} {w w' w'' : Places Stored}
    (hA : ZeroWorks p A x w x' w') (hB : ZeroWorks p B x' w' x'' w'') : ZeroWorks p (A ++ B) x w x'' w'' := by
  refine ⟨fun T hT => ?_, fun T hT => ?_, fun k T hk hput => ?_, fun st hst => ?_⟩
  · exact (List.mem_append.mp hT).elim (hA.zero T) (hB.zero T)
  · exact (List.mem_append.mp hT).elim (hA.matched T) (hB.matched T)
  · rw [List.length_append]
    rcases Nat.lt_or_ge k A.length with hlt | hge
    · rw [List.getElem?_append_left hlt] at hk
      obtain ⟨j, T', g1, g2, g3, g4⟩ := hA.fence k T hk hput
      exact ⟨j, T', g1, by omega, by rw [List.getElem?_append_left g2]; exact g3, g4⟩
    · rw [List.getElem?_append_right hge] at hk
      obtain ⟨j, T', g1, g2, g3, g4⟩ := hB.fence _ T hk hput
      exact ⟨A.length + j, T', by omega, by omega, by
        rw [List.getElem?_append_right (by omega), Nat.add_sub_cancel_left]; exact g3, g4⟩
  · obtain ⟨h1, h2⟩ := hA.post st hst
    rw [List.length_append, sLock_append_right, h2]
    exact hB.post _ h1

theorem ZeroWorks.nil (x : X) (w : Places Stored) : ZeroWorks p ([] : List (FileRound X R Stored)) x w x w :=
  ⟨by simp, by simp, by simp, fun _ hst => ⟨hst, rfl⟩⟩

theorem ZeroWorks.every {prog : List (FileRound X R Stored)} {x x' : X} {w w' : Places Stored} (h : ZeroWorks p prog x w x' w') :
    EverySharedInterleaving p prog (fun _ => RankState.start x) w fun _ s w'' => s.raised = none ∧ s.obj = x' ∧ w'' = w' := by
  obtain ⟨h1, h2⟩ := h.post (fun _ => RankState.start x) fun _ _ => ⟨rfl, rfl⟩
  refine everySharedInterleaving' (zero_race h.zero) (fixed_matched h.matched) (fun k r q _ hw => ?_)
    fun r hr => ⟨(h1 r hr).1, (h1 r hr).2, h2⟩
  obtain ⟨T, hT, hne⟩ := hw
  exact h.fence k T hT ⟨_, _, _, hne⟩

/-! ### Saving and loading -/

section
variable {put : NpArray R → Except Err Stored} {get : Stored → Except Err (NpArray R)}

theorem saveRound_post (hp : 1 ≤ p) {dest : Nat} {value : X → Except Err (NpArray R)} {x : X} {w w' : Places Stored}
    {a : NpArray R} (hv : value x = .ok a) (h : putTo put a dest w = .ok w') (st : Nat → FileRank X R Stored)
    (hst : ∀ r, r < p → (st r).Good x) :
    (∀ r, r < p → ((sLock p [saveRound put dest value] st w 1).1 r).Good x) ∧ (sLock p [saveRound put dest value] st w 1).2 = w' := by
  have hb : ∃ f, put a = .ok f ∧ w' = fun i => if i = dest then some f else w i := by
    unfold putTo at h
    split at h
    · cases h
    · rename_i f hf
      exact ⟨f, hf, (Except.ok.inj h).symm⟩
  obtain ⟨f, hf, rfl⟩ := hb
  have hbind : ∀ r, r < p → (value (st r).obj).bind put = .ok f := by
    intro r hr
    rw [(hst r hr).2, hv]
    exact hf
  have hupd : ∀ r, r < p → (saveRound put dest value).upd r (st r) w none = st r := by
    intro r hr
    change (if r = 0 then (st r).note _ _ else st r) = st r
    rw [hbind r hr]
    exact ite_self _
  have h1 : ∀ r, r < p → (sLock p [saveRound put dest value] st w 1).1 r = st r := by
    intro r hr
    rw [sLock_succ (k := 0) (R := saveRound put dest value) rfl]
    exact hupd r hr
  refine ⟨fun r hr => by rw [h1 r hr]; exact hst r hr, ?_⟩
  rw [sLock_succ (k := 0) (R := saveRound put dest value) rfl]
  funext q
  change ((List.range p).findSome? fun r => (saveRound put dest value).put r ((saveRound put dest value).upd r (st r) w none) q).getD
    (w q) = _
  have hput : ∀ r, r < p → (saveRound put dest value).put r ((saveRound put dest value).upd r (st r) w none) q =
      if r = 0 ∧ q = dest then some (some f) else none := by
    intro r hr
    rw [hupd r hr]
    change (if r = 0 ∧ q = dest then (match (value (st r).obj).bind put with
      | .ok f => some (some f)
      | .error _ => none) else none) = _
    rw [hbind r hr]
  rw [findSome?_congr_mem fun r hr => hput r (List.mem_range.mp hr)]
  by_cases hq : q = dest
  · obtain ⟨n, rfl⟩ := Nat.exists_eq_add_of_le hp
    rw [Nat.add_comm, List.range_succ_eq_map, List.findSome?_cons]
    simp [hq]
  · have : ((List.range p).findSome? fun r => if r = 0 ∧ q = dest then some (some f) else none) = none :=
      List.findSome?_eq_none_iff.mpr fun r _ => if_neg fun h => hq h.2
    rw [this]
    exact (if_neg hq).symm

theorem saveRound_zero (dest : Nat) (value : X → Except Err (NpArray R)) : (saveRound put dest value).ZeroOnly :=
  ⟨fun _ _ _ hr => if_neg fun h => hr h.1, fun _ _ _ _ _ => rfl⟩

/-- One process puts arrays one after another. -/
def putItems (put : NpArray R → Except Err Stored) (x : X) (items : List (Nat × (X → Except Err (NpArray R)))) (w : Places Stored) :
    Except Err (Places Stored) :=
  items.foldlM (fun w item => (item.2 x).bind fun a => putTo put a item.1 w) w

theorem saveRounds_post (hp : 1 ≤ p) (items : List (Nat × (X → Except Err (NpArray R)))) {x : X} {w w' : Places Stored}
    (h : putItems put x items w = .ok w') (st : Nat → FileRank X R Stored) (hst : ∀ r, r < p → (st r).Good x) :
    (∀ r, r < p → ((sLock p (items.map fun item => saveRound put item.1 item.2) st w items.length).1 r).Good x) ∧
      (sLock p (items.map fun item => saveRound put item.1 item.2) st w items.length).2 = w' := by
  induction items generalizing w st with
  | nil => exact ⟨hst, Except.ok.inj h⟩
  | cons item items ih =>
    obtain ⟨dest, value⟩ := item
    unfold putItems at h
    rw [List.foldlM_cons] at h
    cases hv : value x with
    | error e => simp only [hv, Except.bind] at h; cases h
    | ok a =>
      cases hw : putTo put a dest w with
      | error e => simp only [hv, Except.bind, hw] at h; cases h
      | ok w1 =>
        simp only [hv, Except.bind, hw] at h
        obtain ⟨h1, h2⟩ := saveRound_post hp hv hw st hst
        have := ih h _ h1
        rw [List.map_cons, ← List.singleton_append, List.length_cons, Nat.add_comm]
        have e := sLock_append_right (p := p) (st := st) (w0 := w) (A := [saveRound put dest value])
          (B := items.map fun item => saveRound put item.1 item.2) items.length
        rw [List.length_singleton] at e
        rw [e, h2]
        exact this

theorem loadRounds_cases {tag src : Nat} {set : X → NpArray R → X} : ∀ T ∈ loadRounds p tag get src set (Stored := Stored),
    (T = readRound (fun rank s w =>
      if rank = 0 then s.note (getFrom get src w) fun s y => s.setOutputs (some y) else s.setOutputs none)) ∨
      ∃ T' : Round (FileRank X R Stored) _, T'.Matched p ∧ T = T'.share := by
  intro T hT
  rcases List.mem_append.mp hT with hT | hT
  · rcases List.mem_cons.mp hT with hT | hT
    · exact .inl hT
    · obtain ⟨T', hT', rfl⟩ := List.mem_map.mp hT
      refine .inr ⟨_, embed_matched ?_, rfl⟩
      split at hT'
      · exact bcastProg_matched _ _ _ hT'
      · cases hT'
  · rw [List.mem_singleton.mp hT]
    exact .inr ⟨_, localRound_matched _ _, rfl⟩

/-- In every stage only rank 0 uses the store, and messages fit. -/
theorem fileStage_zero (tag : Nat) (stage : FileStage X R) :
    ∀ T ∈ FileStage.prog put get p tag stage, T.ZeroOnly ∧ ∀ w, (T.fix w).Matched p := by
  intro T hT
  cases stage with
  | save items =>
    rcases List.mem_append.mp hT with hT | hT
    · obtain ⟨item, -, rfl⟩ := List.mem_map.mp hT
      refine ⟨saveRound_zero _ _, fun w => ?_⟩
      constructor <;> intro r _ _ h <;> simp [SharedRound.fix, saveRound] at h
    · rw [List.mem_singleton.mp hT]
      refine ⟨⟨fun _ _ _ _ => rfl, fun _ _ _ _ _ => rfl⟩, fun w => ?_⟩
      constructor <;> intro r _ _ h <;> simp [SharedRound.fix, barrierRound] at h
  | load src set =>
    rcases loadRounds_cases T hT with rfl | ⟨T', hm, rfl⟩
    · refine ⟨⟨fun _ _ _ _ => rfl, fun r s w w' hr => by funext m; simp only [readRound, if_neg hr]⟩, fun w => ?_⟩
      constructor <;> intro r _ _ h <;> simp [SharedRound.fix, readRound] at h
    · exact ⟨⟨fun _ _ _ _ => rfl, fun _ _ _ _ _ => rfl⟩, fun w => ⟨hm.1, hm.2⟩⟩

theorem files_zero (tag : Nat) (stages : List (FileStage X R)) :
    ∀ T ∈ filesProg put get p tag stages, T.ZeroOnly ∧ ∀ w, (T.fix w).Matched p := by
  intro T hT
  obtain ⟨stage, -, hT⟩ := List.mem_flatMap.mp hT
  exact fileStage_zero tag stage T hT

theorem save_works (hp : 1 ≤ p) (tag : Nat) (items : List (Nat × (X → Except Err (NpArray R)))) {x : X} {w w' : Places Stored}
    (h : putItems put x items w = .ok w') : ZeroWorks p (FileStage.prog put get p tag (.save items)) x w x w' := by
  refine ⟨fun T hT => (fileStage_zero _ _ T hT).1, fun T hT => (fileStage_zero _ _ T hT).2, fun k T hk _ => ?_, fun st hst => ?_⟩
  · refine barrierIn_last ⟨barrierRound, ?_, rfl⟩ (List.getElem?_eq_some_iff.mp hk).1
    simp [FileStage.prog]
  · obtain ⟨h1, h2⟩ := saveRounds_post hp items h st hst
    have e := sLock_append_right (p := p) (st := st) (w0 := w) (A := items.map fun item => saveRound put item.1 item.2)
      (B := [barrierRound]) 1
    rw [List.length_map] at e
    change (∀ r, r < p → ((sLock p (_ ++ [barrierRound]) st w (_ ++ [barrierRound]).length).1 r).Good x) ∧ 
      (sLock p (_ ++ [barrierRound]) st w (_ ++ [barrierRound]).length).2 = w'
    rw [List.length_append, List.length_map, List.length_singleton, e, h2,
      sLock_noPut (by intro T hT; rw [List.mem_singleton.mp hT]; exact fun _ _ _ => rfl) 1 (le_refl _)]
    exact ⟨h1, rfl⟩

theorem load_works (hp : 1 ≤ p) (tag : Nat) {src : Nat} {set : X → NpArray R → X} {x : X} {w : Places Stored} {a : NpArray R}
    (h : getFrom get src w = .ok a) : ZeroWorks p (FileStage.prog put get p tag (.load src set)) x w (set x a) w := by
  have hcases := loadRounds_cases (Stored := Stored) (p := p) (get := get) (tag := tag) (src := src) (set := set)
  have hno : ∀ T ∈ loadRounds p tag get src set (Stored := Stored), ∀ r s q, T.put r s q = none := by
    intro T hT r s q
    rcases hcases T hT with rfl | ⟨T', -, rfl⟩ <;> rfl
  refine ⟨fun T hT => (fileStage_zero _ _ T hT).1, fun T hT => (fileStage_zero _ _ T hT).2, fun k T hk hput => ?_, fun st hst => ?_⟩
  · obtain ⟨r, s, q, hne⟩ := hput
    exact absurd (hno T (List.mem_of_getElem? hk) r s q) hne
  · obtain ⟨h1, h2⟩ := exec_map_fix_noPut (p := p) (st := st) (w0 := w) hno
    refine ⟨fun r hr => ?_, h2⟩
    change RankState.Good (set x a) ((sLock p (loadRounds p tag get src set) st w _).1 r)
    rw [show (FileStage.prog put get p tag (.load src set)).length = (loadRounds p tag get src set (Stored := Stored)).length from rfl, h1]
    have e : ((loadRounds p tag get src set (Stored := Stored)).map fun T => T.fix w) =
        (localRound fun rank s => if rank = 0 then s.note (getFrom get src w) fun s y => s.setOutputs (some y)
            else s.setOutputs none) ::
          ((if p > 1 then bcastProg p tag else []).map
            (Round.embed RankState.outputs RankState.setOutputs StageMsg.value StageMsg.toValue)) ++
          [localRound fun _ s => match s.outputs with
            | some y => { s with obj := set s.obj y }
            | none => { s with raised := some .typeError }] := by
      simp only [loadRounds, List.map_append, List.map_cons, List.map_map, List.map_nil]
      rfl
    rw [e, exec_append, exec_cons, localRound_step, exec_cons, localRound_step, exec_nil, h]
    rw [embed_exec (get := RankState.outputs) (set := RankState.setOutputs) (inj := StageMsg.value) (proj := StageMsg.toValue)
      (fun _ _ => rfl) (fun _ _ _ => rfl) (fun _ => rfl) (fun _ => rfl)]
    have hout : exec (if p > 1 then bcastProg (α := Option (NpArray R)) p tag else []) (fun r => RankState.outputs (if r = 0 then
        (st r).note (.ok a) fun s y => s.setOutputs (some y) else (st r).setOutputs none)) r = some a := by
      split
      · rw [bcastProg_exec _ _ _ _ hr]
        rfl
      · have : r = 0 := by omega
        subst this
        rfl
    rw [hout]
    have hgood : RankState.Good x (if r = 0 then (st r).note (.ok a) fun s y => s.setOutputs (some y)
        else (st r).setOutputs none) := by
      split
      · exact hst r hr
      · exact hst r hr
    exact ⟨hgood.1, congrArg (fun x => set x a) hgood.2⟩

/-! ### One process -/

/-- What a stage does on one process. -/
inductive FileMeans (put : NpArray R → Except Err Stored) (get : Stored → Except Err (NpArray R)) :
    List (FileStage X R) → X → Places Stored → X → Places Stored → Prop
  | nil (x : X) (w : Places Stored) : FileMeans put get [] x w x w
  | save {items : List (Nat × (X → Except Err (NpArray R)))} {stages : List (FileStage X R)} {x x' : X} {w w1 w' : Places Stored}
      (h : putItems put x items w = .ok w1) (ht : FileMeans put get stages x w1 x' w') :
      FileMeans put get (.save items :: stages) x w x' w'
  | load {src : Nat} {set : X → NpArray R → X} {stages : List (FileStage X R)} {x x' : X} {w w' : Places Stored} {a : NpArray R}
      (h : getFrom get src w = .ok a) (ht : FileMeans put get stages (set x a) w x' w') :
      FileMeans put get (.load src set :: stages) x w x' w'

theorem files_work (hp : 1 ≤ p) (tag : Nat) {stages : List (FileStage X R)} {x x' : X} {w w' : Places Stored}
    (h : FileMeans put get stages x w x' w') : ZeroWorks p (filesProg put get p tag stages) x w x' w' := by
  induction h with
  | nil x w => exact .nil x w
  | save h _ ih => exact (save_works hp tag _ h).append ih
  | load h _ ih => exact (load_works hp tag h).append ih

/-- **C86.** Methods that save and load, in any order, on any number of processes: every process has what one process would
have, and so do the places, as soon as any process has returned. -/
theorem C86_like_one_process (procs : Nat) (hp : 1 ≤ procs) (tag : Nat) {stages : List (FileStage X R)} {x x' : X}
    {w w' : Places Stored} (h : FileMeans put get stages x w x' w') :
    EverySharedInterleaving procs (filesProg put get procs tag stages) (fun _ => RankState.start x) w
      fun _ s w'' => s.raised = none ∧ s.obj = x' ∧ w'' = w' :=
  (files_work hp tag h).every

/-! ### The methods -/

theorem putItems_one {dest : Nat} {value : X → Except Err (NpArray R)} {x : X} {a : NpArray R} {w w' : Places Stored}
    (hv : value x = .ok a) (h : putTo put a dest w = .ok w') : putItems put x [(dest, value)] w = .ok w' := by
  simp only [putItems, List.foldlM_cons, List.foldlM_nil, hv, Except.bind, h]
  rfl

theorem bind_ok {α β : Type*} {t : Except Err α} {f : α → Except Err β} {b : β} (h : t.bind f = .ok b) :
    ∃ a, t = .ok a ∧ f a = .ok b := by
  cases t with
  | error e => cases h
  | ok a => exact ⟨a, rfl, h⟩

/-- What several processes save with the stages `putStages` from objects alike is what one process saves, and what any number
of processes load with `getStages`, whatever they had before, is what one process loads. -/
def SavedAndLoaded (put : NpArray R → Except Err Stored) (get : Stored → Except Err (NpArray R))
    (putStages getStages : List (FileStage X R)) (saved loaded : X) (w w' : Places Stored) : Prop :=
  ∀ procs procs' tag tag', 1 ≤ procs → 1 ≤ procs' →
    EverySharedInterleaving procs (filesProg put get procs tag putStages) (fun _ => RankState.start saved) w
      (fun _ s w'' => s.raised = none ∧ s.obj = saved ∧ w'' = w') ∧
    ∀ x : X, EverySharedInterleaving procs' (filesProg put get procs' tag' getStages) (fun _ => RankState.start x) w'
      fun _ s w'' => s.raised = none ∧ s.obj = loaded ∧ w'' = w'

theorem savedAndLoaded {putStages getStages : List (FileStage X R)} {saved loaded : X} {w w' : Places Stored}
    (h1 : FileMeans put get putStages saved w saved w') (h2 : ∀ x, FileMeans put get getStages x w' loaded w') :
    SavedAndLoaded put get putStages getStages saved loaded w w' :=
  fun procs procs' tag tag' hp hp' => ⟨C86_like_one_process procs hp tag h1, fun x => C86_like_one_process procs' hp' tag' (h2 x)⟩

/-- **C86.** `put_decomp` and `get_decomp` of `PODHandles`. -/
theorem C86_pod {d d' : PodSaved R} {a b : Nat} {w w' : Places Stored} (h1 : podPutDecomp put d a b w = .ok w')
    (h2 : podGetDecomp get a b w' = .ok d') : SavedAndLoaded put get (podPutStages a b) (podGetStages a b) d d' w w' := by
  obtain ⟨w1, g1, g2⟩ := bind_ok h1
  obtain ⟨x1, k1, h2⟩ := bind_ok h2
  obtain ⟨x2, k2, h2⟩ := bind_ok h2
  cases h2
  exact savedAndLoaded (.save (putItems_one rfl g1) (.save (putItems_one rfl g2) (.nil _ _)))
    fun _ => .load k1 (.load k2 (.nil _ _))

/-- **C86.** `put_decomp` and `get_decomp` of `BPODHandles`. -/
theorem C86_bpod {d d' : BpodSaved R} {a b c : Nat} {w w' : Places Stored} (h1 : bpodPutDecomp put d a b c w = .ok w')
    (h2 : bpodGetDecomp get a b c w' = .ok d') : SavedAndLoaded put get (bpodPutStages a b c) (bpodGetStages a b c) d d' w w' := by
  obtain ⟨w1, g1, h1⟩ := bind_ok h1
  obtain ⟨w2, g2, g3⟩ := bind_ok h1
  obtain ⟨x1, k1, h2⟩ := bind_ok h2
  obtain ⟨x2, k2, h2⟩ := bind_ok h2
  obtain ⟨x3, k3, h2⟩ := bind_ok h2
  cases h2
  exact savedAndLoaded (.save (putItems_one rfl g1) (.save (putItems_one rfl g2) (.save (putItems_one rfl g3) (.nil _ _))))
    fun _ => .load k1 (.load k2 (.load k3 (.nil _ _)))

/-- **C86.** `put_decomp` and `get_decomp` of `DMDHandles`. -/
theorem C86_dmd {d d' : DmdSaved R} {at_ : Fin 5 → Nat} {w w' : Places Stored} (h1 : dmdPutDecomp put d at_ w = .ok w')
    (h2 : dmdGetDecomp get at_ w' = .ok d') : SavedAndLoaded put get (dmdPutStages at_) (dmdGetStages at_) d d' w w' := by
  obtain ⟨w1, g1, h1⟩ := bind_ok h1
  obtain ⟨w2, g2, h1⟩ := bind_ok h1
  obtain ⟨w3, g3, h1⟩ := bind_ok h1
  obtain ⟨w4, g4, g5⟩ := bind_ok h1
  obtain ⟨x1, k1, h2⟩ := bind_ok h2
  obtain ⟨x2, k2, h2⟩ := bind_ok h2
  obtain ⟨x3, k3, h2⟩ := bind_ok h2
  obtain ⟨x4, k4, h2⟩ := bind_ok h2
  obtain ⟨x5, k5, h2⟩ := bind_ok h2
  cases h2
  exact savedAndLoaded (.save (putItems_one rfl g1) (.save (putItems_one rfl g2) (.save (putItems_one rfl g3)
    (.save (putItems_one rfl g4) (.save (putItems_one rfl g5) (.nil _ _))))))
    fun _ => .load k1 (.load k2 (.load k3 (.load k4 (.load k5 (.nil _ _)))))

/-- **C86.** `put_decomp` and `get_decomp` of `TLSqrDMDHandles`. -/
theorem C86_tls {d d' : TlsqrSaved R} {at_ : Fin 7 → Nat} {w w' : Places Stored} (h1 : tlsqrPutDecomp put d at_ w = .ok w')
    (h2 : tlsqrGetDecomp get at_ w' = .ok d') : SavedAndLoaded put get (tlsqrPutStages at_) (tlsqrGetStages at_) d d' w w' := by
  obtain ⟨w1, g1, h1⟩ := bind_ok h1
  obtain ⟨w2, g2, h1⟩ := bind_ok h1
  obtain ⟨w3, g3, h1⟩ := bind_ok h1
  obtain ⟨w4, g4, h1⟩ := bind_ok h1
  obtain ⟨w5, g5, h1⟩ := bind_ok h1
  obtain ⟨w6, g6, g7⟩ := bind_ok h1
  obtain ⟨x1, k1, h2⟩ := bind_ok h2
  obtain ⟨x2, k2, h2⟩ := bind_ok h2
  obtain ⟨x3, k3, h2⟩ := bind_ok h2
  obtain ⟨x4, k4, h2⟩ := bind_ok h2
  obtain ⟨x5, k5, h2⟩ := bind_ok h2
  obtain ⟨x6, k6, h2⟩ := bind_ok h2
  obtain ⟨x7, k7, h2⟩ := bind_ok h2
  cases h2
  exact savedAndLoaded (.save (putItems_one rfl g1) (.save (putItems_one rfl g2) (.save (putItems_one rfl g3)
    (.save (putItems_one rfl g4) (.save (putItems_one rfl g5) (.save (putItems_one rfl g6) (.save (putItems_one rfl g7)
    (.nil _ _))))))))
    fun _ => .load k1 (.load k2 (.load k3 (.load k4 (.load k5 (.load k6 (.load k7 (.nil _ _)))))))

theorem heldArray_of_putAttr {attr : Attr} {obj : Held R} {dest : Nat} {w w' : Places Stored}
    (h : putAttr put attr obj dest w = .ok w') : ∃ a, heldArray attr obj = .ok a ∧ putTo put a dest w = .ok w' := by
  unfold putAttr at h
  unfold heldArray
  cases ha : obj attr with
  | none => rw [ha] at h; cases h
  | some a => rw [ha] at h; exact ⟨a, rfl, h⟩

/-- **C86.** The methods that save or load one attribute, those for the two arrays of projection coefficients of `DMDHandles`,
and `put_model`. -/
theorem C86_attributes (procs : Nat) (hp : 1 ≤ procs) (tag : Nat) (obj : Held R) (w : Places Stored) :
    (∀ attr dest w', putAttr put attr obj dest w = .ok w' →
      EverySharedInterleaving procs (filesProg put get procs tag (putAttrStages attr dest)) (fun _ => RankState.start obj) w
        fun _ s w'' => s.raised = none ∧ s.obj = obj ∧ w'' = w') ∧
    (∀ attr src obj', getAttr get attr src w obj = .ok obj' →
      EverySharedInterleaving procs (filesProg put get procs tag (getAttrStages attr src)) (fun _ => RankState.start obj) w
        fun _ s w'' => s.raised = none ∧ s.obj = obj' ∧ w'' = w) ∧
    (∀ dest advDest w', dmdPutProjCoeffs put obj dest advDest w = .ok w' →
      EverySharedInterleaving procs (filesProg put get procs tag (dmdPutProjStages dest advDest)) (fun _ => RankState.start obj) w
        fun _ s w'' => s.raised = none ∧ s.obj = obj ∧ w'' = w') ∧
    (∀ src advSrc obj', dmdGetProjCoeffs get src advSrc w obj = .ok obj' →
      EverySharedInterleaving procs (filesProg put get procs tag (dmdGetProjStages src advSrc)) (fun _ => RankState.start obj) w
        fun _ s w'' => s.raised = none ∧ s.obj = obj' ∧ w'' = w) ∧
    (∀ a b c w', ltiPutModel put obj a b c w = .ok w' →
      EverySharedInterleaving procs (filesProg put get procs tag (ltiPutStages a b c)) (fun _ => RankState.start obj) w
        fun _ s w'' => s.raised = none ∧ s.obj = obj ∧ w'' = w') := by
  refine ⟨fun attr dest w' h => ?_, fun attr src obj' h => ?_, fun dest advDest w' h => ?_, fun src advSrc obj' h => ?_,
    fun a b c w' h => ?_⟩ <;> refine C86_like_one_process procs hp tag ?_
  · obtain ⟨a, h1, h2⟩ := heldArray_of_putAttr h
    exact .save (putItems_one h1 h2) (.nil _ _)
  · obtain ⟨a, h1, h2⟩ := bind_ok h
    cases h2
    exact .load h1 (.nil _ _)
  · obtain ⟨w1, h1, h2⟩ := bind_ok h
    obtain ⟨a, h3, h4⟩ := heldArray_of_putAttr h1
    obtain ⟨b, h5, h6⟩ := heldArray_of_putAttr h2
    refine .save (w1 := w') ?_ (.nil _ _)
    simp only [putItems, List.foldlM_cons, List.foldlM_nil, h3, Except.bind, h4, h5]
    change (putTo put b advDest w1).bind _ = _
    rw [h6]
    rfl
  · obtain ⟨obj1, h1, h2⟩ := bind_ok h
    obtain ⟨a, h3, h4⟩ := bind_ok h1
    obtain ⟨b, h5, h6⟩ := bind_ok h2
    cases h4
    cases h6
    exact .load h3 (.load h5 (.nil _ _))
  · obtain ⟨w1, h1, h⟩ := bind_ok h
    obtain ⟨w2, h2, h3⟩ := bind_ok h
    obtain ⟨x1, k1, g1⟩ := heldArray_of_putAttr h1
    obtain ⟨x2, k2, g2⟩ := heldArray_of_putAttr h2
    obtain ⟨x3, k3, g3⟩ := heldArray_of_putAttr h3
    exact .save (putItems_one k1 g1) (.save (putItems_one k2 g2) (.save (putItems_one k3 g3) (.nil _ _)))

/-- **C86.** With text files, a real decomposition of `PODHandles` with two eigenvalues or more, saved by several processes, is
what any other number of processes have after loading it, whatever they had before. -/
theorem C86_pod_text (bits : Int → R) (vals : List R) (hvals : 2 ≤ vals.length) (vecs : List (List R)) (fortran : Bool)
    (a b : Nat) (hab : a ≠ b) (w : Places (List (List R))) :
    ∃ w', SavedAndLoaded (saveArrayText bits) (loadText false) (podPutStages a b) (podGetStages a b)
      ⟨.float (.d1 vals), .float (.d2 vecs fortran)⟩ ⟨.float (.d1 vals), .float (.d2 vecs false)⟩ w w' := by
  obtain ⟨w', h1, h2⟩ := C44_pod_text bits vals hvals vecs fortran a b hab w
  exact ⟨w', C86_pod h1 h2⟩

end

/-- Non-vacuity: two eigenvalues and two eigenvectors, saved by three processes and loaded by two that had none. -/
example : ∃ w', EverySharedInterleaving 3 (filesProg (saveArrayText id) (loadText false) 3 7 (podPutStages 0 1))
      (fun _ => RankState.start ⟨.float (.d1 [3, 1]), .float (.d2 [[1, 0], [0, 1]] true)⟩) (fun _ => none)
      (fun _ s w'' => s.raised = none ∧ s.obj = ⟨.float (.d1 [3, 1]), .float (.d2 [[1, 0], [0, 1]] true)⟩ ∧ w'' = w') ∧
    w' 0 = some [[3], [1]] ∧
    EverySharedInterleaving 2 (filesProg (saveArrayText (id : Int → Int)) (loadText false) 2 0 (podGetStages 0 1))
      (fun _ => RankState.start ⟨.float (.d1 []), .float (.d2 [] true)⟩) w'
      (fun _ s w'' => s.raised = none ∧ s.obj = ⟨.float (.d1 [3, 1]), .float (.d2 [[1, 0], [0, 1]] false)⟩ ∧ w'' = w') := by
  have h1 : podPutDecomp (saveArrayText (id : Int → Int)) ⟨.float (.d1 [3, 1]), .float (.d2 [[1, 0], [0, 1]] true)⟩ 0 1
      (fun _ => none) = .ok (fun i => if i = 0 then some [[3], [1]] else if i = 1 then some [[1, 0], [0, 1]] else none) := rfl
  have h := C86_pod (get := loadText false) h1 (d' := ⟨.float (.d1 [3, 1]), .float (.d2 [[1, 0], [0, 1]] false)⟩) rfl 3 2 7 0 (by omega) (by omega)
  exact ⟨_, h.1, rfl, h.2 _⟩

end Modred
