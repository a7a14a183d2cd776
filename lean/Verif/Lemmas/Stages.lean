import Verif.Spec.Stages
import Verif.Lemmas.LcShared
import Verif.Lemmas.SymmInner

/-! Helper lemmas about programs made of stages. -/

namespace Modred

variable {σ τ μ ν X Y V K : Type*} {p : Nat}

/-! ### Programs that leave no use of the store open -/

/-- Like `Works`, for programs that need not end with a barrier: there is one after each use of the store. -/
structure Fenced (p : Nat) (prog : List (SharedRound σ μ V)) (st : Nat → σ) (w0 : Nat → V)
    (post : (Nat → σ) → (Nat → V) → Prop) : Prop where
  race : ∃ rd, RaceFree p prog st w0 rd ∧
    ∀ k r q, k < prog.length → r < p → Wrote p prog st w0 k r q ∨ rd k r q → BarrierIn prog k prog.length
  matched : AllMatched p (fixed p prog st w0)
  post : post (sLock p prog st w0 prog.length).1 (sLock p prog st w0 prog.length).2

section
variable {prog A B : List (SharedRound σ μ V)} {st : Nat → σ} {w0 : Nat → V}

theorem Works.fenced {post : (Nat → σ) → (Nat → V) → Prop} (h : Works p prog st w0 post) : Fenced p prog st w0 post := by
  obtain ⟨⟨rd, h1⟩, h2, h3, h4⟩ := h
  exact ⟨⟨rd, h1, fun k _ _ hk _ _ => barrierIn_last h3 hk⟩, h2, h4⟩

theorem Fenced.mono {post post' : (Nat → σ) → (Nat → V) → Prop} (h : Fenced p prog st w0 post)
    (hp : ∀ st' w', post st' w' → post' st' w') : Fenced p prog st w0 post' :=
  ⟨h.1, h.2, hp _ _ h.3⟩

theorem Fenced.every {post' : Nat → σ → (Nat → V) → Prop} {post : (Nat → σ) → (Nat → V) → Prop}
    (h : Fenced p prog st w0 post) (hpost : ∀ st' w', post st' w' → ∀ r, r < p → post' r (st' r) w') :
    EverySharedInterleaving p prog st w0 post' := by
  obtain ⟨⟨rd, h1, h2⟩, h3, h4⟩ := h
  exact everySharedInterleaving' h1 h3 (fun k r q hr hw => h2 k r q hw.lt hr (Or.inl hw)) (hpost _ _ h4)

theorem Fenced.append {postA post : (Nat → σ) → (Nat → V) → Prop}
    (hA : Fenced p A st w0 postA) (hB : ∀ st' w', postA st' w' → Fenced p B st' w' post) :
    Fenced p (A ++ B) st w0 post := by
  obtain ⟨⟨rdA, h1, h1'⟩, h2, h4⟩ := hA
  obtain ⟨⟨rdB, h5, h5'⟩, h6, h8⟩ := hB _ _ h4
  refine ⟨⟨_, RaceFree.append h1 h5 h1', fun k r q hk hr h => ?_⟩, ?_, ?_⟩
  · rw [List.length_append] at hk ⊢
    rcases Nat.lt_or_ge k A.length with hlt | hge
    · rw [wrote_append_left hlt, if_pos hlt] at h
      obtain ⟨j, R, g1, g2, g3, g4⟩ := h1' k r q hlt hr h
      exact ⟨j, R, g1, by omega, by rw [List.getElem?_append_left g2]; exact g3, g4⟩
    · obtain ⟨k, rfl⟩ := Nat.exists_eq_add_of_le hge
      rw [wrote_append_right, if_neg (by omega), Nat.add_sub_cancel_left] at h
      obtain ⟨j, R, g1, g2, g3, g4⟩ := h5' k r q (by omega) hr h
      exact ⟨A.length + j, R, by omega, by omega, by
        rw [List.getElem?_append_right (by omega), Nat.add_sub_cancel_left]; exact g3, g4⟩
  · rw [fixed_append]
    exact AllMatched.append h2 h6
  · rw [List.length_append, sLock_append_right]
    exact h8

theorem findSome?_congr_mem {β γ : Type*} {l : List β} {f g : β → Option γ} (h : ∀ b ∈ l, f b = g b) :
    l.findSome? f = l.findSome? g := by
  induction l with
  | nil => rfl
  | cons b l ih => rw [List.findSome?_cons, List.findSome?_cons, h b (by simp), ih fun b hb => h b (by simp [hb])]

/-- What ranks `p, p + 1, …` have does not matter. -/
theorem sLock_congr {st' : Nat → σ} (hst : ∀ r, r < p → st' r = st r) (hm : AllMatched p (fixed p prog st w0)) (k : Nat)
    (hk : k ≤ prog.length) :
    (∀ r, r < p → (sLock p prog st' w0 k).1 r = (sLock p prog st w0 k).1 r) ∧
      (sLock p prog st' w0 k).2 = (sLock p prog st w0 k).2 := by
  induction k with
  | zero => exact ⟨hst, rfl⟩
  | succ k ih =>
    obtain ⟨ih1, ih2⟩ := ih (by omega)
    have hk' : prog[k]? = some prog[k] := List.getElem?_eq_getElem (by omega)
    have hM := hm _ (List.mem_of_getElem? (fixed_getElem? (p := p) (st := st) (w0 := w0) hk'))
    have hstep : ∀ r, r < p → (prog[k].fix (sLock p prog st w0 k).2).step (sLock p prog st' w0 k).1 r =
        (prog[k].fix (sLock p prog st w0 k).2).step (sLock p prog st w0 k).1 r := by
      intro r hr
      have hrec : (prog[k].fix (sLock p prog st w0 k).2).received (sLock p prog st' w0 k).1 r =
          (prog[k].fix (sLock p prog st w0 k).2).received (sLock p prog st w0 k).1 r := by
        unfold Round.received
        cases hro : (prog[k].fix (sLock p prog st w0 k).2).recv r with
        | none => rfl
        | some ro =>
          have hsrc := (hM.recv_ok r hr ro hro).1
          simp only [Option.bind_some, ih1 _ hsrc]
      unfold Round.step
      rw [hrec, ih1 r hr]
    rw [sLock_succ hk', sLock_succ hk']
    unfold sharedStepLock
    dsimp only
    rw [ih2]
    refine ⟨hstep, ?_⟩
    funext q
    unfold commit
    rw [findSome?_congr_mem fun r hr => by rw [hstep r (List.mem_range.mp hr)]]

theorem Fenced.congr {st' : Nat → σ} {post : (Nat → σ) → (Nat → V) → Prop} (h : Fenced p prog st w0 post)
    (hst : ∀ r, r < p → st' r = st r) (hpost : ∀ s s' w, post s w → (∀ r, r < p → s' r = s r) → post s' w) :
    Fenced p prog st' w0 post := by
  obtain ⟨⟨rd, hr, hf⟩, hm, hp⟩ := h
  have hc := fun k hk => sLock_congr (p := p) (prog := prog) (w0 := w0) hst hm k hk
  have hw : ∀ {k r q}, r < p → Wrote p prog st' w0 k r q → Wrote p prog st w0 k r q := by
    rintro k r q hrp ⟨R, hR, hne⟩
    have hk := (List.getElem?_eq_some_iff.mp hR).1
    rw [(hc (k + 1) (by omega)).1 r hrp] at hne
    exact ⟨R, hR, hne⟩
  refine ⟨⟨rd, ⟨?_, ?_, ?_⟩, ?_⟩, ?_, ?_⟩
  · intro k R r w hrp hR hwq
    have hk := (List.getElem?_eq_some_iff.mp hR).1
    obtain ⟨c1, c2⟩ := hc k (by omega)
    rw [c1 r hrp]
    rw [c2] at hwq ⊢
    exact hr.reads k R r w hrp hR hwq
  · intro k k' r r' q h1 h2 h3 h4 h5 h6
    exact hr.write k k' r r' q h1 h2 h3 h4 (hw h1 h5) (h6.imp (hw h2) id)
  · intro k k' r r' q h1 h2 h3 h4 h5 h6
    exact hr.read k k' r r' q h1 h2 h3 h4 h5 (hw h2 h6)
  · intro k r q hk hrp hu
    exact hf k r q hk hrp (hu.imp (hw hrp) id)
  · have : fixed p prog st' w0 = fixed p prog st w0 := by
      unfold fixed
      refine List.ext_getElem (by simp) fun k h1 h2 => ?_
      rw [List.getElem_mapIdx, List.getElem_mapIdx, (hc k (by rw [List.length_mapIdx] at h1; omega)).2]
    rw [this]
    exact hm
  · obtain ⟨c1, c2⟩ := hc prog.length (le_refl _)
    rw [c2]
    exact hpost _ _ _ hp c1

/-- It is enough to look at ranks `0, …, p - 1`. -/
theorem Fenced.fill (hp : 1 ≤ p) {post : (Nat → σ) → (Nat → V) → Prop}
    (h : Fenced p prog (fun r => st (if r < p then r else 0)) w0 post)
    (hpost : ∀ s s' w, post s w → (∀ r, r < p → s' r = s r) → post s' w) : Fenced p prog st w0 post :=
  h.congr (fun r hr => by simp only [if_pos hr]) hpost

theorem commit_none (R : SharedRound σ μ V) (hR : ∀ r s q, R.put r s q = none) (st' : Nat → σ) (w : Nat → V) :
    commit p R st' w = w := by
  funext q
  have : ((List.range p).findSome? fun r => R.put r (st' r) q) = (none : Option V) :=
    List.findSome?_eq_none_iff.mpr fun r _ => hR _ _ _
  simp only [commit, this, Option.getD_none]

/-- Programs that never put anything: the store stays. -/
theorem sLock_noPut (h : ∀ R ∈ prog, ∀ r s q, R.put r s q = none) (k : Nat) (hk : k ≤ prog.length) :
    sLock p prog st w0 k = (exec ((prog.take k).map fun R => R.fix w0) st, w0) := by
  induction k with
  | zero => rfl
  | succ k ih =>
    have hk' : prog[k]? = some prog[k] := List.getElem?_eq_getElem (by omega)
    rw [sLock_succ hk', ih (by omega)]
    refine Prod.ext ?_ ?_
    · change (prog[k].fix w0).step _ = _
      rw [List.take_add_one, hk', List.map_append, exec_append]
      rfl
    · exact commit_none _ (h _ (List.getElem_mem _)) _ _

theorem exec_map_fix_noPut (h : ∀ R ∈ prog, ∀ r s q, R.put r s q = none) :
    (sLock p prog st w0 prog.length).1 = exec (prog.map fun R => R.fix w0) st ∧
      (sLock p prog st w0 prog.length).2 = w0 := by
  rw [sLock_noPut h _ (le_refl _), List.take_length]
  exact ⟨rfl, rfl⟩

theorem fixed_noPut (h : ∀ R ∈ prog, ∀ r s q, R.put r s q = none) :
    fixed p prog st w0 = prog.map fun R => R.fix w0 := by
  unfold fixed
  refine List.ext_getElem (by simp) fun k h1 h2 => ?_
  rw [List.getElem_mapIdx, List.getElem_map, sLock_noPut h k (by simp at h1; omega)]

/-- Programs that only read, and end with a barrier. -/
theorem Fenced.reading (h : ∀ R ∈ prog, ∀ r s q, R.put r s q = none)
    (hlast : ∃ R, prog.getLast? = some R ∧ R.barrier = true) (hm : AllMatched p (prog.map fun R => R.fix w0)) :
    Fenced p prog st w0 fun st' w' => st' = exec (prog.map fun R => R.fix w0) st ∧ w' = w0 := by
  have hw : ∀ k r q, ¬ Wrote p prog st w0 k r q := by
    rintro k r q ⟨R, hR, hne⟩
    exact hne (h R (List.mem_of_getElem? hR) _ _ _)
  refine ⟨⟨fun _ _ _ => True, ⟨fun k R r w _ _ hw => ?_, fun k k' r r' q _ _ _ _ h => absurd h (hw _ _ _),
    fun k k' r r' q _ _ _ _ _ h => absurd h (hw _ _ _)⟩, fun k _ _ hk _ _ => barrierIn_last hlast hk⟩, ?_,
    exec_map_fix_noPut h⟩
  · rw [funext fun q => hw q trivial]
  · rw [fixed_noPut h]
    exact hm

/-- Programs that do not use the store. -/
theorem Fenced.quiet {P : Prog σ μ} (hm : AllMatched p P) :
    Fenced p (P.map fun R => (R.share : SharedRound σ μ V)) st w0 fun st' w' => st' = exec P st ∧ w' = w0 := by
  have h : ∀ R ∈ P.map fun R => (R.share : SharedRound σ μ V), ∀ r s q, R.put r s q = none := by
    intro R hR r s q
    obtain ⟨R, -, rfl⟩ := List.mem_map.mp hR
    rfl
  have hfix : ((P.map fun R => (R.share : SharedRound σ μ V)).map fun R => R.fix w0) = P := by
    rw [List.map_map]
    exact (List.map_congr_left fun R _ => rfl).trans (List.map_id P)
  have hw : ∀ k r q, ¬ Wrote p (P.map fun R => (R.share : SharedRound σ μ V)) st w0 k r q := by
    rintro k r q ⟨R, hR, hne⟩
    exact hne (h R (List.mem_of_getElem? hR) _ _ _)
  refine ⟨⟨fun _ _ _ => False, ⟨fun k R r w _ hR _ => ?_, fun k k' r r' q _ _ _ _ h => absurd h (hw _ _ _),
    fun k k' r r' q _ _ _ _ _ h => absurd h (hw _ _ _)⟩, fun k r q _ _ h => ?_⟩, ?_, ?_⟩
  · obtain ⟨R, -, rfl⟩ := List.mem_map.mp (List.mem_of_getElem? hR)
    rfl
  · exact h.elim (fun h => absurd h (hw k r q)) False.elim
  · rw [fixed_noPut h, hfix]
    exact hm
  · have := exec_map_fix_noPut (p := p) (st := st) (w0 := w0) h
    rw [hfix] at this
    exact this

theorem Fenced.work (f : Nat → σ → σ) :
    Fenced p [((localRound f : Round σ μ).share : SharedRound σ μ V)] st w0 fun st' w' =>
      st' = (fun r => f r (st r)) ∧ w' = w0 := by
  have := Fenced.quiet (p := p) (V := V) (st := st) (w0 := w0) (P := [(localRound f : Round σ μ)])
    (AllMatched.cons (localRound_matched p f) AllMatched.nil)
  refine this.mono fun st' w' h => ⟨?_, h.2⟩
  rw [h.1, exec_cons, localRound_step]
  rfl

end

/-! ### Programs on a part of the state -/

/-- A round of the larger program does what the round of the smaller one does. -/
structure RoundSim (e : Nat → τ → σ) (inj : ν → μ) (proj : μ → Option ν) (R' : SharedRound σ μ V) (R : SharedRound τ ν V) :
    Prop where
  send : ∀ r, R'.send r = none ∧ R.send r = none ∨ ∃ dest tag msg' msg, R'.send r = some ⟨dest, tag, msg'⟩ ∧
    R.send r = some ⟨dest, tag, msg⟩ ∧ ∀ t, msg' (e r t) = inj (msg t)
  recv : R'.recv = R.recv
  upd : ∀ r t w m, R'.upd r (e r t) w m = e r (R.upd r t w (m.bind proj))
  put : ∀ r t q, R'.put r (e r t) q = R.put r t q
  barrier : R'.barrier = R.barrier

section
variable {e : Nat → τ → σ} {inj : ν → μ} {proj : μ → Option ν} (hpi : ∀ n, proj (inj n) = some n)
  {A : List (SharedRound σ μ V)} {B : List (SharedRound τ ν V)} {st : Nat → τ} {w0 : Nat → V}

include hpi

theorem RoundSim.step {R' : SharedRound σ μ V} {R : SharedRound τ ν V} (h : RoundSim e inj proj R' R) (st : Nat → τ)
    (w : Nat → V) : (R'.fix w).step (fun r => e r (st r)) = fun r => e r ((R.fix w).step st r) := by
  funext r
  have hrec : ((R'.fix w).received (fun r => e r (st r)) r).bind proj = (R.fix w).received st r := by
    unfold Round.received
    change ((R'.recv r).bind _).bind proj = (R.recv r).bind _
    rw [h.recv]
    cases R.recv r with
    | none => rfl
    | some ro =>
      change ((R'.send ro.src).map _).bind proj = (R.send ro.src).map _
      rcases h.send ro.src with ⟨h1, h2⟩ | ⟨dest, tag, msg', msg, h1, h2, h3⟩
      · rw [h1, h2]
        rfl
      · rw [h1, h2]
        simp [h3, hpi]
  change R'.upd r (e r (st r)) w _ = e r (R.upd r (st r) w _)
  rw [h.upd, hrec]

theorem sim_sLock (h : List.Forall₂ (RoundSim e inj proj) A B) (k : Nat) :
    sLock p A (fun r => e r (st r)) w0 k =
      ((fun r => e r ((sLock p B st w0 k).1 r)), (sLock p B st w0 k).2) := by
  induction k with
  | zero => rfl
  | succ k ih =>
    rcases Nat.lt_or_ge k A.length with hk | hk
    · have hkB : k < B.length := by rw [← h.length_eq]; exact hk
      have hA : A[k]? = some A[k] := List.getElem?_eq_getElem hk
      have hB : B[k]? = some B[k] := List.getElem?_eq_getElem hkB
      have hR : RoundSim e inj proj A[k] B[k] := List.Forall₂.get h hk hkB
      rw [sLock_succ hA, sLock_succ hB, ih]
      have hs := hR.step hpi (sLock p B st w0 k).1 (sLock p B st w0 k).2
      refine Prod.ext hs ?_
      change commit p A[k] ((A[k].fix _).step _) _ = commit p B[k] ((B[k].fix _).step _) _
      dsimp only at hs ⊢
      rw [hs]
      funext q
      unfold commit
      simp only [hR.put]
    · have hkB : B.length ≤ k := by rw [← h.length_eq]; exact hk
      have e1 : sLock p A (fun r => e r (st r)) w0 (k + 1) = sLock p A (fun r => e r (st r)) w0 k := by
        unfold sLock
        rw [List.take_of_length_le (by omega), List.take_of_length_le (by omega)]
      have e2 : sLock p B st w0 (k + 1) = sLock p B st w0 k := by
        unfold sLock
        rw [List.take_of_length_le (by omega), List.take_of_length_le (by omega)]
      rw [e1, e2, ih]

theorem Fenced.sim (h : List.Forall₂ (RoundSim e inj proj) A B) {post : (Nat → τ) → (Nat → V) → Prop}
    (hB : Fenced p B st w0 post) :
    Fenced p A (fun r => e r (st r)) w0 fun st' w' => ∃ t, st' = (fun r => e r (t r)) ∧ post t w' := by
  obtain ⟨⟨rd, hr, hf⟩, hm, hp⟩ := hB
  have hlen := h.length_eq
  have hget : ∀ {k : Nat} {R : SharedRound σ μ V}, A[k]? = some R → ∃ S, B[k]? = some S ∧ RoundSim e inj proj R S := by
    intro k R hR
    obtain ⟨hk, rfl⟩ := List.getElem?_eq_some_iff.mp hR
    have hkB : k < B.length := by omega
    exact ⟨B[k], List.getElem?_eq_getElem hkB, List.Forall₂.get h hk hkB⟩
  have hget' : ∀ {k : Nat} {S : SharedRound τ ν V}, B[k]? = some S → ∃ R, A[k]? = some R ∧ RoundSim e inj proj R S := by
    intro k S hS
    obtain ⟨hk, rfl⟩ := List.getElem?_eq_some_iff.mp hS
    have hkA : k < A.length := by omega
    exact ⟨A[k], List.getElem?_eq_getElem hkA, List.Forall₂.get h hkA hk⟩
  have hbar : ∀ {k k'}, BarrierIn B k k' → BarrierIn A k k' := by
    rintro k k' ⟨j, S, h1, h2, h3, h4⟩
    obtain ⟨R, hR, hs⟩ := hget' h3
    exact ⟨j, R, h1, h2, hR, hs.barrier.trans h4⟩
  have hw : ∀ {k r q}, Wrote p A (fun r => e r (st r)) w0 k r q → Wrote p B st w0 k r q := by
    rintro k r q ⟨R, hR, hne⟩
    obtain ⟨S, hS, hs⟩ := hget hR
    rw [sim_sLock hpi h] at hne
    exact ⟨S, hS, by rwa [hs.put] at hne⟩
  refine ⟨⟨rd, ⟨?_, ?_, ?_⟩, ?_⟩, ?_, ?_⟩
  · intro k R r w hrp hk hwq
    obtain ⟨S, hS, hs⟩ := hget hk
    rw [sim_sLock hpi h] at hwq ⊢
    have := hr.reads k S r w hrp hS hwq
    funext m
    change R.upd r (e r _) w m = R.upd r (e r _) _ m
    rw [hs.upd, hs.upd, this]
  · intro k k' r r' q h1 h2 h3 h4 h5 h6
    exact hbar (hr.write k k' r r' q h1 h2 h3 h4 (hw h5) (h6.imp hw id))
  · intro k k' r r' q h1 h2 h3 h4 h5 h6
    exact hbar (hr.read k k' r r' q h1 h2 h3 h4 h5 (hw h6))
  · intro k r q hk hrp hu
    rw [hlen] at hk ⊢
    exact hbar (hf k r q hk hrp (hu.imp hw id))
  · intro R hR
    obtain ⟨k, hk, rfl⟩ := List.getElem_of_mem hR
    rw [fixed_length] at hk
    have h1 := fixed_getElem? (p := p) (st := fun r => e r (st r)) (w0 := w0) (List.getElem?_eq_getElem hk)
    obtain ⟨S, hS, hs⟩ := hget (List.getElem?_eq_getElem hk)
    have h2 := fixed_getElem? (p := p) (st := st) (w0 := w0) hS
    have hM := hm _ (List.mem_of_getElem? h2)
    rw [List.getElem?_eq_getElem (by rw [fixed_length]; exact hk), Option.some.injEq] at h1
    rw [h1]
    constructor
    · intro r hrp so hso
      rcases hs.send r with ⟨g1, g2⟩ | ⟨dest, tag, msg', msg, g1, g2, g3⟩
      · exact absurd (hso.symm.trans g1) (by simp)
      · have := hso.symm.trans g1
        cases this
        obtain ⟨g4, g5⟩ := hM.send_ok r hrp ⟨dest, tag, msg⟩ g2
        exact ⟨g4, (congrFun hs.recv _).trans g5⟩
    · intro r hrp ro hro
      obtain ⟨g1, so, g2, g3, g4⟩ := hM.recv_ok r hrp ro ((congrFun hs.recv r).symm.trans hro)
      refine ⟨g1, ?_⟩
      rcases hs.send ro.src with ⟨_, g5⟩ | ⟨dest, tag, msg', msg, g5, g6, _⟩
      · exact absurd (g2.symm.trans g5) (by simp)
      · have := g2.symm.trans g6
        cases this
        exact ⟨_, g5, g3, g4⟩
  · rw [sim_sLock hpi h, hlen]
    exact ⟨_, rfl, hp⟩

end

/-- Rounds with the same sends, receives and barriers. -/
def SameShape (A B : List (SharedRound τ ν V)) : Prop :=
  List.Forall₂ (fun R S => R.send = S.send ∧ R.recv = S.recv ∧ R.barrier = S.barrier) A B

/-- A program on a part of the state, if all ranks do the same rounds. -/
theorem inStage_sim {get : σ → τ} {set : σ → τ → σ} {inj : ν → μ} {proj : μ → Option ν}
    (hgs : ∀ s t, get (set s t) = t) (hss : ∀ s t t', set (set s t) t' = set s t') {shape prog : List (SharedRound τ ν V)}
    {P : σ → List (SharedRound τ ν V)} {base : Nat → σ} (hP : ∀ r t, P (set (base r) t) = prog) (hsh : SameShape shape prog) :
    List.Forall₂ (RoundSim (fun r t => set (base r) t) inj proj) (inStage get set inj proj shape P) prog := by
  refine List.forall₂_iff_get.mpr ⟨?_, fun k hk hk' => ?_⟩
  · unfold inStage
    rw [List.length_mapIdx]
    exact hsh.length_eq
  · have hks : k < shape.length := by unfold inStage at hk; rwa [List.length_mapIdx] at hk
    have hR := List.Forall₂.get hsh hks hk'
    rw [List.get_eq_getElem, List.get_eq_getElem] at *
    have hp : prog[k]? = some prog[k] := List.getElem?_eq_getElem hk'
    have hi : (inStage (μ := μ) get set inj proj shape P)[k] = _ := List.getElem_mapIdx ..
    rw [hi]
    obtain ⟨h1, h2, h3⟩ := hR
    refine ⟨fun r => ?_, h2, fun r t w m => ?_, fun r t q => ?_, h3⟩
    · dsimp only
      rw [h1]
      cases hs : prog[k].send r with
      | none => exact Or.inl ⟨rfl, rfl⟩
      | some so => exact Or.inr ⟨so.dest, so.tag, _, so.msg, rfl, rfl, fun t => by simp only [hgs]⟩
    · dsimp only
      rw [hP, hp]
      simp only [hgs, hss]
    · dsimp only
      rw [hP, hp]
      simp only [hgs]

theorem SameShape.refl (A : List (SharedRound τ ν V)) : SameShape A A :=
  List.forall₂_same.mpr fun _ _ => ⟨rfl, rfl, rfl⟩

/-- A program run on a part of the state. -/
theorem Fenced.inStage {get : σ → τ} {set : σ → τ → σ} {inj : ν → μ} {proj : μ → Option ν}
    (hgs : ∀ s t, get (set s t) = t) (hss : ∀ s t t', set (set s t) t' = set s t') (hsg : ∀ s, set s (get s) = s)
    (hpi : ∀ n, proj (inj n) = some n) {shape prog : List (SharedRound τ ν V)}
    {P : σ → List (SharedRound τ ν V)} {st : Nat → σ} (hP : ∀ r t, P (set (st r) t) = prog) (hsh : SameShape shape prog)
    {w0 : Nat → V} {post : (Nat → τ) → (Nat → V) → Prop} (h : Fenced p prog (fun r => get (st r)) w0 post) :
    Fenced p (inStage get set inj proj shape P) st w0 fun st' w' =>
      ∃ t, st' = (fun r => set (st r) (t r)) ∧ post t w' := by
  have := Fenced.sim hpi (inStage_sim (inj := inj) (proj := proj) hgs hss hP hsh) h
  have e : (fun r => set (st r) (get (st r))) = st := funext fun r => hsg _
  rwa [e] at this

/-! ### Programs that read the store -/

/-- Rounds with the same sends, receives and barriers. -/
def SameText (A B : Prog σ μ) : Prop :=
  List.Forall₂ (fun R S => R.send = S.send ∧ R.recv = S.recv ∧ R.barrier = S.barrier) A B

theorem SameText.refl (A : Prog σ μ) : SameText A A := List.forall₂_same.mpr fun _ _ => ⟨rfl, rfl, rfl⟩

theorem SameText.append {A B A' B' : Prog σ μ} (h : SameText A B) (h' : SameText A' B') : SameText (A ++ A') (B ++ B') :=
  List.rel_append h h'

theorem SameText.cons_local {f g : Nat → σ → σ} {A B : Prog σ μ} (h : SameText A B) :
    SameText (localRound f :: A) (localRound g :: B) := List.Forall₂.cons ⟨rfl, rfl, rfl⟩ h

theorem SameText.flatMap {β : Type*} {l : List β} {f g : β → Prog σ μ} (h : ∀ b ∈ l, SameText (f b) (g b)) :
    SameText (l.flatMap f) (l.flatMap g) := by
  induction l with
  | nil => exact List.Forall₂.nil
  | cons b l ih =>
    rw [List.flatMap_cons, List.flatMap_cons]
    exact (h b (by simp)).append (ih fun b hb => h b (by simp [hb]))

theorem SameText.mapRounds {β : Type*} {l : List β} {f g : β → Round σ μ}
    (h : ∀ b ∈ l, (f b).send = (g b).send ∧ (f b).recv = (g b).recv ∧ (f b).barrier = (g b).barrier) :
    SameText (l.map f) (l.map g) := by
  induction l with
  | nil => exact List.Forall₂.nil
  | cons b l ih => exact List.Forall₂.cons (h b (by simp)) (ih fun b hb => h b (by simp [hb]))

theorem readsStore_put [Zero V] {P : (Nat → V) → Prog σ μ} : ∀ R ∈ readsStore P, ∀ r s q, R.put r s q = none := by
  intro R hR r s q
  unfold readsStore at hR
  obtain ⟨k, hk, rfl⟩ := List.mem_mapIdx.mp hR
  rfl

theorem readsStore_fix [Zero V] {P : (Nat → V) → Prog σ μ} {w : Nat → V} (h : SameText (P fun _ => 0) (P w)) :
    ((readsStore P).map fun R => R.fix w) = P w := by
  refine List.ext_getElem ?_ fun k h1 h2 => ?_
  · rw [List.length_map, readsStore, List.length_mapIdx]
    exact h.length_eq
  · have hk : k < (P fun _ => 0).length := by rw [h.length_eq]; exact h2
    have hR := List.Forall₂.get h hk h2
    rw [List.get_eq_getElem, List.get_eq_getElem] at hR
    obtain ⟨g1, g2, g3⟩ := hR
    have hp : (P w)[k]? = some (P w)[k] := List.getElem?_eq_getElem h2
    rw [List.getElem_map]
    unfold readsStore
    rw [List.getElem_mapIdx]
    unfold SharedRound.fix
    dsimp only
    rw [hp, g1, g2, g3]

theorem barrierRound_fix_matched (w : Nat → V) : ((barrierRound : SharedRound σ μ V).fix w).Matched p := by
  constructor <;> intro r _ _ h <;> simp [SharedRound.fix, barrierRound] at h

/-- A program that reads the store and then meets a barrier. -/
theorem Fenced.ofReads [Zero V] {P : (Nat → V) → Prog σ μ} {w : Nat → V} (h : SameText (P fun _ => 0) (P w))
    (hm : AllMatched p (P w)) (st : Nat → σ) :
    Fenced p (readsStore P ++ [barrierRound]) st w fun st' w' => st' = exec (P w) st ∧ w' = w := by
  have hfix : ((readsStore P ++ [barrierRound]).map fun R : SharedRound σ μ V => R.fix w) = P w ++ [(barrierRound : SharedRound σ μ V).fix w] := by
    rw [List.map_append, readsStore_fix h]
    rfl
  refine (Fenced.reading (p := p) (V := V) (st := st) (w0 := w) (prog := readsStore P ++ [barrierRound]) ?_ ⟨barrierRound, by simp, rfl⟩
    ?_).mono fun st' w' h' => ⟨?_, h'.2⟩
  · intro R hR
    rcases List.mem_append.mp hR with hR | hR
    · exact readsStore_put R hR
    · rw [List.mem_singleton.mp hR]
      exact fun _ _ _ => rfl
  · rw [hfix]
    exact hm.append (AllMatched.cons (barrierRound_fix_matched w) AllMatched.nil)
  · rw [h'.1, hfix, exec_append]
    rfl

/-! ### Lock step from interleavings -/

/-- What holds at the end of all interleavings holds after lock-step execution. -/
theorem exec_of_everyInterleaving {prog : Prog σ μ} {st : Nat → σ} {post : Nat → σ → Prop} (hm : AllMatched p prog)
    (h : EveryInterleaving p prog st post) (r : Nat) (hr : r < p) : post r (exec prog st r) := by
  by_contra hcon
  have key : ∀ n, ∃ s, SysRun p (fun _ _ => False) prog n (Sys.start st) s := by
    intro n
    induction n with
    | zero => exact ⟨_, SysRun.refl _⟩
    | succ n ih =>
      obtain ⟨s, hs⟩ := ih
      obtain ⟨-, h2, h3⟩ := h _ n s hs
      rcases h2 with h2 | ⟨s', h2⟩
      · obtain ⟨-, -, h4⟩ := interleaving_summary hm hs
        have h5 := (h3 h2).1 r hr
        rw [(h4 h2).1 r hr] at h5
        exact absurd h5 hcon
      · exact ⟨s', hs.tail h2⟩
  obtain ⟨s, hs⟩ := key (p * (4 * prog.length) + 1)
  have := (interleaving_summary hm hs).1
  omega

end Modred
