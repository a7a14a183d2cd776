import Verif.Lemmas.LcShared

/-! C10 and C65: handles and destinations on storage that all processes share. -/

namespace Modred

variable {σ μ V K : Type*}

/-! ### One linear combination -/

/-- **C10, C65: several processes, places of sums apart from places of basis vectors.**  In every interleaving of the
processes: no deadlock, and as soon as *any* process has returned from `lin_combine`, all places of sums hold the linear
combinations, whichever process wrote them, other places are unchanged, and this remains so.

Missing for C10 (and false, see `C10_aliasing_race_violation`): sums put onto basis vectors, when several rounds of sums are
needed. -/
theorem C10_shared_disjoint_partial [AddCommMonoid V] (p mx : Nat) (hp : 1 ≤ p) (hmx : 2 ≤ mx) (mul : V → K → V)
    (bp sp : List Nat) (hbp : bp ≠ []) (hsp : sp.Nodup) (hdisj : ∀ q ∈ bp, q ∉ sp) (coeff : Nat → Nat → K)
    (store : Nat → V) :
    EverySharedInterleaving p (lcShared p mx mul bp sp coeff) lcInit store fun _ s w =>
      s.err = false ∧ Combined mul bp sp coeff store w :=
  (lcShared_disjoint_works p mx hp hmx mul bp sp hbp hsp hdisj coeff store).every fun _ _ h r hr => ⟨h.1 r hr, h.2⟩

example : EverySharedInterleaving 3 (lcShared 3 2 (fun (v c : ℤ) => v * c) [0, 1, 2] [7, 5, 6, 3] fun i j => i + j) lcInit
    (fun q => q + 1) fun _ s w => s.err = false ∧ Combined (fun (v c : ℤ) => v * c) [0, 1, 2] [7, 5, 6, 3]
      (fun i j => i + j) (fun q => q + 1) w :=
  C10_shared_disjoint_partial 3 2 (by decide) (by decide) _ _ _ (by decide) (by decide) (by decide) _ _

/-- **C10, C65: several processes, one round of sums.**  If all sums fit into one round, `len(sums) ≤ procs *
(max_vecs_per_proc - 1)`, the places of sums may be places of basis vectors, in every interleaving. -/
theorem C10_shared_one_round_partial [AddCommMonoid V] (p mx : Nat) (hp : 1 ≤ p) (hmx : 2 ≤ mx) (mul : V → K → V)
    (bp sp : List Nat) (hbp : bp ≠ []) (hsp : sp.Nodup) (hfit : sp.length ≤ p * (mx - 1)) (coeff : Nat → Nat → K)
    (store : Nat → V) :
    EverySharedInterleaving p (lcShared p mx mul bp sp coeff) lcInit store fun _ s w =>
      s.err = false ∧ Combined mul bp sp coeff store w :=
  (lcShared_one_round_works p mx hp hmx mul bp sp hbp hsp hfit coeff store).every fun _ _ h r hr => ⟨h.1 r hr, h.2⟩

/-- Vectors are replaced by linear combinations of them. -/
example : EverySharedInterleaving 2 (lcShared 2 3 (fun (v c : ℤ) => v * c) [0, 1, 2] [2, 0, 1] fun i j => i + j) lcInit
    (fun q => q + 1) fun _ s w => s.err = false ∧ Combined (fun (v c : ℤ) => v * c) [0, 1, 2] [2, 0, 1]
      (fun i j => i + j) (fun q => q + 1) w :=
  C10_shared_one_round_partial 2 3 (by decide) (by decide) _ _ _ (by decide) (by decide) (by decide) _ _

/-- Steps of two ranks in turn, for a number of rounds. -/
def inTurn (rounds : Nat) : List Nat := (List.range rounds).flatMap fun _ => [0, 1, 0, 1, 0, 1, 0, 1]

/-- **C10, violation for several processes: a race.**  Two processes, two basis vectors, four sums, two vectors in memory per
process, and the first sum is put onto the second basis vector.  There are two runs, both to the end of the program and
without error, that leave different vectors in place 2: there is no barrier between rank 0 putting the first sum and rank 1
reading the second basis vector for the next round of sums. -/
theorem C10_aliasing_race_violation :
    let prog := lcShared 2 2 (fun (v c : ℤ) => v * c) [0, 1] [1, 2, 3, 4] fun _ _ => 1
    let start : SharedSys (LCState ℤ) (List ℤ × List Nat) ℤ := ⟨Sys.start lcInit, fun q => q + 1⟩
    ∃ n s n' s', SharedRun 2 (fun _ _ => False) prog n start s ∧ SharedRun 2 (fun _ _ => False) prog n' start s' ∧
      (∀ r < 2, s.sys.pc r = 4 * prog.length ∧ s'.sys.pc r = 4 * prog.length ∧
        (s.sys.loc r).err = false ∧ (s'.sys.loc r).err = false) ∧
      s.store 2 = 4 ∧ s'.store 2 = 3 := by
  intro prog start
  let sched1 := inTurn 9
  let sched2 := inTurn 3 ++ List.replicate 12 1 ++ List.replicate 12 0 ++ inTurn 3
  have h : (shareRun 2 prog sched1 start).bind (fun s => (shareRun 2 prog sched2 start).map fun s' =>
      decide ((∀ r < 2, s.sys.pc r = 4 * prog.length ∧ s'.sys.pc r = 4 * prog.length ∧
        (s.sys.loc r).err = false ∧ (s'.sys.loc r).err = false) ∧ s.store 2 = 4 ∧ s'.store 2 = 3)) = some true := by
    decide +kernel
  rw [Option.bind_eq_some_iff] at h
  obtain ⟨s, hs, h⟩ := h
  rw [Option.map_eq_some_iff] at h
  obtain ⟨s', hs', h⟩ := h
  exact ⟨_, s, _, s', shareRun_run (by decide) hs, shareRun_run (by decide) hs', of_decide_eq_true h⟩

/-! ### One operation after another -/

/-- **C65.** Linear combinations one after another, each with the places of its sums apart from those of its basis vectors:
the basis vectors of one may be sums of earlier ones, and sums may be put where earlier ones read.  In every interleaving,
as soon as any process has returned from the last call, the storage is as if the calls had been made one after the other in
a single process. -/
theorem C65_calls_in_turn [AddCommMonoid V] (p : Nat) (hp : 1 ≤ p) (mul : V → K → V) (calls : List (LcCall K))
    (hne : calls ≠ [])
    (hcalls : ∀ c ∈ calls, 2 ≤ c.maxVecsPerProc ∧ c.basisPlaces ≠ [] ∧ c.sumPlaces.Nodup ∧
      ((∀ q ∈ c.basisPlaces, q ∉ c.sumPlaces) ∨ c.sumPlaces.length ≤ p * (c.maxVecsPerProc - 1)))
    (st : Nat → LCState V) (store : Nat → V) :
    EverySharedInterleaving p (lcCalls p mul calls) st store fun _ s w =>
      s.err = false ∧ CombinedInTurn mul (calls.map fun c => (c.basisPlaces, c.sumPlaces, c.coeff)) store w := by
  have key : ∀ (calls : List (LcCall K)), calls ≠ [] → (∀ c ∈ calls, 2 ≤ c.maxVecsPerProc ∧ c.basisPlaces ≠ [] ∧
      c.sumPlaces.Nodup ∧ ((∀ q ∈ c.basisPlaces, q ∉ c.sumPlaces) ∨ c.sumPlaces.length ≤ p * (c.maxVecsPerProc - 1))) →
      ∀ (st : Nat → LCState V) (store : Nat → V), Works p (lcCalls p mul calls) st store fun st w =>
        (∀ r, r < p → (st r).err = false) ∧
        CombinedInTurn mul (calls.map fun c => (c.basisPlaces, c.sumPlaces, c.coeff)) store w := by
    intro calls
    induction calls with
    | nil => intro h; exact absurd rfl h
    | cons c calls ih =>
      intro _ hc st store
      obtain ⟨h1, h2, h3, h4⟩ := hc c (by simp)
      have hone : Works p (lcShared p c.maxVecsPerProc mul c.basisPlaces c.sumPlaces c.coeff) lcInit store fun st w =>
          (∀ r, r < p → (st r).err = false) ∧ Combined mul c.basisPlaces c.sumPlaces c.coeff store w := by
        rcases h4 with h4 | h4
        · exact lcShared_disjoint_works p _ hp h1 mul _ _ h2 h3 h4 _ store
        · exact lcShared_one_round_works p _ hp h1 mul _ _ h2 h3 h4 _ store
      have hfirst := Works.cons_local (st := st) (fun rank _ => lcInit rank) hone
      rcases List.eq_nil_or_concat calls with rfl | ⟨l, a, hla⟩
      · have e : lcCalls p mul [c] = (localRound fun rank _ => lcInit rank).share ::
            lcShared p c.maxVecsPerProc mul c.basisPlaces c.sumPlaces c.coeff := by simp [lcCalls]
        rw [e]
        obtain ⟨g1, g2, g3, g4⟩ := hfirst
        exact ⟨g1, g2, g3, g4.1, CombinedInTurn.cons g4.2 (CombinedInTurn.nil _)⟩
      · have e : lcCalls p mul (c :: calls) = ((localRound fun rank _ => lcInit rank).share ::
            lcShared p c.maxVecsPerProc mul c.basisPlaces c.sumPlaces c.coeff) ++ lcCalls p mul calls := by
          simp [lcCalls]
        rw [e]
        refine hfirst.append fun st' w' hw' => ?_
        obtain ⟨g1, g2, g3, g4⟩ := ih (by rw [hla]; simp) (fun c hc' => hc c (by simp [hc'])) st' w'
        exact ⟨g1, g2, g3, g4.1, CombinedInTurn.cons hw'.2 g4.2⟩
  exact (key calls hne hcalls st store).every fun _ _ h r hr => ⟨h.1 r hr, h.2⟩

/-- Sums of sums, put where the first call read. -/
example : EverySharedInterleaving 2 (lcCalls 2 (fun (v c : ℤ) => v * c)
    [⟨2, [0, 1], [2, 3, 4], fun i j => i + j⟩, ⟨3, [4, 3], [0, 1], fun i j => i * j⟩]) lcInit (fun q => q + 1) fun _ s w =>
    s.err = false ∧ CombinedInTurn (fun (v c : ℤ) => v * c)
      [([0, 1], [2, 3, 4], fun i j => i + j), ([4, 3], [0, 1], fun i j => i * j)] (fun q => q + 1) w :=
  C65_calls_in_turn 2 (by decide) _ _ (by decide) (by simp) _ _

/-! ### Saving -/

theorem zeroPut_sLock {p : Nat} (hp : 1 ≤ p) (dest : Nat) (value : σ → V) (b : Bool) (st : Nat → σ) (w : Nat → V) :
    sLock p [zeroPut (μ := μ) dest value b] st w 1 = (st, fun q => if q = dest then value (st 0) else w q) := by
  rw [sLock_succ (k := 0) (R := zeroPut dest value b) rfl]
  refine Prod.ext rfl (funext fun q => ?_)
  change ((List.range p).findSome? fun r => if r = 0 ∧ q = dest then some (value (st r)) else none).getD (w q) = _
  by_cases hq : q = dest
  · obtain ⟨n, rfl⟩ := Nat.exists_eq_add_of_le hp
    rw [Nat.add_comm, List.range_succ_eq_map, List.findSome?_cons]
    simp [hq]
  · have : ((List.range p).findSome? fun r => if r = 0 ∧ q = dest then some (value (st r)) else none) = none :=
      List.findSome?_eq_none_iff.mpr fun r _ => if_neg fun h => hq h.2
    rw [this]
    exact (if_neg hq).symm

/-- Programs in which only rank 0 uses the store. -/
theorem zeroOnly_raceFree {p : Nat} {prog : List (SharedRound σ μ V)} {st : Nat → σ} {w : Nat → V}
    (h : ∀ R ∈ prog, ∃ dest value b, R = zeroPut dest value b) : RaceFree p prog st w fun _ _ _ => False := by
  have hz : ∀ k r q, Wrote p prog st w k r q → r = 0 := by
    rintro k r q ⟨R, hR, hne⟩
    obtain ⟨dest, value, b, rfl⟩ := h R (List.mem_of_getElem? hR)
    by_contra hr
    exact hne (if_neg fun h => hr h.1)
  refine ⟨fun k R r w' _ hR _ => ?_, fun k k' r r' q _ _ hne _ hw hu => ?_, fun k k' r r' q _ _ _ _ h => absurd h id⟩
  · obtain ⟨dest, value, b, rfl⟩ := h R (List.mem_of_getElem? hR)
    rfl
  · rcases hu with hu | hu
    · exact absurd ((hz _ _ _ hw).trans (hz _ _ _ hu).symm) hne
    · exact absurd hu id

theorem zeroOnly_matched {p : Nat} {prog : List (SharedRound σ μ V)} {st : Nat → σ} {w : Nat → V}
    (h : ∀ R ∈ prog, ∃ dest value b, R = zeroPut dest value b) : AllMatched p (fixed p prog st w) := by
  intro R hR
  obtain ⟨k, hk, hR⟩ := List.getElem_of_mem hR
  rw [fixed_length] at hk
  have h2 := fixed_getElem? (p := p) (st := st) (w0 := w) (List.getElem?_eq_getElem hk)
  rw [List.getElem?_eq_getElem (by rw [fixed_length]; exact hk), Option.some.injEq, hR] at h2
  obtain ⟨dest, value, b, he⟩ := h _ (List.getElem_mem hk)
  rw [h2, he]
  constructor <;> intro r _ _ h <;> simp [SharedRound.fix, zeroPut] at h

theorem saveEach_sLock {p : Nat} (hp : 1 ≤ p) (items : List (Nat × (σ → V))) (hd : (items.map Prod.fst).Nodup)
    (st : Nat → σ) (w : Nat → V) :
    let out := sLock p (saveEach (μ := μ) items) st w (saveEach (μ := μ) items).length
    out.1 = st ∧ (∀ item ∈ items, out.2 item.1 = item.2 (st 0)) ∧ ∀ q, q ∉ items.map Prod.fst → out.2 q = w q := by
  induction items generalizing w with
  | nil => exact ⟨rfl, fun _ h => absurd h (by simp), fun _ _ => rfl⟩
  | cons item items ih =>
    rw [List.map_cons, List.nodup_cons] at hd
    have e : saveEach (μ := μ) (item :: items) = [zeroPut item.1 item.2 true] ++ saveEach items := rfl
    intro out
    have ho : out = sLock p (saveEach (μ := μ) items) st (fun q => if q = item.1 then item.2 (st 0) else w q)
        (saveEach (μ := μ) items).length := by
      change sLock p (saveEach (μ := μ) (item :: items)) st w _ = _
      rw [e, List.length_append, sLock_append_right, List.length_singleton, zeroPut_sLock hp]
    obtain ⟨h1, h2, h3⟩ := ih hd.2 fun q => if q = item.1 then item.2 (st 0) else w q
    rw [← ho] at h1 h2 h3
    refine ⟨h1, fun it hit => ?_, fun q hq => ?_⟩
    · rcases List.mem_cons.mp hit with rfl | hit
      · rw [h3 _ hd.1, if_pos rfl]
      · exact h2 it hit
    · rw [List.map_cons, List.mem_cons, not_or] at hq
      rw [h3 q hq.2, if_neg hq.1]

/-- **C65.** Methods that save arrays: as soon as any process has returned, the destinations hold what rank 0 had, nothing
else has changed, and this remains so. -/
theorem C65_saved_when_any_returns (p : Nat) (hp : 1 ≤ p) (items : List (Nat × (σ → V)))
    (hd : (items.map Prod.fst).Nodup) (st : Nat → σ) (store : Nat → V) :
    EverySharedInterleaving p (saveEach (μ := μ) items) st store fun r s w =>
      s = st r ∧ (∀ item ∈ items, w item.1 = item.2 (st 0)) ∧ ∀ q, q ∉ items.map Prod.fst → w q = store q := by
  have hz : ∀ R ∈ saveEach (μ := μ) items, ∃ dest value b, R = zeroPut dest value b := by
    intro R hR
    obtain ⟨item, -, rfl⟩ := List.mem_map.mp hR
    exact ⟨_, _, _, rfl⟩
  obtain ⟨h1, h2, h3⟩ := saveEach_sLock (μ := μ) hp items hd st store
  refine everySharedInterleaving (zeroOnly_raceFree hz) (zeroOnly_matched hz) (fun R hR => ?_) fun r _ =>
    ⟨congrFun h1 r, h2, h3⟩
  obtain ⟨item, -, rfl⟩ := List.mem_map.mp (List.mem_of_getLast? hR)
  rfl

/-- Eigenvalues and eigenvectors, each process with its own object. -/
example : EverySharedInterleaving (μ := Unit) 4 (saveEach [(5, fun s : String × String => s.1), (3, fun s => s.2)])
    (fun r => if r = 0 then ("eigvals", "eigvecs") else ("", "")) (fun _ => "old") fun _ _ w =>
      w 5 = "eigvals" ∧ w 3 = "eigvecs" ∧ w 4 = "old" := by
  intro sync n s h
  obtain ⟨h1, h2, h3, h4⟩ := C65_saved_when_any_returns (μ := Unit) 4 (by decide)
    [(5, fun s : String × String => s.1), (3, fun s => s.2)] (by decide)
    (fun r => if r = 0 then ("eigvals", "eigvecs") else ("", "")) (fun _ => "old") sync n s h
  refine ⟨h1, h2, fun r hr hpc => ?_, h4⟩
  obtain ⟨-, h5, h6⟩ := h3 r hr hpc
  exact ⟨h5 (5, fun s => s.1) (List.mem_cons_self ..), h5 (3, fun s => s.2) (List.mem_cons_of_mem _ (List.mem_cons_self ..)),
    h6 4 (by decide)⟩

/-- **C65.** `DMDHandles.put_proj_coeffs`, which saves two arrays before its barrier. -/
theorem C65_proj_coeffs_saved (p : Nat) (hp : 1 ≤ p) (dest advDest : Nat) (hne : dest ≠ advDest)
    (projCoeffs advProjCoeffs : σ → V) (st : Nat → σ) (store : Nat → V) :
    EverySharedInterleaving p (saveProjCoeffs (μ := μ) dest advDest projCoeffs advProjCoeffs) st store fun r s w =>
      s = st r ∧ w dest = projCoeffs (st 0) ∧ w advDest = advProjCoeffs (st 0) ∧
        ∀ q, q ≠ dest → q ≠ advDest → w q = store q := by
  have hz : ∀ R ∈ saveProjCoeffs (μ := μ) dest advDest projCoeffs advProjCoeffs, ∃ dest value b, R = zeroPut dest value b := by
    intro R hR
    simp only [saveProjCoeffs, List.mem_cons, List.not_mem_nil, or_false] at hR
    rcases hR with rfl | rfl
    · exact ⟨_, _, _, rfl⟩
    · exact ⟨_, _, _, rfl⟩
  have hs : sLock p (saveProjCoeffs (μ := μ) dest advDest projCoeffs advProjCoeffs) st store 2 =
      (st, fun q => if q = advDest then advProjCoeffs (st 0) else if q = dest then projCoeffs (st 0) else store q) := by
    have e : saveProjCoeffs (μ := μ) dest advDest projCoeffs advProjCoeffs =
        [zeroPut dest projCoeffs false] ++ [zeroPut advDest advProjCoeffs true] := rfl
    have h := sLock_append_right (p := p) (st := st) (w0 := store) (A := [zeroPut (μ := μ) dest projCoeffs false])
      (B := [zeroPut advDest advProjCoeffs true]) 1
    rw [List.length_singleton] at h
    rw [e, show (2 : Nat) = 1 + 1 from rfl, h, zeroPut_sLock hp, zeroPut_sLock hp]
  refine everySharedInterleaving (zeroOnly_raceFree hz) (zeroOnly_matched hz) (fun R hR => ?_) fun r _ => ?_
  · simp only [saveProjCoeffs, List.getLast?_cons_cons, List.getLast?_singleton, Option.some.injEq] at hR
    rw [← hR]
    rfl
  · change _ ∧ _
    rw [show (saveProjCoeffs (μ := μ) dest advDest projCoeffs advProjCoeffs).length = 2 from rfl, hs]
    refine ⟨rfl, ?_, ?_, ?_⟩
    · simp [hne]
    · simp
    · intro q h1 h2
      simp [h1, h2]

/-- Without the barrier a process may return before anything is saved, so the theorems above depend on it. -/
example : ¬ EverySharedInterleaving (μ := Unit) 2 [zeroPut 0 (fun _ : Unit => 1) false] (fun _ => ()) (fun _ => 0)
    fun _ _ w => w 0 = 1 := by
  intro h
  have hrun : (shareRun (μ := Unit) 2 [zeroPut 0 (fun _ : Unit => 1) false] [1, 1, 1, 1] ⟨Sys.start fun _ => (), fun _ => 0⟩).map
      (fun s => decide (s.sys.pc 1 = 4 ∧ s.store 0 = 0)) = some true := by decide +kernel
  rw [Option.map_eq_some_iff] at hrun
  obtain ⟨s, hs, hd⟩ := hrun
  obtain ⟨h1, h2⟩ := of_decide_eq_true hd
  have : s.store 0 = 1 := (h _ _ s (shareRun_run (by decide) hs)).2.2.1 1 (by decide) h1
  rw [h2] at this
  exact absurd this (by decide)

end Modred
