import Verif.Lemmas.Stages
import Verif.Props.VectorSpace

/-! Helper lemmas: what each stage does. -/

namespace Modred

variable {X Y V K : Type*} {p : Nat}

/-! ### Rounds of the loops do not depend on values -/

theorem sameEach_replicate {α β : Type*} {r : α → β → Prop} {a : α} {b : β} (h : r a b) :
    ∀ n, List.Forall₂ r (List.replicate n a) (List.replicate n b)
  | 0 => List.Forall₂.nil
  | n + 1 => List.Forall₂.cons h (sameEach_replicate h n)

theorem colPass_same (p m n : Nat) (ip ip' : V → V → K) (own own' : Nat → IPMsg V K) :
    SameText (colPass p m n ip own) (colPass p m n ip' own') := by
  exact SameText.cons_local (sameEach_replicate ⟨rfl, rfl, rfl⟩ _)

theorem ipProg_same [Add K] (p tag mx : Nat) (ip ip' : V → V → K) {rows cols rows' cols' : List V}
    (hr : rows.length = rows'.length) (hc : cols.length = cols'.length) :
    SameText (ipProg p tag mx ip rows cols) (ipProg p tag mx ip' rows' cols') := by
  unfold ipProg
  dsimp only
  rw [hr, hc]
  exact SameText.append (SameText.flatMap fun k _ => SameText.cons_local (SameText.flatMap fun j _ =>
    colPass_same ..)) (SameText.refl _)

theorem symmProg_same [Add K] (p tag mx : Nat) (ip ip' : V → V → K) {vecs vecs' : List V}
    (h : vecs.length = vecs'.length) : SameText (symmProg p tag mx ip vecs) (symmProg p tag mx ip' vecs') := by
  unfold symmProg
  rw [h]
  refine SameText.append (SameText.flatMap fun k _ => ?_) (SameText.refl _)
  unfold symmChunk
  exact SameText.cons_local (SameText.append (SameText.flatMap fun i _ => SameText.mapRounds fun j _ => ⟨rfl, rfl, rfl⟩)
    (SameText.flatMap fun c _ => colPass_same ..))

theorem sameEach_flatMap {α β γ : Type*} {r : β → γ → Prop} {l : List α} {f : α → List β} {g : α → List γ}
    (h : ∀ a ∈ l, List.Forall₂ r (f a) (g a)) : List.Forall₂ r (l.flatMap f) (l.flatMap g) := by
  induction l with
  | nil => exact List.Forall₂.nil
  | cons a l ih =>
    rw [List.flatMap_cons, List.flatMap_cons]
    exact List.rel_append (h a (by simp)) (ih fun a ha => h a (by simp [ha]))

theorem lcShared_same [Add V] (p mx : Nat) (mul : V → K → V) (bp sp : List Nat) (coeff coeff' : Nat → Nat → K) :
    SameShape (lcShared p mx mul bp sp coeff) (lcShared p mx mul bp sp coeff') := by
  unfold lcShared SameShape
  refine List.rel_append (sameEach_flatMap fun k _ => List.Forall₂.cons ⟨rfl, rfl, rfl⟩ (List.rel_append
    (sameEach_flatMap fun j _ => List.Forall₂.cons ⟨rfl, rfl, rfl⟩
      (sameEach_replicate ⟨rfl, rfl, rfl⟩ _)) (SameShape.refl _))) (SameShape.refl _)

/-! ### The stages -/

/-- No exception so far, and the object is as it should be. -/
def RankState.Good (x : X) (s : RankState X Y V K) : Prop := s.raised = none ∧ s.obj = x

/-- The stage leads from good states to good states. -/
def StageWorks (p : Nat) (prog : List (SharedRound (RankState X Y V K) (StageMsg Y V K) V)) (x : X) (w : Nat → V) (x' : X)
    (w' : Nat → V) : Prop :=
  ∀ st : Nat → RankState X Y V K, (∀ r, (st r).Good x) →
    Fenced p prog st w fun st' w'' => (∀ r, r < p → (st' r).Good x') ∧ w'' = w'

theorem StageWorks.append (hp : 1 ≤ p) {A B : List (SharedRound (RankState X Y V K) (StageMsg Y V K) V)} {x x' x'' : X}
    {w w' w'' : Nat → V} (hA : StageWorks p A x w x' w') (hB : StageWorks p B x' w' x'' w'') :
    StageWorks p (A ++ B) x w x'' w'' := by
  intro st hst
  refine (hA st hst).append fun st' w1 h1 => ?_
  obtain ⟨h1, rfl⟩ := h1
  refine Fenced.fill hp (hB _ fun r => ?_) fun s s' w h hs => ⟨fun r hr => by rw [hs r hr]; exact h.1 r hr, h.2⟩
  split
  · exact h1 _ ‹_›
  · exact h1 0 hp

/-- Inner products. -/
theorem ipStage_works [Zero V] [Zero K]
    {jobOf : (Nat → V) → Except Err (Job (IPState V K) (IPMsg V K) (Nat → Nat → K))} {set : X → (Nat → Nat → K) → X}
    {x x' : X} {w : Nat → V} {job : Job (IPState V K) (IPMsg V K) (Nat → Nat → K)} (hjob : jobOf w = .ok job)
    (hshape : SameText (jobProg (jobOf fun _ => 0)) job.prog)
    (hret : ∃ job0, jobOf (fun _ => 0) = .ok job0 ∧ job0.ret = job.ret) (hm : AllMatched p job.prog)
    (hpost : EveryInterleaving p job.prog ipInit fun _ s => s.err = false ∧ set x (job.ret s) = x') :
    StageWorks (Y := Y) p (ipStage jobOf set) x w x' w := by
  intro st hst
  unfold ipStage
  dsimp only
  rw [← List.singleton_append, List.append_assoc]
  refine (Fenced.work _).append fun st1 w1 h => ?_
  obtain ⟨rfl, rfl⟩ := h
  have hP : SameText ((fun w => jobProg (jobOf w)) fun _ => 0) ((fun w => jobProg (jobOf w)) w1) := by
    dsimp only
    rw [hjob]
    exact hshape
  have hm' : AllMatched p ((fun w => jobProg (jobOf w)) w1) := by
    dsimp only
    rw [hjob]
    exact hm
  have hcore := Fenced.ofReads (P := fun w => jobProg (jobOf w)) (w := w1) hP hm' ipInit
  refine Fenced.append (Fenced.inStage (get := RankState.ip) (set := RankState.setIp) (inj := StageMsg.ip)
    (proj := StageMsg.toIp) (st := fun r => (st r).setIp (ipInit r)) (fun _ _ => rfl) (fun _ _ _ => rfl)
    (fun _ => rfl) (fun _ => rfl) (fun _ _ => rfl) (SameShape.refl _) hcore) fun st2 w2 h => ?_
  obtain ⟨t, rfl, rfl, rfl⟩ := h
  refine (Fenced.work _).mono fun st3 w3 h => ?_
  obtain ⟨rfl, rfl⟩ := h
  refine ⟨fun r hr => ?_, rfl⟩
  obtain ⟨h1, h2⟩ := exec_of_everyInterleaving hm hpost r hr
  obtain ⟨job0, h3, h4⟩ := hret
  dsimp only
  rw [hjob]
  change RankState.Good x' (RankState.note (RankState.setIp _ (exec job.prog ipInit r)) (jobResult _ (exec job.prog ipInit r)) _)
  simp only [jobResult, h1, h3, Except.map, RankState.note, h4, Bool.false_eq_true, if_false]
  exact ⟨(hst r).1, (congrArg (fun x => set x _) (hst r).2).trans h2⟩

theorem arrayOf_eq {m n : Nat} {a : Nat → Nat → K} {A : Matrix (Fin m) (Fin n) K} 
    (h : ∀ (i : Fin m) (j : Fin n), a i j = A i j) :
    arrayOf m n a = A := by
  ext i j
  exact h i j

theorem mem_map_place {places : List Nat} {w : Nat → V} {v : V} (h : v ∈ places.map w) : ∃ i ∈ places, w i = v :=
  List.mem_map.mp h

section
variable [AddCommMonoid V] [Semiring K] [StarRing K] [DecidableEq K]

theorem innerProducts_works (procs nodes : Nat) (hp : 1 ≤ procs) (hn : 1 ≤ nodes) (request : Option Nat) (tag : Nat)
    (ip : V → V → K) (cast : K → K → K) (mul : V → K → V) {rows cols : List Nat}
    {set : X → Matrix (Fin rows.length) (Fin cols.length) K → X} {x : X} {w : Nat → V}
    (hrows : rows ≠ []) (hcols : cols ≠ [])
    (hcast : ∀ a ∈ rows ++ cols, ∀ b ∈ rows ++ cols, ∀ i ∈ rows ++ cols, ∀ j ∈ rows ++ cols,
      cast (ip (w a) (w b)) (ip (w i) (w j)) = ip (w i) (w j))
    (hsymm : cols.length < rows.length → ∀ i ∈ rows, ∀ j ∈ cols, ip (w i) (w j) = star (ip (w j) (w i))) :
    StageWorks (Y := Y) procs
      ((Stage.innerProducts rows cols set).prog procs tag (limits request procs nodes).perProc ip cast mul) x w
      (set x (Matrix.of fun i j => ip (w rows[i]) (w cols[j]))) w := by
  have hr0 : 0 < rows.length := List.length_pos_iff.mpr hrows
  have hc0 : 0 < cols.length := List.length_pos_iff.mpr hcols
  obtain ⟨job, h1, h2⟩ := C07_inner_product_array_in_general procs nodes hp hn request tag ip cast (rows.map w) (cols.map w)
    (by simpa using hr0) (by simpa using hc0)
  obtain ⟨job0, h01, -⟩ := C07_inner_product_array_in_general procs nodes hp hn request tag ip cast
    (rows.map fun _ => (0 : V)) (cols.map fun _ => (0 : V)) (by simpa using hr0) (by simpa using hc0)
  have hshape : SameText job0.prog job.prog ∧ job0.ret = job.ret ∧ AllMatched procs job.prog := by
    unfold computeInnerProductArray at h1 h01
    dsimp only at h1 h01
    simp only [List.length_map] at h1 h01
    by_cases hlt : rows.length > cols.length
    · simp only [hlt, decide_true, if_true] at h1 h01
      split at h1
      · split at h01
        · cases h1
          cases h01
          exact ⟨ipProg_same _ _ _ _ _ (by simp) (by simp), rfl, ipProg_matched _ _ _ _ _ _⟩
        · cases h01
      · cases h1
    · simp only [hlt, decide_false, Bool.false_eq_true, if_false] at h1 h01
      split at h1
      · split at h01
        · cases h1
          cases h01
          exact ⟨ipProg_same _ _ _ _ _ (by simp) (by simp), rfl, ipProg_matched _ _ _ _ _ _⟩
        · cases h01
      · cases h1
  refine ipStage_works (jobOf := fun w => computeInnerProductArray procs tag (limits request procs nodes).perProc (some ip) cast
    (rows.map w) (cols.map w)) (set := fun x a => set x (arrayOf _ _ a)) h1 (by rw [h01]; exact hshape.1) ⟨job0, h01, hshape.2.1⟩ hshape.2.2 ?_
  intro sync n s hrun
  obtain ⟨h3, h4, h5⟩ := h2 sync n s hrun
  refine ⟨h3, h4, fun hfin => ⟨fun r hr => ⟨((h5 hfin).1 r hr).1, ?_⟩, (h5 hfin).2⟩⟩
  congr 1
  refine arrayOf_eq fun i j => ?_
  have hi : rows[(i : Nat)] ∈ rows := List.getElem_mem i.2
  have hj : cols[(j : Nat)] ∈ cols := List.getElem_mem j.2
  have hi0 : rows[0] ∈ rows := List.getElem_mem hr0
  have hj0 : cols[0] ∈ cols := List.getElem_mem hc0
  have hl : ∀ {a}, a ∈ rows → a ∈ rows ++ cols := fun h => List.mem_append_left _ h
  have hl' : ∀ {a}, a ∈ cols → a ∈ rows ++ cols := fun h => List.mem_append_right _ h
  rw [((h5 hfin).1 r hr).2 i j (by simp) (by simp)]
  simp only [List.length_map, List.getElem_map, Matrix.of_apply, Fin.getElem_fin]
  split
  · exact hcast _ (hl hi0) _ (hl' hj0) _ (hl hi) _ (hl' hj)
  · rw [hcast _ (hl' hj0) _ (hl hi0) _ (hl' hj) _ (hl hi)]
    exact (hsymm (by omega) _ hi _ hj).symm

theorem symmInnerProducts_works (procs nodes : Nat) (hp : 1 ≤ procs) (hn : 1 ≤ nodes) (request : Option Nat) (tag : Nat)
    (ip : V → V → K) (cast : K → K → K) (mul : V → K → V) {vecs : List Nat}
    {set : X → Matrix (Fin vecs.length) (Fin vecs.length) K → X} {x : X} {w : Nat → V} (hvecs : vecs ≠ [])
    (hcast : ∀ a ∈ vecs, ∀ i ∈ vecs, ∀ j ∈ vecs, cast (ip (w a) (w a)) (ip (w i) (w j)) = ip (w i) (w j))
    (hsymm : ∀ i ∈ vecs, ∀ j ∈ vecs, ip (w i) (w j) = star (ip (w j) (w i))) :
    StageWorks (Y := Y) procs
      ((Stage.symmInnerProducts vecs set).prog procs tag (limits request procs nodes).perProc ip cast mul) x w
      (set x (Matrix.of fun i j => ip (w vecs[i]) (w vecs[j]))) w := by
  have hv0 : 0 < vecs.length := List.length_pos_iff.mpr hvecs
  obtain ⟨job, h1, h2⟩ := C08_symm_inner_product_array procs nodes hp hn request tag ip cast (vecs.map w)
    (by simpa using hv0) (by
      intro v hv u hu
      obtain ⟨i, hi, rfl⟩ := mem_map_place hv
      obtain ⟨j, hj, rfl⟩ := mem_map_place hu
      exact hsymm j hj i hi) (by
      intro v hv u hu
      obtain ⟨i, hi, rfl⟩ := mem_map_place hv
      obtain ⟨j, hj, rfl⟩ := mem_map_place hu
      rw [List.getElem_map]
      exact hcast _ (List.getElem_mem hv0) i hi j hj)
  obtain ⟨v, vs, rfl⟩ := List.exists_cons_of_ne_nil hvecs
  have h1' := h1
  simp only [computeSymmInnerProductArray, List.map_cons, List.head?_cons] at h1'
  cases h1'
  refine ipStage_works (jobOf := fun w => computeSymmInnerProductArray procs tag (limits request procs nodes).perProc (some ip)
    cast ((v :: vs).map w)) (set := fun x a => set x (arrayOf _ _ a)) h1 ?_ ⟨_, rfl, rfl⟩ (symmProg_matched _ _ _ hp _ _) ?_
  · exact symmProg_same _ _ _ _ _ (by simp)
  intro sync n s hrun
  obtain ⟨h3, h4, h5⟩ := h2 sync n s hrun
  refine ⟨h3, h4, fun hfin => ⟨fun r hr => ⟨((h5 hfin).1 r hr).1, ?_⟩, (h5 hfin).2⟩⟩
  congr 1
  refine arrayOf_eq fun i j => ?_
  rw [((h5 hfin).1 r hr).2 i j (by simpa using i.2) (by simpa using j.2)]
  simp only [List.getElem_map, Matrix.of_apply, Fin.getElem_fin]

omit [AddCommMonoid V] [Semiring K] [StarRing K] [DecidableEq K] in
theorem callStage_works (hp : 1 ≤ p) (tag : Nat) {f : X → Except Err Y} {set : X → Y → X} {x : X} {w : Nat → V} {y : Y}
    (h : f x = .ok y) : StageWorks (K := K) p (callStage p tag f set) x w (set x y) w := by
  intro st hst
  unfold callStage
  rw [← List.singleton_append, List.append_assoc]
  refine (Fenced.work _).append fun st1 w1 h1 => ?_
  obtain ⟨rfl, rfl⟩ := h1
  have hm : AllMatched p (if p > 1 then bcastProg (α := Option Y) p tag else []) := by
    split
    · exact bcastProg_matched _ _
    · exact AllMatched.nil
  have hm' : AllMatched p ((if p > 1 then bcastProg (α := Option Y) p tag else []).map
      (Round.embed (RankState.outputs (X := X) (V := V) (K := K)) RankState.setOutputs
        (StageMsg.value (V := V) (K := K)) StageMsg.toValue)) := by
    intro R hR
    obtain ⟨R, hR', rfl⟩ := List.mem_map.mp hR
    exact embed_matched (hm R hR')
  have hq := Fenced.quiet (p := p) (V := V) (w0 := w1) (st := fun r => if r = 0 then
    (st r).note (f (st r).obj) fun s y => s.setOutputs (some y) else (st r).setOutputs none) hm'
  rw [List.map_map] at hq
  refine hq.append fun st2 w2 h2 => ?_
  obtain ⟨rfl, rfl⟩ := h2
  refine (Fenced.work _).mono fun st3 w3 h3 => ?_
  obtain ⟨rfl, rfl⟩ := h3
  refine ⟨fun r hr => ?_, rfl⟩
  dsimp only
  rw [embed_exec (get := RankState.outputs) (set := RankState.setOutputs) (inj := StageMsg.value) (proj := StageMsg.toValue)
    (fun _ _ => rfl) (fun _ _ _ => rfl) (fun _ => rfl) (fun _ => rfl)]
  have hout : exec (if p > 1 then bcastProg (α := Option Y) p tag else []) (fun r => RankState.outputs (if r = 0 then
      (st r).note (f (st r).obj) fun s y => s.setOutputs (some y) else (st r).setOutputs none)) r = some y := by
    have h0 : RankState.outputs ((st 0).note (f (st 0).obj) fun s y => s.setOutputs (some y)) = some y := by
      rw [(hst 0).2, h]
      rfl
    split
    · rw [bcastProg_exec _ _ _ _ hr]
      exact h0
    · have : r = 0 := by omega
      subst this
      exact h0
  rw [hout]
  have hgood : RankState.Good x (if r = 0 then (st r).note (f (st r).obj) fun s y => s.setOutputs (some y)
      else (st r).setOutputs none) := by
    split
    · rw [(hst r).2, h]
      exact hst r
    · exact hst r
  exact ⟨hgood.1, congrArg (fun x => set x y) hgood.2⟩

omit [AddCommMonoid V] [Semiring K] [StarRing K] [DecidableEq K] in
theorem calcStage_works {f : X → Except Err X} {x x' : X} {w : Nat → V} (h : f x = .ok x') :
    StageWorks (Y := Y) (K := K) p
      [(localRound fun _ s => s.note (f s.obj) fun s x => { s with obj := x } : Round _ _).share] x w x' w := by
  intro st hst
  refine (Fenced.work _).mono fun st3 w3 h3 => ?_
  obtain ⟨rfl, rfl⟩ := h3
  refine ⟨fun r hr => ?_, rfl⟩
  dsimp only
  rw [(hst r).2, h]
  exact ⟨(hst r).1, rfl⟩

omit [StarRing K] [DecidableEq K] in
theorem lcCoeffs_spec {numSums numBases : Nat} {c : CoeffArray K} {indices : Option (List Int)} (hb : 0 < numBases)
    (hsel : selectionOk (specShape numBases c).2 indices) (hrows : (specShape numBases c).1 = numBases)
    (hcols : numSelected (specShape numBases c).2 indices = numSums) :
    ∃ a, lcCoeffs numSums numBases c indices = .ok a ∧
      ∀ i k, k < numSums → a.e i k = specEntry numBases c i (specColumn (specShape numBases c).2 indices k) := by
  obtain ⟨h1, h2⟩ := coeff2d_spec numBases c
  have hc1 : (coeff2d numBases c).rows = (specShape numBases c).1 := congrArg Prod.fst h1
  have hc2 : (coeff2d numBases c).cols = (specShape numBases c).2 := congrArg Prod.snd h1
  rw [← hc2] at hsel hcols ⊢
  obtain ⟨b, h3, h4, h5, h6⟩ := selectCols_spec _ _ hsel
  refine ⟨b, ?_, fun i k hk => ?_⟩
  · unfold lcCoeffs
    rw [h3]
    dsimp only
    rw [if_neg (by rw [h4, hc1, hrows]; simp), if_neg (by rw [h5, hcols]; simp), if_neg (by omega)]
  · rw [h6 i k (by rw [hcols]; exact hk), h2]

omit [Semiring K] [StarRing K] [DecidableEq K] in
theorem combined_unique {mul : V → K → V} {basis sums : List Nat} {coeff coeff' : Nat → Nat → K} {w w1 w2 : Nat → V}
    (hcoeff : ∀ i k, k < sums.length → coeff i k = coeff' i k) (h1 : Combined mul basis sums coeff w w1)
    (h2 : Combined mul basis sums coeff' w w2) : w1 = w2 := by
  funext q
  by_cases hq : q ∈ sums
  · obtain ⟨k, hk, rfl⟩ := List.getElem_of_mem hq
    rw [h1.sum k hk, h2.sum k hk]
    exact Finset.sum_congr rfl fun i _ => by rw [hcoeff i k hk]
  · rw [h1.other q hq, h2.other q hq]

omit [StarRing K] [DecidableEq K] in
theorem lcStage_works (procs nodes : Nat) (hp : 1 ≤ procs) (hn : 1 ≤ nodes) (request : Option Nat) (mul : V → K → V)
    {sums basis : List Nat} {coeff : X → Except Err (CoeffArray K)} {indices : Option (List Int)} {x : X}
    {w w' : Nat → V} {c : CoeffArray K} (hc : coeff x = .ok c) (hbasis : basis ≠ []) (hsums : sums.Nodup)
    (halias : (∀ q ∈ basis, q ∉ sums) ∨ sums.length ≤ procs * ((limits request procs nodes).perProc - 1))
    (hsel : selectionOk (specShape basis.length c).2 indices) (hrows : (specShape basis.length c).1 = basis.length)
    (hcols : numSelected (specShape basis.length c).2 indices = sums.length)
    (h : Combined mul basis sums
      (fun i k => specEntry basis.length c i (specColumn (specShape basis.length c).2 indices k)) w w') :
    StageWorks (Y := Y) procs (lcStage procs (limits request procs nodes).perProc mul sums basis coeff indices) x w x w' := by
  intro st hst
  have hmx := C12_at_least_three_vectors_per_process request procs nodes hp hn
  generalize (limits request procs nodes).perProc = mx at *
  obtain ⟨a, ha, hae⟩ := lcCoeffs_spec (List.length_pos_iff.mpr hbasis) hsel hrows hcols
  unfold lcStage
  rw [← List.singleton_append, List.append_assoc]
  refine (Fenced.work _).append fun st1 w1 h1 => ?_
  obtain ⟨rfl, rfl⟩ := h1
  have hbind : ∀ r, ((coeff (st r).obj).bind fun c => lcCoeffs sums.length basis.length c indices) = .ok a := by
    intro r
    rw [(hst r).2, hc]
    exact ha
  have hcore : Works procs (lcShared procs mx mul basis sums a.e) lcInit w1 fun st w =>
      (∀ r, r < procs → (st r).err = false) ∧ Combined mul basis sums a.e w1 w := by
    rcases halias with hd | hfit
    · exact lcShared_disjoint_works procs mx hp (by omega) mul basis sums hbasis hsums hd a.e w1
    · exact lcShared_one_round_works procs mx hp (by omega) mul basis sums hbasis hsums hfit a.e w1
  refine Fenced.append (Fenced.inStage (get := RankState.lc) (set := RankState.setLc) (inj := StageMsg.basis)
    (proj := StageMsg.toBasis) (st := fun r => RankState.setLc ((st r).note _ _) (lcInit r)) (fun _ _ => rfl) (fun _ _ _ => rfl) (fun _ => rfl) (fun _ => rfl) (prog := lcShared procs mx mul basis sums a.e) (fun r t => ?_)
    (lcShared_same ..) hcore.fenced) fun st2 w2 h => ?_
  · change lcShared procs mx mul basis sums (RankState.note _ _ _).coeff = _
    rw [hbind]
    rfl
  obtain ⟨t, rfl, h3, h4⟩ := h
  refine (Fenced.work _).mono fun st3 w3 h5 => ?_
  obtain ⟨rfl, rfl⟩ := h5
  refine ⟨fun r hr => ?_, combined_unique hae h4 h⟩
  change RankState.Good x (if (t r).err then _ else _)
  rw [h3 r hr, hbind]
  exact hst r

/-- Each stage does what it means. -/
theorem stage_works (procs nodes : Nat) (hp : 1 ≤ procs) (hn : 1 ≤ nodes) (request : Option Nat) (tag : Nat)
    (ip : V → V → K) (cast : K → K → K) (mul : V → K → V) {stage : Stage X Y V K} {x x' : X} {w w' : Nat → V}
    (h : StageMeans (procs * ((limits request procs nodes).perProc - 1)) ip cast mul stage x w x' w') :
    StageWorks procs (stage.prog procs tag (limits request procs nodes).perProc ip cast mul) x w x' w' := by
  cases h with
  | innerProducts h1 h2 h3 h4 => exact innerProducts_works procs nodes hp hn request tag ip cast mul h1 h2 h3 h4
  | symmInnerProducts h1 h2 h3 => exact symmInnerProducts_works procs nodes hp hn request tag ip cast mul h1 h2 h3
  | callAndBcast h => exact callStage_works hp tag h
  | compute h => exact calcStage_works h
  | linCombine h1 h2 h3 h4 h5 h6 h7 h8 => exact lcStage_works procs nodes hp hn request mul h1 h2 h3 h4 h5 h6 h7 h8

theorem stages_work (procs nodes : Nat) (hp : 1 ≤ procs) (hn : 1 ≤ nodes) (request : Option Nat) (tag : Nat)
    (ip : V → V → K) (cast : K → K → K) (mul : V → K → V) {stages : List (Stage X Y V K)} {x x' : X} {w w' : Nat → V}
    (h : StagesMean (procs * ((limits request procs nodes).perProc - 1)) ip cast mul stages x w x' w') :
    StageWorks procs (stagesProg procs tag (limits request procs nodes).perProc ip cast mul stages) x w x' w' := by
  induction h with
  | nil x w =>
    intro st hst
    have := Fenced.quiet (p := procs) (V := V) (st := st) (w0 := w) (P := ([] : Prog _ (StageMsg Y V K))) AllMatched.nil
    refine this.mono fun st' w' h => ?_
    obtain ⟨rfl, rfl⟩ := h
    exact ⟨fun r _ => hst r, rfl⟩
  | cons h ht ih =>
    unfold stagesProg
    rw [List.flatMap_cons]
    exact (stage_works procs nodes hp hn request tag ip cast mul h).append hp ih

end

end Modred
