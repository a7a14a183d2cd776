import Verif.Model.StagesPod
import Verif.Spec.StagesPod
import Verif.Lemmas.StageRuns
import Verif.Props.PodObjects

/-!
# Complete methods on several processes give what one process gets (C80)
-/

namespace Modred

open Matrix

/-! ### Any sequence of stages -/

section General

variable {X Y V K : Type*} [AddCommMonoid V] [Semiring K] [StarRing K] [DecidableEq K]

/-- **C80.** Stages one after another, on any number of processes and nodes, in every interleaving: no process waits forever,
no exception is raised, and as soon as a process is done its object has the attributes, and the store the vectors, that
the stages lead to on one process. -/
theorem C80_like_one_process (procs nodes : Nat) (hp : 1 ≤ procs) (hn : 1 ≤ nodes) (request : Option Nat) (tag : Nat)
    (ip : V → V → K) (cast : K → K → K) (mul : V → K → V) (stages : List (Stage X Y V K)) (x x' : X) (w w' : Nat → V)
    (h : StagesMean (procs * ((limits request procs nodes).perProc - 1)) ip cast mul stages x w x' w') :
    EverySharedInterleaving procs (stagesProg procs tag (limits request procs nodes).perProc ip cast mul stages)
      (fun _ => RankState.start x) w fun _ s w'' => s.raised = none ∧ s.obj = x' ∧ w'' = w' :=
  (stages_work procs nodes hp hn request tag ip cast mul h _ fun _ => ⟨rfl, rfl⟩).every fun _ _ h r hr =>
    ⟨(h.1 r hr).1, (h.1 r hr).2, h.2⟩

omit [Semiring K] [StarRing K] [DecidableEq K] in
theorem StagesMean.append [Zero K] [Star K] {fit : Nat} {ip : V → V → K} {cast : K → K → K} {mul : V → K → V}
    {A B : List (Stage X Y V K)} {x x1 x2 : X} {w w1 w2 : Nat → V} (hA : StagesMean fit ip cast mul A x w x1 w1)
    (hB : StagesMean fit ip cast mul B x1 w1 x2 w2) : StagesMean fit ip cast mul (A ++ B) x w x2 w2 := by
  induction hA with
  | nil => exact hB
  | cons h ht ih => exact .cons h (ih hB)

/-- The result does not depend on how often a program with the same stages is run: what the stages lead to is unique. -/
theorem stagesMean_unique {fit fit' : Nat} {ip : V → V → K} {cast : K → K → K} {mul : V → K → V} {stages : List (Stage X Y V K)}
    {x x1 x2 : X} {w w1 w2 : Nat → V} (h1 : StagesMean fit ip cast mul stages x w x1 w1)
    (h2 : StagesMean fit' ip cast mul stages x w x2 w2) : x1 = x2 ∧ w1 = w2 := by
  induction h1 generalizing x2 w2 with
  | nil x w =>
    cases h2
    exact ⟨rfl, rfl⟩
  | cons h ht ih =>
    cases h2 with
    | cons h' ht' =>
      have key : ∀ {stage : Stage X Y V K} {x x1 x2 : X} {w w1 w2 : Nat → V},
          StageMeans fit ip cast mul stage x w x1 w1 → StageMeans fit' ip cast mul stage x w x2 w2 → x1 = x2 ∧ w1 = w2 := by
        intro stage x x1 x2 w w1 w2 h1 h2
        cases h1 with
        | innerProducts => cases h2; exact ⟨rfl, rfl⟩
        | symmInnerProducts => cases h2; exact ⟨rfl, rfl⟩
        | callAndBcast h =>
          cases h2 with
          | callAndBcast h' =>
            rw [h] at h'
            cases h'
            exact ⟨rfl, rfl⟩
        | compute h =>
          cases h2 with
          | compute h' =>
            rw [h] at h'
            cases h'
            exact ⟨rfl, rfl⟩
        | linCombine hc _ _ _ _ _ _ h =>
          cases h2 with
          | linCombine hc' _ _ _ _ _ _ h' =>
            rw [hc] at hc'
            cases hc'
            exact ⟨rfl, combined_unique (fun _ _ _ => rfl) h h'⟩
      obtain ⟨rfl, rfl⟩ := key h h'
      exact ih ht'

/-- **C80.** Numbers of processes and limits on memory do not matter: two runs with different ones leave the same objects and
the same store. -/
theorem C80_processes_and_memory_irrelevant (procs nodes procs' nodes' : Nat) (hp : 1 ≤ procs) (hn : 1 ≤ nodes)
    (hp' : 1 ≤ procs') (hn' : 1 ≤ nodes') (request request' : Option Nat) (tag tag' : Nat)
    (ip : V → V → K) (cast : K → K → K) (mul : V → K → V) (stages : List (Stage X Y V K)) (x : X) (w : Nat → V)
    (h : ∃ x' w', StagesMean (procs * ((limits request procs nodes).perProc - 1)) ip cast mul stages x w x' w')
    (h' : ∃ x' w', StagesMean (procs' * ((limits request' procs' nodes').perProc - 1)) ip cast mul stages x w x' w') :
    ∃ x' w',
      EverySharedInterleaving procs (stagesProg procs tag (limits request procs nodes).perProc ip cast mul stages)
        (fun _ => RankState.start x) w (fun _ s w'' => s.raised = none ∧ s.obj = x' ∧ w'' = w') ∧
      EverySharedInterleaving procs' (stagesProg procs' tag' (limits request' procs' nodes').perProc ip cast mul stages)
        (fun _ => RankState.start x) w fun _ s w'' => s.raised = none ∧ s.obj = x' ∧ w'' = w' := by
  obtain ⟨x1, w1, h1⟩ := h
  obtain ⟨x2, w2, h2⟩ := h'
  obtain ⟨rfl, rfl⟩ := stagesMean_unique h1 h2
  exact ⟨x1, w1, C80_like_one_process procs nodes hp hn request tag ip cast mul stages x x1 w w1 h1,
    C80_like_one_process procs' nodes' hp' hn' request' tag' ip cast mul stages x x1 w w1 h2⟩

end General

/-- `lcCoeffs` are the checks of `linCombine`, and `lcShared` has its loops. -/
theorem linCombine_lcCoeffs {V K : Type*} [AddCommMonoid V] [Semiring K] (p mx : Nat) (mul : V → K → V) (numSums : Nat)
    (basis : List V) (coeff : CoeffArray K) (indices : Option (List Int)) :
    linCombine p mx mul numSums basis coeff indices =
      (lcCoeffs numSums basis.length coeff indices).map fun c => lcProg p mx mul basis numSums c.e := by
  unfold linCombine lcCoeffs
  cases selectCols (coeff2d basis.length coeff) indices with
  | error e => rfl
  | ok c =>
    dsimp only
    split_ifs <;> rfl

/-! ### Proper orthogonal decomposition -/

section Pod

variable {𝕜 : Type*} [RCLike 𝕜] [DecidableEq 𝕜] {E : Type*} [AddCommGroup E] [Module 𝕜 E] (lib : PodObjLib 𝕜)

omit [DecidableEq 𝕜] in
theorem npAxisIndex_ok {n : Nat} {i : Int} {a : Fin n} (h : npAxisIndex n i = .ok a) :
    (-(n : Int) ≤ i ∧ i < n) ∧ a.1 = (if i < 0 then i + n else i).toNat := by
  unfold npAxisIndex at h
  split at h
  · cases h
    rename_i h
    rw [if_neg (by omega)]
    exact ⟨by omega, rfl⟩
  · split at h
    · cases h
      rename_i h
      rw [if_pos h.1]
      exact ⟨by omega, rfl⟩
    · cases h

/-- A linear combination as a stage, from the one of vectors. -/
theorem linCombine_means {X Y : Type*} (fit : Nat) (ip : E → E → 𝕜) (cast : 𝕜 → 𝕜 → 𝕜) {places modes : List Nat} {m r : Nat}
    {M : Matrix (Fin m) (Fin r) 𝕜} {l : List Int} {out : Vecs E} {w : Nat → E}
    (hout : linCombineSized modes.length (places.map w).get M (some l) = .ok out) {x : X} {coeff : X → Except Err (CoeffArray 𝕜)}
    (hc : coeff x = .ok (coeffMat M)) (hmodes : modes.Nodup) (halias : (∀ q ∈ places, q ∉ modes) ∨ modes.length ≤ fit) :
    ∃ w', StageMeans (Y := Y) fit ip cast (fun v c => c • v) (.linCombine modes places coeff (some l)) x w x w' ∧
      PutAt modes out w w' := by
  have hdim : (places.map w).length = m ∧ modes.length = l.length ∧ places ≠ [] := by
    unfold linCombineSized at hout
    split at hout
    · rename_i hp
      obtain ⟨c, hc, h1, h2, -⟩ := handlesLinCombine_ok _ _ _ _ _ hout
      obtain ⟨sel, -, h3, -⟩ := pickCols_ok _ _ _ hc
      refine ⟨hp, h1.trans (h3 l rfl).1, ?_⟩
      rintro rfl
      simp at h2
    · split at hout <;> cases hout
  obtain ⟨hm, hl, hne⟩ := hdim
  obtain ⟨hp, hk, sel, hsel, hv⟩ := linCombineSized_ok _ _ _ _ _ hout
  rw [List.length_map] at hm
  subst hm
  have hlm : ∀ k, k < out.k → ∃ j, l[k]? = some j := fun k hkk => ⟨l[k]'(by omega), List.getElem?_eq_getElem (by omega)⟩
  have hsum : ∀ k (hkk : k < out.k),
      out.v ⟨k, hkk⟩ = ∑ i : Fin places.length, (fun v (c : 𝕜) => c • v) (w places[i])
        (specEntry places.length (coeffMat M) i (specColumn r (some l) k)) := by
    intro k hkk
    obtain ⟨j, hj⟩ := hlm k hkk
    rw [hv ⟨k, hkk⟩]
    unfold combine
    refine Finset.sum_congr rfl fun i _ => ?_
    have hs := (npAxisIndex_ok (hsel ⟨k, hkk⟩ j hj)).2
    have hcol : specColumn r (some l) k = (sel ⟨k, hkk⟩).1 := by
      rw [hs]
      unfold specColumn
      simp only [List.getD_eq_getElem?_getD, hj, Option.getD_some]
    rw [hcol]
    unfold specEntry coeffMat
    dsimp only
    rw [dif_pos ⟨i.2, (sel ⟨k, hkk⟩).2⟩]
    simp
  classical
  let w' : Nat → E := fun q => if h : ∃ k, ∃ hk : k < out.k, modes[k]? = some q then out.v ⟨h.choose, h.choose_spec.choose⟩ else w q
  have hthere : ∀ k (h : k < modes.length) (h' : k < out.k), w' modes[k] = out.v ⟨k, h'⟩ := by
    intro k h h'
    have hex : ∃ k', ∃ hk : k' < out.k, modes[k']? = some modes[k] := ⟨k, h', List.getElem?_eq_getElem h⟩
    have : hex.choose = k := by
      have hs := hex.choose_spec.choose_spec
      obtain ⟨h1, h2⟩ := List.getElem?_eq_some_iff.mp hs
      exact (List.Nodup.getElem_inj_iff hmodes).mp h2
    simp only [w', dif_pos hex]
    congr 1
    exact Fin.ext this
  have hother : ∀ q, q ∉ modes → w' q = w q := by
    intro q hq
    simp only [w']
    rw [dif_neg]
    rintro ⟨k, _, h⟩
    exact hq (List.mem_of_getElem? h)
  refine ⟨w', .linCombine hc hne hmodes halias ?_ rfl hl.symm ⟨fun k hk' => ?_, hother⟩, ⟨by omega, hthere, hother⟩⟩
  · intro i hi
    obtain ⟨k, hk', rfl⟩ := List.getElem_of_mem hi
    exact (npAxisIndex_ok (hsel ⟨k, by omega⟩ l[k] (List.getElem?_eq_getElem hk'))).1
  · rw [hthere k hk' (by omega), hsum k (by omega)]
    rfl

omit [DecidableEq 𝕜] [AddCommGroup E] [Module 𝕜 E] in
theorem squareArr_eq (ip : E → E → 𝕜) (w : Nat → E) (vecs : List Nat) :
    (⟨(vecs.map w).length, handlesSymmIp ip (vecs.map w).get⟩ : SquareArr 𝕜) =
      ⟨vecs.length, Matrix.of fun i j => ip (w vecs[i]) (w vecs[j])⟩ := by
  have key : ∀ (n : Nat) (h : n = vecs.length) (f : Fin n → E), (∀ i : Fin n, f i = w (vecs[i.1]'(h ▸ i.2))) →
      (⟨n, handlesSymmIp ip f⟩ : SquareArr 𝕜) = ⟨vecs.length, Matrix.of fun i j => ip (w vecs[i]) (w vecs[j])⟩ := by
    intro n h f hf
    subst h
    congr 1
    ext i j
    change ip (f i) (f j) = _
    rw [hf, hf]
    rfl
  exact key _ (by simp) _ fun i => by simp

/-- `compute_decomp` as stages, from what it does on one process. -/
theorem podDecomp_means (fit : Nat) (ip : E → E → 𝕜) (hsymm : ∀ u v, ip u v = star (ip v u)) (cast : 𝕜 → 𝕜 → 𝕜)
    (hcast : ∀ a b u v, cast (ip a b) (ip u v) = ip u v) (vecs : List Nat) (atol rtol : Option ℝ)
    (x : PodObj 𝕜 Nat) (w : Nat → E) (g : PodObj 𝕜 E)
    (hrun : (x.held w).computeDecomp lib ip (vecs.map w) atol rtol = (.ok (), g)) :
    ∃ x', StagesMean fit ip cast (fun v c => c • v) (podDecompStages lib vecs atol rtol) x w x' w ∧ x'.held w = g ∧
      x'.vecs = some vecs := by
  unfold PodObj.computeDecomp at hrun
  dsimp only at hrun
  split at hrun
  · cases hrun
  rename_i hne
  have hne' : vecs ≠ [] := fun h => hne (by rw [h]; rfl)
  rw [squareArr_eq] at hrun
  unfold PodObj.computeEigendecomp at hrun
  dsimp only at hrun
  cases he : utilEigh lib.eigh lib.argsort (Matrix.of fun i j : Fin vecs.length => ip (w vecs[i]) (w vecs[j])) atol rtol true with
  | error e =>
    rw [he] at hrun
    cases hrun
  | ok e =>
    rw [he] at hrun
    refine ⟨⟨some vecs, some ⟨vecs.length, Matrix.of fun i j => ip (w vecs[i]) (w vecs[j])⟩, some ⟨vecs.length, e.r, e.w, e.V⟩,
      x.projCoeffs⟩, ?_, ?_, rfl⟩
    · refine .cons (.compute rfl) (.cons (.symmInnerProducts hne' (fun _ _ _ _ _ _ => hcast _ _ _ _) fun _ _ _ _ => hsymm _ _)
        (.cons (.callAndBcast (y := ⟨vecs.length, e.r, e.w, e.V⟩) ?_) (.nil _ _)))
      dsimp only [podEigen, PodObj.getCorr]
      rw [he]
    · have := (Prod.mk.inj hrun).2
      rw [← this]
      rfl

/-- **C80.** `compute_decomp` and `compute_modes` of `PODHandles`, in every interleaving of any number of processes, on
handles that use a common store: all processes get the decomposition that one process gets, and the mode handles hold the modes
that one process computes; nothing else in the store changes.  Objects may have been used for other vectors before. -/
theorem C80_pod (procs nodes : Nat) (hp : 1 ≤ procs) (hn : 1 ≤ nodes) (request : Option Nat) (tag : Nat)
    (ip : E → E → 𝕜) (hsymm : ∀ u v, ip u v = star (ip v u)) (cast : 𝕜 → 𝕜 → 𝕜)
    (hcast : ∀ a b u v, cast (ip a b) (ip u v) = ip u v) (vecs modes : List Nat) (hmodes : modes.Nodup)
    (hplaces : (∀ q ∈ vecs, q ∉ modes) ∨ modes.length ≤ procs * ((limits request procs nodes).perProc - 1))
    (l : List Int) (atol rtol : Option ℝ) (x : PodObj 𝕜 Nat) (w : Nat → E) (g : PodObj 𝕜 E) (out : Vecs E)
    (hrun : (x.held w).computeDecomp lib ip (vecs.map w) atol rtol = (.ok (), g))
    (hout : (g.computeModes l modes.length none).1 = .ok out) :
    EverySharedInterleaving procs
      (stagesProg procs tag (limits request procs nodes).perProc ip cast (fun v c => c • v)
        (podDecompStages lib vecs atol rtol ++ podModesStages vecs modes l))
      (fun _ => RankState.start x) w
      fun _ s w' => s.raised = none ∧ s.obj.held w = g ∧ s.obj.vecs = some vecs ∧ PutAt modes out w w' := by
  obtain ⟨x', hmean, rfl, hx'⟩ := podDecomp_means lib (procs * ((limits request procs nodes).perProc - 1)) ip hsymm cast hcast vecs
    atol rtol x w g hrun
  unfold PodObj.computeModes at hout
  simp only [Option.isSome_none, Bool.false_eq_true, if_false, PodObj.held, hx'] at hout
  cases hd : x'.decomp with
  | none =>
    rw [hd] at hout
    cases hout
  | some d =>
    rw [hd] at hout
    dsimp only [Option.map_some, combineAttr] at hout
    obtain ⟨w', h1, h2⟩ := linCombine_means (Y := PodSized 𝕜) (procs * ((limits request procs nodes).perProc - 1)) ip cast hout
      (x := x') (coeff := podBuild) (by unfold podBuild; rw [hd]) hmodes hplaces
    have hall : StagesMean (procs * ((limits request procs nodes).perProc - 1)) ip cast (fun v c => c • v)
        (podDecompStages lib vecs atol rtol ++ podModesStages vecs modes l) x w x' w' := by
      exact hmean.append (.cons h1 (.nil _ _))
    have := C80_like_one_process procs nodes hp hn request tag ip cast (fun v c => c • v) _ x x' w w' hall
    intro sync n s hrun
    obtain ⟨g1, g2, g3, g4⟩ := this sync n s hrun
    refine ⟨g1, g2, fun r hr hdone => ?_, g4⟩
    obtain ⟨k1, k2, k3⟩ := g3 r hr hdone
    rw [k2, k3]
    exact ⟨k1, rfl, hx', h2⟩

/-- **C80.** So the modes in the store are orthonormal with respect to the inner product, if `eigh` is right. -/
theorem C80_pod_orthonormal (procs nodes : Nat) (hp : 1 ≤ procs) (hn : 1 ≤ nodes) (request : Option Nat) (tag : Nat)
    (ip : E →ₗ⋆[𝕜] E →ₗ[𝕜] 𝕜) (hsymm : ∀ u v, ip u v = star (ip v u)) (cast : 𝕜 → 𝕜 → 𝕜)
    (hcast : ∀ a b u v, cast (ip a b) (ip u v) = ip u v) (vecs modes : List Nat) (hmodes : modes.Nodup)
    (hplaces : (∀ q ∈ vecs, q ∉ modes) ∨ modes.length ≤ procs * ((limits request procs nodes).perProc - 1))
    (l : List Int) (hl : ∀ i ∈ l, 0 ≤ i) (t : ℝ) (ht : 0 ≤ t) (rtol : Option ℝ) (hr : ∀ t ∈ rtol, 0 ≤ t)
    (hs : ∀ {m : Nat}, IsArgsort (lib.argsort (m := m))) (x : PodObj 𝕜 Nat) (w : Nat → E)
    (hlib : IsEigh (handlesSymmIp (fun x y => ip x y) (vecs.map w).get)
      (lib.eigh (handlesSymmIp (fun x y => ip x y) (vecs.map w).get)))
    (g : PodObj 𝕜 E) (out : Vecs E)
    (hrun : (x.held w).computeDecomp lib (fun u v => ip u v) (vecs.map w) (some t) rtol = (.ok (), g))
    (hout : (g.computeModes l modes.length none).1 = .ok out) :
    EverySharedInterleaving procs
      (stagesProg procs tag (limits request procs nodes).perProc (fun u v => ip u v) cast (fun v c => c • v)
        (podDecompStages lib vecs (some t) rtol ++ podModesStages vecs modes l))
      (fun _ => RankState.start x) w
      fun _ s w' => s.raised = none ∧ ∀ (a b : Nat) (ha : a < modes.length) (hb : b < modes.length),
        ip (w' modes[a]) (w' modes[b]) = if l[a]? = l[b]? then 1 else 0 := by
  have h := C80_pod lib procs nodes hp hn request tag (fun u v => ip u v) hsymm cast hcast vecs modes hmodes hplaces l (some t)
    rtol x w g out hrun hout
  obtain ⟨r, φ, hortho, huse⟩ := C60_pod lib ip (fun u v => hsymm v u) t ht rtol hr hs (x.held w) g (vecs.map w) hlib hrun
  obtain ⟨h1, sel, h2, h3⟩ := ((huse [] (by simp)).1 l modes.length none (Or.inl rfl)).1 out hout
  intro sync n s hsrun
  obtain ⟨g1, g2, g3, g4⟩ := h sync n s hsrun
  refine ⟨g1, g2, fun r' hr' hdone => ?_, g4⟩
  obtain ⟨k1, -, -, k4⟩ := g3 r' hr' hdone
  refine ⟨k1, fun a b ha hb => ?_⟩
  have hc := k4.count
  have hla : l[a]? = some (l[a]'(by omega)) := List.getElem?_eq_getElem (by omega)
  have hlb : l[b]? = some (l[b]'(by omega)) := List.getElem?_eq_getElem (by omega)
  have ea := npAxisIndex_ok (h2 ⟨a, by omega⟩ _ hla)
  have eb := npAxisIndex_ok (h2 ⟨b, by omega⟩ _ hlb)
  have pa := hl _ (List.getElem_mem (show a < l.length by omega))
  have pb := hl _ (List.getElem_mem (show b < l.length by omega))
  rw [k4.there a ha (by omega), k4.there b hb (by omega), h3, h3, hortho, hla, hlb]
  have : sel ⟨a, by omega⟩ = sel ⟨b, by omega⟩ ↔ (some (l[a]'(by omega)) : Option Int) = some (l[b]'(by omega)) := by
    rw [Fin.ext_iff, ea.2, eb.2, if_neg (by omega), if_neg (by omega), Option.some.injEq]
    omega
  simp only [this]

end Pod

/-! ### Balanced proper orthogonal decomposition -/

section Bpod

variable {𝕜 : Type*} [RCLike 𝕜] [DecidableEq 𝕜] {E : Type*} [AddCommGroup E] [Module 𝕜 E] (lib : PodObjLib 𝕜)

omit [DecidableEq 𝕜] [AddCommGroup E] [Module 𝕜 E] in
theorem arr_eq (ip : E → E → 𝕜) (w : Nat → E) (rows cols : List Nat) {m n : Nat} (hm : m = rows.length) (hn : n = cols.length)
    (f : Fin m → E) (g : Fin n → E) (hf : ∀ i : Fin m, f i = w (rows[i.1]'(hm ▸ i.2)))
    (hg : ∀ j : Fin n, g j = w (cols[j.1]'(hn ▸ j.2))) :
    (⟨m, n, handlesIp ip f g⟩ : Arr 𝕜) = ⟨rows.length, cols.length, Matrix.of fun i j => ip (w rows[i]) (w cols[j])⟩ := by
  subst hm hn
  congr 1
  ext i j
  change ip (f i) (g j) = _
  rw [hf, hg]
  rfl

/-- The Hankel array of arrays of inner products. -/
def hankelOf (p q : Nat) (first last : Arr 𝕜) : Except Err (Arr 𝕜) :=
  match bpodHankel p q first.a last.a with
  | .error e => .error e
  | .ok rows => .ok ⟨first.m / q * q, last.n / p * p, ofRows _ _ rows⟩

/-- `compute_decomp` as stages, from what it does on one process. -/
theorem bpodDecomp_means (fit : Nat) (ip : E → E → 𝕜) (hsymm : ∀ u v, ip u v = star (ip v u)) (cast : 𝕜 → 𝕜 → 𝕜)
    (hcast : ∀ a b u v, cast (ip a b) (ip u v) = ip u v) (direct adjoint : List Nat) (p q : Nat) (atol rtol : Option ℝ)
    (x : BpodLocal 𝕜) (w : Nat → E) (g : BpodObj 𝕜 E)
    (hrun : (x.self.held w).computeDecomp lib ip (direct.map w) (adjoint.map w) p q atol rtol = (.ok (), g)) :
    ∃ x', StagesMean fit ip cast (fun v c => c • v) (bpodDecompStages lib direct adjoint p q atol rtol) x w x' w ∧
      x'.self.held w = g ∧ x'.self.directVecs = some direct ∧ x'.self.adjointVecs = some adjoint := by
  unfold BpodObj.computeDecomp at hrun
  dsimp only at hrun
  split at hrun
  · cases hrun
  rename_i hne
  simp only [List.length_map, not_or] at hne
  obtain ⟨hd, ha, hp⟩ := hne
  have hfirst := arr_eq ip w adjoint (direct.take p) (m := (adjoint.map w).length) (n := min p (direct.map w).length)
    (by simp) (by simp) (adjoint.map w).get (firstEntries (direct.map w).get p) (fun i => by simp)
    (fun j => by simp [firstEntries])
  have hlast := arr_eq ip w (adjoint.drop (adjoint.length - lastCount q adjoint.length)) direct
    (m := lastCount q (adjoint.map w).length) (n := (direct.map w).length)
    (by have := lastCount_le q adjoint.length; simp; omega) (by simp) (lastVecs (adjoint.map w).get q) (direct.map w).get
    (fun i => by simp [lastVecs]) (fun j => by simp)
  have hrun' : (match hankelOf p q ⟨_, _, handlesIp ip (adjoint.map w).get (firstEntries (direct.map w).get p)⟩
      ⟨_, _, handlesIp ip (lastVecs (adjoint.map w).get q) (direct.map w).get⟩ with
      | .error e => (Except.error e, { x.self.held w with directVecs := some (direct.map w), adjointVecs := some (adjoint.map w) })
      | .ok h => BpodObj.computeSvd lib { x.self.held w with
          directVecs := some (direct.map w), adjointVecs := some (adjoint.map w), hankel := some h } atol rtol) = (.ok (), g) := by
    unfold hankelOf
    dsimp only
    cases hb : bpodHankel p q (handlesIp ip (adjoint.map w).get (firstEntries (direct.map w).get p))
        (handlesIp ip (lastVecs (adjoint.map w).get q) (direct.map w).get) with
    | error e =>
      rw [hb] at hrun
      exact hrun
    | ok rows =>
      rw [hb] at hrun
      exact hrun
  clear hrun
  rw [hfirst, hlast] at hrun'
  generalize hA : (⟨adjoint.length, (direct.take p).length, Matrix.of fun i j => ip (w adjoint[i]) (w (direct.take p)[j])⟩ : Arr 𝕜) =
    A at hrun'
  generalize hB : (⟨(adjoint.drop (adjoint.length - lastCount q adjoint.length)).length, direct.length, Matrix.of fun i j =>
    ip (w (adjoint.drop (adjoint.length - lastCount q adjoint.length))[i]) (w direct[j])⟩ : Arr 𝕜) = B at hrun'
  cases hH : hankelOf p q A B with
  | error e =>
    rw [hH] at hrun'
    cases hrun'
  | ok H =>
    rw [hH] at hrun'
    unfold BpodObj.computeSvd at hrun'
    dsimp only at hrun'
    cases hS : utilSvd lib.svd H.a atol rtol with
    | error e =>
      rw [hS] at hrun'
      cases hrun'
    | ok d =>
      rw [hS] at hrun'
      have hg := (Prod.mk.inj hrun').2
      have hlast0 : adjoint.drop (adjoint.length - lastCount q adjoint.length) ≠ [] := by
        intro h0
        have := congrArg List.length h0
        unfold lastCount at this
        simp only [List.length_drop, List.length_nil] at this
        split at this <;> omega
      have hlists : ∀ g : BpodLocal 𝕜, bpodListsCall p q g = .ok g := by
        intro g
        refine if_neg fun h0 => ?_
        unfold hankelOf bpodHankel at hH
        rw [if_pos h0] at hH
        cases hH
      refine ⟨⟨⟨some direct, some adjoint, some H, some ⟨H.m, H.n, d.r, d.S, d.U, d.V⟩, x.self.directProjCoeffs,
        x.self.adjointProjCoeffs⟩, some A, some B⟩, ?_, by rw [← hg]; rfl, rfl, rfl⟩
      refine .cons (.compute rfl) (.cons (.innerProducts (fun h => ha (by rw [h]; rfl)) (fun h => ?_)
        (fun _ _ _ _ _ _ _ _ => hcast _ _ _ _) fun _ _ _ _ _ => hsymm _ _)
        (.cons (.innerProducts hlast0 (fun h => hd (by rw [h]; rfl)) (fun _ _ _ _ _ _ _ _ => hcast _ _ _ _)
          fun _ _ _ _ _ => hsymm _ _) (.cons (.compute (hlists _)) (.cons (.callAndBcast (y := .inl H) ?_)
          (.cons (.callAndBcast (y := .inr ⟨H.m, H.n, d.r, d.S, d.U, d.V⟩) ?_) ?_)))))
      · have := congrArg List.length h
        simp only [List.length_take, List.length_nil] at this
        omega
      · unfold bpodHankelCall
        subst hA
        subst hB
        unfold hankelOf at hH
        dsimp only at hH ⊢
        split at hH
        · cases hH
        · next rows hb =>
          cases hH
          rw [hb]
      · unfold bpodSvdCall
        dsimp only [BpodLocal.store, BpodObj.getHankel]
        rw [hS]
      · rw [hA, hB]
        exact .nil _ _

/-- **C80.** `compute_decomp`, `compute_direct_modes` and `compute_adjoint_modes` of `BPODHandles`, in every interleaving of any
number of processes, on handles that use a common store: all processes get the Hankel array and the decomposition that one
process gets, and the mode handles hold the modes that one process computes; nothing else in the store changes. -/
theorem C80_bpod (procs nodes : Nat) (hp : 1 ≤ procs) (hn : 1 ≤ nodes) (request : Option Nat) (tag : Nat)
    (ip : E → E → 𝕜) (hsymm : ∀ u v, ip u v = star (ip v u)) (cast : 𝕜 → 𝕜 → 𝕜)
    (hcast : ∀ a b u v, cast (ip a b) (ip u v) = ip u v) (direct adjoint directModes adjointModes : List Nat)
    (hdm : directModes.Nodup) (ham : adjointModes.Nodup) (hd : ∀ q ∈ direct, q ∉ directModes)
    (hda : ∀ q ∈ adjoint, q ∉ directModes) (ha : ∀ q ∈ adjoint, q ∉ adjointModes)
    (p q : Nat) (lD lA : List Int) (atol rtol : Option ℝ) (x : BpodLocal 𝕜) (w : Nat → E) (g : BpodObj 𝕜 E) (outD outA : Vecs E)
    (hrun : (x.self.held w).computeDecomp lib ip (direct.map w) (adjoint.map w) p q atol rtol = (.ok (), g))
    (houtD : (g.computeDirectModes lD directModes.length none).1 = .ok outD)
    (houtA : (g.computeAdjointModes lA adjointModes.length none).1 = .ok outA) :
    EverySharedInterleaving procs
      (stagesProg procs tag (limits request procs nodes).perProc ip cast (fun v c => c • v)
        (bpodDecompStages lib direct adjoint p q atol rtol ++ bpodModesStages direct adjoint directModes adjointModes lD lA))
      (fun _ => RankState.start x) w
      fun _ s w' => s.raised = none ∧ s.obj.self.held w = g ∧ ∃ w1, PutAt directModes outD w w1 ∧ PutAt adjointModes outA w1 w' := by
  obtain ⟨x', hmean, rfl, hx1, hx2⟩ := bpodDecomp_means lib (procs * ((limits request procs nodes).perProc - 1)) ip hsymm cast hcast
    direct adjoint p q atol rtol x w g hrun
  unfold BpodObj.computeDirectModes at houtD
  unfold BpodObj.computeAdjointModes at houtA
  simp only [Option.isSome_none, Bool.false_eq_true, if_false, BpodObj.held, hx1, hx2, Option.map_some] at houtD houtA
  cases hdec : x'.self.decomp with
  | none =>
    rw [hdec] at houtD
    cases houtD
  | some d =>
    rw [hdec] at houtD houtA
    dsimp only at houtD houtA
    obtain ⟨w1, h1, h2⟩ := linCombine_means (Y := Arr 𝕜 ⊕ BpodSized 𝕜) (procs * ((limits request procs nodes).perProc - 1)) ip cast
      houtD (x := x') (coeff := bpodDirectBuild) (by unfold bpodDirectBuild; rw [hdec]) hdm (Or.inl hd)
    have hmap : adjoint.map w = adjoint.map w1 := List.map_congr_left fun i hi => (h2.other i (hda i hi)).symm
    rw [hmap] at houtA
    obtain ⟨w2, h3, h4⟩ := linCombine_means (Y := Arr 𝕜 ⊕ BpodSized 𝕜) (procs * ((limits request procs nodes).perProc - 1)) ip cast
      houtA (x := x') (coeff := bpodAdjointBuild) (by unfold bpodAdjointBuild; rw [hdec]) ham (Or.inl ha)
    have := C80_like_one_process procs nodes hp hn request tag ip cast (fun v c => c • v) _ x x' w w2
      (hmean.append (.cons h1 (.cons h3 (.nil _ _))))
    intro sync n s hrun
    obtain ⟨g1, g2, g3, g4⟩ := this sync n s hrun
    refine ⟨g1, g2, fun r hr hdone => ?_, g4⟩
    obtain ⟨k1, k2, k3⟩ := g3 r hr hdone
    rw [k2, k3]
    exact ⟨k1, rfl, w1, h2, h4⟩

/-- **C80.** So the direct and adjoint modes in the store are orthonormal to each other, for the impulse responses of a system
and its adjoint system in complete chunks, if `svd` is right. -/
theorem C80_bpod_biorthonormal (procs nodes : Nat) (hp : 1 ≤ procs) (hn : 1 ≤ nodes) (request : Option Nat) (tag : Nat)
    (ip : E →ₗ⋆[𝕜] E →ₗ[𝕜] 𝕜) (hsymm : ∀ u v, ip u v = star (ip v u)) (cast : 𝕜 → 𝕜 → 𝕜)
    (hcast : ∀ a b u v, cast (ip a b) (ip u v) = ip u v) (direct adjoint directModes adjointModes : List Nat)
    (hdm : directModes.Nodup) (ham : adjointModes.Nodup) (hd : ∀ q ∈ direct, q ∉ directModes)
    (hda : ∀ q ∈ adjoint, q ∉ directModes) (ha : ∀ q ∈ adjoint, q ∉ adjointModes) (hmm : ∀ q ∈ directModes, q ∉ adjointModes)
    (p q : Nat) (hp1 : 1 ≤ p) (hq1 : 1 ≤ q) (hpX : p ∣ direct.length) (hqY : q ∣ adjoint.length) (A Aadj : E → E)
    (hadj : ∀ u v, ip (Aadj u) v = ip u (A v)) (B : Fin p → E) (C : Fin q → E) (w : Nat → E)
    (hX : ∀ j, (direct.map w).get j = A^[j.val / p] (B ⟨j % p, Nat.mod_lt _ hp1⟩))
    (hY : ∀ i, (adjoint.map w).get i = Aadj^[i.val / q] (C ⟨i % q, Nat.mod_lt _ hq1⟩))
    (lD lA : List Int) (hlD : ∀ i ∈ lD, 0 ≤ i) (hlA : ∀ i ∈ lA, 0 ≤ i) (t : ℝ) (ht : 0 ≤ t) (rtol : Option ℝ)
    (hr : ∀ t ∈ rtol, 0 ≤ t) (hlib : ∀ {m n : Nat} (a : Matrix (Fin m) (Fin n) 𝕜), IsSvd a (lib.svd a)) (x : BpodLocal 𝕜)
    (g : BpodObj 𝕜 E) (outD outA : Vecs E)
    (hrun : (x.self.held w).computeDecomp lib (fun u v => ip u v) (direct.map w) (adjoint.map w) p q (some t) rtol = (.ok (), g))
    (houtD : (g.computeDirectModes lD directModes.length none).1 = .ok outD)
    (houtA : (g.computeAdjointModes lA adjointModes.length none).1 = .ok outA) :
    EverySharedInterleaving procs
      (stagesProg procs tag (limits request procs nodes).perProc (fun u v => ip u v) cast (fun v c => c • v)
        (bpodDecompStages lib direct adjoint p q (some t) rtol ++ bpodModesStages direct adjoint directModes adjointModes lD lA))
      (fun _ => RankState.start x) w
      fun _ s w' => s.raised = none ∧ ∀ (a b : Nat) (ha : a < adjointModes.length) (hb : b < directModes.length),
        ip (w' adjointModes[a]) (w' directModes[b]) = if lA[a]? = lD[b]? then 1 else 0 := by
  have h := C80_bpod lib procs nodes hp hn request tag (fun u v => ip u v) hsymm cast hcast direct adjoint directModes adjointModes
    hdm ham hd hda ha p q lD lA (some t) rtol x w g outD outA hrun houtD houtA
  have hlenX : (direct.map w).length = direct.length := List.length_map ..
  have hlenY : (adjoint.map w).length = adjoint.length := List.length_map ..
  obtain ⟨r, φ, ψ, hortho, huse⟩ := C60_bpod lib ip t ht rtol hr hlib (x.self.held w) g (direct.map w) (adjoint.map w) p q hp1 hq1
    (by rw [hlenX]; exact hpX) (by rw [hlenY]; exact hqY) A Aadj hadj B C hX hY hrun
  obtain ⟨hu1, hu2, -⟩ := huse [] (by simp)
  obtain ⟨d1, selD, d2, d3⟩ := (hu1 lD directModes.length none (Or.inl rfl)).1 outD houtD
  obtain ⟨a1, selA, a2, a3⟩ := (hu2 lA adjointModes.length none (Or.inl rfl)).1 outA houtA
  have lenD : ∀ i < outD.k, i < lD.length := fun i hi => by omega
  have lenA : ∀ i < outA.k, i < lA.length := fun i hi => by omega
  intro sync n s hsrun
  obtain ⟨g1, g2, g3, g4⟩ := h sync n s hsrun
  refine ⟨g1, g2, fun r' hr' hdone => ?_, g4⟩
  obtain ⟨k1, -, w1, k3, k4⟩ := g3 r' hr' hdone
  refine ⟨k1, fun a b ha hb => ?_⟩
  have hcD := k3.count
  have hcA := k4.count
  have hla : lA[a]? = some (lA[a]'(lenA a (by omega))) := List.getElem?_eq_getElem _
  have hlb : lD[b]? = some (lD[b]'(lenD b (by omega))) := List.getElem?_eq_getElem _
  have ea := npAxisIndex_ok (a2 ⟨a, by omega⟩ _ hla)
  have eb := npAxisIndex_ok (d2 ⟨b, by omega⟩ _ hlb)
  have pa := hlA _ (List.getElem_mem (lenA a (by omega)))
  have pb := hlD _ (List.getElem_mem (lenD b (by omega)))
  rw [k4.there a ha (by omega), k4.other _ (hmm _ (List.getElem_mem hb)), k3.there b hb (by omega), d3, a3, hortho, hla, hlb]
  have : selA ⟨a, by omega⟩ = selD ⟨b, by omega⟩ ↔
      (some (lA[a]'(lenA a (by omega))) : Option Int) = some (lD[b]'(lenD b (by omega))) := by
    rw [Fin.ext_iff, ea.2, eb.2, if_neg (by omega), if_neg (by omega), Option.some.injEq]
    omega
  simp only [this]

end Bpod

/-! ### Examples -/

/-- Stages as in `C80_like_one_process`: two inner products, a number that rank 0 computes from them, and a sum with this number
as coefficient. -/
example (fit : Nat) : StagesMean fit (fun a b : ℚ => a * b) (fun _ b => b) (fun v c => c * v)
    [.innerProducts [0, 1] [2] fun x a => x + (a ⟨0, by decide⟩ ⟨0, by decide⟩ + a ⟨1, by decide⟩ ⟨0, by decide⟩),
      .callAndBcast (fun x : ℚ => if x = 0 then .error .zeroDivisionError else .ok (1 / x)) fun _ y => y,
      .linCombine [3] [0, 1] (fun x => .ok (.mat 2 2 fun i j => i + j + x)) (some [-1])]
    0 (fun q => q + 1) (1 / 9) (fun q => if q = 3 then (1 + 1 / 9) * 1 + (2 + 1 / 9) * 2 else q + 1) := by
  refine StagesMean.cons (X := ℚ) (Y := ℚ) (V := ℚ) (K := ℚ) (x' := 9) (w' := fun q => q + 1) ?_ ?_
  swap
  refine StagesMean.cons (X := ℚ) (Y := ℚ) (V := ℚ) (K := ℚ) (x' := 1 / 9) (w' := fun q => q + 1) ?_ (StagesMean.cons (X := ℚ) (Y := ℚ) (V := ℚ) (K := ℚ) ?_ (.nil _ _))
  rotate_left 2
  · have h := StageMeans.innerProducts (Y := ℚ) (fit := fit) (ip := fun a b : ℚ => a * b) (cast := fun _ b => b)
      (mul := fun v c => c * v) (rows := [0, 1]) (cols := [2]) (x := (0 : ℚ)) (w := fun q : Nat => (q : ℚ) + 1)
      (set := fun x a => x + (a ⟨0, by decide⟩ ⟨0, by decide⟩ + a ⟨1, by decide⟩ ⟨0, by decide⟩))
      (by decide) (by decide) (fun _ _ _ _ _ _ _ _ => rfl) (fun _ _ _ _ _ => mul_comm _ _)
    convert h using 1
    norm_num
  · exact .callAndBcast (by norm_num)
  · refine .linCombine (c := .mat 2 2 fun i j => i + j + 1 / 9) rfl (by decide) (by decide) (Or.inl (by decide)) ?_ ?_ ?_
      ⟨?_, ?_⟩
    · simp [selectionOk, specShape]
    · simp [specShape]
    · simp [specShape, numSelected]
    · intro k hk
      have hk : k = 0 := by simpa using hk
      subst hk
      simp [specShape, specEntry, specColumn, Fin.sum_univ_two]
      norm_num
    · intro q hq
      simp only [List.mem_singleton] at hq
      rw [if_neg hq]

/-- A library, handles and modes as in `C80_pod` and `C80_pod_orthonormal`: two orthonormal vectors at places 4 and 6, both modes
are put, in the other order, to places 6 and 1. -/
example : ∃ (lib : PodObjLib ℝ) (w : Nat → Fin 2 → ℝ) (g : PodObj ℝ (Fin 2 → ℝ)) (out : Vecs (Fin 2 → ℝ)),
    (∀ {m : Nat}, IsArgsort (lib.argsort (m := m))) ∧
    IsEigh (handlesSymmIp (fun x y => dotIp x y) ([4, 6].map w).get)
      (lib.eigh (handlesSymmIp (fun x y => dotIp x y) ([4, 6].map w).get)) ∧
    ((PodObj.new : PodObj ℝ Nat).held w).computeDecomp lib (fun u v => dotIp u v) ([4, 6].map w) (some (1 / 10)) none =
      (.ok (), g) ∧
    (g.computeModes [1, 0] 2 none).1 = .ok out ∧ (∀ u v, dotIp u v = star (dotIp v u)) ∧
    [6, 1].length ≤ 3 * ((limits (some 1) 3 1).perProc - 1) := by
  let w : Nat → Fin 2 → ℝ := fun q => if q = 4 then ![1, 0] else ![0, 1]
  let lib : PodObjLib ℝ := ⟨fun _ => ⟨fun _ => 1, 1⟩, fun x => Tuple.sort x, fun _ => ⟨0, 0, 0⟩⟩
  have hc : handlesSymmIp (fun x y => dotIp x y) ([4, 6].map w).get = 1 := by
    ext i j
    change Fin 2 at i
    change Fin 2 at j
    rw [Matrix.one_apply]
    change dotIp (([4, 6].map w).get i) (([4, 6].map w).get j) = _
    rw [dotIp_apply]
    fin_cases i <;> fin_cases j <;> simp [w]
  have h1 : numRetained (fun _ : Fin 2 => (1 : ℝ)) (some (1 / 10)) none = .ok 2 := by
    simp only [numRetained, numAbove]
    congr 1
    rw [Finset.filter_true_of_mem]
    · rfl
    · intro i _
      norm_num
  have h2 : adjustTol (fun _ : Fin 2 => (1 : ℝ)) (some (1 / 10)) true = .ok (some (1 / 10)) := by
    simp only [adjustTol, npMin, if_true, dif_pos (Nat.zero_lt_two)]
    rw [if_neg]
    exact not_lt.mpr (Finset.le_inf' _ _ fun _ _ => zero_le_one)
  obtain ⟨V, hV⟩ : ∃ V, utilEigh lib.eigh lib.argsort (handlesSymmIp (fun x y => dotIp x y) ([4, 6].map w).get) (some (1 / 10))
      none true = .ok ⟨2, fun _ => 1, V⟩ := by
    refine ⟨firstCols ((1 : Matrix (Fin 2) (Fin 2) ℝ).submatrix id
      fun i : Fin 2 => Tuple.sort (fun _ : Fin 2 => |(1 : ℝ)|) i.rev) 2, ?_⟩
    unfold utilEigh
    change (match adjustTol (fun _ : Fin 2 => (1 : ℝ)) (some (1 / 10)) true with
      | .error e => _
      | .ok atol => _) = _
    rw [h2]
    dsimp only
    erw [h1]
    rfl
  obtain ⟨out, hout⟩ := linCombineSized_all ([4, 6].map w).get (V * diagPow (𝕜 := ℝ) (fun _ : Fin 2 => (1 : ℝ)) (-0.5)) [1, 0]
    (by intro i hi; simp at hi; omega) (by decide) rfl
  refine ⟨lib, w, ⟨some ([4, 6].map w), some ⟨_, handlesSymmIp (fun x y => dotIp x y) ([4, 6].map w).get⟩,
    some ⟨_, 2, fun _ => 1, V⟩, none⟩, out, fun x => Tuple.monotone_sort x, ?_, ?_, hout, fun u v => dotIp_symm v u, by decide +kernel⟩
  · rw [hc]
    exact ⟨by simp [lib], by simp [lib]⟩
  · unfold PodObj.computeDecomp PodObj.computeEigendecomp
    dsimp only
    rw [if_neg (by simp), hV]
    rfl

/-- A library, handles and modes as in `C80_bpod` and `C80_bpod_biorthonormal`: the system that keeps numbers, with input 1 and
output 1, at places 0 and 1; modes are put to places 2 and 0, the latter for the adjoint mode. -/
example : ∃ (lib : PodObjLib ℝ) (w : Nat → ℝ) (g : BpodObj ℝ ℝ) (outD outA : Vecs ℝ),
    (∀ {m n : Nat} (a : Matrix (Fin m) (Fin n) ℝ), IsSvd a (lib.svd a)) ∧
    ((BpodObj.new : BpodObj ℝ Nat).held w).computeDecomp lib (fun u v => LinearMap.mul ℝ ℝ u v) ([0].map w) ([1].map w) 1 1
      (some 0) none = (.ok (), g) ∧
    (g.computeDirectModes [0] [2].length none).1 = .ok outD ∧ (g.computeAdjointModes [0] [0].length none).1 = .ok outA ∧
    (∀ q ∈ [0], q ∉ [2]) ∧ (∀ q ∈ [1], q ∉ [2]) ∧ (∀ q ∈ [1], q ∉ [0]) ∧ (∀ q ∈ [2], q ∉ [0]) ∧
    (∀ j, ([0].map w).get j = id^[j.val / 1] ((fun _ : Fin 1 => (1 : ℝ)) ⟨j % 1, Nat.mod_lt _ Nat.one_pos⟩)) ∧
    ∀ i, ([1].map w).get i = id^[i.val / 1] ((fun _ : Fin 1 => (1 : ℝ)) ⟨i % 1, Nat.mod_lt _ Nat.one_pos⟩) := by
  obtain ⟨lib, -, -, hlib⟩ := exists_podObjLib ℝ
  obtain ⟨b, hb⟩ := C25_handles_no_error ([1] : List ℝ).get ([1] : List ℝ).get 1 1 lib.svd (some 0) none
    (fun u v : ℝ => LinearMap.mul ℝ ℝ u v) le_rfl le_rfl le_rfl le_rfl
  have hrun := (bpodComputeDecomp_iff lib (fun u v : ℝ => LinearMap.mul ℝ ℝ u v) BpodObj.new _ [1] [1] 1 1 (some 0) none).mpr
    ⟨b, hb, rfl⟩
  obtain ⟨rows, s, hrows, hs, rfl⟩ := bpodHandlesDecomp_cases _ _ 1 1 lib.svd _ none _ b hb
  have hrows' : bpodHankel 1 1
      (handlesIp (fun u v : ℝ => LinearMap.mul ℝ ℝ u v) ([1] : List ℝ).get (firstEntries ([1] : List ℝ).get 1))
      (handlesIp (fun u v : ℝ => LinearMap.mul ℝ ℝ u v) (lastVecs ([1] : List ℝ).get 1) ([1] : List ℝ).get) = .ok [[1 * 1]] := rfl
  rw [hrows'] at hrows
  cases hrows
  dsimp only at hrun hb
  have hone : ofRows (([1] : List ℝ).length / 1 * 1) (([1] : List ℝ).length / 1 * 1) [[(1 * 1 : ℝ)]] = 1 := by
    ext i j
    rw [Matrix.one_apply, if_pos (Subsingleton.elim (α := Fin 1) i j)]
    rw [Subsingleton.elim (α := Fin 1) i 0, Subsingleton.elim (α := Fin 1) j 0]
    norm_num [ofRows]
  rw [hone] at hs hrun
  have hr : s.r = 1 := by
    rw [utilSvd_rank lib.svd _ 0 le_rfl (hlib _) (fun i hi => lt_of_le_of_ne ((hlib _).nonneg i) (Ne.symm hi)) s hs,
      Matrix.rank_one]
    rfl
  obtain ⟨r, S, U, V⟩ := s
  dsimp only at hr hrun
  subst hr
  exact ⟨lib, fun _ => 1, _, ⟨1, _⟩, ⟨1, _⟩, hlib, hrun, rfl, rfl, by decide, by decide, by decide, by decide,
    fun j => by simp, fun j => by simp⟩

end Modred
