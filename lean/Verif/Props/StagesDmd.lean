import Verif.Spec.StagesDmd
import Verif.Props.Stages
import Verif.Props.TlsqrHandles

/-!
# Dynamic mode decomposition on several processes gives what one process gets (C80)
-/

namespace Modred

open Matrix

variable {𝕜 : Type*} [RCLike 𝕜] [DecidableEq 𝕜] {E : Type*} [AddCommGroup E] [Module 𝕜 E] (lib : DmdLib 𝕜)

/-! ### Modes -/

omit [DecidableEq 𝕜] in
theorem exactFrom_places {m r : Nat} {seq : Bool} {vecs : List Nat} {adv : Option (List Nat)} {W : Nat → E}
    {build : Matrix (Fin m) (Fin r) 𝕜} {l : List Int} {k : Nat} {out : Vecs E}
    (h : exactModesFrom (some (vecs.map W)) (adv.map (List.map W)) build l k = .ok out) :
    linCombineSized k ((dmdPlaces seq vecs adv .exact).map W).get build (some l) = .ok out := by
  unfold exactModesFrom at h
  cases adv with
  | some adv => exact h
  | none =>
    dsimp only [Option.map_none] at h
    split at h
    · rw [← List.map_tail] at h
      exact h
    · cases h

omit [DecidableEq 𝕜] in
theorem spanFrom_places {m r : Nat} {seq : Bool} {vecs : List Nat} {W : Nat → E} (hlen : vecs.length = m + if seq then 1 else 0)
    {build : Matrix (Fin m) (Fin r) 𝕜} {l : List Int} {k : Nat} {out : Vecs E}
    (h : spanModesFrom (some (vecs.map W)) build l k = .ok out) :
    linCombineSized k ((if seq then vecs.dropLast else vecs).map W).get build (some l) = .ok out := by
  unfold spanModesFrom at h
  dsimp only at h
  have hl : (vecs.map W).length = vecs.length := List.length_map ..
  cases seq with
  | true =>
    rw [if_pos (by simpa using hlen), ← List.map_dropLast] at h
    exact h
  | false =>
    have hlen : vecs.length = m := by simpa using hlen
    rw [if_neg (by omega), if_pos (hl.trans hlen)] at h
    exact h

/-- Calls for modes as stages, from the linear combinations of one process. -/
theorem modes_mean {X Y : Type*} (fit : Nat) (ip : E → E → 𝕜) (cast : 𝕜 → 𝕜 → 𝕜) {m r : Nat} (seq : Bool) (vecs : List Nat)
    (adv : Option (List Nat)) (build : DmdKind → X → Except Err (CoeffArray 𝕜)) (B : DmdKind → Matrix (Fin m) (Fin r) 𝕜) (x : X)
    (hbuild : ∀ kind, build kind x = .ok (coeffMat (B kind))) (res : DmdModeCall → Except Err (Vecs E)) (W : Nat → E)
    (hres : ∀ c out, res c = .ok out →
      linCombineSized c.modes.length ((dmdPlaces seq vecs adv c.kind).map W).get (B c.kind) (some c.indices) = .ok out)
    (calls : List DmdModeCall) (hcalls : ∀ c ∈ calls, c.modes.Nodup ∧ (∀ q ∈ vecs ++ adv.getD [], q ∉ c.modes) ∧ ∃ out, res c = .ok out)
    (w : Nat → E) (hw : ∀ q ∈ vecs ++ adv.getD [], w q = W q) :
    ∃ w', StagesMean (Y := Y) fit ip cast (fun v c => c • v)
        (calls.map fun c => Stage.linCombine c.modes (dmdPlaces seq vecs adv c.kind) (build c.kind) (some c.indices)) x w x w' ∧
      PutInTurn res calls w w' := by
  have hmem : ∀ kind, ∀ q ∈ dmdPlaces seq vecs adv kind, q ∈ vecs ++ adv.getD [] := by
    intro kind q hq
    rw [List.mem_append]
    unfold dmdPlaces at hq
    split at hq
    · split at hq
      · exact Or.inr hq
      · exact Or.inl (List.mem_of_mem_tail hq)
    · split at hq
      · exact Or.inl (List.dropLast_subset _ hq)
      · exact Or.inl hq
  induction calls generalizing w with
  | nil => exact ⟨w, .nil _ _, .nil _⟩
  | cons c rest ih =>
    obtain ⟨h1, h2, out, hout⟩ := hcalls c List.mem_cons_self
    have h3 := hres c out hout
    have hmap : (dmdPlaces seq vecs adv c.kind).map W = (dmdPlaces seq vecs adv c.kind).map w :=
      List.map_congr_left fun q hq => (hw q (hmem _ q hq)).symm
    rw [hmap] at h3
    obtain ⟨w1, h4, h5⟩ := linCombine_means (Y := Y) fit ip cast h3 (x := x) (coeff := build c.kind) (hbuild c.kind) h1
      (Or.inl fun q hq => h2 q (hmem _ q hq))
    obtain ⟨w2, h6, h7⟩ := ih (fun c' hc' => hcalls c' (List.mem_cons_of_mem _ hc')) w1
      fun q hq => (h5.other q (h2 q hq)).trans (hw q hq)
    exact ⟨w2, .cons h4 h6, .cons hout h5 h7⟩

/-! ### Dynamic mode decomposition -/

/-- `compute_eigendecomp` as stages. -/
theorem dmdEigen_means (fit : Nat) (ip : E → E → 𝕜) (cast : 𝕜 → 𝕜 → 𝕜) (atol : Option ℝ) (maxNum : Option Nat)
    (x : DmdLocal 𝕜 (DmdHandles 𝕜 Nat)) (w : Nat → E) (a : DmdArrays 𝕜) (ha : x.self.arrays = some a) (d : DmdDecomp 𝕜 a.m)
    (hd : dmdEigendecomp lib.eigh lib.argsort lib.eig a.corr a.cross atol none maxNum = .ok d) :
    ∃ x', StagesMean fit ip cast (fun v c => c • v) (dmdEigenStages lib atol maxNum) x w x' w ∧
      x'.self = { x.self with decomp := some ⟨a.m, d⟩ } := by
  unfold dmdEigendecomp at hd
  cases he : utilEigh lib.eigh lib.argsort a.corr atol none true with
  | error e =>
    rw [he] at hd
    cases hd
  | ok e =>
    rw [he] at hd
    dsimp only at hd
    cases hy : eigBiorthog lib.eig (lowOrderMap (diagPow (𝕜 := 𝕜) (e.truncate maxNum).w (-0.5)) (e.truncate maxNum).V a.cross)
        scaleLeft with
    | error e =>
      rw [hy] at hd
      cases hd
    | ok y =>
      obtain ⟨vals, R, L⟩ := y
      rw [hy] at hd
      dsimp only at hd
      cases hd
      have h1 : StageMeans fit ip cast (fun v c => c • v) (.callAndBcast (dmdEighCall lib atol) DmdLocal.storeProj) x w
          (x.storeProj (.inl ⟨a.m, e⟩)) w := .callAndBcast (by unfold dmdEighCall eighCall; rw [ha]; dsimp only; rw [he])
      have h2 : StageMeans (Y := DmdCast 𝕜) fit ip cast (fun v c => c • v) (.compute (dmdLow maxNum)) (x.storeProj (.inl ⟨a.m, e⟩)) w
          { x with
            proj := some ⟨a.m, e.truncate maxNum⟩
            low := some ⟨_, lowOrderMap (diagPow (𝕜 := 𝕜) (e.truncate maxNum).w (-0.5)) (e.truncate maxNum).V a.cross⟩ } w := by
        refine .compute ?_
        unfold dmdLow DmdLocal.storeProj
        dsimp only
        rw [ha]
        dsimp only
        rw [dif_pos rfl]
        rfl
      refine ⟨_, .cons h1 (.cons h2 (.cons (.callAndBcast (y := (Sum.inr ⟨_, vals, R, L⟩ : DmdCast 𝕜)) ?_) (.nil _ _))), ?_⟩
      · unfold dmdEigCall eigCall
        dsimp only
        rw [hy]
      · unfold dmdStore
        dsimp only
        rw [dif_pos rfl]
        rfl

/-- The slices of the correlation array of a sequence. -/
def dmdSeqOf (c : SquareArr 𝕜) : DmdArrays 𝕜 :=
  ⟨c.m - 1, Matrix.of fun i j => c.a ⟨i, by omega⟩ ⟨j, by omega⟩, Matrix.of fun i j => c.a ⟨i, by omega⟩ ⟨j + 1, by omega⟩⟩

/-- Both arrays of pairs. -/
def dmdPairOf (c : SquareArr 𝕜) (b : Arr 𝕜) (h1 : c.m = b.m) (h2 : c.m = b.n) : DmdArrays 𝕜 :=
  ⟨c.m, c.a, b.a.submatrix (Fin.cast h1) (Fin.cast h2)⟩

omit [DecidableEq 𝕜] [AddCommGroup E] [Module 𝕜 E] in
theorem dmdPairOf_congr {c c' : SquareArr 𝕜} {b b' : Arr 𝕜} (h1 : c.m = b.m) (h2 : c.m = b.n) (hc : c = c') (hb : b = b') :
    dmdPairOf c b h1 h2 = dmdPairOf c' b' (by rw [← hc, ← hb]; exact h1) (by rw [← hc, ← hb]; exact h2) := by
  subst hc hb
  rfl

/-- `compute_decomp` for a sequence as stages. -/
theorem dmdSeq_means (fit : Nat) (ip : E → E → 𝕜) (hsymm : ∀ u v, ip u v = star (ip v u)) (cast : 𝕜 → 𝕜 → 𝕜)
    (hcast : ∀ a b u v, cast (ip a b) (ip u v) = ip u v) (vecs : List Nat) (atol rtol : Option ℝ) (maxNum : Option Nat)
    (x : DmdLocal 𝕜 (DmdHandles 𝕜 Nat)) (w : Nat → E) (g : DmdHandles 𝕜 E)
    (hrun : (x.self.held w).computeDecomp lib ip (vecs.map w) none atol rtol maxNum = (.ok (), g)) :
    ∃ (x' : DmdLocal 𝕜 (DmdHandles 𝕜 Nat)) (m : Nat) (d : DmdDecomp 𝕜 m), vecs.length = m + 1 ∧
      StagesMean fit ip cast (fun v c => c • v) (dmdSeqStages lib vecs atol maxNum) x w x' w ∧ x'.self.held w = g ∧
      x'.self.vecs = some vecs ∧ x'.self.adv = x.self.adv ∧ x'.self.decomp = some ⟨m, d⟩ := by
  unfold DmdHandles.computeDecomp at hrun
  dsimp only at hrun
  split at hrun
  · cases hrun
  rename_i hne
  have hne' : vecs ≠ [] := fun h => hne (by rw [h]; rfl)
  have hseq : dmdArraysSeq ip (vecs.map w) = dmdSeqOf ⟨vecs.length, Matrix.of fun i j => ip (w vecs[i]) (w vecs[j])⟩ := by
    rw [← squareArr_eq]
    rfl
  rw [hseq] at hrun
  unfold DmdHandles.computeEigendecomp at hrun
  dsimp only at hrun
  generalize hA : dmdSeqOf (⟨vecs.length, Matrix.of fun i j => ip (w vecs[i]) (w vecs[j])⟩ : SquareArr 𝕜) = A at hrun
  have hAm : vecs.length = A.m + 1 := by
    rw [← hA]
    have := List.length_pos_iff.mpr hne'
    change vecs.length = vecs.length - 1 + 1
    omega
  cases hd : dmdEigendecomp lib.eigh lib.argsort lib.eig A.corr A.cross atol none maxNum with
  | error e =>
    rw [hd] at hrun
    cases hrun
  | ok d =>
    rw [hd] at hrun
    have hg := (Prod.mk.inj hrun).2
    obtain ⟨x', h1, h2⟩ := dmdEigen_means lib fit ip cast atol maxNum
      { x with self := { x.self with vecs := some vecs, arrays := some A } } w A rfl d hd
    refine ⟨x', A.m, d, hAm, .cons (.compute rfl) (.cons (.symmInnerProducts hne' (fun _ _ _ _ _ _ => hcast _ _ _ _)
      fun _ _ _ _ => hsymm _ _) ?_), ?_, ?_, ?_, ?_⟩
    · rw [← hA] at h1
      exact h1
    · rw [h2, ← hg]
      rfl
    all_goals rw [h2]

/-- `compute_decomp` for pairs as stages. -/
theorem dmdPair_means (fit : Nat) (ip : E → E → 𝕜) (hsymm : ∀ u v, ip u v = star (ip v u)) (cast : 𝕜 → 𝕜 → 𝕜)
    (hcast : ∀ a b u v, cast (ip a b) (ip u v) = ip u v) (vecs adv : List Nat) (atol rtol : Option ℝ) (maxNum : Option Nat)
    (x : DmdLocal 𝕜 (DmdHandles 𝕜 Nat)) (w : Nat → E) (g : DmdHandles 𝕜 E)
    (hrun : (x.self.held w).computeDecomp lib ip (vecs.map w) (some (adv.map w)) atol rtol maxNum = (.ok (), g)) :
    ∃ (x' : DmdLocal 𝕜 (DmdHandles 𝕜 Nat)) (m : Nat) (d : DmdDecomp 𝕜 m), vecs.length = m ∧
      StagesMean fit ip cast (fun v c => c • v) (dmdPairStages lib vecs adv atol maxNum) x w x' w ∧ x'.self.held w = g ∧
      x'.self.vecs = some vecs ∧ x'.self.adv = some adv ∧ x'.self.decomp = some ⟨m, d⟩ := by
  unfold DmdHandles.computeDecomp at hrun
  dsimp only at hrun
  split at hrun
  swap
  · cases hrun
  rename_i hlen
  have hlen' : vecs.length = adv.length := by simpa using hlen
  split at hrun
  · cases hrun
  rename_i hne
  have hne' : vecs ≠ [] := fun h => hne (by rw [h]; rfl)
  have hadv' : adv ≠ [] := fun h => hne' (by rw [h] at hlen'; exact List.length_eq_zero_iff.mp hlen')
  have hpair : dmdArraysPairs ip (vecs.map w) (adv.map w) hlen =
      dmdPairOf ⟨vecs.length, Matrix.of fun i j => ip (w vecs[i]) (w vecs[j])⟩
        ⟨vecs.length, adv.length, Matrix.of fun i j => ip (w vecs[i]) (w adv[j])⟩ rfl hlen' := by
    have h := dmdPairOf_congr (c := ⟨(vecs.map w).length, handlesSymmIp ip (vecs.map w).get⟩)
      (b := ⟨(vecs.map w).length, (adv.map w).length, handlesIp ip (vecs.map w).get (adv.map w).get⟩) rfl hlen
      (squareArr_eq ip w vecs) (arr_eq ip w vecs adv (List.length_map ..) (List.length_map ..) _ _
        (fun i => by simp) (fun j => by simp))
    exact h
  rw [hpair] at hrun
  unfold DmdHandles.computeEigendecomp at hrun
  dsimp only at hrun
  generalize hA : dmdPairOf (⟨vecs.length, Matrix.of fun i j => ip (w vecs[i]) (w vecs[j])⟩ : SquareArr 𝕜)
        ⟨vecs.length, adv.length, Matrix.of fun i j => ip (w vecs[i]) (w adv[j])⟩ rfl hlen' = A at hrun
  have hAm : vecs.length = A.m := by
    rw [← hA]
    rfl
  cases hd : dmdEigendecomp lib.eigh lib.argsort lib.eig A.corr A.cross atol none maxNum with
  | error e =>
    rw [hd] at hrun
    cases hrun
  | ok d =>
    rw [hd] at hrun
    have hg := (Prod.mk.inj hrun).2
    obtain ⟨x', h1, h2⟩ := dmdEigen_means lib fit ip cast atol maxNum
      { x with
        self := { x.self with vecs := some vecs, adv := some adv, arrays := some A }
        corr := some ⟨vecs.length, Matrix.of fun i j => ip (w vecs[i]) (w vecs[j])⟩ } w A rfl d hd
    refine ⟨x', A.m, d, hAm, .cons (.compute (if_pos hlen')) (.cons (.symmInnerProducts hne' (fun _ _ _ _ _ _ => hcast _ _ _ _)
      fun _ _ _ _ => hsymm _ _) (.cons (.innerProducts hne' hadv' (fun _ _ _ _ _ _ _ _ => hcast _ _ _ _)
      fun _ _ _ _ _ => hsymm _ _) ?_)), ?_, ?_, ?_, ?_⟩
    · dsimp only
      rw [dif_pos ⟨rfl, hlen'⟩]
      subst hA
      exact h1
    · rw [h2, ← hg]
      rfl
    all_goals rw [h2]

omit [DecidableEq 𝕜] in
/-- Modes of one process as linear combinations of the vectors at the places. -/
theorem onDmd_places {seq : Bool} {vecs : List Nat} {adv : Option (List Nat)} {W : Nat → E} {m : Nat} {d : DmdDecomp 𝕜 m}
    {g : DmdHandles 𝕜 E} (hv : g.vecs = some (vecs.map W)) (ha : g.adv = adv.map (List.map W)) (hd : g.decomp = some ⟨m, d⟩)
    (hlen : vecs.length = m + if seq then 1 else 0) (c : DmdModeCall) (out : Vecs E) (h : c.onDmd g = .ok out) :
    linCombineSized c.modes.length ((dmdPlaces seq vecs adv c.kind).map W).get (d.build c.kind) (some c.indices) = .ok out := by
  obtain ⟨kind, modes, l⟩ := c
  obtain ⟨v, a, arr, dec⟩ := g
  dsimp only at hv ha hd
  subst hv ha hd
  unfold DmdModeCall.onDmd at h
  cases kind with
  | exact => exact exactFrom_places h
  | proj => exact spanFrom_places hlen h
  | adjoint => exact spanFrom_places hlen h

/-- **C80.** `compute_decomp` of `DMDHandles` for a sequence of vectors, then calls for exact, projected and adjoint modes in any
order, in every interleaving of any number of processes: all processes get the arrays and the decomposition of one process, and
the mode handles hold the modes of one process.  Advanced vectors that the object has from an earlier use are among the handles
that must not be mode handles. -/
theorem C80_dmd_sequential (procs nodes : Nat) (hp : 1 ≤ procs) (hn : 1 ≤ nodes) (request : Option Nat) (tag : Nat)
    (ip : E → E → 𝕜) (hsymm : ∀ u v, ip u v = star (ip v u)) (cast : 𝕜 → 𝕜 → 𝕜)
    (hcast : ∀ a b u v, cast (ip a b) (ip u v) = ip u v) (vecs : List Nat) (atol rtol : Option ℝ) (maxNum : Option Nat)
    (x : DmdLocal 𝕜 (DmdHandles 𝕜 Nat)) (w : Nat → E) (g : DmdHandles 𝕜 E)
    (hrun : (x.self.held w).computeDecomp lib ip (vecs.map w) none atol rtol maxNum = (.ok (), g)) (calls : List DmdModeCall)
    (hcalls : ∀ c ∈ calls, c.modes.Nodup ∧ (∀ q ∈ vecs ++ x.self.adv.getD [], q ∉ c.modes) ∧ ∃ out, c.onDmd g = .ok out) :
    EverySharedInterleaving procs
      (stagesProg procs tag (limits request procs nodes).perProc ip cast (fun v c => c • v)
        (dmdSeqStages lib vecs atol maxNum ++ dmdModesStages true vecs x.self.adv calls))
      (fun _ => RankState.start x) w
      fun _ s w' => s.raised = none ∧ s.obj.self.held w = g ∧ PutInTurn (fun c => c.onDmd g) calls w w' := by
  obtain ⟨x', m, d, hm, hmean, rfl, hv, ha, hd⟩ := dmdSeq_means lib (procs * ((limits request procs nodes).perProc - 1)) ip hsymm
    cast hcast vecs atol rtol maxNum x w g hrun
  obtain ⟨w', h1, h2⟩ := modes_mean (Y := DmdCast 𝕜) (procs * ((limits request procs nodes).perProc - 1)) ip cast true vecs x.self.adv
    dmdBuild d.build x' (fun kind => by unfold dmdBuild; rw [hd]) (fun c => c.onDmd (x'.self.held w)) w
    (onDmd_places (by rw [DmdHandles.held, hv]; rfl) (by rw [DmdHandles.held, ha]) hd (by simpa using hm)) calls hcalls w fun _ _ => rfl
  have := C80_like_one_process procs nodes hp hn request tag ip cast (fun v c => c • v) _ x x' w w' (hmean.append h1)
  intro sync n s hrun
  obtain ⟨g1, g2, g3, g4⟩ := this sync n s hrun
  refine ⟨g1, g2, fun r hr hdone => ?_, g4⟩
  obtain ⟨k1, k2, k3⟩ := g3 r hr hdone
  rw [k2, k3]
  exact ⟨k1, rfl, h2⟩

/-- **C80.** The same for pairs of vectors. -/
theorem C80_dmd_pairs (procs nodes : Nat) (hp : 1 ≤ procs) (hn : 1 ≤ nodes) (request : Option Nat) (tag : Nat)
    (ip : E → E → 𝕜) (hsymm : ∀ u v, ip u v = star (ip v u)) (cast : 𝕜 → 𝕜 → 𝕜)
    (hcast : ∀ a b u v, cast (ip a b) (ip u v) = ip u v) (vecs adv : List Nat) (atol rtol : Option ℝ) (maxNum : Option Nat)
    (x : DmdLocal 𝕜 (DmdHandles 𝕜 Nat)) (w : Nat → E) (g : DmdHandles 𝕜 E)
    (hrun : (x.self.held w).computeDecomp lib ip (vecs.map w) (some (adv.map w)) atol rtol maxNum = (.ok (), g))
    (calls : List DmdModeCall)
    (hcalls : ∀ c ∈ calls, c.modes.Nodup ∧ (∀ q ∈ vecs ++ adv, q ∉ c.modes) ∧ ∃ out, c.onDmd g = .ok out) :
    EverySharedInterleaving procs
      (stagesProg procs tag (limits request procs nodes).perProc ip cast (fun v c => c • v)
        (dmdPairStages lib vecs adv atol maxNum ++ dmdModesStages false vecs (some adv) calls))
      (fun _ => RankState.start x) w
      fun _ s w' => s.raised = none ∧ s.obj.self.held w = g ∧ PutInTurn (fun c => c.onDmd g) calls w w' := by
  obtain ⟨x', m, d, hm, hmean, rfl, hv, ha, hd⟩ := dmdPair_means lib (procs * ((limits request procs nodes).perProc - 1)) ip hsymm
    cast hcast vecs adv atol rtol maxNum x w g hrun
  obtain ⟨w', h1, h2⟩ := modes_mean (Y := DmdCast 𝕜) (procs * ((limits request procs nodes).perProc - 1)) ip cast false vecs (some adv)
    dmdBuild d.build x' (fun kind => by unfold dmdBuild; rw [hd]) (fun c => c.onDmd (x'.self.held w)) w
    (onDmd_places (by rw [DmdHandles.held, hv]; rfl) (by rw [DmdHandles.held, ha]) hd (by simpa using hm)) calls hcalls w fun _ _ => rfl
  have := C80_like_one_process procs nodes hp hn request tag ip cast (fun v c => c • v) _ x x' w w' (hmean.append h1)
  intro sync n s hrun
  obtain ⟨g1, g2, g3, g4⟩ := this sync n s hrun
  refine ⟨g1, g2, fun r hr hdone => ?_, g4⟩
  obtain ⟨k1, k2, k3⟩ := g3 r hr hdone
  rw [k2, k3]
  exact ⟨k1, rfl, h2⟩

/-! ### Total-least-squares dynamic mode decomposition -/

/-- `compute_eigendecomp` as stages. -/
theorem tlsEigen_means (fit : Nat) (ip : E → E → 𝕜) (cast : 𝕜 → 𝕜 → 𝕜) (atol : Option ℝ) (maxNum : Option Nat)
    (x : DmdLocal 𝕜 (TlsHandles 𝕜 Nat)) (w : Nat → E) (a : TlsArrays 𝕜) (ha : x.self.arrays = some a) (t : TlsDecomp 𝕜 a.m)
    (ht : tlsEigendecomp lib.eigh lib.argsort lib.eig a.c.corr a.c.adv a.c.cross atol none none maxNum = .ok t) :
    ∃ x', StagesMean fit ip cast (fun v c => c • v) (tlsEigenStages lib atol maxNum) x w x' w ∧
      x'.self = { x.self with decomp := some ⟨a.m, t⟩ } := by
  unfold tlsEigendecomp at ht
  cases hs : utilEigh lib.eigh lib.argsort (a.c.corr + a.c.adv) atol none true with
  | error e =>
    rw [hs] at ht
    cases ht
  | ok e =>
    rw [hs] at ht
    dsimp only at ht
    cases he : utilEigh lib.eigh lib.argsort (tlsProjCorr (e.truncate maxNum).V a.c.corr) atol none true with
    | error e =>
      rw [he] at ht
      cases ht
    | ok p =>
      rw [he] at ht
      dsimp only at ht
      cases hy : eigBiorthog lib.eig (tlsLowOrderMap (diagPow (𝕜 := 𝕜) (p.truncate maxNum).w (-0.5)) (p.truncate maxNum).V
          (e.truncate maxNum).V a.c.cross) scaleLeft with
      | error e =>
        rw [hy] at ht
        cases ht
      | ok y =>
        obtain ⟨vals, R, L⟩ := y
        rw [hy] at ht
        dsimp only at ht
        cases ht
        have h1 : StageMeans fit ip cast (fun v c => c • v) (.callAndBcast (tlsSumCall lib atol) DmdLocal.storeSum) x w
            (DmdLocal.storeSum x (Sum.inl ⟨a.m, e⟩)) w := .callAndBcast (by unfold tlsSumCall eighCall; rw [ha]; dsimp only; rw [hs])
        have h2 : StageMeans (Y := DmdCast 𝕜) fit ip cast (fun v c => c • v) (.compute (tlsTruncateSum maxNum))
            (DmdLocal.storeSum x (Sum.inl ⟨a.m, e⟩)) w { x with sum := some ⟨a.m, e.truncate maxNum⟩ } w := .compute rfl
        have h3 : StageMeans fit ip cast (fun v c => c • v) (.callAndBcast (tlsProjCall lib atol) DmdLocal.storeProj)
            { x with sum := some ⟨a.m, e.truncate maxNum⟩ } w
            { x with sum := some ⟨a.m, e.truncate maxNum⟩, proj := some ⟨a.m, p⟩ } w := by
          refine .callAndBcast (y := (Sum.inl ⟨a.m, p⟩ : DmdCast 𝕜)) ?_
          unfold tlsProjCall eighCall
          dsimp only
          rw [ha]
          dsimp only
          rw [dif_pos rfl]
          erw [he]
        have h4 : StageMeans (Y := DmdCast 𝕜) fit ip cast (fun v c => c • v) (.compute (tlsLow maxNum))
            { x with sum := some ⟨a.m, e.truncate maxNum⟩, proj := some ⟨a.m, p⟩ } w
            { x with
              sum := some ⟨a.m, e.truncate maxNum⟩
              proj := some ⟨a.m, p.truncate maxNum⟩
              low := some ⟨_, tlsLowOrderMap (diagPow (𝕜 := 𝕜) (p.truncate maxNum).w (-0.5)) (p.truncate maxNum).V
                (e.truncate maxNum).V a.c.cross⟩ } w := by
          refine .compute ?_
          unfold tlsLow
          dsimp only
          rw [ha]
          dsimp only
          rw [dif_pos ⟨rfl, rfl⟩]
          rfl
        refine ⟨_, .cons h1 (.cons h2 (.cons h3 (.cons h4 (.cons (.callAndBcast (y := (Sum.inr ⟨_, vals, R, L⟩ : DmdCast 𝕜)) ?_) (.nil _ _))))), ?_⟩
        · unfold dmdEigCall eigCall
          dsimp only
          rw [hy]
        · unfold tlsStore
          dsimp only
          rw [dif_pos ⟨rfl, rfl⟩]
          rfl

/-- The slices of the correlation array of a sequence. -/
def tlsSeqOf (c : SquareArr 𝕜) : TlsArrays 𝕜 :=
  ⟨c.m - 1, Matrix.of fun i j => c.a ⟨i, by omega⟩ ⟨j, by omega⟩, Matrix.of fun i j => c.a ⟨i + 1, by omega⟩ ⟨j + 1, by omega⟩,
    Matrix.of fun i j => c.a ⟨i, by omega⟩ ⟨j + 1, by omega⟩⟩

/-- The three arrays of pairs. -/
def tlsPairOf (c : SquareArr 𝕜) (v : SquareArr 𝕜) (b : Arr 𝕜) (h1 : c.m = b.m) (h2 : c.m = b.n) (h3 : c.m = v.m) : TlsArrays 𝕜 :=
  ⟨c.m, c.a, v.a.submatrix (Fin.cast h3) (Fin.cast h3), b.a.submatrix (Fin.cast h1) (Fin.cast h2)⟩

omit [DecidableEq 𝕜] [AddCommGroup E] [Module 𝕜 E] in
theorem tlsPairOf_congr {c c' v v' : SquareArr 𝕜} {b b' : Arr 𝕜} (h1 : c.m = b.m) (h2 : c.m = b.n) (h3 : c.m = v.m)
    (hc : c = c') (hv : v = v') (hb : b = b') : tlsPairOf c v b h1 h2 h3 =
      tlsPairOf c' v' b' (by rw [← hc, ← hb]; exact h1) (by rw [← hc, ← hb]; exact h2) (by rw [← hc, ← hv]; exact h3) := by
  subst hc hb hv
  rfl

/-- `compute_decomp` for a sequence as stages. -/
theorem tlsSeq_means (fit : Nat) (ip : E → E → 𝕜) (hsymm : ∀ u v, ip u v = star (ip v u)) (cast : 𝕜 → 𝕜 → 𝕜)
    (hcast : ∀ a b u v, cast (ip a b) (ip u v) = ip u v) (vecs : List Nat) (atol rtol : Option ℝ) (maxNum : Option Nat)
    (x : DmdLocal 𝕜 (TlsHandles 𝕜 Nat)) (w : Nat → E) (g : TlsHandles 𝕜 E)
    (hrun : (x.self.held w).computeDecomp lib ip (vecs.map w) none atol rtol maxNum = (.ok (), g)) :
    ∃ (x' : DmdLocal 𝕜 (TlsHandles 𝕜 Nat)) (m : Nat) (d : TlsDecomp 𝕜 m), vecs.length = m + 1 ∧
      StagesMean fit ip cast (fun v c => c • v) (tlsSeqStages lib vecs atol maxNum) x w x' w ∧ x'.self.held w = g ∧
      x'.self.vecs = some vecs ∧ x'.self.adv = x.self.adv ∧ x'.self.decomp = some ⟨m, d⟩ := by
  unfold TlsHandles.computeDecomp at hrun
  dsimp only at hrun
  split at hrun
  · cases hrun
  rename_i hne
  have hne' : vecs ≠ [] := fun h => hne (by rw [h]; rfl)
  have hseq : tlsArraysSeq ip (vecs.map w) = tlsSeqOf ⟨vecs.length, Matrix.of fun i j => ip (w vecs[i]) (w vecs[j])⟩ := by
    rw [← squareArr_eq]
    rfl
  rw [hseq] at hrun
  unfold TlsHandles.computeEigendecomp at hrun
  dsimp only at hrun
  generalize hA : tlsSeqOf (⟨vecs.length, Matrix.of fun i j => ip (w vecs[i]) (w vecs[j])⟩ : SquareArr 𝕜) = A at hrun
  have hAm : vecs.length = A.m + 1 := by
    rw [← hA]
    have := List.length_pos_iff.mpr hne'
    change vecs.length = vecs.length - 1 + 1
    omega
  cases hd : tlsEigendecomp lib.eigh lib.argsort lib.eig A.c.corr A.c.adv A.c.cross atol none none maxNum with
  | error e =>
    rw [hd] at hrun
    cases hrun
  | ok d =>
    rw [hd] at hrun
    have hg := (Prod.mk.inj hrun).2
    obtain ⟨x', h1, h2⟩ := tlsEigen_means lib fit ip cast atol maxNum
      { x with self := { x.self with vecs := some vecs, arrays := some A } } w A rfl d hd
    refine ⟨x', A.m, d, hAm, .cons (.compute rfl) (.cons (.symmInnerProducts hne' (fun _ _ _ _ _ _ => hcast _ _ _ _)
      fun _ _ _ _ => hsymm _ _) ?_), ?_, ?_, ?_, ?_⟩
    · rw [← hA] at h1
      exact h1
    · rw [h2, ← hg]
      rfl
    all_goals rw [h2]

/-- `compute_decomp` for pairs as stages. -/
theorem tlsPair_means (fit : Nat) (ip : E → E → 𝕜) (hsymm : ∀ u v, ip u v = star (ip v u)) (cast : 𝕜 → 𝕜 → 𝕜)
    (hcast : ∀ a b u v, cast (ip a b) (ip u v) = ip u v) (vecs adv : List Nat) (atol rtol : Option ℝ) (maxNum : Option Nat)
    (x : DmdLocal 𝕜 (TlsHandles 𝕜 Nat)) (w : Nat → E) (g : TlsHandles 𝕜 E)
    (hrun : (x.self.held w).computeDecomp lib ip (vecs.map w) (some (adv.map w)) atol rtol maxNum = (.ok (), g)) :
    ∃ (x' : DmdLocal 𝕜 (TlsHandles 𝕜 Nat)) (m : Nat) (d : TlsDecomp 𝕜 m), vecs.length = m ∧
      StagesMean fit ip cast (fun v c => c • v) (tlsPairStages lib vecs adv atol maxNum) x w x' w ∧ x'.self.held w = g ∧
      x'.self.vecs = some vecs ∧ x'.self.adv = some adv ∧ x'.self.decomp = some ⟨m, d⟩ := by
  unfold TlsHandles.computeDecomp at hrun
  dsimp only at hrun
  split at hrun
  swap
  · cases hrun
  rename_i hlen
  have hlen' : vecs.length = adv.length := by simpa using hlen
  split at hrun
  · cases hrun
  rename_i hne
  have hne' : vecs ≠ [] := fun h => hne (by rw [h]; rfl)
  have hadv' : adv ≠ [] := fun h => hne' (by rw [h] at hlen'; exact List.length_eq_zero_iff.mp hlen')
  have hpair : tlsArraysPairs ip (vecs.map w) (adv.map w) hlen =
      tlsPairOf ⟨vecs.length, Matrix.of fun i j => ip (w vecs[i]) (w vecs[j])⟩
        ⟨adv.length, Matrix.of fun i j => ip (w adv[i]) (w adv[j])⟩
        ⟨vecs.length, adv.length, Matrix.of fun i j => ip (w vecs[i]) (w adv[j])⟩ rfl hlen' hlen' := by
    have h := tlsPairOf_congr (c := ⟨(vecs.map w).length, handlesSymmIp ip (vecs.map w).get⟩)
      (v := ⟨(adv.map w).length, handlesSymmIp ip (adv.map w).get⟩)
      (b := ⟨(vecs.map w).length, (adv.map w).length, handlesIp ip (vecs.map w).get (adv.map w).get⟩) rfl hlen hlen
      (squareArr_eq ip w vecs) (squareArr_eq ip w adv) (arr_eq ip w vecs adv (List.length_map ..) (List.length_map ..) _ _
        (fun i => by simp) (fun j => by simp))
    exact h
  rw [hpair] at hrun
  unfold TlsHandles.computeEigendecomp at hrun
  dsimp only at hrun
  generalize hA : tlsPairOf (⟨vecs.length, Matrix.of fun i j => ip (w vecs[i]) (w vecs[j])⟩ : SquareArr 𝕜)
        ⟨adv.length, Matrix.of fun i j => ip (w adv[i]) (w adv[j])⟩
        ⟨vecs.length, adv.length, Matrix.of fun i j => ip (w vecs[i]) (w adv[j])⟩ rfl hlen' hlen' = A at hrun
  have hAm : vecs.length = A.m := by
    rw [← hA]
    rfl
  cases hd : tlsEigendecomp lib.eigh lib.argsort lib.eig A.c.corr A.c.adv A.c.cross atol none none maxNum with
  | error e =>
    rw [hd] at hrun
    cases hrun
  | ok d =>
    rw [hd] at hrun
    have hg := (Prod.mk.inj hrun).2
    obtain ⟨x', h1, h2⟩ := tlsEigen_means lib fit ip cast atol maxNum
      { x with
        self := { x.self with vecs := some vecs, adv := some adv, arrays := some A }
        corr := some ⟨vecs.length, Matrix.of fun i j => ip (w vecs[i]) (w vecs[j])⟩
        cross := some ⟨vecs.length, adv.length, Matrix.of fun i j => ip (w vecs[i]) (w adv[j])⟩ } w A rfl d hd
    refine ⟨x', A.m, d, hAm, .cons (.compute (if_pos hlen')) (.cons (.symmInnerProducts hne' (fun _ _ _ _ _ _ => hcast _ _ _ _)
      fun _ _ _ _ => hsymm _ _) (.cons (.innerProducts hne' hadv' (fun _ _ _ _ _ _ _ _ => hcast _ _ _ _)
      fun _ _ _ _ _ => hsymm _ _) (.cons (.symmInnerProducts hadv' (fun _ _ _ _ _ _ => hcast _ _ _ _)
      fun _ _ _ _ => hsymm _ _) ?_))), ?_, ?_, ?_, ?_⟩
    · dsimp only
      rw [dif_pos ⟨hlen', rfl, hlen'⟩]
      subst hA
      exact h1
    · rw [h2, ← hg]
      rfl
    all_goals rw [h2]

omit [DecidableEq 𝕜] in
/-- Modes of one process as linear combinations of the vectors at the places. -/
theorem onTls_places {seq : Bool} {vecs : List Nat} {adv : Option (List Nat)} {W : Nat → E} {m : Nat} {d : TlsDecomp 𝕜 m}
    {g : TlsHandles 𝕜 E} (hv : g.vecs = some (vecs.map W)) (ha : g.adv = adv.map (List.map W)) (hd : g.decomp = some ⟨m, d⟩)
    (hlen : vecs.length = m + if seq then 1 else 0) (c : DmdModeCall) (out : Vecs E) (h : c.onTls g = .ok out) :
    linCombineSized c.modes.length ((dmdPlaces seq vecs adv c.kind).map W).get (d.build c.kind) (some c.indices) = .ok out := by
  obtain ⟨kind, modes, l⟩ := c
  obtain ⟨v, a, arr, dec⟩ := g
  dsimp only at hv ha hd
  subst hv ha hd
  unfold DmdModeCall.onTls at h
  cases kind with
  | exact => exact exactFrom_places h
  | proj => exact spanFrom_places hlen h
  | adjoint => exact spanFrom_places hlen h

/-- **C80.** `TLSqrDMDHandles` for a sequence of vectors. -/
theorem C80_tls_sequential (procs nodes : Nat) (hp : 1 ≤ procs) (hn : 1 ≤ nodes) (request : Option Nat) (tag : Nat)
    (ip : E → E → 𝕜) (hsymm : ∀ u v, ip u v = star (ip v u)) (cast : 𝕜 → 𝕜 → 𝕜)
    (hcast : ∀ a b u v, cast (ip a b) (ip u v) = ip u v) (vecs : List Nat) (atol rtol : Option ℝ) (maxNum : Option Nat)
    (x : DmdLocal 𝕜 (TlsHandles 𝕜 Nat)) (w : Nat → E) (g : TlsHandles 𝕜 E)
    (hrun : (x.self.held w).computeDecomp lib ip (vecs.map w) none atol rtol maxNum = (.ok (), g)) (calls : List DmdModeCall)
    (hcalls : ∀ c ∈ calls, c.modes.Nodup ∧ (∀ q ∈ vecs ++ x.self.adv.getD [], q ∉ c.modes) ∧ ∃ out, c.onTls g = .ok out) :
    EverySharedInterleaving procs
      (stagesProg procs tag (limits request procs nodes).perProc ip cast (fun v c => c • v)
        (tlsSeqStages lib vecs atol maxNum ++ tlsModesStages true vecs x.self.adv calls))
      (fun _ => RankState.start x) w
      fun _ s w' => s.raised = none ∧ s.obj.self.held w = g ∧ PutInTurn (fun c => c.onTls g) calls w w' := by
  obtain ⟨x', m, d, hm, hmean, rfl, hv, ha, hd⟩ := tlsSeq_means lib (procs * ((limits request procs nodes).perProc - 1)) ip hsymm
    cast hcast vecs atol rtol maxNum x w g hrun
  obtain ⟨w', h1, h2⟩ := modes_mean (Y := DmdCast 𝕜) (procs * ((limits request procs nodes).perProc - 1)) ip cast true vecs x.self.adv
    tlsBuild d.build x' (fun kind => by unfold tlsBuild; rw [hd]) (fun c => c.onTls (x'.self.held w)) w
    (onTls_places (by rw [TlsHandles.held, hv]; rfl) (by rw [TlsHandles.held, ha]) hd (by simpa using hm)) calls hcalls w fun _ _ => rfl
  have := C80_like_one_process procs nodes hp hn request tag ip cast (fun v c => c • v) _ x x' w w' (hmean.append h1)
  intro sync n s hrun
  obtain ⟨g1, g2, g3, g4⟩ := this sync n s hrun
  refine ⟨g1, g2, fun r hr hdone => ?_, g4⟩
  obtain ⟨k1, k2, k3⟩ := g3 r hr hdone
  rw [k2, k3]
  exact ⟨k1, rfl, h2⟩

/-- **C80.** `TLSqrDMDHandles` for pairs of vectors. -/
theorem C80_tls_pairs (procs nodes : Nat) (hp : 1 ≤ procs) (hn : 1 ≤ nodes) (request : Option Nat) (tag : Nat)
    (ip : E → E → 𝕜) (hsymm : ∀ u v, ip u v = star (ip v u)) (cast : 𝕜 → 𝕜 → 𝕜)
    (hcast : ∀ a b u v, cast (ip a b) (ip u v) = ip u v) (vecs adv : List Nat) (atol rtol : Option ℝ) (maxNum : Option Nat)
    (x : DmdLocal 𝕜 (TlsHandles 𝕜 Nat)) (w : Nat → E) (g : TlsHandles 𝕜 E)
    (hrun : (x.self.held w).computeDecomp lib ip (vecs.map w) (some (adv.map w)) atol rtol maxNum = (.ok (), g))
    (calls : List DmdModeCall)
    (hcalls : ∀ c ∈ calls, c.modes.Nodup ∧ (∀ q ∈ vecs ++ adv, q ∉ c.modes) ∧ ∃ out, c.onTls g = .ok out) :
    EverySharedInterleaving procs
      (stagesProg procs tag (limits request procs nodes).perProc ip cast (fun v c => c • v)
        (tlsPairStages lib vecs adv atol maxNum ++ tlsModesStages false vecs (some adv) calls))
      (fun _ => RankState.start x) w
      fun _ s w' => s.raised = none ∧ s.obj.self.held w = g ∧ PutInTurn (fun c => c.onTls g) calls w w' := by
  obtain ⟨x', m, d, hm, hmean, rfl, hv, ha, hd⟩ := tlsPair_means lib (procs * ((limits request procs nodes).perProc - 1)) ip hsymm
    cast hcast vecs adv atol rtol maxNum x w g hrun
  obtain ⟨w', h1, h2⟩ := modes_mean (Y := DmdCast 𝕜) (procs * ((limits request procs nodes).perProc - 1)) ip cast false vecs (some adv)
    tlsBuild d.build x' (fun kind => by unfold tlsBuild; rw [hd]) (fun c => c.onTls (x'.self.held w)) w
    (onTls_places (by rw [TlsHandles.held, hv]; rfl) (by rw [TlsHandles.held, ha]) hd (by simpa using hm)) calls hcalls w fun _ _ => rfl
  have := C80_like_one_process procs nodes hp hn request tag ip cast (fun v c => c • v) _ x x' w w' (hmean.append h1)
  intro sync n s hrun
  obtain ⟨g1, g2, g3, g4⟩ := this sync n s hrun
  refine ⟨g1, g2, fun r hr hdone => ?_, g4⟩
  obtain ⟨k1, k2, k3⟩ := g3 r hr hdone
  rw [k2, k3]
  exact ⟨k1, rfl, h2⟩

/-! ### Examples -/

/-- Vectors at places: those of `exampleVecs` first. -/
def exampleStore (q : Nat) : Fin 2 → ℝ := if q = 0 then ![1, 0] else if q = 1 then ![0, 1] else if q = 2 then ![-2, 3] else ![7, 7]

theorem exampleStore_vecs : [0, 1, 2].map exampleStore = exampleVecs := by simp [exampleStore, exampleVecs]

/-- Calls for both exact modes in the other order, then for one projected mode at a place of the first call, then for one adjoint
mode. -/
def exampleCalls : List DmdModeCall := [⟨.exact, [4, 3], [1, -2]⟩, ⟨.proj, [3], [0]⟩, ⟨.adjoint, [5], [-1]⟩]

theorem exampleCalls_valid : ∀ c ∈ exampleCalls, c.modes.Nodup ∧ (∀ q ∈ [0, 1, 2] ++ (none : Option (List Nat)).getD [], q ∉ c.modes) ∧
    (∀ q ∈ [0, 1] ++ [1, 2], q ∉ c.modes) ∧ c.modes.length = c.indices.length ∧ ValidIndices 2 c.indices := by
  unfold ValidIndices
  decide

/-- A library, vectors and calls as in `C80_dmd_sequential`. -/
example : ∃ (lib : DmdLib ℝ) (g : DmdHandles ℝ (Fin 2 → ℝ)),
    ((DmdHandles.new : DmdHandles ℝ Nat).held exampleStore).computeDecomp lib (fun u v => dotIp u v) ([0, 1, 2].map exampleStore) none
      (some (1 / 10)) none none = (.ok (), g) ∧
    ∀ c ∈ exampleCalls, c.modes.Nodup ∧ (∀ q ∈ [0, 1, 2] ++ (DmdHandles.new : DmdHandles ℝ Nat).adv.getD [], q ∉ c.modes) ∧
      ∃ out, c.onDmd g = .ok out := by
  obtain ⟨lib, hlaw, heig, hu⟩ := exists_exampleDmdLib
  obtain ⟨g, hrun, hd⟩ := exampleVecs_decomp lib heig hu DmdHandles.new
  obtain ⟨g', d, hrun', hd', hmodes⟩ := C26_handles_sequential_no_error lib DmdHandles.new (1 / 10) none none
    (fun x y => dotIp x y) exampleVecs (by simp [exampleVecs])
  obtain rfl : g = g' := (Prod.ext_iff.mp (hrun.symm.trans hrun')).2
  obtain rfl : exampleSeqDecomp = d := by
    have := hd.symm.trans hd'
    cases this
    rfl
  refine ⟨lib, g, by rw [exampleStore_vecs]; exact hrun, fun c hc => ?_⟩
  obtain ⟨h1, h2, -, h4, h5⟩ := exampleCalls_valid c hc
  refine ⟨h1, h2, ?_⟩
  obtain ⟨m1, -, m3, m4⟩ := hmodes c.indices h5
  unfold DmdModeCall.onDmd
  rw [h4]
  cases c.kind with
  | exact => exact m1 rfl
  | proj => exact m3
  | adjoint => exact m4

/-- A library, vectors and calls as in `C80_dmd_pairs`. -/
example : ∃ (lib : DmdLib ℝ) (g : DmdHandles ℝ (Fin 2 → ℝ)),
    ((DmdHandles.new : DmdHandles ℝ Nat).held exampleStore).computeDecomp lib (fun u v => dotIp u v) ([0, 1].map exampleStore)
      (some ([1, 2].map exampleStore)) (some (1 / 10)) none none = (.ok (), g) ∧
    ∀ c ∈ exampleCalls, c.modes.Nodup ∧ (∀ q ∈ [0, 1] ++ [1, 2], q ∉ c.modes) ∧ ∃ out, c.onDmd g = .ok out := by
  obtain ⟨lib, hlaw, heig, hu⟩ := exists_exampleDmdLib
  obtain ⟨g, d, hrun, hd, hmodes⟩ := (C26_handles_pairs_no_error lib DmdHandles.new (1 / 10) none none (fun x y => dotIp x y)
    ([0, 1].map exampleStore) ([1, 2].map exampleStore)).2 rfl (by simp)
  obtain ⟨hlen, d', hd', rfl⟩ := computeDecomp_pairs lib _ _ g _ _ _ _ _ hrun
  cases hd
  have h1 : handlesIp (fun x y => dotIp x y) ([0, 1].map exampleStore).get ([0, 1].map exampleStore).get =
      (1 : Matrix (Fin 2) (Fin 2) ℝ) := by
    rw [← exampleVecs_corr]
    refine Matrix.ext fun i j => ?_
    change Fin 2 at i
    change Fin 2 at j
    fin_cases i <;> fin_cases j <;> rfl
  have hr : d.r = 2 := by
    unfold dmdEigendecomp at hd'
    erw [h1, hu] at hd'
    dsimp only at hd'
    split at hd'
    · cases hd'
    · cases hd'
      rfl
  refine ⟨lib, _, hrun, fun c hc => ?_⟩
  obtain ⟨h1, -, h3, h4, h5⟩ := exampleCalls_valid c hc
  refine ⟨h1, h3, ?_⟩
  obtain ⟨m1, m3, m4⟩ := hmodes c.indices (by rw [hr]; exact h5)
  unfold DmdModeCall.onDmd
  rw [h4]
  cases c.kind with
  | exact => exact m1
  | proj => exact m3
  | adjoint => exact m4

/-- A library, vectors and calls as in `C80_tls_sequential`. -/
example : ∃ (lib : DmdLib ℝ) (g : TlsHandles ℝ (Fin 2 → ℝ)),
    ((TlsHandles.new : TlsHandles ℝ Nat).held exampleStore).computeDecomp lib (fun u v => dotIp u v) ([0, 1, 2].map exampleStore) none
      (some (1 / 10)) none none = (.ok (), g) ∧
    ∀ c ∈ exampleCalls, c.modes.Nodup ∧ (∀ q ∈ [0, 1, 2] ++ (TlsHandles.new : TlsHandles ℝ Nat).adv.getD [], q ∉ c.modes) ∧
      ∃ out, c.onTls g = .ok out := by
  obtain ⟨lib, hlaw, heig, hu⟩ := exists_exampleDmdLib
  obtain ⟨g, d, hrun, hd, -, hdd, -⟩ := exampleVecs_tls_decomp lib hlaw heig hu TlsHandles.new
  obtain ⟨g', d', hrun', hd', hmodes⟩ := C31_handles_sequential_no_error lib TlsHandles.new (1 / 10) none none
    (fun x y => dotIp x y) exampleVecs (by simp [exampleVecs])
  obtain rfl : g = g' := (Prod.ext_iff.mp (hrun.symm.trans hrun')).2
  obtain rfl : d = d' := by
    have := hd.symm.trans hd'
    cases this
    rfl
  refine ⟨lib, g, by rw [exampleStore_vecs]; exact hrun, fun c hc => ?_⟩
  obtain ⟨h1, h2, -, h4, h5⟩ := exampleCalls_valid c hc
  refine ⟨h1, h2, ?_⟩
  obtain ⟨m1, -, m3, m4⟩ := hmodes c.indices (by rw [hdd]; exact h5)
  unfold DmdModeCall.onTls
  rw [h4]
  cases c.kind with
  | exact => exact m1 rfl
  | proj => exact m3
  | adjoint => exact m4

/-- A library, vectors and calls as in `C80_tls_pairs`. -/
example : ∃ (lib : DmdLib ℝ) (g : TlsHandles ℝ (Fin 2 → ℝ)),
    ((TlsHandles.new : TlsHandles ℝ Nat).held exampleStore).computeDecomp lib (fun u v => dotIp u v) ([0, 1].map exampleStore)
      (some ([1, 2].map exampleStore)) (some (1 / 10)) none none = (.ok (), g) ∧
    ∀ c ∈ exampleCalls, c.modes.Nodup ∧ (∀ q ∈ [0, 1] ++ [1, 2], q ∉ c.modes) ∧ ∃ out, c.onTls g = .ok out := by
  obtain ⟨lib, hlaw, heig, hu⟩ := exists_exampleDmdLib
  obtain ⟨g, d, hrun, hd, hmodes⟩ := (C31_handles_pairs_no_error lib TlsHandles.new (1 / 10) none none (fun x y => dotIp x y)
    ([0, 1].map exampleStore) ([1, 2].map exampleStore)).2 rfl (by simp)
  obtain ⟨hlen, d', hd', rfl⟩ := tlsComputeDecomp_pairs lib _ _ g _ _ _ _ _ hrun
  cases hd
  have h1 : handlesIp (fun x y => dotIp x y) ([0, 1].map exampleStore).get ([0, 1].map exampleStore).get =
      (1 : Matrix (Fin 2) (Fin 2) ℝ) := by
    rw [← exampleVecs_corr]
    refine Matrix.ext fun i j => ?_
    change Fin 2 at i
    change Fin 2 at j
    fin_cases i <;> fin_cases j <;> rfl
  have h2 : handlesIp (fun x y => dotIp x y) (fun j => ([1, 2].map exampleStore).get (Fin.cast hlen j))
      (fun j => ([1, 2].map exampleStore).get (Fin.cast hlen j)) =
      ((seqNext exampleSeq)ᴴ * 1 * seqNext exampleSeq : Matrix (Fin 2) (Fin 2) ℝ) := by
    rw [← exampleVecs_adv]
    refine Matrix.ext fun i j => ?_
    change Fin 2 at i
    change Fin 2 at j
    fin_cases i <;> fin_cases j <;> rfl
  have h3 : handlesIp (fun x y => dotIp x y) ([0, 1].map exampleStore).get
      (fun j => ([1, 2].map exampleStore).get (Fin.cast hlen j)) = (!![0, -2; 1, 3] : Matrix (Fin 2) (Fin 2) ℝ) := by
    rw [← exampleVecs_cross]
    refine Matrix.ext fun i j => ?_
    change Fin 2 at i
    change Fin 2 at j
    fin_cases i <;> fin_cases j <;> rfl
  have hdd := (exampleVecs_tls lib hlaw heig hu d _ _ _ h1 h2 h3 hd').2.1
  refine ⟨lib, _, hrun, fun c hc => ?_⟩
  obtain ⟨h1, -, h3, h4, h5⟩ := exampleCalls_valid c hc
  refine ⟨h1, h3, ?_⟩
  obtain ⟨m1, m3, m4⟩ := hmodes c.indices (by rw [hdd]; exact h5)
  unfold DmdModeCall.onTls
  rw [h4]
  cases c.kind with
  | exact => exact m1
  | proj => exact m3
  | adjoint => exact m4

end Modred
