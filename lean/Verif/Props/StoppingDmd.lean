import Verif.Props.Stopping
import Verif.Props.StagesDmd

/-!
# C87 for dynamic mode decomposition: which exceptions are raised by all processes, and which by rank 0 only
-/

namespace Modred

open Matrix

section
variable {X Y V K : Type*} [AddCommMonoid V] [Semiring K] [StarRing K] [DecidableEq K]

/-- The stages lead to a call by rank 0 that raises. -/
def RankZeroStops (fit : Nat) (ip : V → V → K) (cast : K → K → K) (mul : V → K → V) (stages : List (Stage X Y V K)) (x : X)
    (w : Nat → V) (e : Err) : Prop :=
  ∃ before f set after x1 w1, stages = before ++ .callAndBcast f set :: after ∧ StagesMean fit ip cast mul before x w x1 w1 ∧
    f x1 = .error e

variable {fit : Nat} {ip : V → V → K} {cast : K → K → K} {mul : V → K → V} {stage : Stage X Y V K} {stages : List (Stage X Y V K)}
  {x x1 : X} {w w1 : Nat → V} {e : Err}

omit [DecidableEq K] in
theorem RankZeroStops.cons (h : StageMeans fit ip cast mul stage x w x1 w1) (hs : RankZeroStops fit ip cast mul stages x1 w1 e) :
    RankZeroStops fit ip cast mul (stage :: stages) x w e := by
  obtain ⟨before, f, set, after, x2, w2, rfl, hm, hf⟩ := hs
  exact ⟨stage :: before, f, set, after, x2, w2, rfl, .cons h hm, hf⟩

omit [DecidableEq K] in
theorem RankZeroStops.call {f : X → Except Err Y} (h : f x = .error e) (set : X → Y → X) :
    RankZeroStops fit ip cast mul (.callAndBcast f set :: stages) x w e :=
  ⟨[], f, set, stages, x, w, rfl, .nil _ _, h⟩

theorem RankZeroStops.ends {procs nodes : Nat} (hp : 1 ≤ procs) (hn : 1 ≤ nodes) {request : Option Nat} (tag : Nat)
    (h : RankZeroStops (procs * ((limits request procs nodes).perProc - 1)) ip cast mul stages x w e) :
    EndsRaising procs (stagesProg procs tag (limits request procs nodes).perProc ip cast mul stages) RankState.raised
      (fun _ => RankState.start x) w fun r => if r = 0 then some e else none := by
  obtain ⟨before, f, set, after, x1, w1, rfl, hm, hf⟩ := h
  exact C87_call_violation procs nodes hp hn request tag ip cast mul hm hf set after

end

variable {𝕜 : Type*} [RCLike 𝕜] [DecidableEq 𝕜] {E : Type*} [AddCommGroup E] [Module 𝕜 E] (lib : DmdLib 𝕜)

/-! ### Dynamic mode decomposition -/

omit [DecidableEq 𝕜] in
/-- `compute_eigendecomp` that raises. -/
theorem dmdEigen_stops (fit : Nat) (ip : E → E → 𝕜) (cast : 𝕜 → 𝕜 → 𝕜) (atol : Option ℝ) (maxNum : Option Nat)
    (x : DmdLocal 𝕜 (DmdHandles 𝕜 Nat)) (w : Nat → E) (a : DmdArrays 𝕜) (ha : x.self.arrays = some a) (err : Err)
    (hd : dmdEigendecomp lib.eigh lib.argsort lib.eig a.corr a.cross atol none maxNum = .error err) :
    RankZeroStops fit ip cast (fun v c => c • v) (dmdEigenStages lib atol maxNum) x w err := by
  unfold dmdEigendecomp at hd
  cases he : utilEigh lib.eigh lib.argsort a.corr atol none true with
  | error e =>
    rw [he] at hd
    cases hd
    exact .call (by unfold dmdEighCall eighCall; rw [ha]; dsimp only; rw [he]) _
  | ok e =>
    rw [he] at hd
    dsimp only at hd
    cases hy : eigBiorthog lib.eig (lowOrderMap (diagPow (𝕜 := 𝕜) (e.truncate maxNum).w (-0.5)) (e.truncate maxNum).V a.cross)
        scaleLeft with
    | ok y =>
      obtain ⟨vals, R, L⟩ := y
      rw [hy] at hd
      cases hd
    | error e' =>
      rw [hy] at hd
      cases hd
      have h1 : StageMeans fit ip cast (fun v c => c • v) (.callAndBcast (dmdEighCall lib atol) DmdLocal.storeProj) x w
          (x.storeProj (.inl ⟨a.m, e⟩)) w := .callAndBcast (by unfold dmdEighCall eighCall; rw [ha]; dsimp only; rw [he])
      have h2 : StageMeans (Y := DmdCast 𝕜) fit ip cast (fun v c => c • v) (.compute (dmdLow maxNum)) (x.storeProj (.inl ⟨a.m, e⟩)) w
          { x with
            proj := some ⟨a.m, e.truncate maxNum⟩
            low := some ⟨_, lowOrderMap (diagPow (𝕜 := 𝕜) (e.truncate maxNum).w (-0.5)) (e.truncate maxNum).V a.cross⟩ } w := by
        refine .compute ?_
        unfold dmdLow DmdLocal.storeProj
        dsimp only
        rw [ha]
        dsimp only
        rw [dif_pos rfl]
        rfl
      refine .cons h1 (.cons h2 (.call ?_ _))
      unfold dmdEigCall eigCall
      dsimp only
      rw [hy]

/-- **C87, violation.** `compute_decomp` of `DMDHandles` for a sequence of vectors: what one process raises, if there are vectors, is
raised by rank 0 only. -/
theorem C87_dmd_sequential_violation (procs nodes : Nat) (hp : 1 ≤ procs) (hn : 1 ≤ nodes) (request : Option Nat) (tag : Nat)
    (ip : E → E → 𝕜) (hsymm : ∀ u v, ip u v = star (ip v u)) (cast : 𝕜 → 𝕜 → 𝕜)
    (hcast : ∀ a b u v, cast (ip a b) (ip u v) = ip u v) (vecs : List Nat) (hvecs : vecs ≠ []) (atol rtol : Option ℝ)
    (maxNum : Option Nat) (x : DmdLocal 𝕜 (DmdHandles 𝕜 Nat)) (w : Nat → E) {g : DmdHandles 𝕜 E} {e : Err}
    (hrun : (x.self.held w).computeDecomp lib ip (vecs.map w) none atol rtol maxNum = (.error e, g)) :
    EndsRaising procs (stagesProg procs tag (limits request procs nodes).perProc ip cast (fun v c => c • v)
      (dmdSeqStages lib vecs atol maxNum)) RankState.raised (fun _ => RankState.start x) w
      fun r => if r = 0 then some e else none := by
  unfold DmdHandles.computeDecomp at hrun
  dsimp only at hrun
  rw [if_neg (by simpa using hvecs)] at hrun
  have hseq : dmdArraysSeq ip (vecs.map w) = dmdSeqOf ⟨vecs.length, Matrix.of fun i j => ip (w vecs[i]) (w vecs[j])⟩ := by
    rw [← squareArr_eq]
    rfl
  rw [hseq] at hrun
  unfold DmdHandles.computeEigendecomp at hrun
  dsimp only at hrun
  generalize hA : dmdSeqOf (⟨vecs.length, Matrix.of fun i j => ip (w vecs[i]) (w vecs[j])⟩ : SquareArr 𝕜) = A at hrun
  cases hd : dmdEigendecomp lib.eigh lib.argsort lib.eig A.corr A.cross atol none maxNum with
  | ok d =>
    rw [hd] at hrun
    cases hrun
  | error e' =>
    rw [hd] at hrun
    cases hrun
    have h1 := dmdEigen_stops lib (procs * ((limits request procs nodes).perProc - 1)) ip cast atol maxNum
      { x with self := { x.self with vecs := some vecs, arrays := some A } } w A rfl e hd
    rw [← hA] at h1
    exact RankZeroStops.ends hp hn tag (.cons (.compute rfl) (.cons (.symmInnerProducts hvecs (fun _ _ _ _ _ _ => hcast _ _ _ _)
      fun _ _ _ _ => hsymm _ _) h1))

/-- **C87, violation.** `compute_decomp` of `DMDHandles` for vectors and as many advanced vectors: what one process raises, if there
are vectors, is raised by rank 0 only. -/
theorem C87_dmd_pairs_violation (procs nodes : Nat) (hp : 1 ≤ procs) (hn : 1 ≤ nodes) (request : Option Nat) (tag : Nat)
    (ip : E → E → 𝕜) (hsymm : ∀ u v, ip u v = star (ip v u)) (cast : 𝕜 → 𝕜 → 𝕜)
    (hcast : ∀ a b u v, cast (ip a b) (ip u v) = ip u v) (vecs adv : List Nat) (hvecs : vecs ≠ [])
    (hlen' : vecs.length = adv.length) (atol rtol : Option ℝ)
    (maxNum : Option Nat) (x : DmdLocal 𝕜 (DmdHandles 𝕜 Nat)) (w : Nat → E) {g : DmdHandles 𝕜 E} {e : Err}
    (hrun : (x.self.held w).computeDecomp lib ip (vecs.map w) (some (adv.map w)) atol rtol maxNum = (.error e, g)) :
    EndsRaising procs (stagesProg procs tag (limits request procs nodes).perProc ip cast (fun v c => c • v)
      (dmdPairStages lib vecs adv atol maxNum)) RankState.raised (fun _ => RankState.start x) w
      fun r => if r = 0 then some e else none := by
  unfold DmdHandles.computeDecomp at hrun
  dsimp only at hrun
  have hlen : (vecs.map w).length = (adv.map w).length := by simpa using hlen'
  rw [dif_pos hlen, if_neg (by simpa using hvecs)] at hrun
  have hadv : adv ≠ [] := fun h => hvecs (by rw [h] at hlen'; exact List.length_eq_zero_iff.mp hlen')
  have hpair : dmdArraysPairs ip (vecs.map w) (adv.map w) hlen =
      dmdPairOf ⟨vecs.length, Matrix.of fun i j => ip (w vecs[i]) (w vecs[j])⟩
        ⟨vecs.length, adv.length, Matrix.of fun i j => ip (w vecs[i]) (w adv[j])⟩ rfl hlen' := by
    have h := dmdPairOf_congr (c := ⟨(vecs.map w).length, handlesSymmIp ip (vecs.map w).get⟩)
      (b := ⟨(vecs.map w).length, (adv.map w).length, handlesIp ip (vecs.map w).get (adv.map w).get⟩) rfl hlen
      (squareArr_eq ip w vecs) (arr_eq ip w vecs adv (List.length_map ..) (List.length_map ..) _ _
        (fun i => by simp) (fun j => by simp))
    exact h
  rw [hpair] at hrun
  unfold DmdHandles.computeEigendecomp at hrun
  dsimp only at hrun
  generalize hA : dmdPairOf (⟨vecs.length, Matrix.of fun i j => ip (w vecs[i]) (w vecs[j])⟩ : SquareArr 𝕜)
        ⟨vecs.length, adv.length, Matrix.of fun i j => ip (w vecs[i]) (w adv[j])⟩ rfl hlen' = A at hrun
  cases hd : dmdEigendecomp lib.eigh lib.argsort lib.eig A.corr A.cross atol none maxNum with
  | ok d =>
    rw [hd] at hrun
    cases hrun
  | error e' =>
    rw [hd] at hrun
    cases hrun
    have h1 := dmdEigen_stops lib (procs * ((limits request procs nodes).perProc - 1)) ip cast atol maxNum
      { x with
        self := { x.self with vecs := some vecs, adv := some adv, arrays := some A }
        corr := some ⟨vecs.length, Matrix.of fun i j => ip (w vecs[i]) (w vecs[j])⟩ } w A rfl e hd
    refine RankZeroStops.ends hp hn tag (.cons (.compute (if_pos hlen')) (.cons (.symmInnerProducts hvecs
      (fun _ _ _ _ _ _ => hcast _ _ _ _) fun _ _ _ _ => hsymm _ _) (.cons (.innerProducts hvecs hadv
      (fun _ _ _ _ _ _ _ _ => hcast _ _ _ _) fun _ _ _ _ _ => hsymm _ _) ?_)))
    dsimp only
    rw [dif_pos ⟨rfl, hlen'⟩]
    subst hA
    exact h1

/-- **C87.** `compute_decomp` of `DMDHandles` for vectors and advanced vectors of another number: all processes raise `ValueError`, as
one does. -/
theorem C87_dmd_lengths_partial (procs nodes : Nat) (hp : 1 ≤ procs) (hn : 1 ≤ nodes) (request : Option Nat) (tag : Nat)
    (ip : E → E → 𝕜) (cast : 𝕜 → 𝕜 → 𝕜) (vecs adv : List Nat) (hlen : vecs.length ≠ adv.length) (atol rtol : Option ℝ)
    (maxNum : Option Nat) (x : DmdLocal 𝕜 (DmdHandles 𝕜 Nat)) (w : Nat → E) :
    ((x.self.held w).computeDecomp lib ip (vecs.map w) (some (adv.map w)) atol rtol maxNum).1 = .error .valueError ∧
    EndsRaising procs (stagesProg procs tag (limits request procs nodes).perProc ip cast (fun v c => c • v)
      (dmdPairStages lib vecs adv atol maxNum)) RankState.raised (fun _ => RankState.start x) w fun _ => some .valueError := by
  refine ⟨?_, C87_computation_partial procs nodes hp hn request tag ip cast (fun v c => c • v) (before := []) (.nil _ _)
    ?_ _⟩
  swap
  · exact if_neg hlen
  unfold DmdHandles.computeDecomp
  dsimp only
  rw [dif_neg (by simpa using hlen)]

/-- **C87.** Calls for modes of `DMDHandles` before there is a decomposition: all processes raise `AttributeError`, as one does. -/
theorem C87_dmd_modes_partial (procs nodes : Nat) (hp : 1 ≤ procs) (hn : 1 ≤ nodes) (request : Option Nat) (tag : Nat)
    (ip : E → E → 𝕜) (cast : 𝕜 → 𝕜 → 𝕜) (seq : Bool) (vecs : List Nat) (adv : Option (List Nat)) (call : DmdModeCall)
    (calls : List DmdModeCall) (x : DmdLocal 𝕜 (DmdHandles 𝕜 Nat)) (hx : x.self.decomp = none) (w : Nat → E) :
    ((x.self.held w).computeExactModes call.indices call.modes.length none).1 = .error .attributeError ∧
    ((x.self.held w).computeProjModes call.indices call.modes.length none).1 = .error .attributeError ∧
    ((x.self.held w).computeAdjointModes call.indices call.modes.length none).1 = .error .attributeError ∧
    EndsRaising procs (stagesProg procs tag (limits request procs nodes).perProc ip cast (fun v c => c • v)
      (dmdModesStages seq vecs adv (call :: calls))) RankState.raised (fun _ => RankState.start x) w
      fun _ => some .attributeError := by
  have hh : (x.self.held w).decomp = none := hx
  refine ⟨?_, ?_, ?_, C87_lin_combine_partial procs nodes hp hn request tag ip cast (fun v c => c • v) (before := [])
    (.nil _ _) ?_ _⟩
  · unfold DmdHandles.computeExactModes
    simp only [Option.isSome_none, Bool.false_eq_true, if_false, hh]
  · unfold DmdHandles.computeProjModes
    simp only [Option.isSome_none, Bool.false_eq_true, if_false, hh]
  · unfold DmdHandles.computeAdjointModes
    simp only [Option.isSome_none, Bool.false_eq_true, if_false, hh]
  · unfold dmdBuild
    rw [hx]
    rfl

/-! ### Total-least-squares dynamic mode decomposition -/

omit [DecidableEq 𝕜] in
/-- `compute_eigendecomp` that raises. -/
theorem tlsEigen_stops (fit : Nat) (ip : E → E → 𝕜) (cast : 𝕜 → 𝕜 → 𝕜) (atol : Option ℝ) (maxNum : Option Nat)
    (x : DmdLocal 𝕜 (TlsHandles 𝕜 Nat)) (w : Nat → E) (a : TlsArrays 𝕜) (ha : x.self.arrays = some a) (err : Err)
    (ht : tlsEigendecomp lib.eigh lib.argsort lib.eig a.c.corr a.c.adv a.c.cross atol none none maxNum = .error err) :
    RankZeroStops fit ip cast (fun v c => c • v) (tlsEigenStages lib atol maxNum) x w err := by
  unfold tlsEigendecomp at ht
  cases hs : utilEigh lib.eigh lib.argsort (a.c.corr + a.c.adv) atol none true with
  | error e =>
    rw [hs] at ht
    cases ht
    exact .call (by unfold tlsSumCall eighCall; rw [ha]; dsimp only; rw [hs]) _
  | ok e =>
    rw [hs] at ht
    dsimp only at ht
    have h1 : StageMeans fit ip cast (fun v c => c • v) (.callAndBcast (tlsSumCall lib atol) DmdLocal.storeSum) x w
        (DmdLocal.storeSum x (Sum.inl ⟨a.m, e⟩)) w := .callAndBcast (by unfold tlsSumCall eighCall; rw [ha]; dsimp only; rw [hs])
    have h2 : StageMeans (Y := DmdCast 𝕜) fit ip cast (fun v c => c • v) (.compute (tlsTruncateSum maxNum))
        (DmdLocal.storeSum x (Sum.inl ⟨a.m, e⟩)) w { x with sum := some ⟨a.m, e.truncate maxNum⟩ } w := .compute rfl
    cases he : utilEigh lib.eigh lib.argsort (tlsProjCorr (e.truncate maxNum).V a.c.corr) atol none true with
    | error e' =>
      rw [he] at ht
      cases ht
      refine .cons h1 (.cons h2 (.call ?_ _))
      unfold tlsProjCall eighCall
      dsimp only
      rw [ha]
      dsimp only
      rw [dif_pos rfl]
      erw [he]
    | ok p =>
      rw [he] at ht
      dsimp only at ht
      cases hy : eigBiorthog lib.eig (tlsLowOrderMap (diagPow (𝕜 := 𝕜) (p.truncate maxNum).w (-0.5)) (p.truncate maxNum).V
          (e.truncate maxNum).V a.c.cross) scaleLeft with
      | ok y =>
        obtain ⟨vals, R, L⟩ := y
        rw [hy] at ht
        cases ht
      | error e' =>
        rw [hy] at ht
        cases ht
        have h3 : StageMeans fit ip cast (fun v c => c • v) (.callAndBcast (tlsProjCall lib atol) DmdLocal.storeProj)
            { x with sum := some ⟨a.m, e.truncate maxNum⟩ } w
            { x with sum := some ⟨a.m, e.truncate maxNum⟩, proj := some ⟨a.m, p⟩ } w := by
          refine .callAndBcast (y := (Sum.inl ⟨a.m, p⟩ : DmdCast 𝕜)) ?_
          unfold tlsProjCall eighCall
          dsimp only
          rw [ha]
          dsimp only
          rw [dif_pos rfl]
          erw [he]
        have h4 : StageMeans (Y := DmdCast 𝕜) fit ip cast (fun v c => c • v) (.compute (tlsLow maxNum))
            { x with sum := some ⟨a.m, e.truncate maxNum⟩, proj := some ⟨a.m, p⟩ } w
            { x with
              sum := some ⟨a.m, e.truncate maxNum⟩
              proj := some ⟨a.m, p.truncate maxNum⟩
              low := some ⟨_, tlsLowOrderMap (diagPow (𝕜 := 𝕜) (p.truncate maxNum).w (-0.5)) (p.truncate maxNum).V
                (e.truncate maxNum).V a.c.cross⟩ } w := by
          refine .compute ?_
          unfold tlsLow
          dsimp only
          rw [ha]
          dsimp only
          rw [dif_pos ⟨rfl, rfl⟩]
          rfl
        refine .cons h1 (.cons h2 (.cons h3 (.cons h4 (.call ?_ _))))
        unfold dmdEigCall eigCall
        dsimp only
        rw [hy]

/-- **C87, violation.** `compute_decomp` of `TLSqrDMDHandles` for a sequence of vectors: what one process raises, if there are vectors, is
raised by rank 0 only. -/
theorem C87_tls_sequential_violation (procs nodes : Nat) (hp : 1 ≤ procs) (hn : 1 ≤ nodes) (request : Option Nat) (tag : Nat)
    (ip : E → E → 𝕜) (hsymm : ∀ u v, ip u v = star (ip v u)) (cast : 𝕜 → 𝕜 → 𝕜)
    (hcast : ∀ a b u v, cast (ip a b) (ip u v) = ip u v) (vecs : List Nat) (hvecs : vecs ≠ []) (atol rtol : Option ℝ)
    (maxNum : Option Nat) (x : DmdLocal 𝕜 (TlsHandles 𝕜 Nat)) (w : Nat → E) {g : TlsHandles 𝕜 E} {e : Err}
    (hrun : (x.self.held w).computeDecomp lib ip (vecs.map w) none atol rtol maxNum = (.error e, g)) :
    EndsRaising procs (stagesProg procs tag (limits request procs nodes).perProc ip cast (fun v c => c • v)
      (tlsSeqStages lib vecs atol maxNum)) RankState.raised (fun _ => RankState.start x) w
      fun r => if r = 0 then some e else none := by
  unfold TlsHandles.computeDecomp at hrun
  dsimp only at hrun
  rw [if_neg (by simpa using hvecs)] at hrun
  have hseq : tlsArraysSeq ip (vecs.map w) = tlsSeqOf ⟨vecs.length, Matrix.of fun i j => ip (w vecs[i]) (w vecs[j])⟩ := by
    rw [← squareArr_eq]
    rfl
  rw [hseq] at hrun
  unfold TlsHandles.computeEigendecomp at hrun
  dsimp only at hrun
  generalize hA : tlsSeqOf (⟨vecs.length, Matrix.of fun i j => ip (w vecs[i]) (w vecs[j])⟩ : SquareArr 𝕜) = A at hrun
  cases hd : tlsEigendecomp lib.eigh lib.argsort lib.eig A.c.corr A.c.adv A.c.cross atol none none maxNum with
  | ok d =>
    rw [hd] at hrun
    cases hrun
  | error e' =>
    rw [hd] at hrun
    cases hrun
    have h1 := tlsEigen_stops lib (procs * ((limits request procs nodes).perProc - 1)) ip cast atol maxNum
      { x with self := { x.self with vecs := some vecs, arrays := some A } } w A rfl e hd
    rw [← hA] at h1
    exact RankZeroStops.ends hp hn tag (.cons (.compute rfl) (.cons (.symmInnerProducts hvecs (fun _ _ _ _ _ _ => hcast _ _ _ _)
      fun _ _ _ _ => hsymm _ _) h1))

/-- **C87, violation.** `compute_decomp` of `TLSqrDMDHandles` for vectors and as many advanced vectors: what one process raises, if there
are vectors, is raised by rank 0 only. -/
theorem C87_tls_pairs_violation (procs nodes : Nat) (hp : 1 ≤ procs) (hn : 1 ≤ nodes) (request : Option Nat) (tag : Nat)
    (ip : E → E → 𝕜) (hsymm : ∀ u v, ip u v = star (ip v u)) (cast : 𝕜 → 𝕜 → 𝕜)
    (hcast : ∀ a b u v, cast (ip a b) (ip u v) = ip u v) (vecs adv : List Nat) (hvecs : vecs ≠ [])
    (hlen' : vecs.length = adv.length) (atol rtol : Option ℝ)
    (maxNum : Option Nat) (x : DmdLocal 𝕜 (TlsHandles 𝕜 Nat)) (w : Nat → E) {g : TlsHandles 𝕜 E} {e : Err}
    (hrun : (x.self.held w).computeDecomp lib ip (vecs.map w) (some (adv.map w)) atol rtol maxNum = (.error e, g)) :
    EndsRaising procs (stagesProg procs tag (limits request procs nodes).perProc ip cast (fun v c => c • v)
      (tlsPairStages lib vecs adv atol maxNum)) RankState.raised (fun _ => RankState.start x) w
      fun r => if r = 0 then some e else none := by
  unfold TlsHandles.computeDecomp at hrun
  dsimp only at hrun
  have hlen : (vecs.map w).length = (adv.map w).length := by simpa using hlen'
  rw [dif_pos hlen, if_neg (by simpa using hvecs)] at hrun
  have hadv : adv ≠ [] := fun h => hvecs (by rw [h] at hlen'; exact List.length_eq_zero_iff.mp hlen')
  have hpair : tlsArraysPairs ip (vecs.map w) (adv.map w) hlen =
      tlsPairOf ⟨vecs.length, Matrix.of fun i j => ip (w vecs[i]) (w vecs[j])⟩
        ⟨adv.length, Matrix.of fun i j => ip (w adv[i]) (w adv[j])⟩
        ⟨vecs.length, adv.length, Matrix.of fun i j => ip (w vecs[i]) (w adv[j])⟩ rfl hlen' hlen' := by
    have h := tlsPairOf_congr (c := ⟨(vecs.map w).length, handlesSymmIp ip (vecs.map w).get⟩)
      (v := ⟨(adv.map w).length, handlesSymmIp ip (adv.map w).get⟩)
      (b := ⟨(vecs.map w).length, (adv.map w).length, handlesIp ip (vecs.map w).get (adv.map w).get⟩) rfl hlen hlen
      (squareArr_eq ip w vecs) (squareArr_eq ip w adv) (arr_eq ip w vecs adv (List.length_map ..) (List.length_map ..) _ _
        (fun i => by simp) (fun j => by simp))
    exact h
  rw [hpair] at hrun
  unfold TlsHandles.computeEigendecomp at hrun
  dsimp only at hrun
  generalize hA : tlsPairOf (⟨vecs.length, Matrix.of fun i j => ip (w vecs[i]) (w vecs[j])⟩ : SquareArr 𝕜)
        ⟨adv.length, Matrix.of fun i j => ip (w adv[i]) (w adv[j])⟩
        ⟨vecs.length, adv.length, Matrix.of fun i j => ip (w vecs[i]) (w adv[j])⟩ rfl hlen' hlen' = A at hrun
  cases hd : tlsEigendecomp lib.eigh lib.argsort lib.eig A.c.corr A.c.adv A.c.cross atol none none maxNum with
  | ok d =>
    rw [hd] at hrun
    cases hrun
  | error e' =>
    rw [hd] at hrun
    cases hrun
    have h1 := tlsEigen_stops lib (procs * ((limits request procs nodes).perProc - 1)) ip cast atol maxNum
      { x with
        self := { x.self with vecs := some vecs, adv := some adv, arrays := some A }
        corr := some ⟨vecs.length, Matrix.of fun i j => ip (w vecs[i]) (w vecs[j])⟩
        cross := some ⟨vecs.length, adv.length, Matrix.of fun i j => ip (w vecs[i]) (w adv[j])⟩ } w A rfl e hd
    refine RankZeroStops.ends hp hn tag (.cons (.compute (if_pos hlen')) (.cons (.symmInnerProducts hvecs
      (fun _ _ _ _ _ _ => hcast _ _ _ _) fun _ _ _ _ => hsymm _ _) (.cons (.innerProducts hvecs hadv
      (fun _ _ _ _ _ _ _ _ => hcast _ _ _ _) fun _ _ _ _ _ => hsymm _ _) (.cons (.symmInnerProducts hadv
      (fun _ _ _ _ _ _ => hcast _ _ _ _) fun _ _ _ _ => hsymm _ _) ?_))))
    dsimp only
    rw [dif_pos ⟨hlen', rfl, hlen'⟩]
    subst hA
    exact h1

/-- **C87.** `compute_decomp` of `TLSqrDMDHandles` for vectors and advanced vectors of another number: all processes raise `ValueError`, as
one does. -/
theorem C87_tls_lengths_partial (procs nodes : Nat) (hp : 1 ≤ procs) (hn : 1 ≤ nodes) (request : Option Nat) (tag : Nat)
    (ip : E → E → 𝕜) (cast : 𝕜 → 𝕜 → 𝕜) (vecs adv : List Nat) (hlen : vecs.length ≠ adv.length) (atol rtol : Option ℝ)
    (maxNum : Option Nat) (x : DmdLocal 𝕜 (TlsHandles 𝕜 Nat)) (w : Nat → E) :
    ((x.self.held w).computeDecomp lib ip (vecs.map w) (some (adv.map w)) atol rtol maxNum).1 = .error .valueError ∧
    EndsRaising procs (stagesProg procs tag (limits request procs nodes).perProc ip cast (fun v c => c • v)
      (tlsPairStages lib vecs adv atol maxNum)) RankState.raised (fun _ => RankState.start x) w fun _ => some .valueError := by
  refine ⟨?_, C87_computation_partial procs nodes hp hn request tag ip cast (fun v c => c • v) (before := []) (.nil _ _)
    ?_ _⟩
  swap
  · exact if_neg hlen
  unfold TlsHandles.computeDecomp
  dsimp only
  rw [dif_neg (by simpa using hlen)]

/-- **C87.** Calls for modes of `TLSqrDMDHandles` before there is a decomposition: all processes raise `AttributeError`, as one does. -/
theorem C87_tls_modes_partial (procs nodes : Nat) (hp : 1 ≤ procs) (hn : 1 ≤ nodes) (request : Option Nat) (tag : Nat)
    (ip : E → E → 𝕜) (cast : 𝕜 → 𝕜 → 𝕜) (seq : Bool) (vecs : List Nat) (adv : Option (List Nat)) (call : DmdModeCall)
    (calls : List DmdModeCall) (x : DmdLocal 𝕜 (TlsHandles 𝕜 Nat)) (hx : x.self.decomp = none) (w : Nat → E) :
    ((x.self.held w).computeExactModes call.indices call.modes.length none).1 = .error .attributeError ∧
    ((x.self.held w).computeProjModes call.indices call.modes.length none).1 = .error .attributeError ∧
    ((x.self.held w).computeAdjointModes call.indices call.modes.length none).1 = .error .attributeError ∧
    EndsRaising procs (stagesProg procs tag (limits request procs nodes).perProc ip cast (fun v c => c • v)
      (tlsModesStages seq vecs adv (call :: calls))) RankState.raised (fun _ => RankState.start x) w
      fun _ => some .attributeError := by
  have hh : (x.self.held w).decomp = none := hx
  refine ⟨?_, ?_, ?_, C87_lin_combine_partial procs nodes hp hn request tag ip cast (fun v c => c • v) (before := [])
    (.nil _ _) ?_ _⟩
  · unfold TlsHandles.computeExactModes
    simp only [Option.isSome_none, Bool.false_eq_true, if_false, hh]
  · unfold TlsHandles.computeProjModes
    simp only [Option.isSome_none, Bool.false_eq_true, if_false, hh]
  · unfold TlsHandles.computeAdjointModes
    simp only [Option.isSome_none, Bool.false_eq_true, if_false, hh]
  · unfold tlsBuild
    rw [hx]
    rfl

/-! ### Examples -/

/-- The eigendecomposition of an array that is diagonal. -/
noncomputable def diagLib : DmdLib ℝ := ⟨fun a => ⟨fun i => a i i, 1⟩, fun x => Tuple.sort x, fun _ => ⟨0, 0, 0⟩⟩

/-- The result of the library is right for arrays with one row. -/
example (a : Matrix (Fin 1) (Fin 1) ℝ) : IsEigh a (diagLib.eigh a) := by
  refine ⟨by simp [diagLib], ?_⟩
  ext i j
  rw [Subsingleton.elim i 0, Subsingleton.elim j 0]
  simp [diagLib]

theorem diagLib_raises (a : Matrix (Fin 1) (Fin 1) ℝ) (ha : a 0 0 < 0) :
    utilEigh diagLib.eigh diagLib.argsort a none none true = .error .typeError := by
  have h : ∀ w : Fin 1 → ℝ, w 0 < 0 → adjustTol w none true = .error .typeError := by
    intro w hw
    simp [adjustTol, npMin, hw]
  unfold utilEigh
  dsimp only
  rw [h _ (by rw [Subsingleton.elim (diagLib.argsort _ _) 0]; exact ha)]

/-- Non-vacuity: an inner product that is not positive, two vectors in a sequence, and no tolerance. -/
example : ∃ g, ((DmdHandles.new : DmdHandles ℝ Nat).held fun _ => (1 : ℝ)).computeDecomp diagLib (fun u v => -(u * v))
    ([0, 1].map fun _ => (1 : ℝ)) none none none none = (.error .typeError, g) := by
  refine ⟨_, Prod.ext ?_ rfl⟩
  unfold DmdHandles.computeDecomp DmdHandles.computeEigendecomp dmdEigendecomp
  dsimp only
  rw [if_neg (by simp)]
  erw [diagLib_raises _ (by simp [dmdArraysSeq, handlesSymmIp, handlesIp])]

/-- Non-vacuity: the same for vectors and advanced vectors. -/
example : ∃ g, ((DmdHandles.new : DmdHandles ℝ Nat).held fun _ => (1 : ℝ)).computeDecomp diagLib (fun u v => -(u * v))
    ([0].map fun _ => (1 : ℝ)) (some ([1].map fun _ => (1 : ℝ))) none none none = (.error .typeError, g) := by
  refine ⟨_, Prod.ext ?_ rfl⟩
  unfold DmdHandles.computeDecomp DmdHandles.computeEigendecomp dmdEigendecomp
  dsimp only
  rw [dif_pos (by simp), if_neg (by simp)]
  erw [diagLib_raises _ (by simp [dmdArraysPairs, handlesSymmIp, handlesIp])]

/-- Non-vacuity: the same for the class of total-least-squares decompositions. -/
example : (∃ g, ((TlsHandles.new : TlsHandles ℝ Nat).held fun _ => (1 : ℝ)).computeDecomp diagLib (fun u v => -(u * v))
      ([0, 1].map fun _ => (1 : ℝ)) none none none none = (.error .typeError, g)) ∧
    ∃ g, ((TlsHandles.new : TlsHandles ℝ Nat).held fun _ => (1 : ℝ)).computeDecomp diagLib (fun u v => -(u * v))
      ([0].map fun _ => (1 : ℝ)) (some ([1].map fun _ => (1 : ℝ))) none none none = (.error .typeError, g) := by
  refine ⟨⟨_, Prod.ext ?_ rfl⟩, ⟨_, Prod.ext ?_ rfl⟩⟩
  · unfold TlsHandles.computeDecomp TlsHandles.computeEigendecomp tlsEigendecomp
    dsimp only
    rw [if_neg (by simp)]
    erw [diagLib_raises _ (by simp [tlsArraysSeq, handlesSymmIp, handlesIp]; erw [Matrix.add_apply]; norm_num [Matrix.of_apply])]
  · unfold TlsHandles.computeDecomp TlsHandles.computeEigendecomp tlsEigendecomp
    dsimp only
    rw [dif_pos (by simp), if_neg (by simp)]
    erw [diagLib_raises _ (by simp [tlsArraysPairs, handlesSymmIp, handlesIp]; erw [Matrix.add_apply]; norm_num [Matrix.of_apply])]

/-- Non-vacuity: two processes, vectors and advanced vectors of different number, with the inner product of real numbers. -/
example : EndsRaising 2 (stagesProg 2 0 (limits none 2 1).perProc (fun u v : ℝ => u * v) (fun _ k => k) (fun v c => c • v)
    (dmdPairStages diagLib [0, 1] [2] none none)) RankState.raised
    (fun _ => RankState.start ⟨DmdHandles.new, none, none, none, none, none⟩) (fun _ => (1 : ℝ)) fun _ => some .valueError :=
  (C87_dmd_lengths_partial diagLib 2 1 (by omega) (by omega) none 0 (fun u v : ℝ => u * v) (fun _ k => k) [0, 1] [2] (by decide)
    none none none ⟨DmdHandles.new, none, none, none, none, none⟩ fun _ => (1 : ℝ)).2

end Modred
