import Verif.Model.StagesGalerkin
import Verif.Props.Stages
import Verif.Props.Galerkin

/-!
# Galerkin projection on several processes (C85)
-/

namespace Modred

open Matrix

variable {𝕜 : Type*} [RCLike 𝕜] [DecidableEq 𝕜] {E : Type*} [AddCommGroup E] [Module 𝕜 E] {r : Nat}

/-- The object on one process whose handles hold the vectors at the places. -/
def Galerkin.held (w : Nat → E) (g : GalerkinPlaces 𝕜 E r) : GalerkinHandles 𝕜 E r :=
  { g with basisVecs := fun i => w (g.basisVecs i), adjointBasisVecs := fun i => w (g.adjointBasisVecs i) }

omit [RCLike 𝕜] [DecidableEq 𝕜] [AddCommGroup E] [Module 𝕜 E] in
theorem resized_ip (ip : E → E → 𝕜) (w : Nat → E) {m n : Nat} (rows cols : List Nat) (hm : m = rows.length)
    (hn : n = cols.length) (f : Fin m → E) (g : Fin n → E) (hf : ∀ i : Fin m, f i = w (rows[i.1]'(hm ▸ i.2)))
    (hg : ∀ j : Fin n, g j = w (cols[j.1]'(hn ▸ j.2))) :
    resized hm hn (Matrix.of fun i j => ip (w rows[i]) (w cols[j])) = handlesIp ip f g := by
  ext i j
  change ip (w rows[(Fin.cast hm i)]) (w cols[(Fin.cast hn j)]) = ip (f i) (g j)
  rw [hf, hg]
  rfl

/-- The part of the object that the methods use and do not change. -/
structure SameBasis (x y : GalerkinPlaces 𝕜 E r) : Prop where
  basis : y.basisVecs = x.basisVecs
  adjoint : y.adjointBasisVecs = x.adjointBasisVecs
  symm : y.symmetric = x.symmetric
  orth : y.isBasisOrthonormal = x.isBasisOrthonormal
  space : y.vecSpace = x.vecSpace

omit [DecidableEq 𝕜] in
/-- `_get_proj_array` as stages, from what it does on one process. -/
theorem galerkinProj_means (fit : Nat) (cast : 𝕜 → 𝕜 → 𝕜) (x y : GalerkinPlaces 𝕜 E r) (hxy : SameBasis x y)
    (hsymm : ∀ u v, x.vecSpace u v = star (x.vecSpace v u))
    (hcast : ∀ a b u v, cast (x.vecSpace a b) (x.vecSpace u v) = x.vecSpace u v) (hnone : y.projArray = none)
    (i : Option (Matrix (Fin r) (Fin r) 𝕜)) (w : Nat → E) (p : Matrix (Fin r) (Fin r) 𝕜) (g : GalerkinHandles 𝕜 E r)
    (hrun : galerkinProjHandles (y.held w) = (.ok p, g)) :
    ∃ i', StagesMean fit x.vecSpace cast (fun v c => c • v) (galerkinProjStages x) ⟨y, i⟩ w
      ⟨{ y with projArray := some p }, i'⟩ w ∧ g = Galerkin.held w { y with projArray := some p } := by
  obtain ⟨xb, xa, xs, xo, xv, xp, xA, xB, xC⟩ := x
  obtain ⟨yb, ya, ys, yo, yv, yp, yA, yB, yC⟩ := y
  obtain ⟨h1, h2, h3, h4, h5⟩ := hxy
  dsimp only at h1 h2 h3 h4 h5 hsymm hcast hnone
  subst h1 h2 h3 h4 h5 hnone
  dsimp only [galerkinProjHandles, Galerkin.held] at hrun
  have key : ∀ ipArr : Matrix (Fin r) (Fin r) 𝕜, (match npInv ipArr with
      | .error e => (Except.error e, Galerkin.held w ⟨yb, ya, ys, yo, yv, none, yA, yB, yC⟩)
      | .ok p => (.ok p, Galerkin.held w ⟨yb, ya, ys, yo, yv, some p, yA, yB, yC⟩)) = (.ok p, g) →
      npInv ipArr = .ok p ∧ g = Galerkin.held w ⟨yb, ya, ys, yo, yv, some p, yA, yB, yC⟩ := by
    intro ipArr h
    cases hi : npInv ipArr with
    | error e => rw [hi] at h; cases h
    | ok q =>
      rw [hi] at h
      cases h
      exact ⟨rfl, rfl⟩
  have hr0 : r ≠ 0 := by
    intro h0
    rw [handlesIpChecked, if_pos h0, if_pos (Or.inl h0), ite_self] at hrun
    cases hrun
  have hne : ∀ f : Fin r → Nat, List.ofFn f ≠ [] := fun f h => hr0 (by simpa using congrArg List.length h)
  have hfi : ∀ (f : Fin r → Nat) (i : Fin r), w (f i) = w ((List.ofFn f)[i.1]'(by simp)) := fun f i => by simp
  unfold galerkinProjStages
  cases ys with
  | true =>
    rw [if_pos rfl, if_neg hr0] at hrun
    obtain ⟨h1, h2⟩ := key _ hrun
    refine ⟨some (resized List.length_ofFn.symm List.length_ofFn.symm (Matrix.of fun i j => yv (w (List.ofFn yb)[i]) (w (List.ofFn yb)[j]))),
      .cons (.symmInnerProducts (hne _) (fun _ _ _ _ _ _ => hcast _ _ _ _) fun _ _ _ _ => hsymm _ _)
      (.cons (.compute ?_) (.nil _ _)), h2⟩
    dsimp only
    rw [resized_ip yv w _ _ (by simp) (by simp) (fun i => w (yb i)) (fun i => w (yb i))
      (hfi _) (hfi _)]
    rw [handlesSymmIp] at h1
    rw [h1]
  | false =>
    rw [if_neg (by decide), handlesIpChecked, if_neg (by tauto)] at hrun
    obtain ⟨h1, h2⟩ := key _ hrun
    refine ⟨some (resized List.length_ofFn.symm List.length_ofFn.symm (Matrix.of fun i j => yv (w (List.ofFn ya)[i]) (w (List.ofFn yb)[j]))),
      .cons (.innerProducts (hne _) (hne _) (fun _ _ _ _ _ _ _ _ => hcast _ _ _ _) fun _ _ _ _ _ => hsymm _ _)
      (.cons (.compute ?_) (.nil _ _)), h2⟩
    dsimp only
    rw [resized_ip yv w _ _ (by simp) (by simp) (fun i => w (ya i)) (fun i => w (yb i))
      (hfi _) (hfi _)]
    rw [h1]

omit [DecidableEq 𝕜] in
/-- `reduce_A` or `reduce_B` as stages, from what it does on one process. -/
theorem galerkinReduce_means (fit : Nat) (cast : 𝕜 → 𝕜 → 𝕜) (x y : GalerkinPlaces 𝕜 E r) (hxy : SameBasis x y)
    (hsymm : ∀ u v, x.vecSpace u v = star (x.vecSpace v u))
    (hcast : ∀ a b u v, cast (x.vecSpace a b) (x.vecSpace u v) = x.vecSpace u v) (vecs : List Nat)
    (get : GalerkinPlaces 𝕜 E r → Option (Cols 𝕜 r)) (set : GalerkinPlaces 𝕜 E r → Cols 𝕜 r → GalerkinPlaces 𝕜 E r)
    (setH : GalerkinHandles 𝕜 E r → Cols 𝕜 r → GalerkinHandles 𝕜 E r)
    (hset : ∀ w g c, Galerkin.held w (set g c) = setH (Galerkin.held w g) c) (hsame : ∀ g c, SameBasis x g → SameBasis x (set g c))
    (hproj : ∀ g c, (set g c).projArray = g.projArray) (hget : ∀ g c, get (set g c) = some c)
    (hgetp : ∀ (g : GalerkinPlaces 𝕜 E r) p, get { g with projArray := p } = get g)
    (i : Option (Matrix (Fin r) (Fin r) 𝕜)) (w : Nat → E) (out : Matrix (Fin r) (Fin vecs.length) 𝕜) (g : GalerkinHandles 𝕜 E r)
    (hrun : (match handlesIpChecked (Galerkin.held w y).vecSpace (Galerkin.held w y).adjointBasisVecs (fun j => w vecs[j]) with
      | .error e => (Except.error e, Galerkin.held w y)
      | .ok a =>
        if (setH (Galerkin.held w y) ⟨vecs.length, a⟩).isBasisOrthonormal then (.ok a, setH (Galerkin.held w y) ⟨vecs.length, a⟩)
        else
          match galerkinProjHandles (setH (Galerkin.held w y) ⟨vecs.length, a⟩) with
          | (.error e, self) => (.error e, self)
          | (.ok p, self) => (.ok (p * a), setH self ⟨vecs.length, p * a⟩)) = (.ok out, g)) :
    ∃ y' i', StagesMean fit x.vecSpace cast (fun v c => c • v) (galerkinReduceStages x y.projArray.isSome vecs get set) ⟨y, i⟩ w
      ⟨y', i'⟩ w ∧ g = Galerkin.held w y' ∧ SameBasis x y' ∧ (x.isBasisOrthonormal = false → y'.projArray.isSome) := by
  have hv : (Galerkin.held w y).vecSpace = x.vecSpace := hxy.space
  have ha : (Galerkin.held w y).adjointBasisVecs = fun i => w (x.adjointBasisVecs i) := by rw [← hxy.adjoint]; rfl
  rw [hv, ha, handlesIpChecked] at hrun
  by_cases h0 : r = 0 ∨ vecs.length = 0
  · rw [if_pos h0] at hrun
    cases hrun
  rw [if_neg h0] at hrun
  dsimp only at hrun
  have hres := resized_ip x.vecSpace w (List.ofFn x.adjointBasisVecs) vecs List.length_ofFn.symm rfl
    (fun i => w (x.adjointBasisVecs i)) (fun j => w vecs[j]) (fun i => by simp) (fun j => rfl)
  generalize handlesIp x.vecSpace (fun i => w (x.adjointBasisVecs i)) (fun j => w vecs[j]) = a at hrun hres
  rw [← hset] at hrun
  have hy1 := hsame y ⟨vecs.length, a⟩ hxy
  have hp1 := hproj y ⟨vecs.length, a⟩
  have hg1 := hget y ⟨vecs.length, a⟩
  have first : StageMeans fit x.vecSpace cast (fun v c => c • v)
      (.innerProducts (List.ofFn x.adjointBasisVecs) vecs (fun g a => { g with self := set g.self ⟨_, resized (by simp) rfl a⟩ }) :
        Stage (GalerkinLocal 𝕜 E r) Unit E 𝕜) ⟨y, i⟩ w ⟨set y ⟨vecs.length, a⟩, i⟩ w := by
    have := StageMeans.innerProducts (X := GalerkinLocal 𝕜 E r) (Y := Unit) (fit := fit) (ip := x.vecSpace) (cast := cast)
      (mul := fun (v : E) (c : 𝕜) => c • v) (rows := List.ofFn x.adjointBasisVecs) (cols := vecs)
      (set := fun g a => { g with self := set g.self ⟨_, resized List.length_ofFn.symm rfl a⟩ }) (x := ⟨y, i⟩) (w := w)
      (fun h => h0 (Or.inl (by simpa using congrArg List.length h))) (fun h => h0 (Or.inr (by rw [h]; rfl)))
      (fun _ _ _ _ _ _ _ _ => hcast _ _ _ _) (fun _ _ _ _ _ => hsymm _ _)
    dsimp only at this
    rw [hres] at this
    exact this
  generalize set y ⟨vecs.length, a⟩ = y1 at *
  have ho : (Galerkin.held w y1).isBasisOrthonormal = x.isBasisOrthonormal := hy1.orth
  rw [ho] at hrun
  unfold galerkinReduceStages
  cases hox : x.isBasisOrthonormal with
  | true =>
    rw [hox, if_pos rfl] at hrun
    cases hrun
    exact ⟨y1, i, .cons first (.nil _ _), rfl, hy1, fun h => by cases h⟩
  | false =>
    rw [hox, if_neg (by decide)] at hrun
    rw [if_neg (by decide), ← hp1]
    have last : ∀ (y2 : GalerkinPlaces 𝕜 E r) i2 p, y2.projArray = some p → get y2 = some ⟨vecs.length, a⟩ →
        StageMeans fit x.vecSpace cast (fun v c => c • v) (.compute fun g => match g.self.projArray, get g.self with
          | some p, some c => .ok { g with self := set g.self ⟨c.k, p * c.a⟩ }
          | _, _ => .error .attributeError : Stage (GalerkinLocal 𝕜 E r) Unit E 𝕜) ⟨y2, i2⟩ w
          ⟨set y2 ⟨vecs.length, p * a⟩, i2⟩ w := by
      intro y2 i2 p h1 h2
      refine .compute ?_
      dsimp only
      rw [h1, h2]
    cases hpy : y1.projArray with
    | some p =>
      have hproj1 : galerkinProjHandles (Galerkin.held w y1) = (.ok p, Galerkin.held w y1) := by
        have : (Galerkin.held w y1).projArray = some p := hpy
        unfold galerkinProjHandles
        rw [this]
      rw [hproj1] at hrun
      dsimp only at hrun
      rw [← hset] at hrun
      cases hrun
      exact ⟨_, i, .cons first (.cons (last y1 i p hpy hg1) (.nil _ _)), rfl, hsame _ _ hy1, fun _ => by rw [hproj, hpy]; rfl⟩
    | none =>
      rcases hq : galerkinProjHandles (Galerkin.held w y1) with ⟨_ | p, self⟩
      · rw [hq] at hrun
        cases hrun
      · rw [hq] at hrun
        obtain ⟨i', hst, rfl⟩ := galerkinProj_means fit cast x y1 hy1 hsymm hcast hpy i w p self hq
        dsimp only at hrun
        rw [← hset] at hrun
        cases hrun
        refine ⟨_, i', .cons first (StagesMean.append hst (.cons (last { y1 with projArray := some p } i' p rfl
          (by rw [hgetp, hg1])) (.nil _ _))), rfl, hsame _ _ ⟨hy1.1, hy1.2, hy1.3, hy1.4, hy1.5⟩, fun _ => by rw [hproj]; rfl⟩

/-- **C85.** `compute_model` of `LTIGalerkinProjectionHandles`, in every interleaving of any number of processes, on handles that
use a common store, with a basis that is orthonormal or not, with or without adjoint basis vectors, for new and used objects:
all processes get the reduced arrays that one process gets, and nothing in the store changes. -/
theorem C85_galerkin (procs nodes : Nat) (hp : 1 ≤ procs) (hn : 1 ≤ nodes) (request : Option Nat) (tag : Nat)
    (x : GalerkinPlaces 𝕜 E r) (hsymm : ∀ u v, x.vecSpace u v = star (x.vecSpace v u)) (cast : 𝕜 → 𝕜 → 𝕜)
    (hcast : ∀ a b u v, cast (x.vecSpace a b) (x.vecSpace u v) = x.vecSpace u v) (a b : List Nat) (c : Outputs 𝕜)
    (i : Option (Matrix (Fin r) (Fin r) 𝕜)) (w : Nat → E)
    (out : Option (Cols 𝕜 r) × Option (Cols 𝕜 r) × Option (Arr 𝕜)) (g : GalerkinHandles 𝕜 E r)
    (hrun : galerkinModelHandles (Galerkin.held w x) (fun j : Fin a.length => w a[j]) (fun j : Fin b.length => w b[j]) c = (.ok out, g)) :
    EverySharedInterleaving procs
      (stagesProg procs tag (limits request procs nodes).perProc x.vecSpace cast (fun v c => c • v) (galerkinModelStages x a b c))
      (fun _ => RankState.start ⟨x, i⟩) w
      fun _ s w' => s.raised = none ∧ Galerkin.held w s.obj.self = g ∧ (s.obj.self.A, s.obj.self.B, s.obj.self.C) = out ∧
        w' = w := by
  unfold galerkinModelHandles at hrun
  rcases hA : reduceAHandles (Galerkin.held w x) (fun j : Fin a.length => w a[j]) with ⟨_ | outA, g1⟩
  · rw [hA] at hrun
    cases hrun
  rw [hA] at hrun
  dsimp only at hrun
  obtain ⟨y1, i1, hs1, rfl, hb1, hp1⟩ := galerkinReduce_means (procs * ((limits request procs nodes).perProc - 1)) cast x x
    ⟨rfl, rfl, rfl, rfl, rfl⟩ hsymm hcast a (fun g => g.A) (fun g m => { g with A := some m }) (fun g m => { g with A := some m })
    (fun _ _ _ => rfl) (fun _ _ h => ⟨h.1, h.2, h.3, h.4, h.5⟩) (fun _ _ => rfl) (fun _ _ => rfl) (fun _ _ => rfl) i w outA g1
    (by rw [← hA, reduceAHandles]
        generalize handlesIpChecked (Galerkin.held w x).vecSpace (Galerkin.held w x).adjointBasisVecs (fun j => w a[j]) = t
        cases t with
        | error e => rfl
        | ok m =>
          dsimp only
          generalize galerkinProjHandles (𝕜 := 𝕜) (E := E) (r := r) _ = q
          rcases q with ⟨_ | _, _⟩ <;> rfl)
  rcases hB : reduceBHandles (Galerkin.held w y1) (fun j : Fin b.length => w b[j]) with ⟨_ | outB, g2⟩
  · rw [hB] at hrun
    cases hrun
  rw [hB] at hrun
  dsimp only at hrun
  obtain ⟨y2, i2, hs2, rfl, hb2, hp2⟩ := galerkinReduce_means (procs * ((limits request procs nodes).perProc - 1)) cast x y1
    hb1 hsymm hcast b (fun g => g.B) (fun g m => { g with B := some m }) (fun g m => { g with B := some m })
    (fun _ _ _ => rfl) (fun _ _ h => ⟨h.1, h.2, h.3, h.4, h.5⟩) (fun _ _ => rfl) (fun _ _ => rfl) (fun _ _ => rfl) i1 w outB g2
    (by rw [← hB, reduceBHandles]
        generalize handlesIpChecked (Galerkin.held w y1).vecSpace (Galerkin.held w y1).adjointBasisVecs (fun j => w b[j]) = t
        cases t with
        | error e => rfl
        | ok m =>
          dsimp only
          generalize galerkinProjHandles (𝕜 := 𝕜) (E := E) (r := r) _ = q
          rcases q with ⟨_ | _, _⟩ <;> rfl)
  have hknown : galerkinReduceStages x y1.projArray.isSome b (fun g => g.B) (fun g m => { g with B := some m }) =
      galerkinReduceStages x true b (fun g => g.B) (fun g m => { g with B := some m }) := by
    unfold galerkinReduceStages
    cases ho : x.isBasisOrthonormal with
    | true => rfl
    | false => rw [hp1 ho]
  rw [hknown] at hs2
  cases hrun
  have := C80_like_one_process procs nodes hp hn request tag x.vecSpace cast (fun (v : E) (c : 𝕜) => c • v)
    (galerkinModelStages x a b c) ⟨x, i⟩ _ w w ((hs1.append hs2).append (.cons (.compute rfl) (.nil _ _)))
  intro sync n s hrun
  obtain ⟨g1, g2, g3, g4⟩ := this sync n s hrun
  refine ⟨g1, g2, fun r hr hdone => ?_, g4⟩
  obtain ⟨k1, k2, k3⟩ := g3 r hr hdone
  rw [k2, k3]
  exact ⟨k1, rfl, rfl, rfl⟩

/-- The arrays of the reduced model are inner products with the adjoint basis vectors, times the inverse of the Gram array if
the basis is not said to be orthonormal. -/
noncomputable def projected {q : Nat} (flag : Bool) (G : Matrix (Fin r) (Fin r) 𝕜) (P : Matrix (Fin r) (Fin q) 𝕜) :
    Matrix (Fin r) (Fin q) 𝕜 := if flag then P else G⁻¹ * P

/-- **C85.** So with basis vectors whose Gram array is regular, new objects on any number of processes all get the Galerkin
projection, without exceptions. -/
theorem C85_projection (procs nodes : Nat) (hp : 1 ≤ procs) (hn : 1 ≤ nodes) (request : Option Nat) (tag : Nat)
    (ip : E → E → 𝕜) (hsymm : ∀ u v, ip u v = star (ip v u)) (cast : 𝕜 → 𝕜 → 𝕜)
    (hcast : ∀ a b u v, cast (ip a b) (ip u v) = ip u v) (basis : Fin r → Nat) (adjoint : Option (Fin r → Nat)) (flag : Bool)
    (hr : 0 < r) (a b : List Nat) (ha : a ≠ []) (hb : b ≠ []) (c : Outputs 𝕜) (w : Nat → E)
    (hG : flag = false → IsUnit (handlesIp ip (fun i => w (adjoint.getD basis i)) (fun i => w (basis i))).det) :
    EverySharedInterleaving procs
      (stagesProg procs tag (limits request procs nodes).perProc ip cast (fun v c => c • v)
        (galerkinModelStages (galerkinPlacesNew ip basis adjoint flag) a b c))
      (fun _ => RankState.start ⟨galerkinPlacesNew ip basis adjoint flag, none⟩) w
      fun _ s w' => s.raised = none ∧ w' = w ∧
        s.obj.self.A = some ⟨a.length, projected flag (handlesIp ip (fun i => w (adjoint.getD basis i)) (fun i => w (basis i)))
          (handlesIp ip (fun i => w (adjoint.getD basis i)) fun j : Fin a.length => w a[j])⟩ ∧
        s.obj.self.B = some ⟨b.length, projected flag (handlesIp ip (fun i => w (adjoint.getD basis i)) (fun i => w (basis i)))
          (handlesIp ip (fun i => w (adjoint.getD basis i)) fun j : Fin b.length => w b[j])⟩ ∧
        s.obj.self.C = some ⟨c.atLeast2d.n, c.atLeast2d.m, c.atLeast2d.aᵀ⟩ := by
  have hinit : galerkinHandlesInit ip (fun i => w (basis i)) (adjoint.map fun f i => w (f i)) flag =
      .ok (Galerkin.held w (galerkinPlacesNew ip basis adjoint flag)) := by
    cases adjoint with
    | none => rfl
    | some f => simp only [Option.map_some, galerkinHandlesInit, dif_pos]; rfl
  have hadj : ((adjoint.map fun f i => w (f i)).getD fun i => w (basis i)) = fun i => w (adjoint.getD basis i) := by
    cases adjoint <;> rfl
  have hla : 0 < a.length := List.length_pos_iff.mpr ha
  have hlb : 0 < b.length := List.length_pos_iff.mpr hb
  obtain ⟨hA, hB, -⟩ := C38_handles ip (fun i => w (basis i)) (adjoint.map fun f i => w (f i)) flag _ [] hr hinit
  have hA := hA a.length (fun j => w a[j]) hla
  have hB := hB b.length (fun j => w b[j]) hlb
  have hM := (C38_handles_model ip (fun i => w (basis i)) (adjoint.map fun f i => w (f i)) flag _ [] hr hinit hlb
    (fun j : Fin a.length => w a[j]) (fun j => w b[j]) c).1
  rw [hadj] at hA hB
  have res : ∀ {q : Nat} {P : Matrix (Fin r) (Fin q) 𝕜} {res : Except Err (Matrix (Fin r) (Fin q) 𝕜)},
      GalerkinResult flag (handlesIp ip (fun i => w (adjoint.getD basis i)) (fun i => w (basis i))) P res →
      res = .ok (projected flag (handlesIp ip (fun i => w (adjoint.getD basis i)) (fun i => w (basis i))) P) := by
    intro q P res h
    unfold projected
    cases hf : flag with
    | true => exact h.orthonormal hf
    | false => exact h.regular hf (hG hf)
  have hM := hM _ _ (res hA) (res hB)
  have := C85_galerkin procs nodes hp hn request tag (galerkinPlacesNew ip basis adjoint flag) hsymm cast hcast a b c none w _ _
    (Prod.ext hM rfl)
  intro sync n s hrun
  obtain ⟨g1, g2, g3, g4⟩ := this sync n s hrun
  refine ⟨g1, g2, fun r hr hdone => ?_, g4⟩
  obtain ⟨k1, k2, k3, k4⟩ := g3 r hr hdone
  rw [Prod.mk.injEq, Prod.mk.injEq] at k3
  exact ⟨k1, k4, k3.1, k3.2.1, k3.2.2⟩

/-- Two basis vectors that are not orthonormal, on three processes. -/
example : EverySharedInterleaving 3
    (stagesProg 3 5 (limits none 3 2).perProc (fun u v : ℝ × ℝ => u.1 * v.1 + u.2 * v.2) (fun _ k => k) (fun v c => c • v)
      (galerkinModelStages (galerkinPlacesNew (fun u v : ℝ × ℝ => u.1 * v.1 + u.2 * v.2) (fun i : Fin 2 => i) none false) [2, 3] [4]
        (.rows 2 1 fun _ _ => 1)))
    (fun _ => RankState.start ⟨galerkinPlacesNew (fun u v : ℝ × ℝ => u.1 * v.1 + u.2 * v.2) (fun i : Fin 2 => i) none false, none⟩)
    (fun k : Nat => ((k : ℝ) + 1, (1 : ℝ))) fun _ s w' => s.raised = none ∧ w' = fun k : Nat => ((k : ℝ) + 1, (1 : ℝ)) := by
  have := C85_projection (𝕜 := ℝ) 3 2 (by decide) (by decide) none 5 (fun u v : ℝ × ℝ => u.1 * v.1 + u.2 * v.2)
    (fun u v => by simp [mul_comm]) (fun _ k => k) (fun _ _ _ _ => rfl) (fun i : Fin 2 => i) none false (by decide) [2, 3] [4]
    (by decide) (by decide) (.rows 2 1 fun _ _ => 1) (fun k : Nat => ((k : ℝ) + 1, (1 : ℝ)))
    (fun _ => by
      rw [isUnit_iff_ne_zero, Matrix.det_fin_two]
      simp [handlesIp]
      norm_num)
  intro sync n s hrun
  obtain ⟨g1, g2, g3, g4⟩ := this sync n s hrun
  exact ⟨g1, g2, fun r hr hdone => ⟨(g3 r hr hdone).1, (g3 r hr hdone).2.1⟩, g4⟩

end Modred
