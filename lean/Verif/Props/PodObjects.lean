import Verif.Spec.PodObjects
import Verif.Props.Bpod
import Verif.Props.Pod
import Verif.Props.EraModel
import Verif.Props.DmdHandles

/-!
# Reusing objects for proper orthogonal decompositions (C60)
-/

namespace Modred

open Matrix

variable {𝕜 : Type*} [RCLike 𝕜] {E : Type*} (lib : PodObjLib 𝕜)

/-! ### Proper orthogonal decomposition -/

section Pod

theorem podComputeDecomp_iff (ip : E → E → 𝕜) (g g' : PodObj 𝕜 E) (vecs : List E) (atol rtol : Option ℝ) :
    g.computeDecomp lib ip vecs atol rtol = (.ok (), g') ↔
      ∃ pod, podHandlesDecomp lib.eigh lib.argsort ip vecs.get atol rtol = .ok pod ∧
        g' = ⟨some vecs, some ⟨vecs.length, handlesSymmIp ip vecs.get⟩,
          some ⟨vecs.length, pod.r, pod.eigvals, pod.eigvecs⟩, g.projCoeffs⟩ := by
  unfold PodObj.computeDecomp PodObj.computeEigendecomp podHandlesDecomp
  cases vecs with
  | nil => simp
  | cons v vs =>
    dsimp only
    rw [if_neg (by simp), if_neg (by simp)]
    cases utilEigh lib.eigh lib.argsort (handlesSymmIp ip (v :: vs).get) atol rtol true with
    | error e => simp
    | ok e =>
      simp only [Prod.mk.injEq, true_and, Except.ok.injEq]
      constructor
      · rintro rfl
        exact ⟨_, rfl, rfl⟩
      · rintro ⟨pod, rfl, rfl⟩
        rfl

theorem podComputeDecomp_ok (ip : E → E → 𝕜) (g : PodObj 𝕜 E) (vecs : List E) (hv : vecs ≠ []) (t : ℝ)
    (rtol : Option ℝ) : ∃ (pod : PodHandles 𝕜 E vecs.length) (g' : PodObj 𝕜 E),
      g' = ⟨some vecs, some ⟨vecs.length, handlesSymmIp ip vecs.get⟩,
          some ⟨vecs.length, pod.r, pod.eigvals, pod.eigvecs⟩, g.projCoeffs⟩ ∧
      g.computeDecomp lib ip vecs (some t) rtol = (.ok (), g') := by
  have hlen : 0 < vecs.length := List.length_pos_iff.mpr hv
  obtain ⟨res, hres⟩ := C20_no_error lib.eigh lib.argsort (handlesSymmIp ip vecs.get) rtol true t hlen
  refine ⟨⟨vecs.get, handlesSymmIp ip vecs.get, res.r, res.w, res.V⟩, _, rfl, ?_⟩
  refine (podComputeDecomp_iff lib ip g _ vecs _ _).mpr ⟨_, ?_, rfl⟩
  unfold podHandlesDecomp
  rw [if_neg (by omega)]
  dsimp only
  rw [hres]

/-- **C60.** With an absolute tolerance, such as the default, `compute_decomp` of at least one vector raises nothing. -/
theorem C60_pod_no_error (ip : E → E → 𝕜) (g : PodObj 𝕜 E) (vecs : List E) (hv : vecs ≠ []) (t : ℝ)
    (rtol : Option ℝ) : ∃ g', g.computeDecomp lib ip vecs (some t) rtol = (.ok (), g') := by
  obtain ⟨_, g', -, h⟩ := podComputeDecomp_ok lib ip g vecs hv t rtol
  exact ⟨g', h⟩

/-- **C60.** `compute_decomp` of an object used for anything before raises an exception if it does for a new object,
and otherwise leaves the object like a new one, except for projection coefficients computed before. -/
theorem C60_pod_reuse (ip : E → E → 𝕜) (g : PodObj 𝕜 E) (vecs : List E) (atol rtol : Option ℝ) :
    (g.computeDecomp lib ip vecs atol rtol).1 = (PodObj.new.computeDecomp lib ip vecs atol rtol).1 ∧
    ((PodObj.new.computeDecomp lib ip vecs atol rtol).1 = .ok () →
      (g.computeDecomp lib ip vecs atol rtol).2 =
        { (PodObj.new.computeDecomp lib ip vecs atol rtol).2 with projCoeffs := g.projCoeffs }) := by
  unfold PodObj.computeDecomp PodObj.computeEigendecomp PodObj.new
  dsimp only
  split
  · exact ⟨rfl, fun h => by cases h⟩
  · split
    · exact ⟨rfl, fun h => by cases h⟩
    · exact ⟨rfl, fun _ => rfl⟩

/-- **C60.** If `compute_decomp` raises an exception, the object has the new vectors, but still the decomposition of
those before. -/
theorem C60_pod_after_error (ip : E → E → 𝕜) (g : PodObj 𝕜 E) (vecs : List E) (atol rtol : Option ℝ) (e : Err)
    (he : (g.computeDecomp lib ip vecs atol rtol).1 = .error e) :
    (g.computeDecomp lib ip vecs atol rtol).2.vecs = some vecs ∧
      (g.computeDecomp lib ip vecs atol rtol).2.decomp = g.decomp := by
  unfold PodObj.computeDecomp PodObj.computeEigendecomp at he ⊢
  dsimp only at he ⊢
  split
  · exact ⟨rfl, rfl⟩
  · rename_i hv
    rw [if_neg hv] at he
    split
    · exact ⟨rfl, rfl⟩
    · rename_i h
      rw [h] at he
      cases he

variable [AddCommGroup E] [Module 𝕜 E]

theorem podUses_keep (vecs : List E) (uses : List (PodUse E)) (huses : ∀ u ∈ uses, u.Keeps vecs) (g : PodObj 𝕜 E)
    (hg : g.vecs = some vecs) :
    (uses.foldl PodObj.afterUse g).vecs = some vecs ∧ (uses.foldl PodObj.afterUse g).decomp = g.decomp := by
  induction uses generalizing g with
  | nil => exact ⟨hg, rfl⟩
  | cons u us ih =>
    have hstep : (g.afterUse u).vecs = some vecs ∧ (g.afterUse u).decomp = g.decomp := by
      have hu := huses u List.mem_cons_self
      obtain ⟨v, c, d, p⟩ := g
      cases hg
      cases u with
      | modes l k v =>
        rcases hu with rfl | rfl <;> cases d <;> exact ⟨rfl, rfl⟩
      | projCoeffs => cases d <;> exact ⟨rfl, rfl⟩
    obtain ⟨h1, h2⟩ := ih (fun u hu => huses u (List.mem_cons_of_mem _ hu)) _ hstep.1
    exact ⟨h1, h2.trans hstep.2⟩

/-- **C60.** After `compute_decomp` there is one orthonormal family of modes, whatever the object was used for before:
all calls of `compute_modes` give members of it, and `compute_proj_coeffs` gives the inner products of its members with
the vectors, also if other modes and coefficients were computed in between, or calls raised exceptions. -/
theorem C60_pod (ip : E →ₗ⋆[𝕜] E →ₗ[𝕜] 𝕜) (hsymm : ∀ x y, ip y x = star (ip x y)) (t : ℝ) (ht : 0 ≤ t)
    (rtol : Option ℝ) (hr : ∀ t ∈ rtol, 0 ≤ t) (hs : ∀ {m : Nat}, IsArgsort (lib.argsort (m := m)))
    (g g' : PodObj 𝕜 E) (vecs : List E)
    (hlib : IsEigh (handlesSymmIp (fun x y => ip x y) vecs.get) (lib.eigh (handlesSymmIp (fun x y => ip x y) vecs.get)))
    (hrun : g.computeDecomp lib (fun x y => ip x y) vecs (some t) rtol = (.ok (), g')) :
    ∃ (r : Nat) (modes : Fin r → E), (∀ a b, ip (modes a) (modes b) = if a = b then 1 else 0) ∧
      ∀ uses : List (PodUse E), (∀ u ∈ uses, u.Keeps vecs) →
        (∀ l k v, v = none ∨ v = some vecs →
          (∀ out, ((uses.foldl PodObj.afterUse g').computeModes l k v).1 = .ok out → ChosenVecs modes l out) ∧
          ((∀ i ∈ l, -(r : Int) ≤ i ∧ i < r) →
            ∃ out, ((uses.foldl PodObj.afterUse g').computeModes l l.length v).1 = .ok out)) ∧
        ∃ (c : Matrix (Fin r) (Fin vecs.length) 𝕜) (s : PodObj 𝕜 E),
          (uses.foldl PodObj.afterUse g').computeProjCoeffs = (.ok ⟨r, _, c⟩, s) ∧
          s.putProjCoeffs = .ok ⟨r, _, c⟩ ∧ ∀ i j, c i j = ip (modes i) (vecs.get j) := by
  obtain ⟨pod, hpod, rfl⟩ := (podComputeDecomp_iff lib _ g g' vecs _ _).mp hrun
  have hvs : 0 < vecs.length := by
    unfold podHandlesDecomp at hpod
    by_contra h0
    rw [if_pos (by omega)] at hpod
    cases hpod
  obtain ⟨e, he, rfl⟩ := podHandlesDecomp_cases lib.eigh lib.argsort ip vecs.get _ _ pod hpod
  obtain ⟨hV, hCV, -⟩ := C20_eigenpairs _ _ _ _ _ _ hlib hs e he
  have hw := C20_positive_partial _ _ _ _ t ht hs hr e he
  have h4 : handlesSymmIp (fun x y => ip x y) vecs.get = handlesIp (fun x y => ip x y) vecs.get vecs.get := rfl
  have hC : (handlesSymmIp (fun x y => ip x y) vecs.get)ᴴ = handlesSymmIp (fun x y => ip x y) vecs.get := by
    ext i j
    exact (hsymm _ _).symm
  refine ⟨e.r, combine vecs.get (e.V * diagPow (𝕜 := 𝕜) e.w (-0.5)), fun a b => ?_, fun uses huses => ?_⟩
  · have key := build_orthonormal hw hV (utilEigh_diagPow hCV)
    rw [h4, ← handlesIp_combine] at key
    have hab := congrFun (congrFun key a) b
    rw [Matrix.one_apply] at hab
    exact hab
  · obtain ⟨h1, h2⟩ := podUses_keep vecs uses huses _ (rfl : (⟨some vecs, some ⟨vecs.length, handlesSymmIp (fun x y => ip x y) vecs.get⟩,
      some ⟨vecs.length, e.r, e.w, e.V⟩, g.projCoeffs⟩ : PodObj 𝕜 E).vecs = some vecs)
    generalize uses.foldl (PodObj.afterUse (𝕜 := 𝕜)) _ = s at h1 h2 ⊢
    obtain ⟨v, c, d, p⟩ := s
    dsimp only at h1 h2
    subst h1 h2
    refine ⟨fun l k v hv => ?_, diagPow (𝕜 := 𝕜) e.w 0.5 * e.Vᴴ, _, rfl, rfl, fun i j => ?_⟩
    · have hval : ∀ k, (PodObj.computeModes (⟨some vecs, c, some ⟨vecs.length, e.r, e.w, e.V⟩, p⟩ : PodObj 𝕜 E) l k v).1 =
          linCombineSized k vecs.get (e.V * diagPow (𝕜 := 𝕜) e.w (-0.5)) (some l) := by
        intro k
        rcases hv with rfl | rfl <;> rfl
      refine ⟨fun out hout => ?_, fun hl => ?_⟩
      · rw [hval] at hout
        exact linCombineSized_chosen k vecs.get _ l out hout vecs.get fun _ _ => rfl
      · rw [hval]
        exact linCombineSized_all vecs.get _ l hl hvs rfl
    · have := build_proj hw hC (utilEigh_diagPow hCV)
      rw [h4, ← handlesIp_combine_left] at this
      exact (congrFun (congrFun this i) j).symm

omit [AddCommGroup E] [Module 𝕜 E] in
/-- **C60.** An object that gets the correlation array, and is asked for its decomposition, has the decomposition that
`compute_decomp` gives. -/
theorem C60_pod_precomputed (ip : E → E → 𝕜) (g h : PodObj 𝕜 E) (vecs : List E) (hv : vecs ≠ []) (atol rtol : Option ℝ) :
    ((h.getCorr ⟨vecs.length, handlesSymmIp ip vecs.get⟩).computeEigendecomp lib atol rtol).1 =
      (g.computeDecomp lib ip vecs atol rtol).1 ∧
    ((g.computeDecomp lib ip vecs atol rtol).1 = .ok () →
      ((h.getCorr ⟨vecs.length, handlesSymmIp ip vecs.get⟩).computeEigendecomp lib atol rtol).2.decomp =
        (g.computeDecomp lib ip vecs atol rtol).2.decomp) := by
  unfold PodObj.computeDecomp PodObj.computeEigendecomp PodObj.getCorr
  dsimp only
  rw [if_neg hv]
  split
  · exact ⟨rfl, fun h => by cases h⟩
  · exact ⟨rfl, fun _ => rfl⟩

/-- **C60.** Objects with the same decomposition, computed or got, give the same modes of the same vectors, given with
this call or before, and the same coefficients. -/
theorem C60_pod_loaded (g h : PodObj 𝕜 E) (d : PodSized 𝕜) (vecs : List E) (hg : g.decomp = some d)
    (hvecs : g.vecs = some vecs) (l : List Int) (k : Nat) :
    ((h.getDecomp d).computeModes l k (some vecs)).1 = (g.computeModes l k none).1 ∧
      (h.getDecomp d).computeProjCoeffs.1 = g.computeProjCoeffs.1 := by
  obtain ⟨v, c, d', p⟩ := g
  dsimp only at hg hvecs
  subst hg hvecs
  exact ⟨rfl, rfl⟩

/-- **C60.** Exceptions before a decomposition. -/
theorem C60_pod_errors (ip : E → E → 𝕜) (g : PodObj 𝕜 E) (hg : g.decomp = none) (atol rtol : Option ℝ) :
    (∀ l k v, (g.computeModes l k v).1 = .error .typeError) ∧ g.computeProjCoeffs.1 = .error .typeError ∧
    (g.computeDecomp lib ip [] atol rtol).1 = .error .indexError ∧
    (g.corr = none → (g.computeEigendecomp lib atol rtol).1 = .error .linAlgError) ∧
    (g.projCoeffs = none → g.putProjCoeffs = .error .attributeError) := by
  obtain ⟨vs, c, d, p⟩ := g
  dsimp only at hg
  subst hg
  refine ⟨fun l k v => ?_, rfl, rfl, fun h => ?_, fun h => ?_⟩
  · cases v <;> rfl
  · dsimp only at h
    subst h
    rfl
  · dsimp only at h
    subst h
    rfl

theorem npAxisIndices_error {n : Nat} (l : List Int) (e : Err) (h : npAxisIndices n l = .error e) :
    e = .indexError := by
  induction l with
  | nil => cases h
  | cons i is ih =>
    unfold npAxisIndices npAxisIndex at h
    split at h
    · rename_i h'
      split at h'
      · cases h'
      · split at h'
        · cases h'
        · cases h'
          cases h
          rfl
    · split at h
      · rename_i h'
        cases h
        exact ih h'
      · cases h

/-- **C60.** Without vectors, `compute_modes` raises an exception; which one depends on the decomposition. -/
theorem C60_pod_no_vectors (g : PodObj 𝕜 E) (hv : g.vecs = none) (l : List Int) (k : Nat) :
    ∃ e, (g.computeModes l k none).1 = .error e ∧
      (e = .typeError ∨ e = .indexError ∨ e = .valueError ∨ e = .attributeError) := by
  obtain ⟨vs, c, d, p⟩ := g
  dsimp only at hv
  subst hv
  cases d with
  | none => exact ⟨_, rfl, Or.inl rfl⟩
  | some d =>
    change ∃ e, combineAttr none (d.eigvecs * diagPow (𝕜 := 𝕜) d.eigvals (-0.5)) l k = .error e ∧ _
    unfold combineAttr
    dsimp only
    cases hc : pickCols (d.eigvecs * diagPow (𝕜 := 𝕜) d.eigvals (-0.5)) (some l) with
    | error e =>
      refine ⟨e, rfl, Or.inr (Or.inl ?_)⟩
      unfold pickCols at hc
      dsimp only at hc
      split at hc
      · rename_i e' he
        cases hc
        exact npAxisIndices_error l e he
      · cases hc
    | ok c =>
      dsimp only
      split
      · exact ⟨_, rfl, by simp⟩
      · exact ⟨_, rfl, by simp⟩

end Pod

/-! ### Balanced proper orthogonal decomposition -/

section Bpod

theorem bpodComputeDecomp_iff (ip : E → E → 𝕜) (g g' : BpodObj 𝕜 E) (X Y : List E) (p q : Nat) (atol rtol : Option ℝ) :
    g.computeDecomp lib ip X Y p q atol rtol = (.ok (), g') ↔
      ∃ b, bpodHandlesDecomp ip X.get Y.get p q lib.svd atol rtol = .ok b ∧
        g' = ⟨some X, some Y, some ⟨_, _, b.hankel⟩, some ⟨_, _, b.r, b.singVals, b.L, b.R⟩, g.directProjCoeffs,
          g.adjointProjCoeffs⟩ := by
  unfold BpodObj.computeDecomp BpodObj.computeSvd bpodHandlesDecomp
  dsimp only
  split
  · simp
  cases bpodHankel p q (handlesIp ip Y.get (firstEntries X.get p)) (handlesIp ip (lastVecs Y.get q) X.get) with
  | error e => simp
  | ok rows =>
  dsimp only
  cases utilSvd lib.svd (ofRows (Y.length / q * q) (X.length / p * p) rows) atol rtol with
  | error e => simp
  | ok s =>
    simp only [Prod.mk.injEq, true_and, Except.ok.injEq]
    constructor
    · rintro rfl
      exact ⟨_, rfl, rfl⟩
    · rintro ⟨b, rfl, rfl⟩
      rfl

/-- **C60.** The same as `C60_pod_reuse` for balanced proper orthogonal decompositions. -/
theorem C60_bpod_reuse (ip : E → E → 𝕜) (g : BpodObj 𝕜 E) (X Y : List E) (p q : Nat) (atol rtol : Option ℝ) :
    (g.computeDecomp lib ip X Y p q atol rtol).1 = (BpodObj.new.computeDecomp lib ip X Y p q atol rtol).1 ∧
    ((BpodObj.new.computeDecomp lib ip X Y p q atol rtol).1 = .ok () →
      (g.computeDecomp lib ip X Y p q atol rtol).2 =
        { (BpodObj.new.computeDecomp lib ip X Y p q atol rtol).2 with
          directProjCoeffs := g.directProjCoeffs, adjointProjCoeffs := g.adjointProjCoeffs }) := by
  unfold BpodObj.computeDecomp BpodObj.computeSvd BpodObj.new
  dsimp only
  split
  · exact ⟨rfl, fun h => by cases h⟩
  split
  · exact ⟨rfl, fun h => by cases h⟩
  split
  · exact ⟨rfl, fun h => by cases h⟩
  · exact ⟨rfl, fun _ => rfl⟩

/-- **C60.** If `compute_decomp` raises an exception, the object has the new vectors, but still the decomposition of
those before. -/
theorem C60_bpod_after_error (ip : E → E → 𝕜) (g : BpodObj 𝕜 E) (X Y : List E) (p q : Nat) (atol rtol : Option ℝ)
    (e : Err) (he : (g.computeDecomp lib ip X Y p q atol rtol).1 = .error e) :
    (g.computeDecomp lib ip X Y p q atol rtol).2.directVecs = some X ∧
      (g.computeDecomp lib ip X Y p q atol rtol).2.adjointVecs = some Y ∧
      (g.computeDecomp lib ip X Y p q atol rtol).2.decomp = g.decomp := by
  revert he
  unfold BpodObj.computeDecomp BpodObj.computeSvd
  dsimp only
  split
  · exact fun _ => ⟨rfl, rfl, rfl⟩
  split
  · exact fun _ => ⟨rfl, rfl, rfl⟩
  split
  · exact fun _ => ⟨rfl, rfl, rfl⟩
  · exact fun h => by cases h

variable [AddCommGroup E] [Module 𝕜 E]

theorem bpodUses_keep (X Y : List E) (uses : List (BpodUse E)) (huses : ∀ u ∈ uses, u.Keeps X Y) (g : BpodObj 𝕜 E)
    (hX : g.directVecs = some X) (hY : g.adjointVecs = some Y) :
    (uses.foldl BpodObj.afterUse g).directVecs = some X ∧ (uses.foldl BpodObj.afterUse g).adjointVecs = some Y ∧
      (uses.foldl BpodObj.afterUse g).decomp = g.decomp := by
  induction uses generalizing g with
  | nil => exact ⟨hX, hY, rfl⟩
  | cons u us ih =>
    have hstep : (g.afterUse u).directVecs = some X ∧ (g.afterUse u).adjointVecs = some Y ∧
        (g.afterUse u).decomp = g.decomp := by
      have hu := huses u List.mem_cons_self
      obtain ⟨x, y, h, d, c1, c2⟩ := g
      cases hX
      cases hY
      cases u with
      | direct l k v => rcases hu with rfl | rfl <;> cases d <;> exact ⟨rfl, rfl, rfl⟩
      | adjoint l k v => rcases hu with rfl | rfl <;> cases d <;> exact ⟨rfl, rfl, rfl⟩
      | directCoeffs => cases d <;> exact ⟨rfl, rfl, rfl⟩
      | adjointCoeffs => cases d <;> exact ⟨rfl, rfl, rfl⟩
    obtain ⟨h1, h2, h3⟩ := ih (fun u hu => huses u (List.mem_cons_of_mem _ hu)) _ hstep.1 hstep.2.1
    exact ⟨h1, h2, h3.trans hstep.2.2⟩

/-- **C60.** After `compute_decomp` for the impulse responses of a system and its adjoint system, in complete chunks,
there are two families of modes, orthonormal to each other, whatever the object was used for before: all calls for
modes give members of them, and coefficients are the inner products of the vectors with the members of the other
family, also if other modes and coefficients were computed in between, or calls raised exceptions. -/
theorem C60_bpod (ip : E →ₗ⋆[𝕜] E →ₗ[𝕜] 𝕜) (t : ℝ) (ht : 0 ≤ t) (rtol : Option ℝ) (hr : ∀ t ∈ rtol, 0 ≤ t)
    (hlib : ∀ {m n : Nat} (a : Matrix (Fin m) (Fin n) 𝕜), IsSvd a (lib.svd a)) (g g' : BpodObj 𝕜 E) (X Y : List E)
    (p q : Nat) (hp : 1 ≤ p) (hq : 1 ≤ q) (hpX : p ∣ X.length) (hqY : q ∣ Y.length) (A Aadj : E → E)
    (hadj : ∀ u v, ip (Aadj u) v = ip u (A v)) (B : Fin p → E) (C : Fin q → E)
    (hX : ∀ j, X.get j = A^[j.val / p] (B ⟨j % p, Nat.mod_lt _ hp⟩))
    (hY : ∀ i, Y.get i = Aadj^[i.val / q] (C ⟨i % q, Nat.mod_lt _ hq⟩))
    (hrun : g.computeDecomp lib (fun x y => ip x y) X Y p q (some t) rtol = (.ok (), g')) :
    ∃ (r : Nat) (φ ψ : Fin r → E), (∀ a b, ip (ψ a) (φ b) = if a = b then 1 else 0) ∧
      ∀ uses : List (BpodUse E), (∀ u ∈ uses, u.Keeps X Y) →
        (∀ l k v, v = none ∨ v = some X →
          (∀ out, ((uses.foldl BpodObj.afterUse g').computeDirectModes l k v).1 = .ok out → ChosenVecs φ l out) ∧
          ((∀ i ∈ l, -(r : Int) ≤ i ∧ i < r) →
            ∃ out, ((uses.foldl BpodObj.afterUse g').computeDirectModes l l.length v).1 = .ok out)) ∧
        (∀ l k v, v = none ∨ v = some Y →
          (∀ out, ((uses.foldl BpodObj.afterUse g').computeAdjointModes l k v).1 = .ok out → ChosenVecs ψ l out) ∧
          ((∀ i ∈ l, -(r : Int) ≤ i ∧ i < r) →
            ∃ out, ((uses.foldl BpodObj.afterUse g').computeAdjointModes l l.length v).1 = .ok out)) ∧
        (∃ (w : Nat) (c : Matrix (Fin r) (Fin w) 𝕜) (s : BpodObj 𝕜 E), w = X.length ∧
          (uses.foldl BpodObj.afterUse g').computeDirectProjCoeffs = (.ok ⟨r, w, c⟩, s) ∧
          s.putDirectProjCoeffs = .ok ⟨r, w, c⟩ ∧
          ∀ i j (j' : Fin X.length), j'.val = j.val → c i j = ip (ψ i) (X.get j')) ∧
        ∃ (w : Nat) (c : Matrix (Fin r) (Fin w) 𝕜) (s : BpodObj 𝕜 E), w = Y.length ∧
          (uses.foldl BpodObj.afterUse g').computeAdjointProjCoeffs = (.ok ⟨r, w, c⟩, s) ∧
          s.putAdjointProjCoeffs = .ok ⟨r, w, c⟩ ∧
          ((∀ x y, ip y x = star (ip x y)) →
            ∀ i j (j' : Fin Y.length), j'.val = j.val → c i j = ip (φ i) (Y.get j')) := by
  obtain ⟨b, hb, rfl⟩ := (bpodComputeDecomp_iff lib _ g g' X Y p q _ _).mp hrun
  have hlen : 0 < X.length ∧ 0 < Y.length := by
    unfold bpodHandlesDecomp at hb
    by_contra h0
    rw [if_pos (by omega)] at hb
    cases hb
  have hH := C25_handles X.get Y.get p q lib.svd _ _ (fun x y => ip x y) A Aadj hadj hp hq hqY B C hX hY b hb
  have hS : ∀ i, 0 < b.singVals i := fun i => lt_of_le_of_lt ht
    (C24_handles_positive X.get Y.get p q lib.svd _ (fun x y => ip x y) t hr b hb (hlib _) i)
  have hmd : X.length / p * p = X.length := Nat.div_mul_cancel hpX
  have hma : Y.length / q * q = Y.length := Nat.div_mul_cancel hqY
  obtain ⟨rows, s, hrows, hs, rfl⟩ := bpodHandlesDecomp_cases X.get Y.get p q lib.svd _ rtol _ b hb
  dsimp only at hH hS ⊢
  generalize ofRows (Y.length / q * q) (X.length / p * p) rows = H at *
  have hH' : H = handlesIp (fun x y => ip x y) (fun k => Y.get (Fin.cast hma k)) (fun k => X.get (Fin.cast hmd k)) := by
    ext i j
    exact hH i j _ _ rfl rfl
  obtain ⟨-, hV, hHV, hHU⟩ := utilSvd_triples lib.svd H _ _ (hlib H) s hs
  refine ⟨s.r, combine (fun k => X.get (Fin.cast hmd k)) (s.V * diagPow (𝕜 := 𝕜) s.S (-0.5)),
    combine (fun k => Y.get (Fin.cast hma k)) (s.U * diagPow (𝕜 := 𝕜) s.S (-0.5)), fun i j => ?_, fun uses huses => ?_⟩
  · have key := balance_one hS hV hHU
    conv at key => enter [1, 1, 2]; rw [hH']
    rw [← handlesIp_combine] at key
    have hij := congrFun (congrFun key i) j
    rw [Matrix.one_apply] at hij
    exact hij
  · obtain ⟨h1, h2, h3⟩ := bpodUses_keep X Y uses huses (⟨some X, some Y, some ⟨_, _, H⟩,
      some ⟨_, _, s.r, s.S, s.U, s.V⟩, g.directProjCoeffs, g.adjointProjCoeffs⟩ : BpodObj 𝕜 E) rfl rfl
    generalize uses.foldl (BpodObj.afterUse (𝕜 := 𝕜)) _ = o at h1 h2 h3 ⊢
    obtain ⟨x, y, h, d, c1, c2⟩ := o
    dsimp only at h1 h2 h3
    subst h1 h2 h3
    refine ⟨fun l k v hv => ?_, fun l k v hv => ?_, ⟨_, diagPow (𝕜 := 𝕜) s.S 0.5 * s.Vᴴ, _, hmd, rfl, rfl, fun i j j' hj => ?_⟩,
      ⟨_, diagPow (𝕜 := 𝕜) s.S 0.5 * s.Uᴴ, _, hma, rfl, rfl, fun hsymm i j j' hj => ?_⟩⟩
    · have hval : ∀ k, (BpodObj.computeDirectModes (⟨some X, some Y, h,
          some ⟨_, _, s.r, s.S, s.U, s.V⟩, c1, c2⟩ : BpodObj 𝕜 E) l k v).1 =
          linCombineSized k X.get (s.V * diagPow (𝕜 := 𝕜) s.S (-0.5)) (some l) := by
        intro k
        rcases hv with rfl | rfl <;> rfl
      refine ⟨fun out hout => ?_, fun hl => ?_⟩
      · rw [hval] at hout
        exact linCombineSized_chosen k X.get _ l out hout _ fun _ _ => rfl
      · rw [hval]
        exact linCombineSized_all X.get _ l hl hlen.1 hmd.symm
    · have hval : ∀ k, (BpodObj.computeAdjointModes (⟨some X, some Y, h,
          some ⟨_, _, s.r, s.S, s.U, s.V⟩, c1, c2⟩ : BpodObj 𝕜 E) l k v).1 =
          linCombineSized k Y.get (s.U * diagPow (𝕜 := 𝕜) s.S (-0.5)) (some l) := by
        intro k
        rcases hv with rfl | rfl <;> rfl
      refine ⟨fun out hout => ?_, fun hl => ?_⟩
      · rw [hval] at hout
        exact linCombineSized_chosen k Y.get _ l out hout _ fun _ _ => rfl
      · rw [hval]
        exact linCombineSized_all Y.get _ l hl hlen.2 hma.symm
    · have key := balance_left hS hHU
      conv at key => enter [1, 2]; rw [hH']
      rw [← handlesIp_combine_left] at key
      have hij := congrFun (congrFun key i) j
      rw [← hij]
      have : j' = Fin.cast hmd j := Fin.ext hj
      rw [this]
      rfl
    · have key := balance_right hS hHV
      have hHs : Hᴴ = handlesIp (fun x y => ip x y) (fun k => X.get (Fin.cast hmd k)) (fun k => Y.get (Fin.cast hma k)) := by
        rw [hH']
        ext i j
        exact (hsymm _ _).symm
      conv at key => enter [1, 2]; rw [hHs]
      rw [← handlesIp_combine_left] at key
      have hij := congrFun (congrFun key i) j
      rw [← hij]
      have : j' = Fin.cast hma j := Fin.ext hj
      rw [this]
      rfl

omit [AddCommGroup E] [Module 𝕜 E] in
/-- **C60.** An object that gets the Hankel array of a decomposition, and is asked for its singular value
decomposition, has the same decomposition. -/
theorem C60_bpod_precomputed (ip : E → E → 𝕜) (g g' h : BpodObj 𝕜 E) (X Y : List E) (p q : Nat) (atol rtol : Option ℝ)
    (hrun : g.computeDecomp lib ip X Y p q atol rtol = (.ok (), g')) :
    ∃ a, g'.hankel = some a ∧ ((h.getHankel a).computeSvd lib atol rtol).1 = .ok () ∧
      ((h.getHankel a).computeSvd lib atol rtol).2.decomp = g'.decomp := by
  obtain ⟨b, hb, rfl⟩ := (bpodComputeDecomp_iff lib _ g g' X Y p q _ _).mp hrun
  obtain ⟨rows, s, hrows, hs, rfl⟩ := bpodHandlesDecomp_cases X.get Y.get p q lib.svd _ rtol _ b hb
  refine ⟨_, rfl, ?_⟩
  unfold BpodObj.computeSvd BpodObj.getHankel
  dsimp only
  rw [hs]
  exact ⟨rfl, rfl⟩

/-- **C60.** Objects with the same decomposition, computed or got, give the same modes of the same vectors, given with
this call or before, and the same coefficients. -/
theorem C60_bpod_loaded (g h : BpodObj 𝕜 E) (d : BpodSized 𝕜) (X Y : List E) (hg : g.decomp = some d)
    (hX : g.directVecs = some X) (hY : g.adjointVecs = some Y) (l : List Int) (k : Nat) :
    ((h.getDecomp d).computeDirectModes l k (some X)).1 = (g.computeDirectModes l k none).1 ∧
      ((h.getDecomp d).computeAdjointModes l k (some Y)).1 = (g.computeAdjointModes l k none).1 ∧
      (h.getDecomp d).computeDirectProjCoeffs.1 = g.computeDirectProjCoeffs.1 ∧
      (h.getDecomp d).computeAdjointProjCoeffs.1 = g.computeAdjointProjCoeffs.1 := by
  obtain ⟨x, y, a, d', c1, c2⟩ := g
  dsimp only at hg hX hY
  subst hg hX hY
  exact ⟨rfl, rfl, rfl, rfl⟩

/-- **C60.** Without vectors, modes raise `UndefinedError`, with or without a decomposition. -/
theorem C60_bpod_no_vectors (g : BpodObj 𝕜 E) (l : List Int) (k : Nat) :
    (g.directVecs = none → (g.computeDirectModes l k none).1 = .error .undefinedError) ∧
      (g.adjointVecs = none → (g.computeAdjointModes l k none).1 = .error .undefinedError) := by
  obtain ⟨x, y, a, d', c1, c2⟩ := g
  refine ⟨fun h => ?_, fun h => ?_⟩ <;>
  · dsimp only at h
    subst h
    rfl

/-- **C60.** Exceptions before a decomposition. -/
theorem C60_bpod_errors (g : BpodObj 𝕜 E) (hg : g.decomp = none) (atol rtol : Option ℝ) :
    (∀ l k X, (g.computeDirectModes l k (some X)).1 = .error .attributeError) ∧
    (∀ l k Y, (g.computeAdjointModes l k (some Y)).1 = .error .attributeError) ∧
    g.computeDirectProjCoeffs.1 = .error .typeError ∧ g.computeAdjointProjCoeffs.1 = .error .typeError ∧
    (g.hankel = none → (g.computeSvd lib atol rtol).1 = .error .linAlgError) ∧
    (g.directProjCoeffs = none → g.putDirectProjCoeffs = .error .attributeError) ∧
    (g.adjointProjCoeffs = none → g.putAdjointProjCoeffs = .error .attributeError) := by
  obtain ⟨x, y, a, d, c1, c2⟩ := g
  dsimp only at hg
  subst hg
  refine ⟨fun l k v => rfl, fun l k v => rfl, rfl, rfl, fun h => ?_, fun h => ?_, fun h => ?_⟩ <;>
  · dsimp only at h
    subst h
    rfl

end Bpod

/-! ### What is kept -/

/-- **C60.** Coefficients that are computed or got are those that are put, and nothing else of the object changes. -/
theorem C60_pod_coefficients (g : PodObj 𝕜 E) (c : Arr 𝕜) :
    ((g.getProjCoeffs c).putProjCoeffs = .ok c ∧ (g.getProjCoeffs c).vecs = g.vecs ∧ (g.getProjCoeffs c).corr = g.corr ∧
      (g.getProjCoeffs c).decomp = g.decomp) ∧
    (∀ g', g.computeProjCoeffs = (.ok c, g') → g'.putProjCoeffs = .ok c ∧ g'.vecs = g.vecs ∧ g'.corr = g.corr ∧
      g'.decomp = g.decomp) ∧
    (PodObj.new (𝕜 := 𝕜) (E := E)).putProjCoeffs = .error .attributeError := by
  refine ⟨⟨rfl, rfl, rfl, rfl⟩, fun g' h => ?_, rfl⟩
  unfold PodObj.computeProjCoeffs at h
  split at h
  · cases h
  · cases h
    exact ⟨rfl, rfl, rfl, rfl⟩

/-- **C60.** The same for the coefficients of direct and adjoint vectors. -/
theorem C60_bpod_coefficients (g : BpodObj 𝕜 E) (c : Arr 𝕜) :
    ((g.getDirectProjCoeffs c).putDirectProjCoeffs = .ok c ∧ (g.getDirectProjCoeffs c).directVecs = g.directVecs ∧
      (g.getDirectProjCoeffs c).adjointVecs = g.adjointVecs ∧ (g.getDirectProjCoeffs c).hankel = g.hankel ∧
      (g.getDirectProjCoeffs c).decomp = g.decomp ∧ (g.getDirectProjCoeffs c).adjointProjCoeffs = g.adjointProjCoeffs) ∧
    ((g.getAdjointProjCoeffs c).putAdjointProjCoeffs = .ok c ∧ (g.getAdjointProjCoeffs c).directVecs = g.directVecs ∧
      (g.getAdjointProjCoeffs c).adjointVecs = g.adjointVecs ∧ (g.getAdjointProjCoeffs c).hankel = g.hankel ∧
      (g.getAdjointProjCoeffs c).decomp = g.decomp ∧ (g.getAdjointProjCoeffs c).directProjCoeffs = g.directProjCoeffs) ∧
    (∀ g', g.computeDirectProjCoeffs = (.ok c, g') → g'.putDirectProjCoeffs = .ok c ∧ g'.directVecs = g.directVecs ∧
      g'.adjointVecs = g.adjointVecs ∧ g'.hankel = g.hankel ∧ g'.decomp = g.decomp ∧
      g'.adjointProjCoeffs = g.adjointProjCoeffs) ∧
    (∀ g', g.computeAdjointProjCoeffs = (.ok c, g') → g'.putAdjointProjCoeffs = .ok c ∧ g'.directVecs = g.directVecs ∧
      g'.adjointVecs = g.adjointVecs ∧ g'.hankel = g.hankel ∧ g'.decomp = g.decomp ∧
      g'.directProjCoeffs = g.directProjCoeffs) ∧
    (BpodObj.new (𝕜 := 𝕜) (E := E)).putDirectProjCoeffs = .error .attributeError ∧
    (BpodObj.new (𝕜 := 𝕜) (E := E)).putAdjointProjCoeffs = .error .attributeError := by
  refine ⟨⟨rfl, rfl, rfl, rfl, rfl, rfl⟩, ⟨rfl, rfl, rfl, rfl, rfl, rfl⟩, fun g' h => ?_, fun g' h => ?_, rfl, rfl⟩
  · unfold BpodObj.computeDirectProjCoeffs at h
    split at h
    · cases h
    · cases h
      exact ⟨rfl, rfl, rfl, rfl, rfl, rfl⟩
  · unfold BpodObj.computeAdjointProjCoeffs at h
    split at h
    · cases h
    · cases h
      exact ⟨rfl, rfl, rfl, rfl, rfl, rfl⟩

/-- **C60, violation.** After a new decomposition, `put_proj_coeffs` puts the coefficients of the old data, until
coefficients are computed: here those of one vector, although two were decomposed. -/
theorem C60_stale_coefficients_violation (ip : E → E → 𝕜) (x y : E) (t : ℝ)
    (rtol : Option ℝ) :
    ∃ (g1 g2 g3 : PodObj 𝕜 E) (c c' : Arr 𝕜), PodObj.new.computeDecomp lib ip [x] (some t) rtol = (.ok (), g1) ∧
      g1.computeProjCoeffs = (.ok c, g2) ∧ g2.computeDecomp lib ip [x, y] (some t) rtol = (.ok (), g3) ∧
      g3.putProjCoeffs = .ok c ∧ c.n = 1 ∧ g3.computeProjCoeffs.1 = .ok c' ∧ c'.n = 2 := by
  obtain ⟨p1, g1, hg1, h1⟩ := podComputeDecomp_ok lib ip PodObj.new [x] (by simp) t rtol
  subst hg1
  obtain ⟨p3, g3, hg3, h3⟩ := podComputeDecomp_ok lib ip _ [x, y] (by simp) t rtol
  subst hg3
  exact ⟨_, _, _, _, _, h1, rfl, h3, rfl, rfl, rfl, rfl⟩

theorem exists_podObjLib (𝕜 : Type*) [RCLike 𝕜] : ∃ lib : PodObjLib 𝕜,
    (∀ {m : Nat} (a : Matrix (Fin m) (Fin m) 𝕜), a.IsHermitian → IsEigh a (lib.eigh a)) ∧
    (∀ {m : Nat}, IsArgsort (lib.argsort (m := m))) ∧
    ∀ {m n : Nat} (a : Matrix (Fin m) (Fin n) 𝕜), IsSvd a (lib.svd a) := by
  classical
  choose svd hsvd using fun (m n : Nat) (a : Matrix (Fin m) (Fin n) 𝕜) => exists_isSvd a
  refine ⟨⟨fun {m} a => if h : a.IsHermitian then (exists_isEigh a h).choose else ⟨fun _ => 0, 1⟩,
    fun {m} x => Tuple.sort x, fun {m n} a => svd m n a⟩, fun {m} a ha => ?_, fun {m} x => Tuple.monotone_sort x,
    fun {m n} a => hsvd m n a⟩
  dsimp only
  rw [dif_pos ha]
  exact (exists_isEigh a ha).choose_spec

/-- **C60, violation.** If `compute_decomp` raises an exception, because there is no complete chunk, modes are computed
without an exception from the new vectors and the old decomposition.  Here the new direct vector is 2, the adjoint
vector 1, and the decomposition that of the vectors 1; the modes are not orthonormal to each other: their product
is 2. -/
theorem C60_failed_decomp_violation (lib : PodObjLib ℝ)
    (hlib : ∀ {m n : Nat} (a : Matrix (Fin m) (Fin n) ℝ), IsSvd a (lib.svd a)) :
    ∃ (g1 g2 : BpodObj ℝ ℝ) (e : Err) (direct adjoint : Vecs ℝ),
      BpodObj.new.computeDecomp lib (fun x y : ℝ => x * y) [1] [1] 1 1 (some 0) none = (.ok (), g1) ∧
      g1.computeDecomp lib (fun x y : ℝ => x * y) [2] [1] 1 2 (some 0) none = (.error e, g2) ∧
      (g2.computeDirectModes [0] 1 none).1 = .ok direct ∧ (g2.computeAdjointModes [0] 1 none).1 = .ok adjoint ∧
      direct.k = 1 ∧ adjoint.k = 1 ∧ ∀ i j, adjoint.v i * direct.v j = 2 := by
  obtain ⟨b, hb⟩ := C25_handles_no_error ([1] : List ℝ).get ([1] : List ℝ).get 1 1 lib.svd (some 0) none
    (fun x y : ℝ => x * y) le_rfl le_rfl le_rfl le_rfl
  have hrun := (bpodComputeDecomp_iff lib (fun x y : ℝ => x * y) BpodObj.new _ [1] [1] 1 1 (some 0) none).mpr ⟨b, hb, rfl⟩
  obtain ⟨rows, s, hrows, hs, rfl⟩ := bpodHandlesDecomp_cases _ _ 1 1 lib.svd _ none _ b hb
  have hrows' : bpodHankel 1 1 (handlesIp (fun x y : ℝ => x * y) ([1] : List ℝ).get (firstEntries ([1] : List ℝ).get 1))
      (handlesIp (fun x y : ℝ => x * y) (lastVecs ([1] : List ℝ).get 1) ([1] : List ℝ).get) = .ok [[1 * 1]] := rfl
  rw [hrows'] at hrows
  cases hrows
  dsimp only at hrun hb
  have hone : ofRows (([1] : List ℝ).length / 1 * 1) (([1] : List ℝ).length / 1 * 1) [[(1 * 1 : ℝ)]] = 1 := by
    ext i j
    rw [Matrix.one_apply, if_pos (Subsingleton.elim (α := Fin 1) i j)]
    rw [Subsingleton.elim (α := Fin 1) i 0, Subsingleton.elim (α := Fin 1) j 0]
    norm_num [ofRows]
  rw [hone] at hs hrun
  have hr : s.r = 1 := by
    rw [utilSvd_rank lib.svd _ 0 le_rfl (hlib _) (fun i hi => lt_of_le_of_ne ((hlib _).nonneg i) (Ne.symm hi)) s hs,
      Matrix.rank_one]
    rfl
  have hS : ∀ i, 0 < s.S i := utilSvd_positive lib.svd _ none 0 (by simp) (hlib _) s hs
  obtain ⟨-, hV, -, hHU⟩ := utilSvd_triples lib.svd _ _ _ (hlib _) s hs
  have key := balance_one hS hV hHU
  obtain ⟨r, S, U, V⟩ := s
  dsimp only at hr key hrun
  subst hr
  have hkey := congrFun (congrFun key 0) 0
  refine ⟨_, _, _, ⟨1, _⟩, ⟨1, _⟩, hrun, rfl, rfl, rfl, rfl, rfl, fun (i : Fin 1) (j : Fin 1) => ?_⟩
  obtain rfl := Subsingleton.elim i 0
  obtain rfl := Subsingleton.elim j 0
  change (∑ k : Fin 1, (S * diagPow U (-0.5) : Matrix (Fin 1) (Fin 1) ℝ) k 0 • ([1] : List ℝ).get k) *
    (∑ k : Fin 1, (V * diagPow U (-0.5) : Matrix (Fin 1) (Fin 1) ℝ) k 0 • ([2] : List ℝ).get k) = 2
  generalize S * diagPow U (-0.5) = M at *
  generalize V * diagPow U (-0.5) = N at *
  rw [Matrix.mul_one, Matrix.mul_apply] at hkey
  change (∑ k : Fin 1, M k 0 * N k 0) = 1 at hkey
  rw [Fin.sum_univ_one] at hkey
  rw [Fin.sum_univ_one, Fin.sum_univ_one]
  have h : M 0 0 * N 0 0 = 1 := hkey
  change M 0 0 * 1 * (N 0 0 * 2) = 2
  linear_combination 2 * h

/-! ### Examples -/

/-- A library and an object as in `C60_pod`, for two vectors in the plane. -/
example : ∃ (lib : PodObjLib ℝ) (g' : PodObj ℝ (Fin 2 → ℝ)), (∀ {m : Nat}, IsArgsort (lib.argsort (m := m))) ∧
    IsEigh (handlesSymmIp (fun x y => dotIp x y) ([![1, 0], ![1, 2]] : List (Fin 2 → ℝ)).get)
      (lib.eigh (handlesSymmIp (fun x y => dotIp x y) ([![1, 0], ![1, 2]] : List (Fin 2 → ℝ)).get)) ∧
    PodObj.new.computeDecomp lib (fun x y => dotIp x y) [![1, 0], ![1, 2]] (some (1 / 10)) none = (.ok (), g') ∧
    ∀ x y, dotIp y x = star (dotIp x y) := by
  obtain ⟨lib, h1, h2, -⟩ := exists_podObjLib ℝ
  have hsymm : ∀ x y, dotIp y x = star (dotIp x y) := by
    intro x y
    rw [dotIp_apply, dotIp_apply, star_trivial]
    ring
  obtain ⟨g', hg'⟩ := C60_pod_no_error lib (fun x y => dotIp x y) PodObj.new ([![1, 0], ![1, 2]] : List (Fin 2 → ℝ))
    (by simp) (1 / 10) none
  refine ⟨lib, g', h2, h1 _ ?_, hg', hsymm⟩
  ext i j
  exact (hsymm _ _).symm

/-- A library and an object as in `C60_bpod`: the system that doubles numbers, with inputs 1 and 3 and output 1. -/
example : ∃ (lib : PodObjLib ℝ) (g' : BpodObj ℝ ℝ),
    (∀ {m n : Nat} (a : Matrix (Fin m) (Fin n) ℝ), IsSvd a (lib.svd a)) ∧
    BpodObj.new.computeDecomp lib (fun x y => LinearMap.mul ℝ ℝ x y) [1, 3, 2, 6] [1, 2] 2 1 (some (1 / 10)) none =
      (.ok (), g') ∧
    (∀ j : Fin 4, ([1, 3, 2, 6] : List ℝ).get j =
      (fun x => 2 * x)^[j.val / 2] ((![1, 3] : Fin 2 → ℝ) ⟨j % 2, Nat.mod_lt _ (by decide)⟩)) ∧
    ∀ i : Fin 2, ([1, 2] : List ℝ).get i =
      (fun x => 2 * x)^[i.val / 1] ((![1] : Fin 1 → ℝ) ⟨i % 1, Nat.mod_lt _ (by decide)⟩) := by
  obtain ⟨lib, -, -, h3⟩ := exists_podObjLib ℝ
  obtain ⟨b, hb⟩ := C25_handles_no_error ([1, 3, 2, 6] : List ℝ).get ([1, 2] : List ℝ).get 2 1 lib.svd (some (1 / 10)) none
    (fun x y : ℝ => LinearMap.mul ℝ ℝ x y) (by decide) (by decide) (by decide) (by decide)
  refine ⟨lib, _, h3, (bpodComputeDecomp_iff lib _ _ _ _ _ _ _ _ _).mpr ⟨b, hb, rfl⟩, fun j => ?_, fun i => ?_⟩
  · fin_cases j <;> norm_num
  · fin_cases i <;> norm_num

end Modred
