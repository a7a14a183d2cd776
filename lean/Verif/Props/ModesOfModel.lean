import Mathlib.LinearAlgebra.Matrix.Charpoly.Basic
import Verif.Spec.ModesOfModel
import Verif.Props.ReducedAgain
import Verif.Props.SymmetryKept
import Verif.Props.Pod
import Verif.Props.DmdHandles

/-!
# C137: dynamic modes are the modes of the Galerkin model for POD modes
-/

namespace Modred

open Matrix
open scoped ComplexOrder

variable {𝕜 : Type*} [RCLike 𝕜]

/-- Eigenvalues of an array with biorthonormal eigenvectors. -/
theorem roots_of_eigenvectors {r : Nat} {a R L : Matrix (Fin r) (Fin r) 𝕜} {z : Fin r → 𝕜} (h : a * R = R * diagonal z)
    (hLR : Lᴴ * R = 1) : a.charpoly.roots = Finset.univ.val.map z := by
  have hRL : R * Lᴴ = 1 := mul_eq_one_comm.mp hLR
  have ha : a = R * diagonal z * Lᴴ := by rw [← h, Matrix.mul_assoc, hRL, Matrix.mul_one]
  have h1 : a.charpoly = (diagonal z).charpoly := by
    rw [ha, Matrix.charpoly_mul_comm, ← Matrix.mul_assoc, hLR, Matrix.one_mul]
  rw [h1, Matrix.charpoly_diagonal]
  have h2 := Polynomial.roots_multiset_prod_X_sub_C (Finset.univ.val.map z)
  rwa [Multiset.map_map] at h2

theorem dmdEigendecomp_eigh_eq {m : Nat} {eigh : Matrix (Fin m) (Fin m) 𝕜 → EighOut 𝕜 m}
    {argsort : (Fin m → ℝ) → Equiv.Perm (Fin m)} {eig : ∀ {r : Nat}, Matrix (Fin r) (Fin r) 𝕜 → EigOut 𝕜 r}
    {C K : Matrix (Fin m) (Fin m) 𝕜} {atol rtol : Option ℝ} {d : DmdDecomp 𝕜 m}
    (hd : dmdEigendecomp eigh argsort eig C K atol rtol none = .ok d) :
    utilEigh eigh argsort C atol rtol true = .ok ⟨d.r, d.w, d.V⟩ := by
  obtain ⟨e, w, R, L, he, rfl⟩ := dmdEigendecomp_eigh hd
  exact he

section Snaps

variable {n m : Nat} (lib : PodLib 𝕜 n m) (eig : ∀ {r : Nat}, Matrix (Fin r) (Fin r) 𝕜 → EigOut 𝕜 r)
  (modeIndices : Option (List Int)) (weights : Option (NdArray 𝕜)) (ws : Weights 𝕜) (t : ℝ) (rtol : Option ℝ)

theorem DmdOutcome.modesOfBasis {X Y : Matrix (Fin n) (Fin m) 𝕜} {res : DmdResult 𝕜 n m}
    (ho : DmdOutcome (ws.matrix n) X Y modeIndices res)
    (hc : DmdCore (Xᴴ * ws.matrix n * X) (Xᴴ * ws.matrix n * Y) res.decomp) (hLR : res.decomp.Lᴴ * res.decomp.R = 1)
    (hws : arraysInit weights = .ok ws) (hfit : ws.Fits n) (A : Matrix (Fin n) (Fin n) 𝕜) (hA : A * X = Y)
    {U : Matrix (Fin n) (Fin res.decomp.r) 𝕜} (hU : U = X * (res.decomp.V * diagPow (𝕜 := 𝕜) res.decomp.w (-0.5))) :
    ∀ (flag : Bool) (g : GalerkinArrays 𝕜 n res.decomp.r) (calls : List (ArraysCall 𝕜 n)),
        galerkinArraysInit false U none flag weights = .ok g →
      ∀ (q p : Nat) (B : Matrix (Fin n) (Fin q) 𝕜) (M : Matrix (Fin p) (Fin res.decomp.r) 𝕜),
      ∃ (a : Matrix (Fin res.decomp.r) (Fin res.decomp.r) 𝕜) (b : Matrix (Fin res.decomp.r) (Fin q) 𝕜),
        (galerkinModelArrays (calls.foldl ArraysCall.after g) (A * U) B (.rows p _ M)).1 =
          .ok (some ⟨_, a⟩, some ⟨q, b⟩, some ⟨p, _, M⟩) ∧
        ∃ proj adjoint, Chosen proj modeIndices res.projModes ∧ Chosen adjoint modeIndices res.adjointModes ∧
          ModesOfModel U a res.decomp.eigvals proj adjoint := by
  subst hU
  have hG : (X * (res.decomp.V * diagPow (𝕜 := 𝕜) res.decomp.w (-0.5)))ᴴ * ws.matrix n *
      (X * (res.decomp.V * diagPow (𝕜 := 𝕜) res.decomp.w (-0.5))) = 1 := by
    rw [conjTranspose_mul, conjTranspose_mul, diagPow_conjTranspose]
    calc diagPow (𝕜 := 𝕜) res.decomp.w (-0.5) * res.decomp.Vᴴ * Xᴴ * ws.matrix n *
          (X * (res.decomp.V * diagPow (𝕜 := 𝕜) res.decomp.w (-0.5)))
        = diagPow (𝕜 := 𝕜) res.decomp.w (-0.5) * (res.decomp.Vᴴ * ((Xᴴ * ws.matrix n * X) * res.decomp.V)) *
          diagPow (𝕜 := 𝕜) res.decomp.w (-0.5) := by simp only [Matrix.mul_assoc]
      _ = 1 := by
        rw [hc.eigen, ← Matrix.mul_assoc res.decomp.Vᴴ, hc.orth, Matrix.one_mul, diagPow_mul _ hc.pos, diagPow_mul _ hc.pos,
          show (-0.5 + 1 + -0.5 : ℝ) = 0 by norm_num, diagPow_zero]
  have hK : (X * (res.decomp.V * diagPow (𝕜 := 𝕜) res.decomp.w (-0.5)))ᴴ * ws.matrix n *
      (A * (X * (res.decomp.V * diagPow (𝕜 := 𝕜) res.decomp.w (-0.5)))) =
      lowOrderMap (diagPow (𝕜 := 𝕜) res.decomp.w (-0.5)) res.decomp.V (Xᴴ * ws.matrix n * Y) := by
    rw [← hA, conjTranspose_mul, conjTranspose_mul, diagPow_conjTranspose]
    unfold lowOrderMap
    simp only [Matrix.mul_assoc]
  intro flag g calls hg q p B M
  obtain ⟨hA', hB', -⟩ := C38_arrays _ none flag weights ws g calls hws hfit hg
  obtain ⟨m1, -⟩ := C38_arrays_model _ none flag weights ws g calls hws hfit hg
    (A * (X * (res.decomp.V * diagPow (𝕜 := 𝕜) res.decomp.w (-0.5)))) B (.rows p _ M)
  have hH : Undoes flag ((X * (res.decomp.V * diagPow (𝕜 := 𝕜) res.decomp.w (-0.5)))ᴴ * ws.matrix n *
      (X * (res.decomp.V * diagPow (𝕜 := 𝕜) res.decomp.w (-0.5)))) 1 := ⟨by rw [hG, Matrix.one_mul], fun _ => hG⟩
  have ha := (hA' _ (A * (X * (res.decomp.V * diagPow (𝕜 := 𝕜) res.decomp.w (-0.5))))).undone hH
  rw [Matrix.one_mul] at ha
  refine ⟨_, _, m1 _ _ (ha.trans (congrArg Except.ok hK)) ((hB' q B).undone hH), _, _, ho.proj, ho.adjoint,
    roots_of_eigenvectors hc.right hLR, _, _, hc.right, hc.left, hLR, ?_, ?_⟩
  · unfold DmdDecomp.buildProj
    simp only [Matrix.mul_assoc]
  · unfold DmdDecomp.buildAdjoint
    simp only [Matrix.mul_assoc]

theorem DmdOutcome.modesOfModel {X Y : Matrix (Fin n) (Fin m) 𝕜} {res : DmdResult 𝕜 n m}
    (ho : DmdOutcome (ws.matrix n) X Y modeIndices res)
    (hc : DmdCore (Xᴴ * ws.matrix n * X) (Xᴴ * ws.matrix n * Y) res.decomp) (hLR : res.decomp.Lᴴ * res.decomp.R = 1)
    (hws : arraysInit weights = .ok ws) (hfit : ws.Fits n) (A : Matrix (Fin n) (Fin n) 𝕜) (hA : A * X = Y)
    (atol : Option ℝ)
    (he : utilEigh lib.eigh lib.argsort (Xᴴ * ws.matrix n * X) atol rtol true =
      .ok ⟨res.decomp.r, res.decomp.w, res.decomp.V⟩) :
    ∃ (pod : PodResult 𝕜 n m) (corr : Matrix (Fin m) (Fin m) 𝕜),
      podSnaps lib X none weights atol rtol = .ok (pod, corr) ∧ ∃ U : Matrix (Fin n) (Fin res.decomp.r) 𝕜, pod.modes = ⟨res.decomp.r, U⟩ ∧
      ∀ (flag : Bool) (g : GalerkinArrays 𝕜 n res.decomp.r) (calls : List (ArraysCall 𝕜 n)),
        galerkinArraysInit false U none flag weights = .ok g →
      ∀ (q p : Nat) (B : Matrix (Fin n) (Fin q) 𝕜) (M : Matrix (Fin p) (Fin res.decomp.r) 𝕜),
      ∃ (a : Matrix (Fin res.decomp.r) (Fin res.decomp.r) 𝕜) (b : Matrix (Fin res.decomp.r) (Fin q) 𝕜),
        (galerkinModelArrays (calls.foldl ArraysCall.after g) (A * U) B (.rows p _ M)).1 =
          .ok (some ⟨_, a⟩, some ⟨q, b⟩, some ⟨p, _, M⟩) ∧
        ∃ proj adjoint, Chosen proj modeIndices res.projModes ∧ Chosen adjoint modeIndices res.adjointModes ∧
          ModesOfModel U a res.decomp.eigvals proj adjoint := by
  have hpod : ∃ (pod : PodResult 𝕜 n m) (corr : Matrix (Fin m) (Fin m) 𝕜),
      podSnaps lib X none weights atol rtol = .ok (pod, corr) ∧
      pod.modes = ⟨res.decomp.r, X * (res.decomp.V * diagPow (𝕜 := 𝕜) res.decomp.w (-0.5))⟩ := by
    unfold podSnaps
    rw [hws]
    dsimp only
    unfold symmIpArray
    rw [C45_formula ws hfit]
    dsimp only
    rw [he]
    exact ⟨_, _, rfl, rfl⟩
  obtain ⟨pod, corr, hpod, hmodes⟩ := hpod
  refine ⟨pod, corr, hpod, X * (res.decomp.V * diagPow (𝕜 := 𝕜) res.decomp.w (-0.5)), hmodes,
    ho.modesOfBasis modeIndices weights ws hc hLR hws hfit A hA rfl⟩

/-- **C137** for pairs of vectors. -/
theorem C137_snaps_pairs (ht : 0 ≤ t) (hr : ∀ t ∈ rtol, 0 ≤ t) (hs : IsArgsort lib.argsort)
    (hws : arraysInit weights = .ok ws) (hfit : ws.Fits n) (hW : (ws.matrix n).IsHermitian)
    (hlib : ∀ C : Matrix (Fin m) (Fin m) 𝕜, C.IsHermitian → IsEigh C (lib.eigh C)) (X Y : Matrix (Fin n) (Fin m) 𝕜)
    (res : DmdResult 𝕜 n m) (corr cross : Matrix (Fin m) (Fin m) 𝕜)
    (hres : dmdSnapsPairs lib eig X ⟨n, m, Y⟩ modeIndices weights (some t) rtol none = .ok (res, corr, cross))
    (heig : EigOfReduced eig (ws.matrix n) X Y res.decomp) (hinj : Function.Injective res.decomp.eigvals)
    (A : Matrix (Fin n) (Fin n) 𝕜) (hA : A * X = Y) :
    ∃ (pod : PodResult 𝕜 n m) (corr' : Matrix (Fin m) (Fin m) 𝕜),
      podSnaps lib X none weights (some t) rtol = .ok (pod, corr') ∧ ∃ U : Matrix (Fin n) (Fin res.decomp.r) 𝕜, pod.modes = ⟨res.decomp.r, U⟩ ∧
      ∀ (flag : Bool) (g : GalerkinArrays 𝕜 n res.decomp.r) (calls : List (ArraysCall 𝕜 n)),
        galerkinArraysInit false U none flag weights = .ok g →
      ∀ (q p : Nat) (B : Matrix (Fin n) (Fin q) 𝕜) (M : Matrix (Fin p) (Fin res.decomp.r) 𝕜),
      ∃ (a : Matrix (Fin res.decomp.r) (Fin res.decomp.r) 𝕜) (b : Matrix (Fin res.decomp.r) (Fin q) 𝕜),
        (galerkinModelArrays (calls.foldl ArraysCall.after g) (A * U) B (.rows p _ M)).1 =
          .ok (some ⟨_, a⟩, some ⟨q, b⟩, some ⟨p, _, M⟩) ∧
        ∃ proj adjoint, Chosen proj modeIndices res.projModes ∧ Chosen adjoint modeIndices res.adjointModes ∧
          ModesOfModel U a res.decomp.eigvals proj adjoint := by
  obtain ⟨rfl, rfl, hd, ho⟩ := dmdSnapsPairs_ok lib eig modeIndices weights ws _ rtol none hws hfit X Y res corr cross hres
  obtain ⟨hc, hLR⟩ := dmdEigendecomp_core _ _ eig _ _ t rtol none _ hd ht hr hs (gram_hermitian hW _)
    (hlib _ (gram_hermitian hW _)) heig
  exact ho.modesOfModel lib modeIndices weights ws rtol hc (hLR hinj) hws hfit A hA _
    (dmdEigendecomp_eigh_eq hd)

/-- **C137** for sequential data. -/
theorem C137_snaps_sequential (ht : 0 ≤ t) (hr : ∀ t ∈ rtol, 0 ≤ t) (hs : IsArgsort lib.argsort)
    (hws : arraysInit weights = .ok ws) (hfit : ws.Fits n) (hW : (ws.matrix n).IsHermitian)
    (hlib : ∀ C : Matrix (Fin m) (Fin m) 𝕜, C.IsHermitian → IsEigh C (lib.eigh C)) (Z : Matrix (Fin n) (Fin (m + 1)) 𝕜)
    (res : DmdResult 𝕜 n m) (corr cross : Matrix (Fin m) (Fin m) 𝕜)
    (hres : dmdSnapsSeq lib eig Z modeIndices weights (some t) rtol none = .ok (res, corr, cross))
    (heig : EigOfReduced eig (ws.matrix n) (seqFirst Z) (seqNext Z) res.decomp) (hinj : Function.Injective res.decomp.eigvals)
    (A : Matrix (Fin n) (Fin n) 𝕜) (hA : A * seqFirst Z = seqNext Z) :
    ∃ (pod : PodResult 𝕜 n m) (corr' : Matrix (Fin m) (Fin m) 𝕜),
      podSnaps lib (seqFirst Z) none weights (some t) rtol = .ok (pod, corr') ∧ ∃ U : Matrix (Fin n) (Fin res.decomp.r) 𝕜, pod.modes = ⟨res.decomp.r, U⟩ ∧
      ∀ (flag : Bool) (g : GalerkinArrays 𝕜 n res.decomp.r) (calls : List (ArraysCall 𝕜 n)),
        galerkinArraysInit false U none flag weights = .ok g →
      ∀ (q p : Nat) (B : Matrix (Fin n) (Fin q) 𝕜) (M : Matrix (Fin p) (Fin res.decomp.r) 𝕜),
      ∃ (a : Matrix (Fin res.decomp.r) (Fin res.decomp.r) 𝕜) (b : Matrix (Fin res.decomp.r) (Fin q) 𝕜),
        (galerkinModelArrays (calls.foldl ArraysCall.after g) (A * U) B (.rows p _ M)).1 =
          .ok (some ⟨_, a⟩, some ⟨q, b⟩, some ⟨p, _, M⟩) ∧
        ∃ proj adjoint, Chosen proj modeIndices res.projModes ∧ Chosen adjoint modeIndices res.adjointModes ∧
          ModesOfModel U a res.decomp.eigvals proj adjoint := by
  obtain ⟨rfl, rfl, hd, ho⟩ := dmdSnapsSeq_ok lib eig modeIndices weights ws _ rtol none hws hfit Z res corr cross hres
  obtain ⟨hc, hLR⟩ := dmdEigendecomp_core _ _ eig _ _ t rtol none _ hd ht hr hs (gram_hermitian hW _)
    (hlib _ (gram_hermitian hW _)) heig
  exact ho.modesOfModel lib modeIndices weights ws rtol hc (hLR hinj) hws hfit A hA _
    (dmdEigendecomp_eigh_eq hd)

end Snaps

section Direct

variable {n m : Nat} (lib : PodLib 𝕜 n m) (eig : ∀ {r : Nat}, Matrix (Fin r) (Fin r) 𝕜 → EigOut 𝕜 r)
  (modeIndices : Option (List Int)) (ws : DirectWeights 𝕜) (t : ℝ) (rtol : Option ℝ)

/-- POD and DMD decompose the same weighted vectors. -/
theorem podDirectSvd_weighted {vecs : Matrix (Fin n) (Fin m) 𝕜} {atol : Option ℝ} (hfit : ws.Fits n)
    (hchol : ∀ p q w, ws = .d2 p q w → IsCholesky lib.cholesky (ws.matrix n)) {so : Option (Matrix (Fin n) (Fin n) 𝕜)}
    (hso : directSqrtWeights lib.cholesky ws = .ok so) {s : Svd 𝕜 n m} (hs : utilSvd lib.svd (weightData so vecs) atol rtol = .ok s) :
    ∃ G H : Matrix (Fin n) (Fin n) 𝕜, H * G = 1 ∧ weightData so vecs = G * vecs ∧
      podDirectSvd lib vecs ws atol rtol = .ok { s with U := H * s.U } := by
  unfold directSqrtWeights at hso
  split at hso
  · cases ws with
    | none =>
      cases hso
      refine ⟨1, 1, Matrix.mul_one _, (Matrix.one_mul _).symm, ?_⟩
      unfold podDirectSvd
      dsimp only
      rw [Matrix.one_mul]
      exact hs
    | higher => exact hfit.elim
    | d1 k w =>
      obtain ⟨rfl, hw⟩ := hfit
      dsimp only at hso
      rw [if_pos rfl] at hso
      cases hso
      have hp : ∀ i : Fin k, 0 < w i ^ (0.5 : ℝ) := fun i => Real.rpow_pos_of_pos (hw i) _
      refine ⟨_, diagPow (fun i : Fin k => w i ^ (0.5 : ℝ)) (-1), ?_, rfl, ?_⟩
      · rw [← diagPow_one, diagPow_mul _ hp, show (-1 + 1 : ℝ) = 0 by norm_num, diagPow_zero]
      · unfold podDirectSvd
        simp only [if_true]
        unfold weightData at hs
        dsimp only at hs
        rw [hs]
    | d2 p q w =>
      obtain ⟨rfl, rfl, hw⟩ := hfit
      obtain ⟨l, hl, hll⟩ := hchol _ _ _ rfl
      have hl' : lib.cholesky (Matrix.of fun i j => w i j) = some l := hl
      simp only [ne_eq, not_true_eq_false, if_false, if_true, hl'] at hso
      cases hso
      have hu : IsUnit (lᴴ) := by
        have h1 : IsUnit (l * lᴴ) := by rw [hll]; exact hw.isUnit
        rw [isUnit_iff_isUnit_det] at h1 ⊢
        rw [det_mul] at h1
        exact isUnit_of_mul_isUnit_right h1
      refine ⟨lᴴ, (lᴴ)⁻¹, Matrix.nonsing_inv_mul _ ((isUnit_iff_isUnit_det _).mp hu), rfl, ?_⟩
      unfold podDirectSvd
      simp only [ne_eq, not_true_eq_false, if_false, if_true, hl']
      unfold weightData at hs
      dsimp only at hs
      rw [hs]
  · cases hso

theorem dmdDirectRest_pod {X Y : Matrix (Fin n) (Fin m) 𝕜} {atol : Option ℝ} {res : DmdResult 𝕜 n m} (hfit : ws.Fits n)
    (hchol : ∀ p q w, ws = .d2 p q w → IsCholesky lib.cholesky (ws.matrix n)) (hlib : ∀ a, IsSvd a (lib.svd a))
    {so : Option (Matrix (Fin n) (Fin n) 𝕜)} (hso : directSqrtWeights lib.cholesky ws = .ok so)
    {cross : Svd 𝕜 n m → Matrix (Fin m) (Fin m) 𝕜}
    (hres : dmdDirectRest lib eig (weightData so X) cross X Y modeIndices atol rtol none = .ok res)
    (hpos : ∀ i, 0 < res.decomp.w i) :
    ∃ pod, podDirect lib X none ws atol rtol = .ok pod ∧
      pod.modes = ⟨res.decomp.r, X * (res.decomp.V * diagPow (𝕜 := 𝕜) res.decomp.w (-0.5))⟩ := by
  unfold dmdDirectRest at hres
  split at hres
  · cases hres
  rename_i s hs
  dsimp only at hres
  split at hres
  · cases hres
  rw [dmdFinish_decomp hres] at hpos ⊢
  obtain ⟨G, H, hHG, hG, hpod⟩ := podDirectSvd_weighted lib ws rtol hfit hchol hso hs
  obtain ⟨-, -, hXV, -, hS, -⟩ := C19_singular_triples _ _ _ _ (hlib _) s hs
  have hS' : ∀ i, 0 < s.S i := by
    intro i
    refine lt_of_le_of_ne (hS i) fun h0 => ?_
    have h1 : 0 < s.S i ^ (2 : ℝ) := hpos i
    rw [← h0] at h1
    norm_num at h1
  refine ⟨⟨s.r, fun i => s.S i ^ (2 : ℝ), ⟨s.r, H * s.U⟩,
    diagPow (𝕜 := 𝕜) (fun i => s.S i ^ (2 : ℝ)) 0.5 * s.Vᴴ, s.V⟩, ?_, ?_⟩
  · unfold podDirect
    rw [hpod]
    rfl
  · refine congrArg (Cols.mk s.r) ?_
    change H * s.U = X * (s.V * diagPow (𝕜 := 𝕜) (fun i => s.S i ^ (2 : ℝ)) (-0.5))
    rw [← diagPow_inv_sq hS']
    rw [hG, ← diagPow_one] at hXV
    calc H * s.U = H * (s.U * diagPow (𝕜 := 𝕜) s.S 1 * diagPow (𝕜 := 𝕜) s.S (-1)) := by
          rw [Matrix.mul_assoc, diagPow_mul _ hS', show (1 + -1 : ℝ) = 0 by norm_num, diagPow_zero, Matrix.mul_one]
      _ = (H * G) * (X * (s.V * diagPow (𝕜 := 𝕜) s.S (-1))) := by
          rw [← hXV]
          simp only [Matrix.mul_assoc]
      _ = _ := by rw [hHG, Matrix.one_mul]

theorem dmdDirectPairs_pod {X Y : Matrix (Fin n) (Fin m) 𝕜} {atol : Option ℝ} {res : DmdResult 𝕜 n m} (hfit : ws.Fits n)
    (hchol : ∀ p q w, ws = .d2 p q w → IsCholesky lib.cholesky (ws.matrix n)) (hlib : ∀ a, IsSvd a (lib.svd a))
    (hres : dmdDirectPairs lib eig X ⟨n, m, Y⟩ modeIndices ws atol rtol none = .ok res) (hpos : ∀ i, 0 < res.decomp.w i) :
    ∃ pod, podDirect lib X none ws atol rtol = .ok pod ∧
      pod.modes = ⟨res.decomp.r, X * (res.decomp.V * diagPow (𝕜 := 𝕜) res.decomp.w (-0.5))⟩ := by
  unfold dmdDirectPairs at hres
  split at hres
  · cases hres
  rename_i so hso
  dsimp only at hres
  rw [dif_pos ⟨rfl, rfl⟩] at hres
  exact dmdDirectRest_pod lib eig modeIndices ws rtol hfit hchol hlib hso hres hpos

theorem dmdDirectSeq_pod {Z : Matrix (Fin n) (Fin (m + 1)) 𝕜} {atol : Option ℝ} {res : DmdResult 𝕜 n m} (hfit : ws.Fits n)
    (hchol : ∀ p q w, ws = .d2 p q w → IsCholesky lib.cholesky (ws.matrix n)) (hlib : ∀ a, IsSvd a (lib.svd a))
    (hres : dmdDirectSeq lib eig Z modeIndices ws atol rtol none = .ok res) (hpos : ∀ i, 0 < res.decomp.w i) :
    ∃ pod, podDirect lib (seqFirst Z) none ws atol rtol = .ok pod ∧
      pod.modes = ⟨res.decomp.r, seqFirst Z * (res.decomp.V * diagPow (𝕜 := 𝕜) res.decomp.w (-0.5))⟩ := by
  unfold dmdDirectSeq at hres
  split at hres
  · cases hres
  rename_i so hso
  have h1 : (weightData so Z).submatrix id Fin.castSucc = weightData so (seqFirst Z) := by
    cases so <;> rfl
  dsimp only at hres
  rw [h1] at hres
  exact dmdDirectRest_pod lib eig modeIndices ws rtol hfit hchol hlib hso hres hpos

/-- **C137** for the direct methods of POD and DMD and pairs of vectors. -/
theorem C137_direct_pairs (ht : 0 ≤ t) (hr : ∀ t ∈ rtol, 0 ≤ t) (hfit : ws.Fits n)
    (hchol : ∀ p q w, ws = .d2 p q w → IsCholesky lib.cholesky (ws.matrix n)) (hlib : ∀ a, IsSvd a (lib.svd a))
    (X Y : Matrix (Fin n) (Fin m) 𝕜) (res : DmdResult 𝕜 n m)
    (hres : dmdDirectPairs lib eig X ⟨n, m, Y⟩ modeIndices ws (some t) rtol none = .ok res)
    (heig : EigOfReduced eig (ws.matrix n) X Y res.decomp) (hinj : Function.Injective res.decomp.eigvals)
    (A : Matrix (Fin n) (Fin n) 𝕜) (hA : A * X = Y) (weights : Option (NdArray 𝕜)) (ws' : Weights 𝕜)
    (hws : arraysInit weights = .ok ws') (hfit' : ws'.Fits n) (hsame : ws'.matrix n = ws.matrix n) :
    ∃ (pod : PodResult 𝕜 n m) (U : Matrix (Fin n) (Fin res.decomp.r) 𝕜),
      podDirect lib X none ws (some t) rtol = .ok pod ∧ pod.modes = ⟨res.decomp.r, U⟩ ∧
      ∀ (flag : Bool) (g : GalerkinArrays 𝕜 n res.decomp.r) (calls : List (ArraysCall 𝕜 n)),
        galerkinArraysInit false U none flag weights = .ok g →
      ∀ (q p : Nat) (B : Matrix (Fin n) (Fin q) 𝕜) (M : Matrix (Fin p) (Fin res.decomp.r) 𝕜),
      ∃ (a : Matrix (Fin res.decomp.r) (Fin res.decomp.r) 𝕜) (b : Matrix (Fin res.decomp.r) (Fin q) 𝕜),
        (galerkinModelArrays (calls.foldl ArraysCall.after g) (A * U) B (.rows p _ M)).1 =
          .ok (some ⟨_, a⟩, some ⟨q, b⟩, some ⟨p, _, M⟩) ∧
        ∃ proj adjoint, Chosen proj modeIndices res.projModes ∧ Chosen adjoint modeIndices res.adjointModes ∧
          ModesOfModel U a res.decomp.eigvals proj adjoint := by
  obtain ⟨hc, hLR, ho⟩ := dmdDirectPairs_ok lib eig modeIndices ws t rtol none hfit hchol ht hr hlib X Y res hres heig
  obtain ⟨pod, h1, h2⟩ := dmdDirectPairs_pod lib eig modeIndices ws rtol hfit hchol hlib hres hc.pos
  rw [← hsame] at ho hc
  exact ⟨pod, _, h1, h2, ho.modesOfBasis modeIndices weights ws' hc (hLR hinj) hws hfit' A hA rfl⟩

/-- **C137** for the direct methods of POD and DMD and sequential data. -/
theorem C137_direct_sequential (ht : 0 ≤ t) (hr : ∀ t ∈ rtol, 0 ≤ t) (hfit : ws.Fits n)
    (hchol : ∀ p q w, ws = .d2 p q w → IsCholesky lib.cholesky (ws.matrix n)) (hlib : ∀ a, IsSvd a (lib.svd a))
    (Z : Matrix (Fin n) (Fin (m + 1)) 𝕜) (res : DmdResult 𝕜 n m)
    (hres : dmdDirectSeq lib eig Z modeIndices ws (some t) rtol none = .ok res)
    (heig : EigOfReduced eig (ws.matrix n) (seqFirst Z) (seqNext Z) res.decomp) (hinj : Function.Injective res.decomp.eigvals)
    (A : Matrix (Fin n) (Fin n) 𝕜) (hA : A * seqFirst Z = seqNext Z) (weights : Option (NdArray 𝕜)) (ws' : Weights 𝕜)
    (hws : arraysInit weights = .ok ws') (hfit' : ws'.Fits n) (hsame : ws'.matrix n = ws.matrix n) :
    ∃ (pod : PodResult 𝕜 n m) (U : Matrix (Fin n) (Fin res.decomp.r) 𝕜),
      podDirect lib (seqFirst Z) none ws (some t) rtol = .ok pod ∧ pod.modes = ⟨res.decomp.r, U⟩ ∧
      ∀ (flag : Bool) (g : GalerkinArrays 𝕜 n res.decomp.r) (calls : List (ArraysCall 𝕜 n)),
        galerkinArraysInit false U none flag weights = .ok g →
      ∀ (q p : Nat) (B : Matrix (Fin n) (Fin q) 𝕜) (M : Matrix (Fin p) (Fin res.decomp.r) 𝕜),
      ∃ (a : Matrix (Fin res.decomp.r) (Fin res.decomp.r) 𝕜) (b : Matrix (Fin res.decomp.r) (Fin q) 𝕜),
        (galerkinModelArrays (calls.foldl ArraysCall.after g) (A * U) B (.rows p _ M)).1 =
          .ok (some ⟨_, a⟩, some ⟨q, b⟩, some ⟨p, _, M⟩) ∧
        ∃ proj adjoint, Chosen proj modeIndices res.projModes ∧ Chosen adjoint modeIndices res.adjointModes ∧
          ModesOfModel U a res.decomp.eigvals proj adjoint := by
  obtain ⟨hc, hLR, ho⟩ := dmdDirectSeq_ok lib eig modeIndices ws t rtol none hfit hchol ht hr hlib Z res hres _ _ rfl rfl heig
  obtain ⟨pod, h1, h2⟩ := dmdDirectSeq_pod lib eig modeIndices ws rtol hfit hchol hlib hres hc.pos
  rw [← hsame] at ho hc
  exact ⟨pod, _, h1, h2, ho.modesOfBasis modeIndices weights ws' hc (hLR hinj) hws hfit' A hA rfl⟩

end Direct

section Handles

variable {E : Type*} [AddCommGroup E] [Module 𝕜 E] (lib : DmdLib 𝕜) (ip : E →ₗ⋆[𝕜] E →ₗ[𝕜] 𝕜) (t : ℝ) (rtol : Option ℝ)

theorem DmdCore.modesOfModel {m : Nat} {X Y : Fin m → E} {d : DmdDecomp 𝕜 m} (hc : DmdCore (gram ip X X) (gram ip X Y) d)
    (hLR : d.Lᴴ * d.R = 1) (hm : 0 < m) (hr : 0 < d.r) (F : E →ₗ[𝕜] E) (hF : ∀ j, F (X j) = Y j)
    (he : utilEigh lib.eigh lib.argsort (gram ip X X) (some t) none true = .ok ⟨d.r, d.w, d.V⟩) :
    ∃ (pod : PodHandles 𝕜 E m) (U : Fin d.r → E),
      podHandlesDecomp lib.eigh lib.argsort (fun x y => ip x y) X (some t) none = .ok pod ∧
      (∀ l k modes, podHandlesModes pod l k = .ok modes → ChosenVecs U l modes) ∧
      ∀ (flag : Bool) (G : GalerkinHandles 𝕜 E d.r) (calls : List (HandlesCall 𝕜 E)),
        galerkinHandlesInit (s := d.r) (fun x y => ip x y) U none flag = .ok G →
      ∀ (q k : Nat) (B : Fin q → E) (M : Matrix (Fin d.r) (Fin k) 𝕜), 0 < q →
      ∃ (a : Matrix (Fin d.r) (Fin d.r) 𝕜) (b : Matrix (Fin d.r) (Fin q) 𝕜),
        (galerkinModelHandles (calls.foldl HandlesCall.after G) (fun j => F (U j)) B (.rows d.r k M)).1 =
          .ok (some ⟨_, a⟩, some ⟨q, b⟩, some ⟨k, _, Mᵀ⟩) ∧
        ModesOfVectorModel U a d.eigvals (combine X d.buildProj) (combine X d.buildAdjoint) := by
  set U : Fin d.r → E := combine X (d.V * diagPow (𝕜 := 𝕜) d.w (-0.5)) with hU
  have hG : handlesIp (fun x y => ip x y) U U = 1 := by
    rw [hU, handlesIp_combine, conjTranspose_mul, diagPow_conjTranspose]
    calc diagPow (𝕜 := 𝕜) d.w (-0.5) * d.Vᴴ * gram ip X X * (d.V * diagPow (𝕜 := 𝕜) d.w (-0.5))
        = diagPow (𝕜 := 𝕜) d.w (-0.5) * (d.Vᴴ * (gram ip X X * d.V)) * diagPow (𝕜 := 𝕜) d.w (-0.5) := by
          simp only [Matrix.mul_assoc]
      _ = 1 := by
        rw [hc.eigen, ← Matrix.mul_assoc d.Vᴴ, hc.orth, Matrix.one_mul, diagPow_mul _ hc.pos, diagPow_mul _ hc.pos,
          show (-0.5 + 1 + -0.5 : ℝ) = 0 by norm_num, diagPow_zero]
  have hFU : (fun j => F (U j)) = combine Y (d.V * diagPow (𝕜 := 𝕜) d.w (-0.5)) := by
    funext j
    rw [hU, map_combine]
    simp only [hF]
  have hK : handlesIp (fun x y => ip x y) U (fun j => F (U j)) =
      lowOrderMap (diagPow (𝕜 := 𝕜) d.w (-0.5)) d.V (gram ip X Y) := by
    rw [hFU, hU, handlesIp_combine, conjTranspose_mul, diagPow_conjTranspose]
    unfold lowOrderMap
    simp only [Matrix.mul_assoc]
    rfl
  have hpod : podHandlesDecomp lib.eigh lib.argsort (fun x y => ip x y) X (some t) none =
      .ok ⟨X, handlesSymmIp (fun x y => ip x y) X, d.r, d.w, d.V⟩ := by
    unfold podHandlesDecomp
    rw [if_neg (by omega)]
    dsimp only
    rw [show handlesSymmIp (fun x y => ip x y) X = gram ip X X from rfl, he]
  refine ⟨_, U, hpod, fun l k modes hmodes => ?_, ?_⟩
  · obtain ⟨sel, h1, h2, h3⟩ := podHandlesModes_cases _ l k modes hmodes
    exact ⟨h1, sel, h2, h3⟩
  intro flag G calls hg q k B M hq
  obtain ⟨hA', hB', -⟩ := C38_handles (fun x y => ip x y) U none flag G calls hr hg
  obtain ⟨m1, -⟩ := C38_handles_model (fun x y => ip x y) U none flag G calls hr hg hq (fun j => F (U j)) B (.rows d.r k M)
  have hH : Undoes flag (handlesIp (fun x y => ip x y) U U) 1 := ⟨by rw [hG, Matrix.one_mul], fun _ => hG⟩
  have ha := (hA' _ (fun j => F (U j)) hr).undone hH
  rw [Matrix.one_mul] at ha
  refine ⟨_, _, m1 _ _ (ha.trans (congrArg Except.ok hK)) ((hB' q B hq).undone hH), roots_of_eigenvectors hc.right hLR,
    _, _, hc.right, hc.left, hLR, fun j => ?_, fun j => ?_⟩
  · change _ = combine U d.R j
    rw [hU, combine_combine]
    unfold DmdDecomp.buildProj
    simp only [Matrix.mul_assoc]
  · change _ = combine U d.L j
    rw [hU, combine_combine]
    unfold DmdDecomp.buildAdjoint
    simp only [Matrix.mul_assoc]

/-- **C137** for `DMDHandles` with pairs of vectors. -/
theorem C137_handles_pairs (g g' : DmdHandles 𝕜 E) (ht : 0 ≤ t) (hlib : lib.Lawful) (hsym : ∀ x y, ip y x = star (ip x y))
    (vecs adv : List E) (hlen : vecs.length = adv.length)
    (hrun : g.computeDecomp lib (fun x y => ip x y) vecs (some adv) (some t) rtol none = (.ok (), g'))
    (d : DmdDecomp 𝕜 vecs.length) (hd : g'.decomp = some ⟨vecs.length, d⟩)
    (heig : EigOfReducedVecs ip lib.eig vecs.get (fun j => adv.get (Fin.cast hlen j)) d)
    (hinj : Function.Injective d.eigvals) (hr : 0 < d.r) (F : E →ₗ[𝕜] E)
    (hF : ∀ j, F (vecs.get j) = adv.get (Fin.cast hlen j)) :
    ∃ (pod : PodHandles 𝕜 E vecs.length) (U : Fin d.r → E),
      podHandlesDecomp lib.eigh lib.argsort (fun x y => ip x y) vecs.get (some t) none = .ok pod ∧
      (∀ l k modes, podHandlesModes pod l k = .ok modes → ChosenVecs U l modes) ∧
      ∀ (flag : Bool) (G : GalerkinHandles 𝕜 E d.r) (calls : List (HandlesCall 𝕜 E)),
        galerkinHandlesInit (s := d.r) (fun x y => ip x y) U none flag = .ok G →
      ∀ (q k : Nat) (B : Fin q → E) (M : Matrix (Fin d.r) (Fin k) 𝕜), 0 < q →
      ∃ (a : Matrix (Fin d.r) (Fin d.r) 𝕜) (b : Matrix (Fin d.r) (Fin q) 𝕜),
        (galerkinModelHandles (calls.foldl HandlesCall.after G) (fun j => F (U j)) B (.rows d.r k M)).1 =
          .ok (some ⟨_, a⟩, some ⟨q, b⟩, some ⟨k, _, Mᵀ⟩) ∧
        ∃ proj adjoint : Fin d.r → E,
          (∀ l num a out g'', (a = none ∨ a = some vecs) → g'.computeProjModes l num a = (.ok out, g'') → ChosenVecs proj l out) ∧
          (∀ l num a out g'', (a = none ∨ a = some vecs) → g'.computeAdjointModes l num a = (.ok out, g'') →
            ChosenVecs adjoint l out) ∧ ModesOfVectorModel U a d.eigvals proj adjoint := by
  obtain ⟨_, d1, hd1, rfl⟩ := computeDecomp_pairs lib _ g g' vecs adv (some t) rtol none hrun
  cases hd
  obtain ⟨hm, hc, hLR⟩ := handles_modes lib ip t none ht hlib hsym hd1 heig
  obtain ⟨-, h2, h3⟩ := state_pairs vecs adv hlen (handlesIp (fun x y => ip x y) vecs.get vecs.get)
    (handlesIp (fun x y => ip x y) vecs.get fun j => adv.get (Fin.cast hlen j)) d
  obtain ⟨pod, U, k1, k2, k3⟩ := hc.modesOfModel lib ip t (hLR hinj) hm hr F hF (dmdEigendecomp_eigh_eq hd1)
  refine ⟨pod, U, k1, k2, fun flag G calls hg q k B M hq => ?_⟩
  obtain ⟨a, b, h4, h5⟩ := k3 flag G calls hg q k B M hq
  exact ⟨a, b, h4, _, _, h2, h3, h5⟩

/-- **C137** for `DMDHandles` with a sequence of vectors. -/
theorem C137_handles_sequential (g g' : DmdHandles 𝕜 E) (ht : 0 ≤ t) (hlib : lib.Lawful) (hsym : ∀ x y, ip y x = star (ip x y))
    (vecs : List E) (hrun : g.computeDecomp lib (fun x y => ip x y) vecs none (some t) rtol none = (.ok (), g'))
    (d : DmdDecomp 𝕜 (vecs.length - 1)) (hd : g'.decomp = some ⟨vecs.length - 1, d⟩)
    (heig : EigOfReducedVecs ip lib.eig (seqVecs vecs) (seqAdvVecs vecs) d)
    (hinj : Function.Injective d.eigvals) (hr : 0 < d.r) (F : E →ₗ[𝕜] E) (hF : ∀ j, F (seqVecs vecs j) = seqAdvVecs vecs j) :
    ∃ (pod : PodHandles 𝕜 E (vecs.length - 1)) (U : Fin d.r → E),
      podHandlesDecomp lib.eigh lib.argsort (fun x y => ip x y) (seqVecs vecs) (some t) none = .ok pod ∧
      (∀ l k modes, podHandlesModes pod l k = .ok modes → ChosenVecs U l modes) ∧
      ∀ (flag : Bool) (G : GalerkinHandles 𝕜 E d.r) (calls : List (HandlesCall 𝕜 E)),
        galerkinHandlesInit (s := d.r) (fun x y => ip x y) U none flag = .ok G →
      ∀ (q k : Nat) (B : Fin q → E) (M : Matrix (Fin d.r) (Fin k) 𝕜), 0 < q →
      ∃ (a : Matrix (Fin d.r) (Fin d.r) 𝕜) (b : Matrix (Fin d.r) (Fin q) 𝕜),
        (galerkinModelHandles (calls.foldl HandlesCall.after G) (fun j => F (U j)) B (.rows d.r k M)).1 =
          .ok (some ⟨_, a⟩, some ⟨q, b⟩, some ⟨k, _, Mᵀ⟩) ∧
        ∃ proj adjoint : Fin d.r → E,
          (∀ l num a out g'', (a = none ∨ a = some vecs) → g'.computeProjModes l num a = (.ok out, g'') → ChosenVecs proj l out) ∧
          (∀ l num a out g'', (a = none ∨ a = some vecs) → g'.computeAdjointModes l num a = (.ok out, g'') →
            ChosenVecs adjoint l out) ∧ ModesOfVectorModel U a d.eigvals proj adjoint := by
  obtain ⟨d1, hd1, rfl⟩ := computeDecomp_seq lib _ g g' vecs (some t) rtol none hrun
  cases hd
  obtain ⟨hm, hc, hLR⟩ := handles_modes lib ip t none ht hlib hsym hd1 heig
  obtain ⟨-, h2, h3⟩ := state_seq vecs (handlesIp (fun x y => ip x y) (seqVecs vecs) (seqVecs vecs))
    (handlesIp (fun x y => ip x y) (seqVecs vecs) (seqAdvVecs vecs)) g.adv d hm
  obtain ⟨pod, U, k1, k2, k3⟩ := hc.modesOfModel lib ip t (hLR hinj) hm hr F hF (dmdEigendecomp_eigh_eq hd1)
  refine ⟨pod, U, k1, k2, fun flag G calls hg q k B M hq => ?_⟩
  obtain ⟨a, b, h4, h5⟩ := k3 flag G calls hg q k B M hq
  exact ⟨a, b, h4, _, _, h2, h3, h5⟩

end Handles

/-! ### Example -/

/-- The sequence of the example, in which each vector is `[[0, -2], [1, 3]]` times the one before. -/
example : ∃ (lib : PodLib ℝ 2 2) (res : DmdResult ℝ 2 2) (corr cross corr' : Matrix (Fin 2) (Fin 2) ℝ) (pod : PodResult ℝ 2 2),
    dmdSnapsSeq lib exampleSeqEig exampleSeq none none (some (1 / 10)) none none = .ok (res, corr, cross) ∧
    podSnaps lib (seqFirst exampleSeq) none none (some (1 / 10)) none = .ok (pod, corr') ∧ res.decomp.r = 2 ∧
    ∃ U : Matrix (Fin 2) (Fin res.decomp.r) ℝ, pod.modes = ⟨res.decomp.r, U⟩ ∧
      ∃ g, galerkinArraysInit false U none true none = .ok g ∧
      ∃ (a : Matrix (Fin res.decomp.r) (Fin res.decomp.r) ℝ) (b : Matrix (Fin res.decomp.r) (Fin 1) ℝ),
        (galerkinModelArrays g ((!![0, -2; 1, 3] : Matrix (Fin 2) (Fin 2) ℝ) * U) (!![1; 5] : Matrix (Fin 2) (Fin 1) ℝ) 
          (.rows 1 res.decomp.r fun _ _ => 7)).1 =
          .ok (some ⟨_, a⟩, some ⟨1, b⟩, some ⟨1, res.decomp.r, fun _ _ => 7⟩) ∧
        ∃ proj adjoint, Chosen proj none res.projModes ∧ Chosen adjoint none res.adjointModes ∧
          ModesOfModel U a res.decomp.eigvals proj adjoint := by
  obtain ⟨lib, res, corr, cross, heigh, hs, hres, hd⟩ := exampleSeq_snaps
  obtain ⟨pod, corr', hpod, U, h1, h2⟩ := C137_snaps_sequential lib exampleSeqEig none none .none (1 / 10) none
    (by norm_num) (by simp) hs rfl trivial isHermitian_one heigh exampleSeq res corr cross hres
    (by rw [hd]; exact exampleSeqDecomp_eig) (by rw [hd]; exact exampleSeqDecomp_distinct.1)
    !![0, -2; 1, 3] (by rw [exampleSeq_first, exampleSeq_next, Matrix.mul_one])
  obtain ⟨g, hg, -⟩ := arraysInv_init U none true none .none rfl
  exact ⟨lib, res, corr, cross, corr', pod, hres, hpod, by rw [hd]; rfl, U, h1, g, hg, h2 true g [] hg 1 1 _ _⟩

/-- The direct methods for the same sequence. -/
example : ∃ (lib : PodLib ℝ 2 2) (res : DmdResult ℝ 2 2) (pod : PodResult ℝ 2 2) (U : Matrix (Fin 2) (Fin res.decomp.r) ℝ),
    dmdDirectSeq lib exampleSeqEig exampleSeq none .none (some (1 / 10)) none none = .ok res ∧
    podDirect lib (seqFirst exampleSeq) none .none (some (1 / 10)) none = .ok pod ∧ pod.modes = ⟨res.decomp.r, U⟩ ∧
      ∃ g, galerkinArraysInit false U none true none = .ok g ∧
      ∃ (a : Matrix (Fin res.decomp.r) (Fin res.decomp.r) ℝ) (b : Matrix (Fin res.decomp.r) (Fin 1) ℝ),
        (galerkinModelArrays g ((!![0, -2; 1, 3] : Matrix (Fin 2) (Fin 2) ℝ) * U) (!![1; 5] : Matrix (Fin 2) (Fin 1) ℝ)
          (.rows 1 res.decomp.r fun _ _ => 7)).1 =
          .ok (some ⟨_, a⟩, some ⟨1, b⟩, some ⟨1, res.decomp.r, fun _ _ => 7⟩) ∧
        ∃ proj adjoint, Chosen proj none res.projModes ∧ Chosen adjoint none res.adjointModes ∧
          ModesOfModel U a res.decomp.eigvals proj adjoint := by
  obtain ⟨lib, res, hsvd, hres, heig, hinj, -⟩ := exampleSeq_direct
  obtain ⟨pod, U, h1, h2, h3⟩ := C137_direct_sequential lib exampleSeqEig none .none (1 / 10) none (by norm_num) (by simp) trivial
    (by intro p q w h; cases h) hsvd exampleSeq res hres heig hinj !![0, -2; 1, 3]
    (by rw [exampleSeq_first, exampleSeq_next, Matrix.mul_one]) none .none rfl trivial rfl
  obtain ⟨g, hg, -⟩ := arraysInv_init U none true none .none rfl
  exact ⟨lib, res, pod, U, hres, h1, h2, g, hg, h3 true g [] hg 1 1 _ _⟩

/-- The same vectors behind handles: the model for both POD modes has the eigenvalues 1 and 2. -/
example : ∃ (lib : DmdLib ℝ) (g' : DmdHandles ℝ (Fin 2 → ℝ)) (pod : PodHandles ℝ (Fin 2 → ℝ) 2) (U : Fin 2 → Fin 2 → ℝ)
    (G : GalerkinHandles ℝ (Fin 2 → ℝ) 2) (a : Matrix (Fin 2) (Fin 2) ℝ) (b : Matrix (Fin 2) (Fin 1) ℝ),
    DmdHandles.new.computeDecomp lib (fun x y => dotIp x y) exampleVecs none (some (1 / 10)) none none = (.ok (), g') ∧
    podHandlesDecomp lib.eigh lib.argsort (fun x y => dotIp x y) (seqVecs exampleVecs) (some (1 / 10)) none = .ok pod ∧
    (∀ l k modes, podHandlesModes pod l k = .ok modes → ChosenVecs U l modes) ∧
    galerkinHandlesInit (s := 2) (fun x y => dotIp x y) U none false = .ok G ∧
    (galerkinModelHandles G (fun j => (!![0, -2; 1, 3] : Matrix (Fin 2) (Fin 2) ℝ) *ᵥ U j) (fun _ : Fin 1 => ![1, 5])
      (.rows 2 1 fun _ _ => 7)).1 = .ok (some ⟨2, a⟩, some ⟨1, b⟩, some ⟨1, 2, fun _ _ => 7⟩) ∧
    ∃ z : Fin 2 → ℝ, (∀ i, z i = 1 ∨ z i = 2) ∧ Function.Injective z ∧ a.charpoly.roots = Finset.univ.val.map z := by
  obtain ⟨lib, hlaw, heig, hu⟩ := exists_exampleDmdLib
  obtain ⟨g', hrun, hd⟩ := exampleVecs_decomp lib heig hu DmdHandles.new
  obtain ⟨pod, U, h1, h2, h3⟩ := C137_handles_sequential lib dotIp (1 / 10) none DmdHandles.new g' (by norm_num) hlaw dotIp_symm
    exampleVecs hrun exampleSeqDecomp hd (exampleVecs_eig lib heig) exampleSeqDecomp_distinct.1 (by simp [exampleSeqDecomp])
    (!![0, -2; 1, 3] : Matrix (Fin 2) (Fin 2) ℝ).mulVecLin (by
      intro j
      change Fin 2 at j
      ext i
      fin_cases j <;> fin_cases i <;>
        simp [seqVecs, seqAdvVecs, exampleVecs, Matrix.mulVec, dotProduct, Fin.sum_univ_two])
  obtain ⟨-, G, hG⟩ := C38_handles_constructor (fun x y => dotIp x y) U none false (s := 2) U
  obtain ⟨a, b, h4, proj, adjoint, -, -, h5, -⟩ := h3 false G [] hG 1 1 (fun _ => ![1, 5]) (fun _ _ => 7) (by norm_num)
  refine ⟨lib, g', pod, U, G, a, b, hrun, h1, h2, hG, h4, exampleSeqDecomp.eigvals, fun i => ?_, exampleSeqDecomp_distinct.1, h5⟩
  change Fin 2 at i
  fin_cases i <;> simp [exampleSeqDecomp]

end Modred
