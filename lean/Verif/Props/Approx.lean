import Verif.Lemmas.Approx
import Verif.Props.Pod
import Verif.Props.Bpod

/-!
# Decompositions with errors (C67)

Bounds for what is computed from decompositions that are correct only up to errors.
-/

namespace Modred

open Matrix
open scoped ComplexOrder

variable {𝕜 : Type*} [RCLike 𝕜]

/-! ### Proper orthogonal decomposition -/

section Pod

variable {n m : Nat} (lib : PodLib 𝕜 n m) (vecs : Matrix (Fin n) (Fin m) 𝕜)
  (modeIndices : Option (List Int)) (weights : Option (NdArray 𝕜)) (ws : Weights 𝕜) (rtol : Option ℝ)
  {ε η : ℝ}

/-- **C67.** Method of snapshots: if the eigendecomposition of the correlation array has errors `ε` and `η`,
inner products of modes differ from one and zero by at most `ε` over the geometric mean of their
eigenvalues. -/
theorem C67_pod_snaps (t : ℝ) (ht : 0 ≤ t) (hr : ∀ t ∈ rtol, 0 ≤ t) (hs : IsArgsort lib.argsort)
    (hws : arraysInit weights = .ok ws) (hfit : ws.Fits n)
    (hlib : IsEighUpTo ε η (vecsᴴ * ws.matrix n * vecs) (lib.eigh (vecsᴴ * ws.matrix n * vecs)))
    (res : PodResult 𝕜 n m) (corr : Matrix (Fin m) (Fin m) 𝕜)
    (hres : podSnaps lib vecs modeIndices weights (some t) rtol = .ok (res, corr)) :
    ∃ sel : Fin res.modes.k → Fin res.r,
      ModesWithin ε res.eigvals (res.modes.aᴴ * ws.matrix n * res.modes.a) sel sel ∧
      (∀ l, modeIndices = some l → res.modes.k = l.length ∧
        ∀ (i : Fin res.modes.k) (j : Int), l[i.val]? = some j → npAxisIndex res.r j = .ok (sel i)) ∧
      (modeIndices = none → res.modes.k = res.r ∧ ∀ i, (sel i).val = i.val) := by
  obtain ⟨e, c, he, hc, h⟩ := podSnaps_cases lib vecs modeIndices weights ws _ _ hws hfit _ hres
  obtain ⟨rfl, rfl⟩ := Prod.mk.inj h
  obtain ⟨-, hd, -⟩ := utilEigh_within _ _ _ _ _ _ hlib e he
  have hw := C20_positive_partial _ _ _ _ t ht hs hr e he
  obtain ⟨sel, hsel, h1, h2⟩ := pickCols_ok _ _ _ hc
  refine ⟨sel, fun i j => ?_, h1, h2⟩
  have key := scaled_within hw hd (sel i) (sel j)
  refine le_of_eq_of_le ?_ key
  congr 2
  rw [hsel, mul_pick]
  rw [show diagPow (𝕜 := 𝕜) e.w (-0.5) * (e.Vᴴ * (vecsᴴ * ws.matrix n * vecs) * e.V) *
      diagPow (𝕜 := 𝕜) e.w (-0.5) = (vecs * (e.V * diagPow (𝕜 := 𝕜) e.w (-0.5)))ᴴ * ws.matrix n *
        (vecs * (e.V * diagPow (𝕜 := 𝕜) e.w (-0.5))) by
    rw [conjTranspose_mul, conjTranspose_mul, diagPow_conjTranspose]
    simp only [Matrix.mul_assoc]]
  rfl

/-- **C67.** Method of snapshots: all retained eigenvalues are larger than both tolerances, so that inner
products of modes differ from one and zero by at most the error of the decomposition over the absolute
tolerance, and by at most the error relative to any eigenvalue, over the relative tolerance. -/
theorem C67_pod_snaps_tolerances (t : ℝ) (ht : 0 ≤ t) (hr : ∀ t ∈ rtol, 0 ≤ t) (hs : IsArgsort lib.argsort)
    (hws : arraysInit weights = .ok ws) (hfit : ws.Fits n) (hε : 0 ≤ ε)
    (hlib : IsEighUpTo ε η (vecsᴴ * ws.matrix n * vecs) (lib.eigh (vecsᴴ * ws.matrix n * vecs)))
    (res : PodResult 𝕜 n m) (corr : Matrix (Fin m) (Fin m) 𝕜)
    (hres : podSnaps lib vecs none weights (some t) rtol = .ok (res, corr)) (i j : Fin res.modes.k) :
    (0 < t → ‖(res.modes.aᴴ * ws.matrix n * res.modes.a) i j - if i = j then 1 else 0‖ ≤ ε / t) ∧
    ∀ ρ ∈ rtol, ∀ k, 0 < ρ * |(lib.eigh (vecsᴴ * ws.matrix n * vecs)).w k| →
      ‖(res.modes.aᴴ * ws.matrix n * res.modes.a) i j - if i = j then 1 else 0‖ ≤
        ε / (ρ * |(lib.eigh (vecsᴴ * ws.matrix n * vecs)).w k|) := by
  obtain ⟨sel, h1, -, h2⟩ := C67_pod_snaps lib vecs none weights ws rtol t ht hr hs hws hfit hlib res corr hres
  obtain ⟨-, h2⟩ := h2 rfl
  have hij : (if i = j then (1 : 𝕜) else 0) = if sel i = sel j then 1 else 0 := by
    congr 1
    rw [Fin.ext_iff, Fin.ext_iff, h2, h2]
  obtain ⟨e, c, he, hc, h⟩ := podSnaps_cases lib vecs none weights ws _ _ hws hfit _ hres
  obtain ⟨rfl, rfl⟩ := Prod.mk.inj h
  have hlow := utilEigh_lower _ _ _ _ t ht hr hs e he
  rw [hij]
  exact ⟨fun ht' => h1.uniform hε ht' (fun i => (hlow i).1.le) i j,
    fun ρ hρ k hk => h1.uniform hε hk (fun i => ((hlow i).2 ρ hρ k).le) i j⟩

/-- **C67.** Method of snapshots: projection coefficients differ from the inner products of modes and data by
at most `ε` over the square root of the eigenvalue, and energies from eigenvalues by at most the fraction
`η`. -/
theorem C67_pod_snaps_proj_coeffs (t : ℝ) (ht : 0 ≤ t) (hr : ∀ t ∈ rtol, 0 ≤ t)
    (hs : IsArgsort lib.argsort) (hws : arraysInit weights = .ok ws) (hfit : ws.Fits n)
    (hW : (ws.matrix n).IsHermitian)
    (hlib : IsEighUpTo ε η (vecsᴴ * ws.matrix n * vecs) (lib.eigh (vecsᴴ * ws.matrix n * vecs)))
    (res : PodResult 𝕜 n m) (corr : Matrix (Fin m) (Fin m) 𝕜)
    (hres : podSnaps lib vecs none weights (some t) rtol = .ok (res, corr)) :
    ∃ modes : Matrix (Fin n) (Fin res.r) 𝕜, res.modes = ⟨res.r, modes⟩ ∧
      (∀ i j, ‖(modesᴴ * ws.matrix n * vecs) i j - res.projCoeffs i j‖ ≤ ε / Real.sqrt (res.eigvals i)) ∧
      ∀ i, |∑ j, ‖res.projCoeffs i j‖ ^ 2 - res.eigvals i| ≤ η * res.eigvals i := by
  obtain ⟨e, c, he, hc, h⟩ := podSnaps_cases lib vecs none weights ws _ _ hws hfit _ hres
  obtain ⟨rfl, rfl⟩ := Prod.mk.inj h
  cases hc
  obtain ⟨hV, -, hCV⟩ := utilEigh_within _ _ _ _ _ _ hlib e he
  have hw := C20_positive_partial _ _ _ _ t ht hs hr e he
  refine ⟨vecs * (e.V * diagPow (𝕜 := 𝕜) e.w (-0.5)), by dsimp only; rw [Matrix.mul_one], ?_,
    fun i => energy_within hw hV i⟩
  have hC : (vecsᴴ * ws.matrix n * vecs)ᴴ = vecsᴴ * ws.matrix n * vecs := by
    rw [conjTranspose_mul, conjTranspose_mul, conjTranspose_conjTranspose, hW.eq, Matrix.mul_assoc]
  have h1 := hCV.conjTranspose
  rw [conjTranspose_mul, conjTranspose_mul e.V, hC, diagonal_real_conjTranspose] at h1
  intro i j
  refine le_of_eq_of_le ?_ (scaled_left_within hw h1 i j)
  dsimp only
  congr 2
  rw [conjTranspose_mul, conjTranspose_mul, diagPow_conjTranspose]
  simp only [Matrix.mul_assoc]

end Pod

section PodHandles

variable {E : Type*} [AddCommGroup E] [Module 𝕜 E] {m : Nat} (eigh : Matrix (Fin m) (Fin m) 𝕜 → EighOut 𝕜 m)
  (argsort : (Fin m → ℝ) → Equiv.Perm (Fin m)) (ip : E →ₗ⋆[𝕜] E →ₗ[𝕜] 𝕜) (vecs : Fin m → E)
  (rtol : Option ℝ) {ε η : ℝ}

/-- **C67.** The modes put by `PODHandles.compute_modes`, and the coefficients returned by
`compute_proj_coeffs`. -/
theorem C67_pod_handles (t : ℝ) (ht : 0 ≤ t) (hr : ∀ t ∈ rtol, 0 ≤ t) (hs : IsArgsort argsort)
    (hlib : IsEighUpTo ε η (handlesSymmIp (fun x y => ip x y) vecs)
      (eigh (handlesSymmIp (fun x y => ip x y) vecs)))
    (pod : PodHandles 𝕜 E m)
    (hpod : podHandlesDecomp eigh argsort (fun x y => ip x y) vecs (some t) rtol = .ok pod)
    (l : List Int) (k : Nat) (modes : Vecs E) (hmodes : podHandlesModes pod l k = .ok modes) :
    modes.k = l.length ∧ ∃ sel : Fin modes.k → Fin pod.r,
      (∀ (i : Fin modes.k) (j : Int), l[i.val]? = some j → npAxisIndex pod.r j = .ok (sel i)) ∧
      ModesWithin ε pod.eigvals (fun a b => ip (modes.v a) (modes.v b)) sel sel ∧
      (∀ i, t < pod.eigvals i ∧
        ∀ ρ ∈ rtol, ∀ k, ρ * |(eigh (handlesSymmIp (fun x y => ip x y) vecs)).w k| < pod.eigvals i) ∧
      ((∀ x y, ip y x = star (ip x y)) → ∀ i j,
        ‖ip (modes.v i) (vecs j) - podHandlesProjCoeffs pod (sel i) j‖ ≤
          ε / Real.sqrt (pod.eigvals (sel i))) ∧
      ∀ i, |∑ j, ‖podHandlesProjCoeffs pod i j‖ ^ 2 - pod.eigvals i| ≤ η * pod.eigvals i := by
  obtain ⟨sel, h1, h2, h3⟩ := podHandlesModes_cases pod l k modes hmodes
  obtain ⟨e, he, rfl⟩ := podHandlesDecomp_cases eigh argsort ip vecs _ _ pod hpod
  obtain ⟨hV, hd, hCV⟩ := utilEigh_within _ _ _ _ _ _ hlib e he
  have hw := C20_positive_partial _ _ _ _ t ht hs hr e he
  have h4 : handlesSymmIp (fun x y => ip x y) vecs = handlesIp (fun x y => ip x y) vecs vecs := rfl
  refine ⟨h1, sel, h2, fun a b => ?_, utilEigh_lower _ _ _ _ t ht hr hs e he, fun hsymm i j => ?_,
    fun i => energy_within hw hV i⟩
  · refine le_of_eq_of_le ?_ (scaled_within hw hd (sel a) (sel b))
    congr 2
    rw [show diagPow (𝕜 := 𝕜) e.w (-0.5) * (e.Vᴴ * handlesSymmIp (fun x y => ip x y) vecs * e.V) *
        diagPow (𝕜 := 𝕜) e.w (-0.5) = (e.V * diagPow (𝕜 := 𝕜) e.w (-0.5))ᴴ *
          handlesSymmIp (fun x y => ip x y) vecs * (e.V * diagPow (𝕜 := 𝕜) e.w (-0.5)) by
      rw [conjTranspose_mul, diagPow_conjTranspose]
      simp only [Matrix.mul_assoc]]
    dsimp only
    rw [h4, ← handlesIp_combine, h3, h3]
    rfl
  · have hC : (handlesSymmIp (fun x y => ip x y) vecs)ᴴ = handlesSymmIp (fun x y => ip x y) vecs := by
      ext i j
      exact (hsymm _ _).symm
    have h5 := hCV.conjTranspose
    rw [conjTranspose_mul, conjTranspose_mul e.V, hC, diagonal_real_conjTranspose] at h5
    refine le_of_eq_of_le ?_ (scaled_left_within hw h5 (sel i) j)
    congr 2
    rw [← Matrix.mul_assoc, ← diagPow_conjTranspose, ← conjTranspose_mul, h4, ← handlesIp_combine_left, h3]
    rfl

end PodHandles

/-! ### Balanced proper orthogonal decomposition -/

section Bpod

variable {n md ma : Nat} (svd : Matrix (Fin ma) (Fin md) 𝕜 → SvdOut 𝕜 ma md) (X : Matrix (Fin n) (Fin md) 𝕜)
  (Y : Matrix (Fin n) (Fin ma) 𝕜) (p q : Nat) (idxD idxA : Option (List Int)) (weights : Option (NdArray 𝕜))
  (ws : Weights 𝕜) (atol rtol : Option ℝ) {ε η : ℝ}

/-- **C67.** If the singular value decomposition of the Hankel array has errors `ε` and `η`, inner products of
adjoint with direct modes differ from one and zero by at most `ε` over the geometric mean of their singular
values, and projection coefficients from inner products by at most `ε` over the square root of the singular
value. -/
theorem C67_bpod_arrays (hws : arraysInit weights = .ok ws) (hfit : ws.Fits n) (res : BpodResult 𝕜 n md ma)
    (hres : bpodArrays svd X Y p q idxD idxA weights atol rtol = .ok res)
    (hlib : IsSvdUpTo ε η res.hankel (svd res.hankel)) (hS : ∀ i, 0 < res.singVals i)
    (hH : res.hankel = Yᴴ * ws.matrix n * X) :
    ∃ Φ Ψ : Matrix (Fin n) (Fin res.r) 𝕜, Chosen Φ idxD res.directModes ∧ Chosen Ψ idxA res.adjointModes ∧
      ModesWithin ε res.singVals (Ψᴴ * ws.matrix n * Φ) id id ∧
      (∀ i j, ‖(Ψᴴ * ws.matrix n * X) i j - res.directProjCoeffs i j‖ ≤ ε / Real.sqrt (res.singVals i)) ∧
      ((ws.matrix n).IsHermitian → ∀ i j, ‖(Φᴴ * ws.matrix n * Y) i j - res.adjointProjCoeffs i j‖ ≤
        ε / Real.sqrt (res.singVals i)) ∧
      (∀ i, |∑ j, ‖res.directProjCoeffs i j‖ ^ 2 - res.singVals i| ≤ η * res.singVals i) ∧
      ∀ i, |∑ j, ‖res.adjointProjCoeffs i j‖ ^ 2 - res.singVals i| ≤ η * res.singVals i := by
  obtain ⟨rows, s, dm, am, -, -, hs, hdm, ham, rfl⟩ :=
    bpodArrays_cases svd X Y p q idxD idxA weights ws _ _ hws hfit res hres
  dsimp only at hlib hH hS ⊢
  generalize ofRows ma md rows = H at *
  obtain ⟨hU, hV, hd, hHV, hHU⟩ := utilSvd_within svd H _ _ hlib s hs
  refine ⟨X * (s.V * diagPow (𝕜 := 𝕜) s.S (-0.5)), Y * (s.U * diagPow (𝕜 := 𝕜) s.S (-0.5)),
    linCombineArrays_ok _ _ _ _ hdm, linCombineArrays_ok _ _ _ _ ham, fun i j => ?_, fun i j => ?_,
    fun hW i j => ?_, fun i => energy_within hS hV i, fun i => energy_within hS hU i⟩
  · refine le_of_eq_of_le ?_ (scaled_within hS hd i j)
    congr 2
    rw [hH, conjTranspose_mul, conjTranspose_mul, diagPow_conjTranspose]
    simp only [Matrix.mul_assoc]
  · have h1 := hHU.conjTranspose
    rw [conjTranspose_mul, conjTranspose_conjTranspose, conjTranspose_mul, diagonal_real_conjTranspose] at h1
    refine le_of_eq_of_le ?_ (scaled_left_within hS h1 i j)
    congr 2
    rw [hH, conjTranspose_mul, conjTranspose_mul, diagPow_conjTranspose]
    simp only [Matrix.mul_assoc]
  · have h1 := hHV.conjTranspose
    rw [conjTranspose_mul, conjTranspose_mul, diagonal_real_conjTranspose] at h1
    refine le_of_eq_of_le ?_ (scaled_left_within hS h1 i j)
    congr 2
    rw [hH, conjTranspose_mul (Yᴴ * ws.matrix n), conjTranspose_mul Yᴴ, conjTranspose_conjTranspose, hW.eq,
      conjTranspose_mul X, conjTranspose_mul s.V, diagPow_conjTranspose]
    simp only [Matrix.mul_assoc]

/-- **C67.** All retained singular values are larger than both tolerances. -/
theorem C67_bpod_tolerances (hr : ∀ t ∈ rtol, 0 ≤ t) (hws : arraysInit weights = .ok ws)
    (hfit : ws.Fits n) (res : BpodResult 𝕜 n md ma)
    (hres : bpodArrays svd X Y p q idxD idxA weights atol rtol = .ok res)
    (hlib : IsSvdUpTo ε η res.hankel (svd res.hankel)) (i : Fin res.r) :
    (∀ t ∈ atol, t < res.singVals i) ∧ ∀ ρ ∈ rtol, ∀ k, ρ * (svd res.hankel).S k < res.singVals i := by
  obtain ⟨rows, s, dm, am, -, -, hs, hdm, ham, rfl⟩ :=
    bpodArrays_cases svd X Y p q idxD idxA weights ws _ _ hws hfit res hres
  exact utilSvd_lower svd _ _ _ hlib.nonneg hlib.sorted hr s hs i

end Bpod

section BpodHandles

variable {E : Type*} {md ma : Nat} (X : Fin md → E) (Y : Fin ma → E) (p q : Nat)
  (svd : Matrix (Fin (ma / q * q)) (Fin (md / p * p)) 𝕜 → SvdOut 𝕜 (ma / q * q) (md / p * p))
  (atol rtol : Option ℝ) [AddCommGroup E] [Module 𝕜 E] {ε η : ℝ}

/-- **C67.** The modes put by `compute_direct_modes` and `compute_adjoint_modes` of `BPODHandles`, and the
projection coefficients. -/
theorem C67_bpod_handles (ip : E →ₗ⋆[𝕜] E →ₗ[𝕜] 𝕜) (hr : ∀ t ∈ rtol, 0 ≤ t)
    (b : BpodHandles 𝕜 E md ma (ma / q * q) (md / p * p))
    (hb : bpodHandlesDecomp (fun x y => ip x y) X Y p q svd atol rtol = .ok b)
    (hlib : IsSvdUpTo ε η b.hankel (svd b.hankel)) (hS : ∀ i, 0 < b.singVals i)
    (hH : ∀ (i : Fin (ma / q * q)) (j : Fin (md / p * p)) (i' : Fin ma) (j' : Fin md), i'.val = i.val →
      j'.val = j.val → b.hankel i j = ip (Y i') (X j'))
    (lD lA : List Int) (kD kA : Nat) (direct adjoint : Vecs E)
    (hD : bpodHandlesDirectModes b lD kD = .ok direct) (hA : bpodHandlesAdjointModes b lA kA = .ok adjoint) :
    direct.k = lD.length ∧ adjoint.k = lA.length ∧
    ∃ (selD : Fin direct.k → Fin b.r) (selA : Fin adjoint.k → Fin b.r),
      (∀ (i : Fin direct.k) (j : Int), lD[i.val]? = some j → npAxisIndex b.r j = .ok (selD i)) ∧
      (∀ (i : Fin adjoint.k) (j : Int), lA[i.val]? = some j → npAxisIndex b.r j = .ok (selA i)) ∧
      ModesWithin ε b.singVals (fun i j => ip (adjoint.v i) (direct.v j)) selA selD ∧
      (∀ i, (∀ t ∈ atol, t < b.singVals i) ∧ ∀ ρ ∈ rtol, ∀ k, ρ * (svd b.hankel).S k < b.singVals i) ∧
      (∀ i j j', j'.val = j.val →
        ‖ip (adjoint.v i) (X j') - bpodHandlesDirectProjCoeffs b (selA i) j‖ ≤
          ε / Real.sqrt (b.singVals (selA i))) ∧
      ((∀ x y, ip y x = star (ip x y)) → ∀ i j j', j'.val = j.val →
        ‖ip (direct.v i) (Y j') - bpodHandlesAdjointProjCoeffs b (selD i) j‖ ≤
          ε / Real.sqrt (b.singVals (selD i))) := by
  obtain ⟨hmd, h1, selD, h2, h3⟩ := linCombineSized_ok _ _ _ _ _ hD
  obtain ⟨hma, h4, selA, h5, h6⟩ := linCombineSized_ok _ _ _ _ _ hA
  obtain ⟨rows, s, hrows, hs, rfl⟩ := bpodHandlesDecomp_cases X Y p q svd _ rtol _ b hb
  dsimp only at *
  generalize ofRows (ma / q * q) (md / p * p) rows = H at *
  have hH' : H = handlesIp (fun x y => ip x y) (fun k => Y (Fin.cast hma k)) (fun k => X (Fin.cast hmd k)) := by
    ext i j
    exact hH i j _ _ rfl rfl
  obtain ⟨-, -, hd, hHV, hHU⟩ := utilSvd_within svd H _ _ hlib s hs
  refine ⟨h1, h4, selD, selA, h2, h5, fun i j => ?_,
    utilSvd_lower svd _ _ _ hlib.nonneg hlib.sorted hr s hs, fun i j j' hj => ?_, fun hsymm i j j' hj => ?_⟩
  · refine le_of_eq_of_le ?_ (scaled_within hS hd (selA i) (selD j))
    congr 2
    rw [show diagPow (𝕜 := 𝕜) s.S (-0.5) * (s.Uᴴ * H * s.V) * diagPow (𝕜 := 𝕜) s.S (-0.5) =
        (s.U * diagPow (𝕜 := 𝕜) s.S (-0.5))ᴴ * H * (s.V * diagPow (𝕜 := 𝕜) s.S (-0.5)) by
      rw [conjTranspose_mul, diagPow_conjTranspose]
      simp only [Matrix.mul_assoc]]
    dsimp only
    rw [hH', ← handlesIp_combine, h6, h3]
    rfl
  · have h7 := hHU.conjTranspose
    rw [conjTranspose_mul, conjTranspose_conjTranspose, conjTranspose_mul, diagonal_real_conjTranspose] at h7
    refine le_of_eq_of_le ?_ (scaled_left_within hS h7 (selA i) j)
    congr 2
    rw [← Matrix.mul_assoc, ← diagPow_conjTranspose, ← conjTranspose_mul, hH', ← handlesIp_combine_left, h6]
    have : j' = Fin.cast hmd j := Fin.ext hj
    rw [this]
    rfl
  · have hHs : Hᴴ = handlesIp (fun x y => ip x y) (fun k => X (Fin.cast hmd k)) (fun k => Y (Fin.cast hma k)) := by
      rw [hH']
      ext i j
      exact (hsymm _ _).symm
    have h7 := hHV.conjTranspose
    rw [conjTranspose_mul, conjTranspose_mul, diagonal_real_conjTranspose] at h7
    refine le_of_eq_of_le ?_ (scaled_left_within hS h7 (selD i) j)
    congr 2
    rw [← Matrix.mul_assoc, ← diagPow_conjTranspose, ← conjTranspose_mul, hHs, ← handlesIp_combine_left, h3]
    have : j' = Fin.cast hma j := Fin.ext hj
    rw [this]
    rfl

end BpodHandles

/-! ### Biorthogonal eigenvectors -/

section Eig

variable {n : Nat} (lib : Matrix (Fin n) (Fin n) 𝕜 → EigOut 𝕜 n) (a : Matrix (Fin n) (Fin n) 𝕜) {ε : ℝ}

/-- The entries of `L^* R` after scaling. -/
theorem eigBiorthog_product (choice : List Char) (w : Fin n → 𝕜) (R L : Matrix (Fin n) (Fin n) 𝕜)
    (hres : eigBiorthog lib a choice = .ok (w, R, L)) :
    w = (lib a).w ∧ ((∀ i j, (Lᴴ * R) i j = ((lib a).Lᴴ * (lib a).R) i j / ((lib a).Lᴴ * (lib a).R) i i) ∨
      ∀ i j, (Lᴴ * R) i j = ((lib a).Lᴴ * (lib a).R) i j / ((lib a).Lᴴ * (lib a).R) j j) := by
  unfold eigBiorthog at hres
  dsimp only at hres
  generalize lib a = o at *
  split at hres
  · cases hres
    refine ⟨rfl, Or.inl fun i j => ?_⟩
    rw [Matrix.mul_apply, Matrix.mul_apply (M := o.Lᴴ) (N := o.R) (i := i) (k := j)]
    simp only [conjTranspose_apply, of_apply, star_div₀, star_star, diag_apply]
    rw [Finset.sum_div]
    exact Finset.sum_congr rfl fun k _ => by ring
  · split at hres
    · cases hres
      refine ⟨rfl, Or.inr fun i j => ?_⟩
      rw [Matrix.mul_apply, Matrix.mul_apply (M := o.Lᴴ) (N := o.R) (i := i) (k := j)]
      simp only [of_apply, diag_apply]
      rw [Finset.sum_div]
      exact Finset.sum_congr rfl fun k _ => by ring
    · cases hres

/-- **C67.** Whatever the library returns, as long as no pair of left and right eigenvectors is orthogonal,
`util.eig_biorthog` returns pairs with inner product one. -/
theorem C67_eig_biorthog_diagonal (choice : List Char) (w : Fin n → 𝕜) (R L : Matrix (Fin n) (Fin n) 𝕜)
    (hres : eigBiorthog lib a choice = .ok (w, R, L)) (i : Fin n)
    (h : ((lib a).Lᴴ * (lib a).R) i i ≠ 0) : (Lᴴ * R) i i = 1 := by
  obtain ⟨-, hp | hp⟩ := eigBiorthog_product lib a choice w R L hres <;> rw [hp, div_self h]

/-- **C67.** Inner products of left and right eigenvectors for different eigenvalues differ from zero by at
most twice the error of the decomposition, over the distance of the eigenvalues and the smallest inner product
of a pair before scaling. -/
theorem C67_eig_biorthog_offdiagonal (h : IsEigUpTo ε a (lib a)) (choice : List Char) (w : Fin n → 𝕜)
    (R L : Matrix (Fin n) (Fin n) 𝕜) (hres : eigBiorthog lib a choice = .ok (w, R, L)) (c : ℝ) (hc : 0 < c)
    (hscale : ∀ i, c ≤ ‖((lib a).Lᴴ * (lib a).R) i i‖) (i j : Fin n) (hij : w i ≠ w j) :
    ‖(Lᴴ * R) i j‖ ≤ 2 * ε / (‖w i - w j‖ * c) := by
  obtain ⟨rfl, hp⟩ := eigBiorthog_product lib a choice w R L hres
  generalize lib a = o at *
  have hpos : 0 < ‖o.w i - o.w j‖ := norm_pos_iff.mpr (sub_ne_zero.mpr hij)
  have h1 := h.right i j
  have h2 := h.left i j
  rw [← Matrix.mul_assoc o.Lᴴ o.R, mul_diagonal, ← Matrix.mul_assoc] at h1
  rw [Matrix.mul_assoc (diagonal o.w), diagonal_mul] at h2
  have h3 : ‖(o.w i - o.w j) * (o.Lᴴ * o.R) i j‖ ≤ 2 * ε := by
    rw [show (o.w i - o.w j) * (o.Lᴴ * o.R) i j = ((o.Lᴴ * a * o.R) i j - (o.Lᴴ * o.R) i j * o.w j) -
      ((o.Lᴴ * a * o.R) i j - o.w i * (o.Lᴴ * o.R) i j) by ring]
    linarith [norm_sub_le ((o.Lᴴ * a * o.R) i j - (o.Lᴴ * o.R) i j * o.w j)
      ((o.Lᴴ * a * o.R) i j - o.w i * (o.Lᴴ * o.R) i j)]
  rw [norm_mul] at h3
  have h4 : ‖(o.Lᴴ * o.R) i j‖ ≤ 2 * ε / ‖o.w i - o.w j‖ := by
    rw [le_div_iff₀ hpos, mul_comm]
    exact h3
  have h5 : ∀ k, ‖(o.Lᴴ * o.R) i j / (o.Lᴴ * o.R) k k‖ ≤ 2 * ε / (‖o.w i - o.w j‖ * c) := by
    intro k
    rw [norm_div, ← div_div]
    exact div_le_div₀ ((norm_nonneg _).trans h4) h4 hc (hscale k)
  rcases hp with hp | hp <;> rw [hp] <;> exact h5 _

end Eig

/-! ### Exact decompositions, and how sharp the bounds are -/

/-- Exact decompositions have errors zero. -/
theorem IsEigh.upTo {n : Nat} {a : Matrix (Fin n) (Fin n) 𝕜} {o : EighOut 𝕜 n} (h : IsEigh a o) :
    IsEighUpTo 0 0 a o where
  orthonormal := .of_eq h.orthonormal
  diagonalizes := .of_eq (by rw [Matrix.mul_assoc, h.eigen, ← Matrix.mul_assoc, h.orthonormal, Matrix.one_mul])
  eigen := .of_eq h.eigen

theorem IsSvd.upTo {m n : Nat} {a : Matrix (Fin m) (Fin n) 𝕜} {o : SvdOut 𝕜 m n} (h : IsSvd a o) :
    IsSvdUpTo 0 0 a o where
  left := .of_eq h.left
  right := .of_eq h.right
  diagonalizes := .of_eq (by rw [Matrix.mul_assoc, h.mul_right, ← Matrix.mul_assoc, h.left, Matrix.one_mul])
  mul_right := .of_eq h.mul_right
  mul_left := .of_eq h.mul_left
  nonneg := h.nonneg
  sorted := h.sorted

/-- **C67.** The bound is attained: for any error `ε` and eigenvalue `c` that is not smaller, and any smaller
tolerance, there are a handle and an eigendecomposition with error `ε` and eigenvalue `c`, such that the
squared norm of the mode differs from one by `ε / c`.  So the tolerance has to be large compared to the errors
of the eigendecomposition. -/
theorem C67_bound_attained (c ε t : ℝ) (hε : 0 ≤ ε) (hc : ε ≤ c) (ht : 0 ≤ t) (htc : t < c) :
    ∃ (eigh : Matrix (Fin 1) (Fin 1) ℝ → EighOut ℝ 1) (vecs : Fin 1 → ℝ) (pod : PodHandles ℝ ℝ 1) (modes : Vecs ℝ),
      IsEighUpTo ε 0 (handlesSymmIp (fun x y => LinearMap.mul ℝ ℝ x y) vecs)
        (eigh (handlesSymmIp (fun x y => LinearMap.mul ℝ ℝ x y) vecs)) ∧
      podHandlesDecomp eigh (fun x => Tuple.sort x) (fun x y => LinearMap.mul ℝ ℝ x y) vecs (some t) none =
        .ok pod ∧
      podHandlesModes pod [0] 1 = .ok modes ∧ modes.k = 1 ∧ (∀ i, pod.eigvals i = c) ∧
      ∀ a, |LinearMap.mul ℝ ℝ (modes.v a) (modes.v a) - 1| = ε / c := by
  have hc0 : 0 < c := lt_of_le_of_lt ht htc
  set o : EighOut ℝ 1 := ⟨fun _ => c, 1⟩ with ho
  set vecs : Fin 1 → ℝ := fun _ => Real.sqrt (c - ε) with hvecs
  set C := handlesSymmIp (fun x y => LinearMap.mul ℝ ℝ x y) vecs with hC
  have hentry : ∀ i j, C i j = c - ε := by
    intro i j
    show Real.sqrt (c - ε) * Real.sqrt (c - ε) = c - ε
    exact Real.mul_self_sqrt (by linarith)
  obtain ⟨e, he⟩ := C20_no_error (fun _ => o) (fun x => Tuple.sort x) C none true t (by norm_num)
  obtain ⟨p, hp, hle, hk, hv⟩ := C20_kept_iff _ _ _ _ _ _ (sort_isArgsort 1) (by simp) e he
  have h0 : 0 < e.r := by
    refine (hk 0).mpr ⟨⟨fun s hs => ?_, by simp⟩, fun _ j hj => ?_⟩
    · obtain rfl := Option.some.inj hs
      show t < |c|
      rwa [abs_of_pos hc0]
    · exact absurd hj (not_lt.mpr hc0.le)
  have h1 : ∀ i, e.w i = c ∧ ∀ k, e.V k i = 1 := by
    intro i
    obtain ⟨h1, h2⟩ := hv i ⟨i.val, by have := i.isLt; omega⟩ rfl
    refine ⟨h1, fun k => (h2 k).trans ?_⟩
    rw [ho, Subsingleton.elim k (p _)]
    exact one_apply_eq _
  have h2 : podHandlesDecomp (fun _ => o) (fun x => Tuple.sort x) (fun x y => LinearMap.mul ℝ ℝ x y) vecs
      (some t) none = .ok ⟨vecs, C, e.r, e.w, e.V⟩ := by
    unfold podHandlesDecomp
    rw [if_neg (by norm_num)]
    dsimp only
    rw [← hC, he]
  obtain ⟨modes, h3⟩ : ∃ modes, podHandlesModes (𝕜 := ℝ) ⟨vecs, C, e.r, e.w, e.V⟩ [0] 1 = .ok modes := by
    refine ⟨?m, ?h⟩
    case h =>
      unfold podHandlesModes handlesLinCombine pickCols npAxisIndices npAxisIndex
      dsimp only
      rw [dif_pos (by omega)]
      unfold npAxisIndices
      dsimp only
      rw [if_neg (by simp), if_neg (by norm_num)]
  obtain ⟨sel, h4, -, h5⟩ := podHandlesModes_cases _ _ _ _ h3
  refine ⟨fun _ => o, vecs, _, modes, ?_, h2, h3, h4, fun i => (h1 i).1, fun a => ?_⟩
  · constructor
    · exact .of_eq (by rw [ho]; simp)
    · intro i j
      rw [Subsingleton.elim i 0, Subsingleton.elim j 0, ho, conjTranspose_one, Matrix.one_mul, Matrix.mul_one,
        ← hC, hentry, diagonal_apply_eq]
      show |c - ε - c| ≤ ε
      rw [show c - ε - c = -ε by ring, abs_neg, abs_of_nonneg hε]
    · intro i j
      rw [Subsingleton.elim i 0, Subsingleton.elim j 0, ho, Matrix.one_mul, Matrix.mul_one,
        ← hC, hentry, diagonal_apply_eq]
      show |c - ε - c| ≤ ε
      rw [show c - ε - c = -ε by ring, abs_neg, abs_of_nonneg hε]
  · have h6 : modes.v a = (Real.sqrt c)⁻¹ * Real.sqrt (c - ε) := by
      rw [h5]
      unfold combine diagPow
      dsimp only
      rw [Fin.sum_univ_one, mul_diagonal, (h1 _).1, (h1 _).2, rpow_neg_half hc0, hvecs]
      simp
    have h7 : LinearMap.mul ℝ ℝ (modes.v a) (modes.v a) = (c - ε) / c := by
      rw [h6]
      show (Real.sqrt c)⁻¹ * Real.sqrt (c - ε) * ((Real.sqrt c)⁻¹ * Real.sqrt (c - ε)) = _
      rw [show (Real.sqrt c)⁻¹ * Real.sqrt (c - ε) * ((Real.sqrt c)⁻¹ * Real.sqrt (c - ε)) =
        (Real.sqrt (c - ε) * Real.sqrt (c - ε)) / (Real.sqrt c * Real.sqrt c) by
          rw [div_eq_mul_inv, mul_inv]; ring]
      rw [Real.mul_self_sqrt (by linarith), Real.mul_self_sqrt hc0.le]
    rw [h7, sub_div, div_self hc0.ne', show 1 - ε / c - 1 = -(ε / c) by ring, abs_neg,
      abs_of_nonneg (by positivity)]

/-! ### Examples -/

/-- An eigendecomposition of the correlation array of the numbers 3 and 4 that has errors. -/
example : IsEighUpTo 1 0 (!![9, 12; 12, 16] : Matrix (Fin 2) (Fin 2) ℝ)
    ⟨![1, 26], !![-4 / 5, 3 / 5; 3 / 5, 4 / 5]⟩ where
  orthonormal := .of_eq exampleCorrEigh_isEigh.orthonormal
  diagonalizes := by
    intro i j
    fin_cases i <;> fin_cases j <;> norm_num [Matrix.mul_apply, Fin.sum_univ_two]
  eigen := by
    intro i j
    fin_cases i <;> fin_cases j <;> norm_num [Matrix.mul_apply, Fin.sum_univ_two, abs_le]

/-- Singular values with an error. -/
example : IsSvdUpTo (1 / 2) 0 (!![0, 3; 2, 0] : Matrix (Fin 2) (Fin 2) ℝ)
    ⟨!![1, 0; 0, 1], ![3, 5 / 2], !![0, 1; 1, 0]⟩ where
  left := .of_eq exampleSvd_isSvd.left
  right := .of_eq exampleSvd_isSvd.right
  diagonalizes := by
    intro i j
    fin_cases i <;> fin_cases j <;> norm_num [Matrix.mul_apply, Fin.sum_univ_two]
  mul_right := by
    intro i j
    fin_cases i <;> fin_cases j <;> norm_num [Matrix.mul_apply, Fin.sum_univ_two]
  mul_left := by
    intro i j
    rw [mul_diagonal]
    fin_cases i <;> fin_cases j <;> norm_num [Matrix.mul_apply, Fin.sum_univ_two]
  nonneg := by intro i; fin_cases i <;> norm_num
  sorted := by intro i j hij; fin_cases i <;> fin_cases j <;> simp_all <;> norm_num

/-- Eigenvectors with errors, no pair of which is orthogonal. -/
example : IsEigUpTo 1 (!![1, 1; 0, 2] : Matrix (Fin 2) (Fin 2) ℝ) ⟨![1, 2], 1, 1⟩ ∧
    ∀ i, (1 : ℝ) ≤ ‖((1 : Matrix (Fin 2) (Fin 2) ℝ)ᴴ * (1 : Matrix (Fin 2) (Fin 2) ℝ)) i i‖ := by
  refine ⟨⟨fun i j => ?_, fun i j => ?_⟩, fun i => ?_⟩
  · fin_cases i <;> fin_cases j <;> norm_num [Matrix.mul_apply, Fin.sum_univ_two, diagonal_apply]
  · fin_cases i <;> fin_cases j <;> norm_num [Matrix.mul_apply, Fin.sum_univ_two, diagonal_apply]
  · simp

end Modred
