import Verif.Lemmas.RealData
import Verif.Props.Bpod
import Verif.Props.EraModel

/-!
# Real data give real results, and dynamic modes in conjugate pairs (C107)
-/

namespace Modred

open Matrix
open scoped ComplexOrder

variable {n m : Nat}

/-- The functions of the library return real arrays for real arrays. -/
structure RealLib (lib : PodLib ℂ n m) : Prop where
  eigh : ∀ C, RealArr C → RealArr (lib.eigh C).V
  svd : ∀ B, RealArr B → RealArr (lib.svd B).U ∧ RealArr (lib.svd B).Vh
  cholesky : ∀ w l, RealArr w → lib.cholesky w = some l → RealArr l

section Pod

variable (lib : PodLib ℂ n m) (vecs : Matrix (Fin n) (Fin m) ℂ) (idx : Option (List Int)) (atol rtol : Option ℝ)

theorem pickCols_real {p q : Nat} {a : Matrix (Fin p) (Fin q) ℂ} (ha : RealArr a) {c : Cols ℂ p}
    (h : pickCols a idx = .ok c) : RealArr c.a := by
  cases idx with
  | none =>
    cases h
    exact ha
  | some l =>
    unfold pickCols at h
    dsimp only at h
    split at h
    · cases h
    cases h
    exact ha.submatrix _ _

/-- **C107.** The snapshot method of proper orthogonal decomposition. -/
theorem C107_pod_snaps (hl : RealLib lib) (weights : Option (NdArray ℂ)) (ws : Weights ℂ) (hws : arraysInit weights = .ok ws)
    (hfit : ws.Fits n) (hW : RealArr (ws.matrix n)) (hX : RealArr vecs) (res : PodResult ℂ n m)
    (corr : Matrix (Fin m) (Fin m) ℂ) (hres : podSnaps lib vecs idx weights atol rtol = .ok (res, corr)) :
    RealArr corr ∧ RealArr res.modes.a ∧ RealArr res.projCoeffs ∧ RealArr res.eigvecs := by
  obtain ⟨e, c, he, hc, h⟩ := podSnaps_cases lib vecs idx weights ws atol rtol hws hfit _ hres
  have hC : RealArr (vecsᴴ * ws.matrix n * vecs) := (hX.conjTranspose.mul hW).mul hX
  have hV := utilEigh_real (hl.eigh _ hC) he
  cases h
  exact ⟨hC, (hX.mul (hV.mul (realArr_diagPow _ _))).mul (pickCols_real idx realArr_one hc),
    (realArr_diagPow _ _).mul hV.conjTranspose, hV⟩

/-- The array by which the direct methods multiply, and its inverse. -/
theorem podDirectSvd_real (hl : RealLib lib) (ws : DirectWeights ℂ) (hfit : ws.Fits n) (hW : RealArr (ws.matrix n))
    (hchol : ∀ p q w, ws = .d2 p q w → IsCholesky lib.cholesky (ws.matrix n)) (hX : RealArr vecs) (s : Svd ℂ n m)
    (hs : podDirectSvd lib vecs ws atol rtol = .ok s) : RealArr s.U ∧ RealArr s.V := by
  have main : ∀ {B : Matrix (Fin n) (Fin m) ℂ} {H : Matrix (Fin n) (Fin n) ℂ} {s' : Svd ℂ n m}, RealArr B → RealArr H →
      utilSvd lib.svd B atol rtol = .ok s' → RealArr (H * s'.U) ∧ RealArr s'.V := by
    intro B H s' hB hH h
    obtain ⟨h1, h2⟩ := utilSvd_real (hl.svd _ hB).1 (hl.svd _ hB).2 h
    exact ⟨hH.mul h1, h2⟩
  cases ws with
  | none => exact utilSvd_real (hl.svd _ hX).1 (hl.svd _ hX).2 hs
  | higher => exact hfit.elim
  | d1 k w =>
    obtain ⟨rfl, hw⟩ := hfit
    unfold podDirectSvd at hs
    simp only [if_true] at hs
    split at hs
    · cases hs
    rename_i s' hs'
    cases hs
    exact main ((realArr_diagonal fun _ => Complex.ofReal_im _).mul hX) (realArr_diagPow _ _) hs'
  | d2 p q w =>
    obtain ⟨rfl, rfl, hw⟩ := hfit
    obtain ⟨l, hl', hll⟩ := hchol _ _ _ rfl
    have hr : RealArr lᴴ := (hl.cholesky _ _ hW hl').conjTranspose
    have hu : IsUnit (lᴴ).det := by
      have h1 : IsUnit (l * lᴴ) := by rw [hll]; exact hw.isUnit
      rw [isUnit_iff_isUnit_det, det_mul] at h1
      exact isUnit_of_mul_isUnit_right h1
    unfold podDirectSvd at hs
    have hl'' : lib.cholesky (Matrix.of fun i j => w i j) = some l := hl'
    simp only [ne_eq, not_true_eq_false, if_false, if_true, hl''] at hs
    split at hs
    · cases hs
    rename_i s' hs'
    cases hs
    exact main (hr.mul hX) (hr.inv hu) hs'

/-- **C107.** The direct method of proper orthogonal decomposition. -/
theorem C107_pod_direct (hl : RealLib lib) (ws : DirectWeights ℂ) (hfit : ws.Fits n) (hW : RealArr (ws.matrix n))
    (hchol : ∀ p q w, ws = .d2 p q w → IsCholesky lib.cholesky (ws.matrix n)) (hX : RealArr vecs) (res : PodResult ℂ n m)
    (hres : podDirect lib vecs idx ws atol rtol = .ok res) :
    RealArr res.modes.a ∧ RealArr res.projCoeffs ∧ RealArr res.eigvecs := by
  unfold podDirect at hres
  cases hs : podDirectSvd lib vecs ws atol rtol with
  | error e => rw [hs] at hres; cases hres
  | ok s =>
    obtain ⟨hU, hV⟩ := podDirectSvd_real lib vecs atol rtol hl ws hfit hW hchol hX s hs
    rw [hs] at hres
    dsimp only at hres
    split at hres
    · cases hres
    rename_i c hc
    cases hres
    exact ⟨pickCols_real idx hU hc, (realArr_diagPow _ _).mul hV.conjTranspose, hV⟩

end Pod

section Dmd

variable (lib : PodLib ℂ n m) (eig : ∀ {r : Nat}, Matrix (Fin r) (Fin r) ℂ → EigOut ℂ r) (idx : Option (List Int))
  (t : ℝ) (rtol : Option ℝ) (maxNum : Option Nat)

theorem dmdEigendecomp_real (hl : RealLib lib) {C K : Matrix (Fin m) (Fin m) ℂ} (hC : RealArr C) {atol rtol : Option ℝ}
    {d : DmdDecomp ℂ m} (hd : dmdEigendecomp lib.eigh lib.argsort eig C K atol rtol maxNum = .ok d) : RealArr d.V := by
  unfold dmdEigendecomp at hd
  split at hd
  · cases hd
  rename_i e he
  have hV := utilEigh_real (hl.eigh _ hC) he
  have hV' : RealArr (e.truncate maxNum).V := by
    cases maxNum with
    | none => exact hV
    | some k =>
      unfold Eigh.truncate
      dsimp only
      by_cases h : k < e.r
      · rw [if_pos h]
        exact hV.firstCols
      · rw [if_neg h]
        exact hV
  dsimp only at hd
  split at hd
  · cases hd
  cases hd
  exact hV'

/-- **C107.** The snapshot method of dynamic mode decomposition, for pairs of vectors. -/
theorem C107_dmd_snaps_pairs (hl : RealLib lib) (weights : Option (NdArray ℂ)) (ws : Weights ℂ)
    (hws : arraysInit weights = .ok ws) (hfit : ws.Fits n) (hW : RealArr (ws.matrix n)) (hH : (ws.matrix n).IsHermitian)
    (ht : 0 ≤ t) (hr : ∀ t ∈ rtol, 0 ≤ t) (hs : IsArgsort lib.argsort) (hlib : ∀ C, C.IsHermitian → IsEigh C (lib.eigh C))
    (X Y : Matrix (Fin n) (Fin m) ℂ) (hX : RealArr X) (hY : RealArr Y) (res : DmdResult ℂ n m)
    (corr cross : Matrix (Fin m) (Fin m) ℂ)
    (hres : dmdSnapsPairs lib eig X ⟨n, m, Y⟩ idx weights (some t) rtol maxNum = .ok (res, corr, cross))
    (heig : EigOfReduced eig (ws.matrix n) X Y res.decomp) (hinj : Function.Injective res.decomp.eigvals) :
    RealArr corr ∧ RealArr cross ∧ ∃ exact proj adjoint σ c,
      (Chosen exact idx res.exactModes ∧ Chosen proj idx res.projModes ∧ Chosen adjoint idx res.adjointModes) ∧
      ConjugatePairs res.decomp.eigvals exact proj adjoint res.projCoeffs res.advProjCoeffs σ c := by
  obtain ⟨rfl, rfl, hd, ho⟩ := dmdSnapsPairs_ok lib eig idx weights ws _ rtol maxNum hws hfit X Y res _ _ hres
  have hC : RealArr (Xᴴ * ws.matrix n * X) := (hX.conjTranspose.mul hW).mul hX
  have hV := dmdEigendecomp_real lib eig maxNum hl hC hd
  obtain ⟨hc, hLR⟩ := dmdEigendecomp_core _ _ eig _ _ t rtol maxNum _ hd ht hr hs (gram_hermitian hH _)
    (hlib _ (gram_hermitian hH _)) heig
  obtain ⟨σ, c, h⟩ := conj_pairs hW hX hY hV hc (hLR hinj) hinj
  refine ⟨hC, (hX.conjTranspose.mul hW).mul hY, _, _, _, σ, c, ⟨ho.exact, ho.proj, ho.adjoint⟩, ?_⟩
  rw [ho.projCoeffs, ho.advProjCoeffs]
  exact h

/-- **C107.** The snapshot method of dynamic mode decomposition, for sequential data. -/
theorem C107_dmd_snaps_sequential (hl : RealLib lib) (weights : Option (NdArray ℂ)) (ws : Weights ℂ)
    (hws : arraysInit weights = .ok ws) (hfit : ws.Fits n) (hW : RealArr (ws.matrix n)) (hH : (ws.matrix n).IsHermitian)
    (ht : 0 ≤ t) (hr : ∀ t ∈ rtol, 0 ≤ t) (hs : IsArgsort lib.argsort) (hlib : ∀ C, C.IsHermitian → IsEigh C (lib.eigh C))
    (Z : Matrix (Fin n) (Fin (m + 1)) ℂ) (hZ : RealArr Z) (res : DmdResult ℂ n m) (corr cross : Matrix (Fin m) (Fin m) ℂ)
    (hres : dmdSnapsSeq lib eig Z idx weights (some t) rtol maxNum = .ok (res, corr, cross))
    (heig : EigOfReduced eig (ws.matrix n) (seqFirst Z) (seqNext Z) res.decomp)
    (hinj : Function.Injective res.decomp.eigvals) :
    RealArr corr ∧ RealArr cross ∧ ∃ exact proj adjoint σ c,
      (Chosen exact idx res.exactModes ∧ Chosen proj idx res.projModes ∧ Chosen adjoint idx res.adjointModes) ∧
      ConjugatePairs res.decomp.eigvals exact proj adjoint res.projCoeffs res.advProjCoeffs σ c := by
  obtain ⟨rfl, rfl, hd, ho⟩ := dmdSnapsSeq_ok lib eig idx weights ws _ rtol maxNum hws hfit Z res _ _ hres
  have hX : RealArr (Z.submatrix id (Fin.castSucc : Fin m → _)) := hZ.submatrix _ _
  have hY : RealArr (Z.submatrix id (Fin.succ : Fin m → _)) := hZ.submatrix _ _
  have hC := (hX.conjTranspose.mul hW).mul hX
  have hV := dmdEigendecomp_real lib eig maxNum hl hC hd
  obtain ⟨hc, hLR⟩ := dmdEigendecomp_core _ _ eig _ _ t rtol maxNum _ hd ht hr hs (gram_hermitian hH _)
    (hlib _ (gram_hermitian hH _)) heig
  obtain ⟨σ, c, h⟩ := conj_pairs hW hX hY hV hc (hLR hinj) hinj
  refine ⟨hC, (hX.conjTranspose.mul hW).mul hY, _, _, _, σ, c, ⟨ho.exact, ho.proj, ho.adjoint⟩, ?_⟩
  rw [ho.projCoeffs, ho.advProjCoeffs]
  exact h

theorem weightData_real (hl : RealLib lib) (ws : DirectWeights ℂ) (hfit : ws.Fits n) (hW : RealArr (ws.matrix n))
    {so : Option (Matrix (Fin n) (Fin n) ℂ)} (hso : directSqrtWeights lib.cholesky ws = .ok so) {q : Nat}
    {x : Matrix (Fin n) (Fin q) ℂ} (hx : RealArr x) : RealArr (weightData so x) := by
  unfold directSqrtWeights at hso
  split at hso
  swap
  · cases hso
  cases ws with
  | none =>
    cases hso
    exact hx
  | higher => exact hfit.elim
  | d1 k w =>
    obtain ⟨rfl, hw⟩ := hfit
    simp only [if_true] at hso
    cases hso
    exact (realArr_diagonal fun _ => Complex.ofReal_im _).mul hx
  | d2 p q w =>
    obtain ⟨rfl, rfl, hw⟩ := hfit
    simp only [ne_eq, not_true_eq_false, if_false, if_true] at hso
    split at hso
    · cases hso
    rename_i l hl'
    cases hso
    exact (hl.cholesky _ _ hW hl').conjTranspose.mul hx

theorem dmdDirectRest_real (hl : RealLib lib) {B X Y : Matrix (Fin n) (Fin m) ℂ} {cross : Svd ℂ n m → Matrix (Fin m) (Fin m) ℂ}
    {atol rtol : Option ℝ} {res : DmdResult ℂ n m} (hB : RealArr B)
    (hres : dmdDirectRest lib eig B cross X Y idx atol rtol maxNum = .ok res) : RealArr res.decomp.V := by
  unfold dmdDirectRest at hres
  split at hres
  · cases hres
  rename_i s hs
  have hV := truncate_real (utilSvd_real (hl.svd _ hB).1 (hl.svd _ hB).2 hs).2 maxNum
  dsimp only at hres
  split at hres
  · cases hres
  rw [dmdFinish_decomp hres]
  exact hV

/-- **C107.** The direct method of dynamic mode decomposition, for pairs of vectors. -/
theorem C107_dmd_direct_pairs (hl : RealLib lib) (ws : DirectWeights ℂ) (hfit : ws.Fits n) (hW : RealArr (ws.matrix n))
    (hchol : ∀ p q w, ws = .d2 p q w → IsCholesky lib.cholesky (ws.matrix n)) (ht : 0 ≤ t) (hr : ∀ t ∈ rtol, 0 ≤ t)
    (hlib : ∀ B, IsSvd B (lib.svd B)) (X Y : Matrix (Fin n) (Fin m) ℂ) (hX : RealArr X) (hY : RealArr Y)
    (res : DmdResult ℂ n m) (hres : dmdDirectPairs lib eig X ⟨n, m, Y⟩ idx ws (some t) rtol maxNum = .ok res)
    (heig : EigOfReduced eig (ws.matrix n) X Y res.decomp) (hinj : Function.Injective res.decomp.eigvals) :
    ∃ exact proj adjoint σ c,
      (Chosen exact idx res.exactModes ∧ Chosen proj idx res.projModes ∧ Chosen adjoint idx res.adjointModes) ∧
      ConjugatePairs res.decomp.eigvals exact proj adjoint res.projCoeffs res.advProjCoeffs σ c := by
  obtain ⟨hc, hLR, ho⟩ := dmdDirectPairs_ok lib eig idx ws t rtol maxNum hfit hchol ht hr hlib X Y res hres heig
  have hV : RealArr res.decomp.V := by
    unfold dmdDirectPairs at hres
    split at hres
    · cases hres
    rename_i so hso
    simp only [and_self, dite_true] at hres
    exact dmdDirectRest_real lib eig idx maxNum hl (weightData_real lib hl ws hfit hW hso hX) hres
  obtain ⟨σ, c, h⟩ := conj_pairs hW hX hY hV hc (hLR hinj) hinj
  refine ⟨_, _, _, σ, c, ⟨ho.exact, ho.proj, ho.adjoint⟩, ?_⟩
  rw [ho.projCoeffs, ho.advProjCoeffs]
  exact h

/-- **C107.** The direct method of dynamic mode decomposition, for sequential data. -/
theorem C107_dmd_direct_sequential (hl : RealLib lib) (ws : DirectWeights ℂ) (hfit : ws.Fits n) (hW : RealArr (ws.matrix n))
    (hchol : ∀ p q w, ws = .d2 p q w → IsCholesky lib.cholesky (ws.matrix n)) (ht : 0 ≤ t) (hr : ∀ t ∈ rtol, 0 ≤ t)
    (hlib : ∀ B, IsSvd B (lib.svd B)) (Z : Matrix (Fin n) (Fin (m + 1)) ℂ) (hZ : RealArr Z)
    (res : DmdResult ℂ n m) (hres : dmdDirectSeq lib eig Z idx ws (some t) rtol maxNum = .ok res)
    (heig : EigOfReduced eig (ws.matrix n) (seqFirst Z) (seqNext Z) res.decomp)
    (hinj : Function.Injective res.decomp.eigvals) :
    ∃ exact proj adjoint σ c,
      (Chosen exact idx res.exactModes ∧ Chosen proj idx res.projModes ∧ Chosen adjoint idx res.adjointModes) ∧
      ConjugatePairs res.decomp.eigvals exact proj adjoint res.projCoeffs res.advProjCoeffs σ c := by
  have hX : RealArr (seqFirst Z) := hZ.submatrix _ _
  have hY : RealArr (seqNext Z) := hZ.submatrix _ _
  obtain ⟨hc, hLR, ho⟩ := dmdDirectSeq_ok lib eig idx ws t rtol maxNum hfit hchol ht hr hlib Z res hres _ _ rfl rfl heig
  have hV : RealArr res.decomp.V := by
    unfold dmdDirectSeq at hres
    split at hres
    · cases hres
    rename_i so hso
    exact dmdDirectRest_real lib eig idx maxNum hl ((weightData_real lib hl ws hfit hW hso hZ).submatrix _ _) hres
  obtain ⟨σ, c, h⟩ := conj_pairs hW hX hY hV hc (hLR hinj) hinj
  refine ⟨_, _, _, σ, c, ⟨ho.exact, ho.proj, ho.adjoint⟩, ?_⟩
  rw [ho.projCoeffs, ho.advProjCoeffs]
  exact h

/-- Hence predictions and reconstructions from all modes are real: the modes, weighted by powers of the eigenvalues or
by any other weights that are conjugate for conjugate eigenvalues, together with their coefficients. -/
theorem C107_predictions {r : Nat} {eigvals : Fin r → ℂ} {exact proj adjoint : Matrix (Fin n) (Fin r) ℂ}
    {coeffs adv : Matrix (Fin r) (Fin m) ℂ} {σ : Fin r → Fin r} {c : Fin r → ℂ}
    (h : ConjugatePairs eigvals exact proj adjoint coeffs adv σ c) (F : ℂ → ℂ)
    (hF : ∀ z, F (starRingEnd ℂ z) = starRingEnd ℂ (F z)) :
    RealArr (exact * diagonal (fun i => F (eigvals i)) * coeffs) ∧ RealArr (proj * diagonal (fun i => F (eigvals i)) * coeffs) ∧
    RealArr (exact * diagonal (fun i => F (eigvals i)) * adv) ∧ RealArr (proj * diagonal (fun i => F (eigvals i)) * adv) ∧
    RealArr (exact * diagonal (fun i => F (eigvals i)) * adjointᴴ) ∧
    RealArr (proj * diagonal (fun i => F (eigvals i)) * adjointᴴ) := by
  let e : Equiv.Perm (Fin r) := ⟨σ, σ, h.twice, h.twice⟩
  have main : ∀ {k : Nat} (Φ : Matrix (Fin n) (Fin r) ℂ) (Θ : Matrix (Fin r) (Fin k) ℂ)
      (_ : ∀ i k, Φ k (σ i) = c i * starRingEnd ℂ (Φ k i)) (_ : ∀ i j, c i * Θ (σ i) j = starRingEnd ℂ (Θ i j)),
      RealArr (Φ * diagonal (fun i => F (eigvals i)) * Θ) := by
    intro k Φ Θ hΦ hΘ p q
    rw [← Complex.conj_eq_iff_im, Matrix.mul_apply, map_sum, ← Equiv.sum_comp e]
    conv_rhs => rw [← Equiv.sum_comp e]
    refine (Equiv.sum_comp e (fun i => starRingEnd ℂ ((Φ * diagonal fun i => F (eigvals i)) p i * Θ i q))).trans ?_
    refine Finset.sum_congr rfl fun i _ => ?_
    change _ = (Φ * diagonal fun i => F (eigvals i)) p (σ i) * Θ (σ i) q
    rw [mul_diagonal, mul_diagonal, hΦ, h.eigvals, hF, map_mul, map_mul, ← hΘ]
    ring
  have hadj : ∀ i j, c i * adjointᴴ (σ i) j = starRingEnd ℂ (adjointᴴ i j) := by
    intro i j
    have := congrArg (starRingEnd ℂ) (h.adjoint i j)
    rw [map_mul, Complex.conj_conj] at this
    exact this
  exact ⟨main _ _ h.exact h.coeffs, main _ _ h.proj h.coeffs, main _ _ h.exact h.adv, main _ _ h.proj h.adv,
    main _ _ h.exact hadj, main _ _ h.proj hadj⟩

end Dmd

end Modred
