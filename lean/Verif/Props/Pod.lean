import Verif.Lemmas.Pod
import Verif.Props.Linalg
import Verif.Props.Arrays
import Verif.Lemmas.HandlesLA
import Verif.Lemmas.SvdExists

/-!
# Proper orthogonal decomposition (C22, C23, C55)
-/

namespace Modred

open Matrix
open scoped ComplexOrder

variable {𝕜 : Type*} [RCLike 𝕜]

/-! ### Method of snapshots -/

section Snaps

variable {n m : Nat} (lib : PodLib 𝕜 n m) (vecs : Matrix (Fin n) (Fin m) 𝕜)
  (modeIndices : Option (List Int)) (weights : Option (NdArray 𝕜)) (ws : Weights 𝕜)
  (atol rtol : Option ℝ)

theorem podSnaps_cases (hws : arraysInit weights = .ok ws) (hfit : ws.Fits n)
    (res : PodResult 𝕜 n m × Matrix (Fin m) (Fin m) 𝕜)
    (hres : podSnaps lib vecs modeIndices weights atol rtol = .ok res) :
    ∃ (e : Eigh 𝕜 m) (c : Cols 𝕜 e.r),
      utilEigh lib.eigh lib.argsort (vecsᴴ * ws.matrix n * vecs) atol rtol true = .ok e ∧
      pickCols (1 : Matrix (Fin e.r) (Fin e.r) 𝕜) modeIndices = .ok c ∧
      res = (⟨e.r, e.w, ⟨c.k, vecs * (e.V * diagPow (𝕜 := 𝕜) e.w (-0.5)) * c.a⟩, diagPow (𝕜 := 𝕜) e.w 0.5 * e.Vᴴ, e.V⟩,
        vecsᴴ * ws.matrix n * vecs) := by
  unfold podSnaps at hres
  rw [hws] at hres
  dsimp only at hres
  unfold symmIpArray at hres
  rw [C45_formula ws hfit] at hres
  dsimp only at hres
  split at hres
  · cases hres
  · rename_i e he
    refine ⟨e, ?_⟩
    unfold linCombineArrays at hres
    cases modeIndices with
    | none =>
      unfold pickCols at hres
      cases hres
      exact ⟨⟨e.r, 1⟩, he, rfl, by simp⟩
    | some idx =>
      unfold pickCols at hres
      dsimp only at hres
      cases hl : npAxisIndices e.r idx with
      | error er => rw [hl] at hres; cases hres
      | ok l =>
        rw [hl] at hres
        cases hres
        refine ⟨⟨l.length, (1 : Matrix (Fin e.r) (Fin e.r) 𝕜).submatrix id fun i => l[i]⟩, he, ?_, ?_⟩
        · unfold pickCols
          dsimp only
          rw [hl]
        · dsimp only; rw [mul_submatrix_cols, mul_submatrix_cols, Matrix.mul_one]

/-- Selecting columns: products with the selected columns of the identity. -/
theorem mul_pick {p q r : Type*} [Fintype q] [DecidableEq q] (a : Matrix p q 𝕜) (sel : r → q) :
    a * (1 : Matrix q q 𝕜).submatrix id sel = a.submatrix id sel := by
  rw [mul_submatrix_cols, Matrix.mul_one]

theorem utilEigh_diagPow {a : Matrix (Fin m) (Fin m) 𝕜} {e : Eigh 𝕜 m}
    (h : a * e.V = e.V * diagonal (fun i => (e.w i : 𝕜))) : a * e.V = e.V * diagPow (𝕜 := 𝕜) e.w 1 := by
  rw [h, diagPow_one]

/-- The modes computed by the method of snapshots are orthonormal in the weighted inner product, for any
selection of modes. -/
theorem C22_snaps (t : ℝ) (ht : 0 ≤ t) (hr : ∀ t ∈ rtol, 0 ≤ t) (hs : IsArgsort lib.argsort)
    (hws : arraysInit weights = .ok ws) (hfit : ws.Fits n)
    (hlib : IsEigh (vecsᴴ * ws.matrix n * vecs) (lib.eigh (vecsᴴ * ws.matrix n * vecs)))
    (res : PodResult 𝕜 n m) (corr : Matrix (Fin m) (Fin m) 𝕜)
    (hres : podSnaps lib vecs modeIndices weights (some t) rtol = .ok (res, corr)) :
    ∃ sel : Fin res.modes.k → Fin res.r, OrthonormalSelection (ws.matrix n) res.modes.a sel ∧
      (∀ l, modeIndices = some l → res.modes.k = l.length ∧
        ∀ (i : Fin res.modes.k) (j : Int), l[i.val]? = some j → npAxisIndex res.r j = .ok (sel i)) ∧
      (modeIndices = none → res.modes.k = res.r ∧ ∀ i, (sel i).val = i.val) := by
  obtain ⟨e, c, he, hc, h⟩ := podSnaps_cases lib vecs modeIndices weights ws _ _ hws hfit _ hres
  obtain ⟨rfl, rfl⟩ := Prod.mk.inj h
  obtain ⟨hV, hCV, -⟩ := C20_eigenpairs _ _ _ _ _ _ hlib hs e he
  have hw := C20_positive_partial _ _ _ _ t ht hs hr e he
  obtain ⟨sel, hsel, h1, h2⟩ := pickCols_ok _ _ _ hc
  refine ⟨sel, fun i j => ?_, h1, h2⟩
  dsimp only
  rw [hsel, mul_pick]
  have key : (vecs * (e.V * diagPow (𝕜 := 𝕜) e.w (-0.5)))ᴴ * ws.matrix n * (vecs * (e.V * diagPow (𝕜 := 𝕜) e.w (-0.5))) =
      (1 : Matrix (Fin e.r) (Fin e.r) 𝕜) := by
    rw [← build_orthonormal hw hV (utilEigh_diagPow hCV)]
    rw [conjTranspose_mul]
    simp only [Matrix.mul_assoc]
  have hij := congrFun (congrFun key (sel i)) (sel j)
  rw [Matrix.one_apply] at hij
  rw [← hij, Matrix.mul_apply, Matrix.mul_apply]
  refine Finset.sum_congr rfl fun k _ => ?_
  congr 1

/-- The projection coefficients are the inner products of the modes with the data. -/
theorem C23_snaps_proj_coeffs (t : ℝ) (ht : 0 ≤ t) (hr : ∀ t ∈ rtol, 0 ≤ t)
    (hs : IsArgsort lib.argsort) (hws : arraysInit weights = .ok ws) (hfit : ws.Fits n)
    (hW : (ws.matrix n).IsHermitian)
    (hlib : IsEigh (vecsᴴ * ws.matrix n * vecs) (lib.eigh (vecsᴴ * ws.matrix n * vecs)))
    (res : PodResult 𝕜 n m) (corr : Matrix (Fin m) (Fin m) 𝕜)
    (hres : podSnaps lib vecs none weights (some t) rtol = .ok (res, corr)) :
    ∃ modes : Matrix (Fin n) (Fin res.r) 𝕜, res.modes = ⟨res.r, modes⟩ ∧
      res.projCoeffs = modesᴴ * ws.matrix n * vecs := by
  obtain ⟨e, c, he, hc, h⟩ := podSnaps_cases lib vecs none weights ws _ _ hws hfit _ hres
  obtain ⟨rfl, rfl⟩ := Prod.mk.inj h
  cases hc
  obtain ⟨hV, hCV, -⟩ := C20_eigenpairs _ _ _ _ _ _ hlib hs e he
  have hw := C20_positive_partial _ _ _ _ t ht hs hr e he
  refine ⟨vecs * (e.V * diagPow (𝕜 := 𝕜) e.w (-0.5)), by dsimp only; rw [Matrix.mul_one], ?_⟩
  have hC : (vecsᴴ * ws.matrix n * vecs)ᴴ = vecsᴴ * ws.matrix n * vecs := by
    rw [conjTranspose_mul, conjTranspose_mul, conjTranspose_conjTranspose, hW.eq, Matrix.mul_assoc]
  dsimp only
  rw [← build_proj hw hC (utilEigh_diagPow hCV), conjTranspose_mul vecs]
  simp only [Matrix.mul_assoc]

theorem energies_of_product {r : Nat} {w : Fin r → ℝ} {P : Matrix (Fin r) (Fin m) 𝕜}
    (h : P * Pᴴ = diagPow w 1) : ∀ i, ∑ j, ‖P i j‖ ^ 2 = w i := by
  intro i
  have hi := congrFun (congrFun h i) i
  rw [Matrix.mul_apply] at hi
  simp only [conjTranspose_apply, diagPow_one, diagonal_apply_eq] at hi
  have : ((∑ j, ‖P i j‖ ^ 2 : ℝ) : 𝕜) = (w i : 𝕜) := by
    rw [← hi]
    push_cast
    refine Finset.sum_congr rfl fun j _ => ?_
    rw [← RCLike.mul_conj]
    rfl
  exact_mod_cast this

/-- The eigenvalues are the energies of the rows of the projection coefficients, and different rows are
orthogonal. -/
theorem C23_snaps_energies (t : ℝ) (ht : 0 ≤ t) (hr : ∀ t ∈ rtol, 0 ≤ t)
    (hs : IsArgsort lib.argsort) (hws : arraysInit weights = .ok ws) (hfit : ws.Fits n)
    (hlib : IsEigh (vecsᴴ * ws.matrix n * vecs) (lib.eigh (vecsᴴ * ws.matrix n * vecs)))
    (res : PodResult 𝕜 n m) (corr : Matrix (Fin m) (Fin m) 𝕜)
    (hres : podSnaps lib vecs modeIndices weights (some t) rtol = .ok (res, corr)) :
    (∀ i, ∑ j, ‖res.projCoeffs i j‖ ^ 2 = res.eigvals i) ∧
    ∀ i i', i ≠ i' → ∑ j, res.projCoeffs i j * star (res.projCoeffs i' j) = 0 := by
  obtain ⟨e, c, he, hc, h⟩ := podSnaps_cases lib vecs modeIndices weights ws _ _ hws hfit _ hres
  obtain ⟨rfl, rfl⟩ := Prod.mk.inj h
  obtain ⟨hV, hCV, -⟩ := C20_eigenpairs _ _ _ _ _ _ hlib hs e he
  have hw := C20_positive_partial _ _ _ _ t ht hs hr e he
  have key := proj_energy (𝕜 := 𝕜) hw hV
  refine ⟨energies_of_product key, fun i i' hne => ?_⟩
  have := congrFun (congrFun key i) i'
  rw [Matrix.mul_apply, diagPow_one, diagonal_apply_ne _ hne] at this
  simpa using this

/-- The squared reconstruction error is the sum of all eigenvalues of the correlation array less the sum
of the retained ones. -/
theorem C23_snaps_reconstruction (t : ℝ) (ht : 0 ≤ t) (hr : ∀ t ∈ rtol, 0 ≤ t)
    (hs : IsArgsort lib.argsort) (hws : arraysInit weights = .ok ws) (hfit : ws.Fits n)
    (hW : (ws.matrix n).IsHermitian)
    (hlib : IsEigh (vecsᴴ * ws.matrix n * vecs) (lib.eigh (vecsᴴ * ws.matrix n * vecs)))
    (res : PodResult 𝕜 n m) (corr : Matrix (Fin m) (Fin m) 𝕜)
    (hres : podSnaps lib vecs none weights (some t) rtol = .ok (res, corr)) :
    ∃ modes : Matrix (Fin n) (Fin res.r) 𝕜, res.modes = ⟨res.r, modes⟩ ∧
      weightedSq (ws.matrix n) (vecs - modes * res.projCoeffs) =
        (((∑ i, (lib.eigh (vecsᴴ * ws.matrix n * vecs)).w i) - ∑ i, res.eigvals i : ℝ) : 𝕜) := by
  obtain ⟨e, c, he, hc, h⟩ := podSnaps_cases lib vecs none weights ws _ _ hws hfit _ hres
  obtain ⟨rfl, rfl⟩ := Prod.mk.inj h
  cases hc
  obtain ⟨hV, hCV, -⟩ := C20_eigenpairs _ _ _ _ _ _ hlib hs e he
  have hw := C20_positive_partial _ _ _ _ t ht hs hr e he
  refine ⟨vecs * (e.V * diagPow (𝕜 := 𝕜) e.w (-0.5)), by dsimp only; rw [Matrix.mul_one], ?_⟩
  have hC : (vecsᴴ * ws.matrix n * vecs)ᴴ = vecsᴴ * ws.matrix n * vecs := by
    rw [conjTranspose_mul, conjTranspose_mul, conjTranspose_conjTranspose, hW.eq, Matrix.mul_assoc]
  dsimp only
  rw [weightedSq_eq_trace, Matrix.mul_assoc vecs, build_mul_proj hw]
  rw [show vecs - vecs * (e.V * e.Vᴴ) = vecs * (1 - e.V * e.Vᴴ) by
    rw [Matrix.mul_sub, Matrix.mul_one]]
  rw [show (vecs * (1 - e.V * e.Vᴴ))ᴴ * ws.matrix n * (vecs * (1 - e.V * e.Vᴴ)) =
      (1 - e.V * e.Vᴴ)ᴴ * (vecsᴴ * ws.matrix n * vecs) * (1 - e.V * e.Vᴴ) by
    rw [conjTranspose_mul]; simp only [Matrix.mul_assoc]]
  rw [residual_trace hV hC (utilEigh_diagPow hCV), trace_of_isEigh hlib]
  push_cast
  rfl

/-- If nothing but zero eigenvalues is dropped, the modes and coefficients reproduce the data. -/
theorem C23_snaps_exact (t : ℝ) (ht : 0 ≤ t) (hr : ∀ t ∈ rtol, 0 ≤ t)
    (hs : IsArgsort lib.argsort) (hws : arraysInit weights = .ok ws) (hfit : ws.Fits n)
    (hW : (ws.matrix n).PosDef)
    (hlib : IsEigh (vecsᴴ * ws.matrix n * vecs) (lib.eigh (vecsᴴ * ws.matrix n * vecs)))
    (res : PodResult 𝕜 n m) (corr : Matrix (Fin m) (Fin m) 𝕜)
    (hres : podSnaps lib vecs none weights (some t) rtol = .ok (res, corr))
    (hz : ∑ i, (lib.eigh (vecsᴴ * ws.matrix n * vecs)).w i = ∑ i, res.eigvals i) :
    ∃ modes : Matrix (Fin n) (Fin res.r) 𝕜, res.modes = ⟨res.r, modes⟩ ∧
      vecs = modes * res.projCoeffs := by
  obtain ⟨modes, h1, h2⟩ := C23_snaps_reconstruction lib vecs weights ws rtol t ht hr hs hws hfit
    hW.isHermitian hlib res corr hres
  refine ⟨modes, h1, ?_⟩
  rw [hz, sub_self] at h2
  exact sub_eq_zero.mp (eq_zero_of_weightedSq hW (by simpa using h2))

end Snaps

/-! ### Direct method -/

section Direct

variable {n m : Nat} (lib : PodLib 𝕜 n m) (vecs : Matrix (Fin n) (Fin m) 𝕜)
  (modeIndices : Option (List Int)) (ws : DirectWeights 𝕜) (atol rtol : Option ℝ)

/-- Whatever the weights, the direct method decomposes `G X`, where `G^* G = W`, and multiplies the left
singular vectors with the inverse of `G`. -/
theorem podDirectSvd_cases (hfit : ws.Fits n)
    (hchol : ∀ p q w, ws = .d2 p q w → IsCholesky lib.cholesky (ws.matrix n)) :
    ∃ G H : Matrix (Fin n) (Fin n) 𝕜, G * H = 1 ∧ Gᴴ * G = ws.matrix n ∧
      podDirectSvd lib vecs ws atol rtol = match utilSvd lib.svd (G * vecs) atol rtol with
        | .error e => .error e
        | .ok s => .ok { s with U := H * s.U } := by
  cases ws with
  | none =>
    refine ⟨1, 1, Matrix.mul_one _, by rw [conjTranspose_one, Matrix.mul_one]; rfl, ?_⟩
    rw [Matrix.one_mul]
    unfold podDirectSvd
    dsimp only
    cases utilSvd lib.svd vecs atol rtol with
    | error e => rfl
    | ok s => simp
  | higher => exact hfit.elim
  | d1 k w =>
    obtain ⟨rfl, hw⟩ := hfit
    have hs : ∀ i : Fin k, 0 < w i ^ (0.5 : ℝ) := fun i => Real.rpow_pos_of_pos (hw i) _
    refine ⟨diagonal fun i : Fin k => ((w i ^ (0.5 : ℝ) : ℝ) : 𝕜),
      diagPow (fun i : Fin k => w i ^ (0.5 : ℝ)) (-1), ?_, ?_, ?_⟩
    · rw [← diagPow_one, diagPow_mul _ hs, show (1 + -1 : ℝ) = 0 by norm_num, diagPow_zero]
    · rw [diagonal_conjTranspose, diagonal_mul_diagonal]
      unfold DirectWeights.matrix
      congr 1
      ext i
      simp only [Pi.star_apply, RCLike.star_def, RCLike.conj_ofReal]
      rw [← RCLike.ofReal_mul, ← Real.rpow_add (hw i), show (0.5 + 0.5 : ℝ) = 1 by norm_num,
        Real.rpow_one]
    · unfold podDirectSvd
      simp only [if_true]
      cases utilSvd lib.svd (diagonal (fun i : Fin k => ((w i ^ (0.5 : ℝ) : ℝ) : 𝕜)) * vecs) atol rtol <;> rfl
  | d2 p q w =>
    obtain ⟨rfl, rfl, hw⟩ := hfit
    obtain ⟨l, hl, hll⟩ := hchol _ _ _ rfl
    have hu : IsUnit (lᴴ) := by
      have h1 : IsUnit (l * lᴴ) := by rw [hll]; exact hw.isUnit
      rw [isUnit_iff_isUnit_det] at h1 ⊢
      rw [det_mul] at h1
      exact isUnit_of_mul_isUnit_right h1
    refine ⟨lᴴ, (lᴴ)⁻¹, Matrix.mul_nonsing_inv _ ((isUnit_iff_isUnit_det _).mp hu), by
      rw [conjTranspose_conjTranspose]; exact hll, ?_⟩
    unfold podDirectSvd
    have hl' : lib.cholesky (Matrix.of fun i j => w i j) = some l := hl
    simp only [ne_eq, not_true_eq_false, if_false, if_true, hl']
    cases utilSvd lib.svd (lᴴ * vecs) atol rtol <;> rfl

/-- The results of the direct method, in terms of a singular value decomposition of `G X`. -/
theorem podDirect_cases (hfit : ws.Fits n)
    (hchol : ∀ p q w, ws = .d2 p q w → IsCholesky lib.cholesky (ws.matrix n)) :
    ∃ G H : Matrix (Fin n) (Fin n) 𝕜, G * H = 1 ∧ Gᴴ * G = ws.matrix n ∧
      ∀ res, podDirect lib vecs modeIndices ws atol rtol = .ok res →
        ∃ s c, utilSvd lib.svd (G * vecs) atol rtol = .ok s ∧ pickCols (H * s.U) modeIndices = .ok c ∧
          res = ⟨s.r, fun i => s.S i ^ (2 : ℝ), c, diagPow (fun i => s.S i ^ (2 : ℝ)) 0.5 * s.Vᴴ, s.V⟩ := by
  obtain ⟨G, H, h1, h2, h3⟩ := podDirectSvd_cases lib vecs ws atol rtol hfit hchol
  refine ⟨G, H, h1, h2, fun res hres => ?_⟩
  unfold podDirect at hres
  rw [h3] at hres
  cases hs : utilSvd lib.svd (G * vecs) atol rtol with
  | error e => rw [hs] at hres; cases hres
  | ok s =>
    rw [hs] at hres
    dsimp only at hres
    split at hres
    · cases hres
    · rename_i c hc
      cases hres
      exact ⟨s, c, rfl, hc, rfl⟩

theorem direct_modes_orthonormal {r : Nat} {G H W : Matrix (Fin n) (Fin n) 𝕜} {U : Matrix (Fin n) (Fin r) 𝕜}
    (h1 : G * H = 1) (h2 : Gᴴ * G = W) (hU : Uᴴ * U = 1) : (H * U)ᴴ * W * (H * U) = 1 := by
  rw [← h2, show (H * U)ᴴ * (Gᴴ * G) * (H * U) = (G * H * U)ᴴ * (G * H * U) by
    simp only [conjTranspose_mul, Matrix.mul_assoc], h1, Matrix.one_mul, hU]

/-- The modes computed by the direct method are orthonormal in the weighted inner product, for any
selection of modes and all tolerances. -/
theorem C22_direct (hfit : ws.Fits n)
    (hchol : ∀ p q w, ws = .d2 p q w → IsCholesky lib.cholesky (ws.matrix n))
    (hlib : ∀ a, IsSvd a (lib.svd a)) (res : PodResult 𝕜 n m)
    (hres : podDirect lib vecs modeIndices ws atol rtol = .ok res) :
    ∃ sel : Fin res.modes.k → Fin res.r, OrthonormalSelection (ws.matrix n) res.modes.a sel ∧
      (∀ l, modeIndices = some l → res.modes.k = l.length ∧
        ∀ (i : Fin res.modes.k) (j : Int), l[i.val]? = some j → npAxisIndex res.r j = .ok (sel i)) ∧
      (modeIndices = none → res.modes.k = res.r ∧ ∀ i, (sel i).val = i.val) := by
  obtain ⟨G, H, h1, h2, h3⟩ := podDirect_cases lib vecs modeIndices ws atol rtol hfit hchol
  obtain ⟨s, c, hs, hc, rfl⟩ := h3 res hres
  obtain ⟨hU, -⟩ := C19_singular_triples _ _ _ _ (hlib _) s hs
  obtain ⟨sel, hsel, h4, h5⟩ := pickCols_ok _ _ _ hc
  refine ⟨sel, fun i j => ?_, h4, h5⟩
  dsimp only
  have hij := congrFun (congrFun (direct_modes_orthonormal h1 h2 hU) (sel i)) (sel j)
  rw [Matrix.one_apply] at hij
  rw [← hij, hsel, Matrix.mul_apply, Matrix.mul_apply]
  refine Finset.sum_congr rfl fun k _ => ?_
  congr 1

theorem sq_rpow_half {x : ℝ} (hx : 0 ≤ x) : (x ^ (2 : ℝ)) ^ (0.5 : ℝ) = x := by
  rw [← Real.rpow_mul hx, show (2 * 0.5 : ℝ) = 1 by norm_num, Real.rpow_one]

theorem diagPow_sq {r : Nat} {S : Fin r → ℝ} (hS : ∀ i, 0 ≤ S i) :
    (diagPow (fun i => S i ^ (2 : ℝ)) 0.5 : Matrix (Fin r) (Fin r) 𝕜) = diagonal fun i => (S i : 𝕜) := by
  unfold diagPow
  congr 1
  ext i
  rw [sq_rpow_half (hS i)]

theorem diagonal_real_conjTranspose {r : Nat} (S : Fin r → ℝ) :
    (diagonal (fun i => (S i : 𝕜)))ᴴ = diagonal fun i => (S i : 𝕜) := by
  rw [diagonal_conjTranspose]
  congr 1
  ext i
  simp

/-- Projection coefficients, energies and reconstruction error of the direct method. -/
theorem C23_direct (hfit : ws.Fits n)
    (hchol : ∀ p q w, ws = .d2 p q w → IsCholesky lib.cholesky (ws.matrix n))
    (hlib : ∀ a, IsSvd a (lib.svd a)) (res : PodResult 𝕜 n m)
    (hres : podDirect lib vecs none ws atol rtol = .ok res) :
    ∃ modes : Matrix (Fin n) (Fin res.r) 𝕜, res.modes = ⟨res.r, modes⟩ ∧
      res.projCoeffs = modesᴴ * ws.matrix n * vecs ∧
      (∀ i, ∑ j, ‖res.projCoeffs i j‖ ^ 2 = res.eigvals i) ∧
      (∀ i i', i ≠ i' → ∑ j, res.projCoeffs i j * star (res.projCoeffs i' j) = 0) ∧
      weightedSq (ws.matrix n) (vecs - modes * res.projCoeffs) =
        weightedSq (ws.matrix n) vecs - ((∑ i, res.eigvals i : ℝ) : 𝕜) := by
  obtain ⟨G, H, h1, h2, h3⟩ := podDirect_cases lib vecs none ws atol rtol hfit hchol
  obtain ⟨s, c, hs, hc, rfl⟩ := h3 res hres
  cases hc
  obtain ⟨hU, hV, hAV, hAU, hS, -⟩ := C19_singular_triples _ _ _ _ (hlib _) s hs
  have hproj : diagonal (fun i => (s.S i : 𝕜)) * s.Vᴴ = (H * s.U)ᴴ * ws.matrix n * vecs := by
    rw [← h2, show (H * s.U)ᴴ * (Gᴴ * G) * vecs = (G * H * s.U)ᴴ * (G * vecs) by
      simp only [conjTranspose_mul, Matrix.mul_assoc], h1, Matrix.one_mul]
    have := congrArg conjTranspose hAU
    rw [conjTranspose_mul, conjTranspose_conjTranspose, conjTranspose_mul, diagonal_real_conjTranspose]
      at this
    exact this.symm
  have hPP : (diagonal (fun i => (s.S i : 𝕜)) * s.Vᴴ) * (diagonal (fun i => (s.S i : 𝕜)) * s.Vᴴ)ᴴ =
      diagPow (fun i => s.S i ^ (2 : ℝ)) 1 := by
    rw [conjTranspose_mul, conjTranspose_conjTranspose, diagonal_real_conjTranspose]
    rw [show diagonal (fun i => (s.S i : 𝕜)) * s.Vᴴ * (s.V * diagonal (fun i => (s.S i : 𝕜))) =
      diagonal (fun i => (s.S i : 𝕜)) * (s.Vᴴ * s.V) * diagonal (fun i => (s.S i : 𝕜)) by
        simp only [Matrix.mul_assoc], hV, Matrix.mul_one, diagonal_mul_diagonal, diagPow_one]
    congr 1
    ext i
    rw [← RCLike.ofReal_mul, Real.rpow_two, sq]
  refine ⟨H * s.U, rfl, ?_⟩
  dsimp only
  rw [diagPow_sq hS]
  refine ⟨hproj, energies_of_product hPP, fun i i' hne => ?_, ?_⟩
  · have := congrFun (congrFun hPP i) i'
    rw [Matrix.mul_apply, diagPow_one, diagonal_apply_ne _ hne] at this
    simpa using this
  · rw [weightedSq_eq_trace, weightedSq_eq_trace]
    have hW : (ws.matrix n)ᴴ = ws.matrix n := by
      rw [← h2, conjTranspose_mul, conjTranspose_conjTranspose]
    have horth := direct_modes_orthonormal h1 h2 hU
    generalize hM : H * s.U = M at *
    generalize hP : diagonal (fun i => (s.S i : 𝕜)) * s.Vᴴ = P at *
    have e1 : (M * P)ᴴ * ws.matrix n * vecs = Pᴴ * P := by
      rw [conjTranspose_mul, hproj]
      simp only [Matrix.mul_assoc]
    have e2 : vecsᴴ * ws.matrix n * (M * P) = Pᴴ * P := by
      have := congrArg conjTranspose e1
      rw [conjTranspose_mul, conjTranspose_mul, conjTranspose_conjTranspose, hW,
        conjTranspose_mul, conjTranspose_conjTranspose] at this
      rw [← this, Matrix.mul_assoc]
    have e3 : (M * P)ᴴ * ws.matrix n * (M * P) = Pᴴ * P := by
      rw [conjTranspose_mul, show Pᴴ * Mᴴ * ws.matrix n * (M * P) = Pᴴ * (Mᴴ * ws.matrix n * M) * P by
        simp only [Matrix.mul_assoc], horth, Matrix.mul_one]
    rw [conjTranspose_sub, Matrix.sub_mul, Matrix.sub_mul, Matrix.mul_sub, Matrix.mul_sub, e1, e2, e3,
      sub_self, sub_zero, trace_sub, trace_mul_comm Pᴴ P, hPP, diagPow_one, trace_diagonal]
    push_cast
    rfl

/-- The eigenvectors and eigenvalues are those of the correlation array, and the squared lengths of the
data sum up to the sum of the squares of all singular values. -/
theorem C23_direct_eigenpairs (hfit : ws.Fits n)
    (hchol : ∀ p q w, ws = .d2 p q w → IsCholesky lib.cholesky (ws.matrix n))
    (hlib : ∀ a, IsSvd a (lib.svd a)) (res : PodResult 𝕜 n m)
    (hres : podDirect lib vecs modeIndices ws atol rtol = .ok res) :
    res.eigvecsᴴ * res.eigvecs = 1 ∧
    vecsᴴ * ws.matrix n * vecs * res.eigvecs =
      res.eigvecs * diagonal (fun i => (res.eigvals i : 𝕜)) := by
  obtain ⟨G, H, h1, h2, h3⟩ := podDirect_cases lib vecs modeIndices ws atol rtol hfit hchol
  obtain ⟨s, c, hs, hc, rfl⟩ := h3 res hres
  obtain ⟨hU, hV, hAV, hAU, hS, -⟩ := C19_singular_triples _ _ _ _ (hlib _) s hs
  refine ⟨hV, ?_⟩
  dsimp only
  rw [← h2, show vecsᴴ * (Gᴴ * G) * vecs * s.V = (G * vecs)ᴴ * (G * vecs * s.V) by
    simp only [conjTranspose_mul, Matrix.mul_assoc], hAV, ← Matrix.mul_assoc, hAU, Matrix.mul_assoc,
    diagonal_mul_diagonal]
  congr 2
  ext i
  rw [← RCLike.ofReal_mul, Real.rpow_two, sq]

/-- If nothing but zero eigenvalues is dropped, the modes and coefficients reproduce the data. -/
theorem C23_direct_exact (hfit : ws.Fits n)
    (hchol : ∀ p q w, ws = .d2 p q w → IsCholesky lib.cholesky (ws.matrix n))
    (hlib : ∀ a, IsSvd a (lib.svd a)) (res : PodResult 𝕜 n m)
    (hres : podDirect lib vecs none ws atol rtol = .ok res)
    (hz : (vecsᴴ * ws.matrix n * vecs).trace = ((∑ i, res.eigvals i : ℝ) : 𝕜)) :
    ∃ modes : Matrix (Fin n) (Fin res.r) 𝕜, res.modes = ⟨res.r, modes⟩ ∧
      vecs = modes * res.projCoeffs := by
  obtain ⟨modes, h1, -, -, -, h2⟩ := C23_direct lib vecs ws atol rtol hfit hchol hlib res hres
  obtain ⟨G, H, h3, h4, -⟩ := podDirect_cases lib vecs none ws atol rtol hfit hchol
  have hW : (ws.matrix n).PosDef := by
    rw [← h4]
    refine Matrix.PosDef.conjTranspose_mul_self _ (Matrix.mulVec_injective_of_isUnit ?_)
    exact IsUnit.of_mul_eq_one _ h3
  refine ⟨modes, h1, ?_⟩
  rw [weightedSq_eq_trace (ws.matrix n) vecs, hz, sub_self] at h2
  exact sub_eq_zero.mp (eq_zero_of_weightedSq hW h2)

end Direct

/-! ### Handles -/

section Handles

variable {E : Type*} [AddCommGroup E] [Module 𝕜 E] {m : Nat} (eigh : Matrix (Fin m) (Fin m) 𝕜 → EighOut 𝕜 m)
  (argsort : (Fin m → ℝ) → Equiv.Perm (Fin m)) (ip : E →ₗ⋆[𝕜] E →ₗ[𝕜] 𝕜) (vecs : Fin m → E)
  (atol rtol : Option ℝ)

theorem podHandlesDecomp_cases (pod : PodHandles 𝕜 E m)
    (hpod : podHandlesDecomp eigh argsort (fun x y => ip x y) vecs atol rtol = .ok pod) :
    ∃ e, utilEigh eigh argsort (handlesSymmIp (fun x y => ip x y) vecs) atol rtol true = .ok e ∧
      pod = ⟨vecs, handlesSymmIp (fun x y => ip x y) vecs, e.r, e.w, e.V⟩ := by
  unfold podHandlesDecomp at hpod
  split at hpod
  · cases hpod
  dsimp only at hpod
  split at hpod
  · cases hpod
  · rename_i e he
    cases hpod
    exact ⟨e, he, rfl⟩

/-- Modes put by `PODHandles.compute_modes`: linear combinations of the vectors. -/
theorem podHandlesModes_cases (pod : PodHandles 𝕜 E m) (l : List Int) (k : Nat) (modes : Vecs E)
    (hmodes : podHandlesModes pod l k = .ok modes) :
    ∃ sel : Fin modes.k → Fin pod.r, modes.k = l.length ∧
      (∀ (i : Fin modes.k) (j : Int), l[i.val]? = some j → npAxisIndex pod.r j = .ok (sel i)) ∧
      ∀ i, modes.v i = combine pod.vecs (pod.eigvecs * diagPow (𝕜 := 𝕜) pod.eigvals (-0.5)) (sel i) := by
  obtain ⟨c, hc, -, -, rfl⟩ := handlesLinCombine_ok _ _ _ _ _ hmodes
  obtain ⟨sel, h1, h2, -⟩ := pickCols_ok _ _ _ hc
  obtain ⟨h3, h4⟩ := h2 l rfl
  refine ⟨sel, h3, h4, fun i => ?_⟩
  dsimp only
  rw [h1]
  rfl

/-- The modes put by `PODHandles.compute_modes` are orthonormal. -/
theorem C22_handles (t : ℝ) (ht : 0 ≤ t) (hr : ∀ t ∈ rtol, 0 ≤ t) (hs : IsArgsort argsort)
    (hlib : IsEigh (handlesSymmIp (fun x y => ip x y) vecs) (eigh (handlesSymmIp (fun x y => ip x y) vecs)))
    (pod : PodHandles 𝕜 E m)
    (hpod : podHandlesDecomp eigh argsort (fun x y => ip x y) vecs (some t) rtol = .ok pod)
    (l : List Int) (k : Nat) (modes : Vecs E) (hmodes : podHandlesModes pod l k = .ok modes) :
    modes.k = l.length ∧ ∃ sel : Fin modes.k → Fin pod.r,
      (∀ (i : Fin modes.k) (j : Int), l[i.val]? = some j → npAxisIndex pod.r j = .ok (sel i)) ∧
      ∀ a b, ip (modes.v a) (modes.v b) = if sel a = sel b then 1 else 0 := by
  obtain ⟨sel, h1, h2, h3⟩ := podHandlesModes_cases pod l k modes hmodes
  refine ⟨h1, sel, h2, fun a b => ?_⟩
  obtain ⟨e, he, rfl⟩ := podHandlesDecomp_cases eigh argsort ip vecs _ _ pod hpod
  obtain ⟨hV, hCV, -⟩ := C20_eigenpairs _ _ _ _ _ _ hlib hs e he
  have hw := C20_positive_partial _ _ _ _ t ht hs hr e he
  have key := build_orthonormal hw hV (utilEigh_diagPow hCV)
  have h4 : handlesSymmIp (fun x y => ip x y) vecs = handlesIp (fun x y => ip x y) vecs vecs := rfl
  rw [h4, ← handlesIp_combine] at key
  have hab := congrFun (congrFun key (sel a)) (sel b)
  rw [Matrix.one_apply] at hab
  rw [← hab, h3, h3]
  rfl

/-- Projection coefficients, energies and reconstruction error of `PODHandles`. -/
theorem C23_handles (t : ℝ) (ht : 0 ≤ t) (hr : ∀ t ∈ rtol, 0 ≤ t) (hs : IsArgsort argsort)
    (hsymm : ∀ x y, ip y x = star (ip x y))
    (hlib : IsEigh (handlesSymmIp (fun x y => ip x y) vecs) (eigh (handlesSymmIp (fun x y => ip x y) vecs)))
    (pod : PodHandles 𝕜 E m)
    (hpod : podHandlesDecomp eigh argsort (fun x y => ip x y) vecs (some t) rtol = .ok pod) :
    ∃ modes : Fin pod.r → E,
      (∀ l k out, podHandlesModes pod l k = .ok out → ∀ (i : Fin out.k) (j : Fin pod.r),
        l[i.val]? = some (j : Int) → out.v i = modes j) ∧
      (∀ i j, podHandlesProjCoeffs pod i j = ip (modes i) (vecs j)) ∧
      (∀ i, ∑ j, ‖podHandlesProjCoeffs pod i j‖ ^ 2 = pod.eigvals i) ∧
      ∑ j, ip (vecs j - ∑ i, podHandlesProjCoeffs pod i j • modes i)
          (vecs j - ∑ i, podHandlesProjCoeffs pod i j • modes i) =
        (((∑ i, (eigh (handlesSymmIp (fun x y => ip x y) vecs)).w i) - ∑ i, pod.eigvals i : ℝ) : 𝕜) := by
  obtain ⟨e, he, rfl⟩ := podHandlesDecomp_cases eigh argsort ip vecs _ _ pod hpod
  obtain ⟨hV, hCV, -⟩ := C20_eigenpairs _ _ _ _ _ _ hlib hs e he
  have hw := C20_positive_partial _ _ _ _ t ht hs hr e he
  have hC : (handlesSymmIp (fun x y => ip x y) vecs)ᴴ = handlesSymmIp (fun x y => ip x y) vecs := by
    ext i j
    exact (hsymm _ _).symm
  have h4 : handlesSymmIp (fun x y => ip x y) vecs = handlesIp (fun x y => ip x y) vecs vecs := rfl
  refine ⟨combine vecs (e.V * diagPow (𝕜 := 𝕜) e.w (-0.5)), ?_, ?_, ?_, ?_⟩
  · intro l k out hout i j hij
    obtain ⟨sel, -, h2, h3⟩ := podHandlesModes_cases _ l k out hout
    have := h2 i _ hij
    unfold npAxisIndex at this
    have hj := j.isLt
    dsimp only at hj this
    rw [dif_pos (by omega)] at this
    rw [h3]
    dsimp only
    congr 1
    have := Except.ok.inj this
    rw [← this]
    rfl
  · intro i j
    have := build_proj hw hC (utilEigh_diagPow hCV)
    rw [h4, ← handlesIp_combine_left] at this
    exact (congrFun (congrFun this i) j).symm
  · exact energies_of_product (proj_energy (𝕜 := 𝕜) hw hV)
  · have hres : ∀ j, vecs j - ∑ i, podHandlesProjCoeffs (⟨vecs, handlesSymmIp (fun x y => ip x y) vecs, e.r, e.w, e.V⟩ : PodHandles 𝕜 E m) i j •
        combine vecs (e.V * diagPow (𝕜 := 𝕜) e.w (-0.5)) i = combine vecs (1 - e.V * e.Vᴴ) j := by
      intro j
      rw [combine_sub, combine_one, ← build_mul_proj hw,
        ← combine_combine vecs (e.V * diagPow (𝕜 := 𝕜) e.w (-0.5))]
      rfl
    simp only [hres]
    have := residual_trace hV hC (utilEigh_diagPow hCV)
    rw [trace_of_isEigh hlib, h4, ← handlesIp_combine] at this
    rw [← h4] at this
    push_cast
    exact this

end Handles

/-! ### Tolerances -/

/-- In the direct method the tolerances apply to the square roots of the eigenvalues of the correlation
array: an eigenvalue is retained if it exceeds the squared absolute tolerance and the squared relative
tolerance times the largest one. -/
theorem C55_direct_tolerances_partial {n m : Nat} (lib : PodLib 𝕜 n m) (vecs : Matrix (Fin n) (Fin m) 𝕜)
    (hlib : IsSvd vecs (lib.svd vecs)) (modeIndices : Option (List Int)) (atol rtol : Option ℝ)
    (ha : ∀ t ∈ atol, 0 ≤ t) (hr : ∀ t ∈ rtol, 0 ≤ t) (res : PodResult 𝕜 n m)
    (hres : podDirect lib vecs modeIndices .none atol rtol = .ok res) (i : Fin (min n m)) :
    i.val < res.r ↔ (∀ t ∈ atol, t ^ 2 < (lib.svd vecs).S i ^ 2) ∧
      ∀ t ∈ rtol, t ^ 2 * (lib.svd vecs).S ⟨0, i.pos⟩ ^ 2 < (lib.svd vecs).S i ^ 2 := by
  unfold podDirect podDirectSvd at hres
  cases hs : utilSvd lib.svd vecs atol rtol with
  | error e => rw [hs] at hres; cases hres
  | ok s =>
    rw [hs] at hres
    dsimp only at hres
    split at hres
    · cases hres
    · cases hres
      rw [(C19_kept_iff _ _ _ _ hlib hr s hs).2.1 i]
      unfold Obeys
      have h0 := hlib.nonneg i
      have h1 := hlib.nonneg ⟨0, i.pos⟩
      rw [abs_of_nonneg h0, abs_of_nonneg h1]
      refine and_congr (forall₂_congr fun t ht => ?_) (forall₂_congr fun t ht => ?_)
      · exact (pow_lt_pow_iff_left₀ (ha t ht) h0 (by norm_num)).symm
      · rw [← mul_pow]
        exact (pow_lt_pow_iff_left₀ (mul_nonneg (hr t ht) h1) h0 (by norm_num)).symm

/-- The singular value of an array with one entry. -/
theorem svd_one (x : ℝ) (o : SvdOut ℝ 1 1) (h : IsSvd (!![x] : Matrix (Fin 1) (Fin 1) ℝ) o)
    (i : Fin (min 1 1)) : o.S i ^ 2 = x ^ 2 := by
  obtain ⟨U, S, Vh⟩ := o
  change Matrix (Fin 1) (Fin 1) ℝ at U
  change Fin 1 → ℝ at S
  change Matrix (Fin 1) (Fin 1) ℝ at Vh
  change Fin 1 at i
  rw [Subsingleton.elim i 0]
  have h1 : Uᴴ * U = 1 := h.left
  have h2 : Vh * Vhᴴ = 1 := h.right
  have h3 : !![x] = U * diagonal (fun i => ((S i : ℝ) : ℝ)) * Vh := h.product
  have h1 := congrFun (congrFun h1 0) 0
  have h2 := congrFun (congrFun h2 0) 0
  have h3 := congrFun (congrFun h3 0) 0
  simp only [Matrix.mul_apply, Fin.sum_univ_one, Matrix.conjTranspose_apply, Matrix.one_apply_eq,
    Matrix.diagonal_apply_eq, star_trivial, Matrix.of_apply, Matrix.cons_val_zero,
    Matrix.cons_val_fin_one] at h1 h2 h3
  show S 0 ^ 2 = x ^ 2
  rw [h3]
  calc S 0 ^ 2 = (U 0 0 * U 0 0) * S 0 ^ 2 * (Vh 0 0 * Vh 0 0) := by rw [h1, h2]; ring
    _ = _ := by ring

/-- With the same tolerance the method of snapshots and the direct method retain different numbers of
modes: for the array with the one entry 1/2 and tolerance 1/3, the only eigenvalue of the correlation
array is 1/4; the direct method retains it although it is below the tolerance. -/
theorem C55_methods_differ_violation (lib : PodLib ℝ 1 1) (hsvd : ∀ a, IsSvd a (lib.svd a))
    (heigh : ∀ a, a.IsHermitian → IsEigh a (lib.eigh a)) (hs : IsArgsort lib.argsort) :
    let vecs : Matrix (Fin 1) (Fin 1) ℝ := !![1 / 2]
    (∃ res corr, podSnaps lib vecs none none (some (1 / 3)) none = .ok (res, corr) ∧
      corr 0 0 = 1 / 4 ∧ res.r = 0) ∧
    ∃ res, podDirect lib vecs none .none (some (1 / 3)) none = .ok res ∧ res.r = 1 ∧
      ∀ i, res.eigvals i = 1 / 4 := by
  intro vecs
  constructor
  · have hC : vecsᴴ * (1 : Matrix (Fin 1) (Fin 1) ℝ) * vecs = !![1 / 4] := by
      ext i j
      fin_cases i; fin_cases j
      simp [vecs, Matrix.mul_apply]
      norm_num
    have hherm : (!![1 / 4] : Matrix (Fin 1) (Fin 1) ℝ).IsHermitian := by
      ext i j
      fin_cases i; fin_cases j
      simp
    obtain ⟨e, he⟩ := C20_no_error lib.eigh lib.argsort (!![1 / 4] : Matrix (Fin 1) (Fin 1) ℝ) none true (1 / 3)
      (by norm_num)
    have hk : e.r = 0 := by
      obtain ⟨p, -, hle, hk, hv⟩ := C20_kept_iff _ _ _ _ _ _ hs (by simp) e he
      by_contra h0
      have h1 : e.r = 1 := by omega
      obtain ⟨⟨h2, -⟩, -⟩ := (hk 0).mp (by simp [h1])
      have h2 : 1 / 3 < |(lib.eigh !![1 / 4]).w (p 0)| := h2 (1 / 3) rfl
      have he := (heigh _ hherm)
      generalize lib.eigh !![1 / 4] = o at *
      have h3 := congrFun (congrFun he.eigen 0) 0
      have h4 := congrFun (congrFun he.orthonormal 0) 0
      rw [Subsingleton.elim (p 0) 0] at h2
      simp only [Matrix.mul_apply, Fin.sum_univ_one, Matrix.conjTranspose_apply, Matrix.one_apply_eq,
        Matrix.diagonal_apply_eq] at h3 h4
      have h5 : o.V 0 0 ≠ 0 := by rintro h5; rw [h5] at h4; simp at h4
      have h6 : o.w 0 = 1 / 4 := by
        have : o.V 0 0 * (o.w 0 - 1 / 4) = 0 := by
          simp at h3
          linarith
        rcases mul_eq_zero.mp this with h | h
        · exact absurd h h5
        · linarith
      rw [h6] at h2
      norm_num [abs_of_pos] at h2
    refine ⟨⟨e.r, e.w, ⟨e.r, vecs * (e.V * diagPow e.w (-0.5))⟩, diagPow e.w 0.5 * e.Vᴴ, e.V⟩, !![1 / 4],
      ?_, by simp, hk⟩
    unfold podSnaps
    rw [show arraysInit (none : Option (NdArray ℝ)) = .ok .none from rfl]
    dsimp only
    unfold symmIpArray
    rw [C45_formula _ (by trivial)]
    dsimp only
    rw [show Weights.matrix 1 (Weights.none : Weights ℝ) = 1 from rfl, hC, he]
    rfl
  · cases hres : podDirect lib vecs none .none (some (1 / 3)) none with
    | error e =>
      exfalso
      unfold podDirect podDirectSvd at hres
      dsimp only at hres
      cases hs : utilSvd lib.svd vecs (some (1 / 3)) none with
      | error e =>
        have := (C19_error_iff _ _ _ _ _).mp hs
        exact this.2.1 rfl
      | ok s => rw [hs] at hres; cases hres
    | ok res =>
      have h0 : (0 : Nat) < res.r := by
        refine (C55_direct_tolerances_partial lib vecs (hsvd _) none (some (1 / 3)) none
          (by simp) (by simp) res hres (0 : Fin 1)).mpr ⟨fun t ht => ?_, by simp⟩
        obtain rfl := Option.some.inj ht
        rw [svd_one _ _ (hsvd _)]
        norm_num
      unfold podDirect podDirectSvd at hres
      dsimp only at hres
      cases hs : utilSvd lib.svd vecs (some (1 / 3)) none with
      | error e => rw [hs] at hres; cases hres
      | ok s =>
        rw [hs] at hres
        cases hres
        obtain ⟨h1, -, h2⟩ := C19_kept_iff _ _ _ _ (hsvd _) (by simp) s hs
        have h1 : s.r ≤ 1 := h1
        refine ⟨_, rfl, by dsimp only at h0 ⊢; omega, fun i => ?_⟩
        dsimp only at i h0 ⊢
        rw [(h2 i (0 : Fin 1) (by simp only [Fin.val_zero]; have := i.isLt; omega)).1, Real.rpow_two]
        refine (svd_one _ _ (hsvd _) _).trans ?_
        norm_num

/-! ### Examples -/

/-- Library routines that meet the assumptions exist for all sizes. -/
theorem exists_podLib (n m : Nat) : ∃ lib : PodLib 𝕜 n m, (∀ a, IsSvd a (lib.svd a)) ∧
    (∀ a, a.IsHermitian → IsEigh a (lib.eigh a)) ∧ IsArgsort lib.argsort ∧
    ∀ W : Matrix (Fin n) (Fin n) 𝕜, W.PosDef → IsCholesky lib.cholesky W := by
  classical
  choose svd hsvd using fun a : Matrix (Fin n) (Fin m) 𝕜 => exists_isSvd a
  have h1 : ∀ a : Matrix (Fin m) (Fin m) 𝕜, ∃ o, a.IsHermitian → IsEigh a o := fun a => by
    by_cases ha : a.IsHermitian
    · obtain ⟨o, ho⟩ := exists_isEigh a ha
      exact ⟨o, fun _ => ho⟩
    · exact ⟨⟨0, 0⟩, fun h => absurd h ha⟩
  choose eigh heigh using h1
  have h2 : ∀ W : Matrix (Fin n) (Fin n) 𝕜, ∃ l, W.PosDef → l * lᴴ = W := fun W => by
    by_cases hW : W.PosDef
    · obtain ⟨o, ho⟩ := exists_isEigh W hW.isHermitian
      have hD : o.Vᴴ * W * o.V = diagonal (fun i => (o.w i : 𝕜)) := by
        rw [Matrix.mul_assoc, ho.eigen, ← Matrix.mul_assoc, ho.orthonormal, Matrix.one_mul]
      have hw : ∀ i, 0 ≤ o.w i := fun i => by
        have h3 := (hW.posSemidef.conjTranspose_mul_mul_same o.V).diag_nonneg (i := i)
        rw [hD, diagonal_apply_eq] at h3
        exact_mod_cast h3
      refine ⟨o.V * diagonal (fun i => ((Real.sqrt (o.w i) : ℝ) : 𝕜)), fun _ => ?_⟩
      rw [conjTranspose_mul, diagonal_real_conjTranspose]
      rw [show o.V * diagonal (fun i => ((Real.sqrt (o.w i) : ℝ) : 𝕜)) *
        (diagonal (fun i => ((Real.sqrt (o.w i) : ℝ) : 𝕜)) * o.Vᴴ) =
        o.V * (diagonal (fun i => ((Real.sqrt (o.w i) : ℝ) : 𝕜)) *
          diagonal (fun i => ((Real.sqrt (o.w i) : ℝ) : 𝕜))) * o.Vᴴ by simp only [Matrix.mul_assoc],
        diagonal_mul_diagonal]
      simp only [← RCLike.ofReal_mul, Real.mul_self_sqrt (hw _)]
      rw [← ho.eigen, Matrix.mul_assoc, mul_eq_one_comm.mp ho.orthonormal, Matrix.mul_one]
    · exact ⟨0, fun h => absurd h hW⟩
  choose chol hchol using h2
  exact ⟨⟨eigh, fun x => Tuple.sort x, svd, fun W => some (chol W)⟩, hsvd, heigh, sort_isArgsort m,
    fun W hW => ⟨chol W, rfl, hchol W hW⟩⟩

/-- Three vectors with two entries, and weights 2 and 3. -/
noncomputable def exampleData : Matrix (Fin 2) (Fin 3) ℝ := !![1, 0, 1; 0, 2, 1]

noncomputable def exampleWeights : NdArray ℝ := ⟨[2, 1], fun i => if i = 0 then 2 else 3⟩

theorem exampleWeights_init :
    arraysInit (some exampleWeights) = .ok (.d1 2 fun i => if i = 0 then 2 else 3) := rfl

/-- The method of snapshots with weights 2 and 3: all assumptions can be met. -/
example : ∃ (lib : PodLib ℝ 2 3) (res : PodResult ℝ 2 3) (corr : Matrix (Fin 3) (Fin 3) ℝ),
    podSnaps lib exampleData none (some exampleWeights) (some (1 / 10)) (some (1 / 100)) = .ok (res, corr) ∧
    corr 1 1 = 12 ∧ ∃ modes : Matrix (Fin 2) (Fin res.r) ℝ, res.modes = ⟨res.r, modes⟩ ∧
      res.projCoeffs = modesᴴ * (diagonal ![2, 3] : Matrix (Fin 2) (Fin 2) ℝ) * exampleData := by
  obtain ⟨lib, -, heigh, hs, -⟩ := exists_podLib (𝕜 := ℝ) 2 3
  let ws : Weights ℝ := .d1 2 fun i => if i = 0 then 2 else 3
  have hW : ws.matrix 2 = diagonal ![2, 3] := by
    ext i j
    fin_cases i <;> fin_cases j <;> simp [ws, Weights.matrix]
  have hWh : (ws.matrix 2).IsHermitian := by
    rw [hW]
    ext i j
    fin_cases i <;> fin_cases j <;> simp
  have hC : (exampleDataᴴ * ws.matrix 2 * exampleData).IsHermitian := by
    unfold Matrix.IsHermitian
    rw [conjTranspose_mul, conjTranspose_mul, conjTranspose_conjTranspose, hWh.eq, Matrix.mul_assoc]
  obtain ⟨e, he⟩ := C20_no_error lib.eigh lib.argsort (exampleDataᴴ * ws.matrix 2 * exampleData)
    (some (1 / 100)) true (1 / 10) (by norm_num)
  have hres : podSnaps lib exampleData none (some exampleWeights) (some (1 / 10)) (some (1 / 100)) =
      .ok (⟨e.r, e.w, ⟨e.r, exampleData * (e.V * diagPow e.w (-0.5))⟩, diagPow e.w 0.5 * e.Vᴴ, e.V⟩,
        exampleDataᴴ * ws.matrix 2 * exampleData) := by
    unfold podSnaps
    rw [exampleWeights_init]
    dsimp only
    unfold symmIpArray
    rw [C45_formula ws rfl]
    dsimp only
    rw [he]
    rfl
  refine ⟨lib, _, _, hres, ?_, ?_⟩
  · rw [hW]
    simp [exampleData, Matrix.mul_apply, Fin.sum_univ_two, Matrix.diagonal]
    norm_num
  · obtain ⟨modes, h1, h2⟩ := C23_snaps_proj_coeffs lib exampleData _ ws _ (1 / 10) (by norm_num)
      (by simp) hs exampleWeights_init rfl hWh (heigh _ hC) _ _ hres
    exact ⟨modes, h1, by rw [← hW]; exact h2⟩

/-- The direct method raises no exception for any data that has vectors with entries. -/
theorem C22_direct_no_error {n m : Nat} (lib : PodLib 𝕜 n m) (vecs : Matrix (Fin n) (Fin m) 𝕜)
    (ws : DirectWeights 𝕜) (atol rtol : Option ℝ) (hfit : ws.Fits n)
    (hchol : ∀ p q w, ws = .d2 p q w → IsCholesky lib.cholesky (ws.matrix n)) (h : rtol = none ∨ 0 < min n m) :
    ∃ res, podDirect lib vecs none ws atol rtol = .ok res := by
  obtain ⟨G, H, -, -, h3⟩ := podDirectSvd_cases lib vecs ws atol rtol hfit hchol
  unfold podDirect
  rw [h3]
  cases hs : utilSvd lib.svd (G * vecs) atol rtol with
  | error e =>
    obtain ⟨-, h1, h2⟩ := (C19_error_iff _ _ _ _ _).mp hs
    rcases h with h | h
    · exact absurd h h1
    · omega
  | ok s => exact ⟨_, rfl⟩

/-- The direct method on the example, with an array of weights. -/
example : ∃ (lib : PodLib ℝ 2 3) (res : PodResult ℝ 2 3), (∀ a, IsSvd a (lib.svd a)) ∧
    podDirect lib exampleData none (.d2 2 2 fun i j => if i = j then 2 else 1) (some (1 / 10)) (some (1 / 100)) =
      .ok res := by
  obtain ⟨lib, hsvd, -, -, hchol⟩ := exists_podLib (𝕜 := ℝ) 2 3
  have hfit : (DirectWeights.d2 2 2 fun i j => if i = j then 2 else 1 : DirectWeights ℝ).Fits 2 := by
    refine ⟨rfl, rfl, Matrix.PosDef.of_dotProduct_mulVec_pos ?_ fun x hx => ?_⟩
    · ext i j
      fin_cases i <;> fin_cases j <;> simp
    · simp only [dotProduct, mulVec, Fin.sum_univ_two, Pi.star_apply, star_trivial, Matrix.of_apply,
        Fin.val_zero, Fin.val_one, if_true]
      norm_num
      have h : x 0 ≠ 0 ∨ x 1 ≠ 0 := by
        by_contra h
        push Not at h
        exact hx (by ext i; fin_cases i <;> simp [h.1, h.2])
      rcases h with h | h
      · nlinarith [sq_nonneg (x 0 + x 1), sq_nonneg (x 1), sq_pos_of_ne_zero h]
      · nlinarith [sq_nonneg (x 0 + x 1), sq_nonneg (x 0), sq_pos_of_ne_zero h]
  obtain ⟨res, hres⟩ := C22_direct_no_error lib exampleData _ (some (1 / 10)) (some (1 / 100)) hfit
    (fun p q w h => by rw [h] at hfit ⊢; cases h; exact hchol _ hfit.2.2) (Or.inr (by norm_num))
  exact ⟨lib, res, hsvd, hres⟩

/-- Correlation array of the numbers 3 and 4, with multiplication as inner product. -/
theorem exampleCorr : handlesSymmIp (fun x y : ℝ => LinearMap.mul ℝ ℝ x y) ![3, 4] = !![9, 12; 12, 16] := by
  ext i j
  fin_cases i <;> fin_cases j <;> norm_num [handlesSymmIp, handlesIp]

noncomputable def exampleCorrEigh : EighOut ℝ 2 := ⟨![0, 25], !![-4 / 5, 3 / 5; 3 / 5, 4 / 5]⟩

theorem exampleCorrEigh_isEigh : IsEigh (!![9, 12; 12, 16] : Matrix (Fin 2) (Fin 2) ℝ) exampleCorrEigh where
  orthonormal := by
    ext i j
    fin_cases i <;> fin_cases j <;>
      norm_num [exampleCorrEigh, Matrix.mul_apply, Fin.sum_univ_two]
  eigen := by
    ext i j
    fin_cases i <;> fin_cases j <;>
      norm_num [exampleCorrEigh, Matrix.mul_apply, Fin.sum_univ_two]

/-- One mode is computed from handles of the numbers 3 and 4. -/
example : ∃ (pod : PodHandles ℝ ℝ 2) (modes : Vecs ℝ),
    podHandlesDecomp (fun _ => exampleCorrEigh) (fun x => Tuple.sort x) (fun x y => LinearMap.mul ℝ ℝ x y)
      ![3, 4] (some (1 / 10)) none = .ok pod ∧
    podHandlesModes pod [0] 1 = .ok modes := by
  obtain ⟨e, he⟩ := C20_no_error (fun _ => exampleCorrEigh) (fun x => Tuple.sort x)
    (handlesSymmIp (fun x y : ℝ => LinearMap.mul ℝ ℝ x y) ![3, 4]) none true (1 / 10) (by norm_num)
  obtain ⟨p, hp, hle, hk, -⟩ := C20_kept_iff _ _ _ _ _ _ (sort_isArgsort 2) (by simp) e he
  have h0 : 0 < e.r := by
    have h1 : (25 : ℝ) ≤ |exampleCorrEigh.w (p 0)| := by
      have := hp 0 (p.symm 1) (Fin.zero_le _)
      rw [Equiv.apply_symm_apply] at this
      refine le_trans ?_ this
      norm_num [exampleCorrEigh]
    refine (hk 0).mpr ⟨⟨fun t ht => ?_, by simp⟩, fun _ j hj => ?_⟩
    · obtain rfl := Option.some.inj ht
      show 1 / 10 < |exampleCorrEigh.w (p 0)|
      linarith
    · fin_cases j <;> norm_num [exampleCorrEigh] at hj
  have h2 : podHandlesDecomp (fun _ => exampleCorrEigh) (fun x => Tuple.sort x)
      (fun x y => LinearMap.mul ℝ ℝ x y) ![3, 4] (some (1 / 10)) none =
      .ok ⟨![3, 4], handlesSymmIp (fun x y : ℝ => LinearMap.mul ℝ ℝ x y) ![3, 4], e.r, e.w, e.V⟩ := by
    unfold podHandlesDecomp
    rw [if_neg (by norm_num)]
    dsimp only
    rw [he]
  refine ⟨_, ?m, h2, ?h⟩
  case h =>
    unfold podHandlesModes handlesLinCombine pickCols npAxisIndices npAxisIndex
    dsimp only
    rw [dif_pos (by omega)]
    unfold npAxisIndices
    dsimp only
    rw [if_neg (by simp), if_neg (by norm_num)]

end Modred
