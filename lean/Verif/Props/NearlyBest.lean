import Verif.Spec.NearlyBest
import Verif.Props.Continuity
import Verif.Props.Optimal
import Verif.Props.ModeIndicesHandles
import Mathlib.Analysis.InnerProductSpace.PiL2

/-!
# C120: modes of data with errors are nearly best for the data without errors
-/

namespace Modred

open Matrix
open scoped ComplexOrder

variable {𝕜 : Type*} [RCLike 𝕜] {E : Type*} [AddCommGroup E] [Module 𝕜 E]

/-- Inner products with orthonormal modes are the best coefficients. -/
theorem missed_le (ip : E →ₗ⋆[𝕜] E →ₗ[𝕜] 𝕜) (hsymm : ∀ x y, ip y x = star (ip x y)) (hnn : ∀ x, 0 ≤ RCLike.re (ip x x)) {k : Nat}
    (φ : Fin k → E) (hφ : ∀ i j, ip (φ i) (φ j) = if i = j then 1 else 0) (v : E) (c : Fin k → 𝕜) :
    RCLike.re (ip (missed (fun x y => ip x y) φ v) (missed (fun x y => ip x y) φ v)) ≤
      RCLike.re (ip (v - ∑ i, c i • φ i) (v - ∑ i, c i • φ i)) := by
  set u := missed (fun x y => ip x y) φ v with hu
  set w := ∑ i, (ip (φ i) v - c i) • φ i with hw
  have h1 : v - ∑ i, c i • φ i = u + w := by
    rw [hu, hw, missed]
    simp only [sub_smul, Finset.sum_sub_distrib]
    abel
  have h2 : ∀ i, ip (φ i) u = 0 := by
    intro i
    rw [hu, missed, map_sub, map_sum]
    simp [hφ]
  have h3 : ip w u = 0 := by
    rw [hw]
    simp [h2]
  have h4 : ip u w = 0 := by rw [hsymm w u, h3, star_zero]
  rw [h1]
  simp only [map_add, LinearMap.add_apply, h3, h4]
  have := hnn w
  simp
  exact this

/-- The triangle inequality for roots of sums of squared lengths. -/
theorem total_tri {m : Nat} (sqL : E → ℝ) (h0 : ∀ v, 0 ≤ sqL v) (tri : ∀ u v, √(sqL (u + v)) ≤ √(sqL u) + √(sqL v)) (u v : Fin m → E) :
    √(∑ j, sqL (u j + v j)) ≤ √(∑ j, sqL (u j)) + √(∑ j, sqL (v j)) := by
  have h := norm_add_le (WithLp.toLp 2 (fun j => √(sqL (u j))) : EuclideanSpace ℝ (Fin m)) (WithLp.toLp 2 fun j => √(sqL (v j)))
  simp only [EuclideanSpace.norm_eq, PiLp.add_apply, Real.norm_eq_abs, sq_abs, Real.sq_sqrt (h0 _)] at h
  refine le_trans (Real.sqrt_le_sqrt (Finset.sum_le_sum fun j _ => ?_)) h
  rw [← Real.sq_sqrt (h0 (u j + v j))]
  exact pow_le_pow_left₀ (Real.sqrt_nonneg _) (tri _ _) 2

section General

variable (ip : E →ₗ⋆[𝕜] E →ₗ[𝕜] 𝕜) (hsymm : ∀ x y, ip y x = star (ip x y)) (hnn : ∀ x, 0 ≤ RCLike.re (ip x x)) {m r : Nat}
  (vecs data : Fin m → E) (modes : Fin r → E) (hφ : ∀ i j, ip (modes i) (modes j) = if i = j then 1 else 0)
  (coeffs : Fin r → Fin m → 𝕜)

include hsymm hnn hφ

theorem nearlyBest_of_best
    (hbest : ∀ (k : Nat) (hk : k ≤ r) (q : Fin k → E) (c : Fin k → Fin m → 𝕜),
      ∑ j, RCLike.re (ip (vecs j - ∑ i : Fin k, coeffs (Fin.castLE hk i) j • modes (Fin.castLE hk i))
        (vecs j - ∑ i : Fin k, coeffs (Fin.castLE hk i) j • modes (Fin.castLE hk i))) ≤
      ∑ j, RCLike.re (ip (vecs j - ∑ i, c i j • q i) (vecs j - ∑ i, c i j • q i))) {d : ℝ}
    (hd : √(∑ j, RCLike.re (ip (vecs j - data j) (vecs j - data j))) ≤ d) :
    NearlyBest (fun x y => ip x y) data modes (2 * d) := by
  intro k hk q c
  have tri := length_add ip hsymm hnn
  have hneg : ∀ x y, RCLike.re (ip (x - y) (x - y)) = RCLike.re (ip (y - x) (y - x)) := by
    intro x y
    rw [← neg_sub y x]
    simp only [map_neg, LinearMap.neg_apply, neg_neg]
  have h1 : √(∑ j, RCLike.re (ip (missed (fun x y => ip x y) (fun i : Fin k => modes (Fin.castLE hk i)) (data j))
      (missed (fun x y => ip x y) (fun i : Fin k => modes (Fin.castLE hk i)) (data j)))) ≤
      √(∑ j, RCLike.re (ip (data j - ∑ i : Fin k, coeffs (Fin.castLE hk i) j • modes (Fin.castLE hk i))
        (data j - ∑ i : Fin k, coeffs (Fin.castLE hk i) j • modes (Fin.castLE hk i)))) := by
    refine Real.sqrt_le_sqrt (Finset.sum_le_sum fun j _ => ?_)
    refine missed_le ip hsymm hnn _ (fun i i' => ?_) (data j) fun i => coeffs (Fin.castLE hk i) j
    rw [hφ]
    simp
  have h2 := total_tri (fun v => RCLike.re (ip v v)) hnn tri (fun j => data j - vecs j)
    fun j => vecs j - ∑ i : Fin k, coeffs (Fin.castLE hk i) j • modes (Fin.castLE hk i)
  have h3 := Real.sqrt_le_sqrt (hbest k hk q c)
  have h4 := total_tri (fun v => RCLike.re (ip v v)) hnn tri (fun j => vecs j - data j) fun j => data j - ∑ i, c i j • q i
  simp only [sub_add_sub_cancel] at h2 h4
  simp only [hneg (data _) (vecs _)] at h2
  linarith

theorem nearlyBest_of_worst {S : Fin r → ℝ}
    (hbest : BestInWorstCase (fun v => RCLike.re (ip v v)) vecs modes (Matrix.of coeffs) S) {δ : ℝ}
    (hδ : SmallChange 𝕜 (fun v => RCLike.re (ip v v)) (fun j => vecs j - data j) δ) :
    NearlyBestInWorstCase (fun x y => ip x y) data modes (2 * δ) := by
  intro k hk q c B hB0 hB x
  have tri := length_add ip hsymm hnn
  have hneg : ∀ v, RCLike.re (ip (-v) (-v)) = RCLike.re (ip v v) := by
    intro v
    simp
  obtain ⟨y, hy, hS⟩ := hbest.best ⟨k, hk⟩ q (Matrix.of c)
  have hy0 : 0 < √(∑ j, ‖y j‖ ^ 2) := by
    obtain ⟨j, hj⟩ := Function.ne_iff.mp hy
    refine Real.sqrt_pos.mpr (Finset.sum_pos' (fun _ _ => sq_nonneg _) ⟨j, Finset.mem_univ j, ?_⟩)
    exact pow_pos (norm_pos_iff.mpr hj) 2
  have hsum : ∀ (z : Fin m → 𝕜) (e : Fin m → E), ∑ j, z j • (vecs j - e j) =
      ∑ j, z j • (vecs j - data j) + ∑ j, z j • (data j - e j) := by
    intro z e
    rw [← Finset.sum_add_distrib]
    refine Finset.sum_congr rfl fun j _ => ?_
    rw [← smul_add, sub_add_sub_cancel]
  have hk1 : √(S ⟨k, hk⟩) ≤ B + δ := by
    have h1 := Real.sqrt_le_sqrt hS
    rw [Real.sqrt_mul' _ (Finset.sum_nonneg fun _ _ => sq_nonneg _)] at h1
    have h2 := tri (∑ j, y j • (vecs j - data j)) (∑ j, y j • (data j - ∑ i, c i j • q i))
    rw [← hsum] at h2
    have h3 := hδ y
    have h4 := hB y
    refine le_of_mul_le_mul_right ?_ hy0
    refine (h1.trans h2).trans ?_
    rw [add_mul]
    linarith
  have h5 := Real.sqrt_le_sqrt (hbest.error ⟨k, hk⟩ x)
  rw [Real.sqrt_mul' _ (Finset.sum_nonneg fun _ _ => sq_nonneg _)] at h5
  have h6 := tri (-∑ j, x j • (vecs j - data j)) (∑ j, x j • (vecs j - ∑ i : Fin k, coeffs (Fin.castLE hk.le i) j • modes (Fin.castLE hk.le i)))
  rw [hneg, hsum x fun j => ∑ i : Fin k, coeffs (Fin.castLE hk.le i) j • modes (Fin.castLE hk.le i), neg_add_cancel_left,
    ← hsum x fun j => ∑ i : Fin k, coeffs (Fin.castLE hk.le i) j • modes (Fin.castLE hk.le i)] at h6
  have h7 : ∑ j, x j • (data j - ∑ i : Fin k, coeffs (Fin.castLE hk.le i) j • modes (Fin.castLE hk.le i)) =
      ∑ j, x j • data j - ∑ i : Fin k, (∑ j, x j * coeffs (Fin.castLE hk.le i) j) • modes (Fin.castLE hk.le i) := by
    simp only [smul_sub, Finset.sum_sub_distrib, Finset.smul_sum, Finset.sum_smul, smul_smul]
    rw [Finset.sum_comm]
  have h8 := Real.sqrt_le_sqrt (missed_le ip hsymm hnn (fun i : Fin k => modes (Fin.castLE hk.le i)) (fun i i' => by
    rw [hφ]; simp) (∑ j, x j • data j) fun i => ∑ j, x j * coeffs (Fin.castLE hk.le i) j)
  rw [← h7] at h8
  have h9 := hδ x
  have h10 := mul_le_mul_of_nonneg_right hk1 (Real.sqrt_nonneg (∑ j, ‖x j‖ ^ 2))
  simp only [Matrix.of_apply] at h5
  refine (h8.trans h6).trans ?_
  nlinarith [h5, h9, h10]

end General

section Arrays

variable {n m : Nat} (lib : PodLib 𝕜 n m) (X Z : Matrix (Fin n) (Fin m) 𝕜)

theorem weightedSq_sum {k : Nat} (W : Matrix (Fin n) (Fin n) 𝕜) (A : Matrix (Fin n) (Fin k) 𝕜) :
    RCLike.re (weightedSq W A) = ∑ j, RCLike.re (weightedIp W (Aᵀ j) (Aᵀ j)) := by
  rw [weightedSq, map_sum]
  rfl

theorem sub_mul_col {k : Nat} (A : Matrix (Fin n) (Fin m) 𝕜) (Q : Matrix (Fin n) (Fin k) 𝕜) (c : Matrix (Fin k) (Fin m) 𝕜) (j : Fin m) :
    (A - Q * c)ᵀ j = Aᵀ j - ∑ i, c i j • Qᵀ i := by
  ext a
  simp [Matrix.mul_apply, mul_comm]

/-- Best and orthonormal modes of arrays are nearly best for other arrays. -/
theorem nearlyBest_arrays {W : Matrix (Fin n) (Fin n) 𝕜} (hW : W.PosSemidef) {r : Nat} (coeffs : Matrix (Fin r) (Fin m) 𝕜)
    (out : Cols 𝕜 n) (sel : Fin out.k → Fin r) (ho : OrthonormalSelection W out.a sel) (hk : out.k = r) (hsel : ∀ i, (sel i).val = i.val)
    (M M' : Matrix (Fin n) (Fin r) 𝕜) (hM : SelectedFrom none out M) (hM' : SelectedFrom none out M') (hbest : AreBest W X M coeffs)
    {S : Fin r → ℝ} (hworst : BestInWorstCase (weightedLength W) Xᵀ M'ᵀ coeffs S) :
    (∀ d, √(∑ j, weightedLength W ((X - Z)ᵀ j)) ≤ d → NearlyBest (fun x y => weightedIp W x y) Zᵀ out.aᵀ (2 * d)) ∧
      ∀ δ, SmallChange 𝕜 (weightedLength W) (fun j => (X - Z)ᵀ j) δ →
        NearlyBestInWorstCase (fun x y => weightedIp W x y) Zᵀ out.aᵀ (2 * δ) := by
  obtain ⟨k, a⟩ := out
  dsimp only at hk
  subst hk
  have hMa : M = a := by
    ext i j
    exact (hM j j rfl i).symm
  have hMa' : M' = a := by
    ext i j
    exact (hM' j j rfl i).symm
  subst hMa
  subst hMa'
  have hφ : ∀ i j, weightedIp W (M'ᵀ i) (M'ᵀ j) = if i = j then 1 else 0 := by
    intro i j
    have h := ho i j
    have hs : ∀ i, sel i = i := fun i => Fin.ext (hsel i)
    rw [hs, hs] at h
    rw [← h, Matrix.mul_assoc, Matrix.mul_apply]
    rfl
  refine ⟨fun d hd => ?_, fun δ hδ => ?_⟩
  · refine nearlyBest_of_best (weightedIp W) (weightedIp_symm hW) (weightedIp_nonneg hW) Xᵀ Zᵀ M'ᵀ hφ coeffs (fun k hk q c => ?_) hd
    have h := hbest k hk (Matrix.of q)ᵀ (Matrix.of c)
    rw [weightedSq_sum, weightedSq_sum] at h
    simp only [sub_mul_col] at h
    exact h
  · exact nearlyBest_of_worst (weightedIp W) (weightedIp_symm hW) (weightedIp_nonneg hW) Xᵀ Zᵀ M'ᵀ hφ coeffs hworst hδ

/-- **C120**, method of snapshots: modes of vectors `X` represent other vectors `Z` almost as well as any vectors do. -/
theorem C120_snaps (weights : Option (NdArray 𝕜)) (ws : Weights 𝕜) (rtol : Option ℝ) (t : ℝ) (ht : 0 ≤ t) (hr : ∀ t ∈ rtol, 0 ≤ t)
    (hs : IsArgsort lib.argsort) (hws : arraysInit weights = .ok ws) (hfit : ws.Fits n) (hW : (ws.matrix n).PosSemidef)
    (hlib : IsEigh (Xᴴ * ws.matrix n * X) (lib.eigh (Xᴴ * ws.matrix n * X)))
    (res : PodResult 𝕜 n m) (corr : Matrix (Fin m) (Fin m) 𝕜)
    (hres : podSnaps lib X none weights (some t) rtol = .ok (res, corr)) :
    (∀ d, √(∑ j, weightedLength (ws.matrix n) ((X - Z)ᵀ j)) ≤ d →
        NearlyBest (fun x y => weightedIp (ws.matrix n) x y) Zᵀ res.modes.aᵀ (2 * d)) ∧
      ∀ δ, SmallChange 𝕜 (weightedLength (ws.matrix n)) (fun j => (X - Z)ᵀ j) δ →
        NearlyBestInWorstCase (fun x y => weightedIp (ws.matrix n) x y) Zᵀ res.modes.aᵀ (2 * δ) := by
  obtain ⟨M, h1, h2⟩ := C70_snaps lib X none weights ws rtol t ht hr hs hws hfit hW hlib res corr hres
  obtain ⟨M', h1', h2', -⟩ := C81_snaps lib X none weights ws rtol t ht hr hs hws hfit hW hlib res corr hres
  obtain ⟨sel, h3, -, h4⟩ := C22_snaps lib X none weights ws rtol t ht hr hs hws hfit hlib res corr hres
  exact nearlyBest_arrays X Z hW _ res.modes sel h3 (h4 rfl).1 (h4 rfl).2 M M' h1 h1' h2 h2'

/-- **C120**, direct method. -/
theorem C120_direct (ws : DirectWeights 𝕜) (atol rtol : Option ℝ) (hr : ∀ t ∈ rtol, 0 ≤ t) (hfit : ws.Fits n)
    (hchol : ∀ p q w, ws = .d2 p q w → IsCholesky lib.cholesky (ws.matrix n)) (hlib : ∀ a, IsSvd a (lib.svd a)) (res : PodResult 𝕜 n m)
    (hres : podDirect lib X none ws atol rtol = .ok res) :
    (∀ d, √(∑ j, weightedLength (ws.matrix n) ((X - Z)ᵀ j)) ≤ d →
        NearlyBest (fun x y => weightedIp (ws.matrix n) x y) Zᵀ res.modes.aᵀ (2 * d)) ∧
      ∀ δ, SmallChange 𝕜 (weightedLength (ws.matrix n)) (fun j => (X - Z)ᵀ j) δ →
        NearlyBestInWorstCase (fun x y => weightedIp (ws.matrix n) x y) Zᵀ res.modes.aᵀ (2 * δ) := by
  obtain ⟨M, h1, h2⟩ := C70_direct lib X none ws atol rtol hr hfit hchol hlib res hres
  obtain ⟨M', G, h1', h2', hG, -⟩ := C81_direct lib X none ws atol rtol hr hfit hchol hlib res hres
  obtain ⟨sel, h3, -, h4⟩ := C22_direct lib X none ws atol rtol hfit hchol hlib res hres
  exact nearlyBest_arrays X Z (by rw [← hG]; exact posSemidef_conjTranspose_mul_self _) _ res.modes sel h3 (h4 rfl).1 (h4 rfl).2 M M' h1 h1'
    h2 h2'

end Arrays

/-- **C120** for `PODHandles`: `out` are the modes that `compute_modes` puts for the indices of all eigenvalues. -/
theorem C120_handles {m : Nat} (eigh : Matrix (Fin m) (Fin m) 𝕜 → EighOut 𝕜 m)
    (argsort : (Fin m → ℝ) → Equiv.Perm (Fin m)) (ip : E →ₗ⋆[𝕜] E →ₗ[𝕜] 𝕜) (vecs data : Fin m → E) (rtol : Option ℝ)
    (t : ℝ) (ht : 0 ≤ t) (hr : ∀ t ∈ rtol, 0 ≤ t) (hs : IsArgsort argsort)
    (hsymm : ∀ x y, ip y x = star (ip x y)) (hnn : ∀ x, 0 ≤ RCLike.re (ip x x))
    (hlib : IsEigh (gram ip vecs vecs) (eigh (gram ip vecs vecs))) (pod : PodHandles 𝕜 E m)
    (hpod : podHandlesDecomp eigh argsort (fun x y => ip x y) vecs (some t) rtol = .ok pod) (k : Nat) (out : Vecs E)
    (hout : podHandlesModes pod ((List.range pod.r).map Int.ofNat) k = .ok out) :
    (∀ d, √(∑ j, RCLike.re (ip (vecs j - data j) (vecs j - data j))) ≤ d →
        NearlyBest (fun x y => ip x y) data out.v (2 * d)) ∧
      ∀ δ, SmallChange 𝕜 (fun v => RCLike.re (ip v v)) (fun j => vecs j - data j) δ →
        NearlyBestInWorstCase (fun x y => ip x y) data out.v (2 * δ) := by
  obtain ⟨M, h1, h2⟩ := C70_handles eigh argsort ip vecs rtol t ht hr hs hsymm hnn hlib pod hpod
  obtain ⟨M', h1', h2', -⟩ := C81_handles eigh argsort ip vecs rtol t ht hr hs hsymm hnn hlib pod hpod
  obtain ⟨h3, sel, h4, h5⟩ := C22_handles eigh argsort ip vecs rtol t ht hr hs hlib pod hpod _ k out hout
  have e1 := h1 _ _ _ hout
  have e2 := h1' _ _ _ hout
  clear hout h1 h1'
  obtain ⟨k', v⟩ := out
  simp only [List.length_map, List.length_range] at h3
  subst h3
  have hl : ∀ i : Fin pod.r, ((List.range pod.r).map Int.ofNat)[i.val]? = some ((i.val : Nat) : Int) := by
    intro i
    simp
  have hM : M = v := by
    ext i
    exact (e1 i i (hl i)).symm
  have hM' : M' = v := by
    ext i
    exact (e2 i i (hl i)).symm
  subst hM
  subst hM'
  have hsel : ∀ i, sel i = i := by
    intro i
    have h := h4 i _ (hl i)
    unfold npAxisIndex at h
    have hi : i.val < pod.r := i.isLt
    rw [dif_pos (by constructor <;> omega)] at h
    have := Except.ok.inj h
    rw [← this]
    rfl
  have hφ : ∀ i j, ip (M' i) (M' j) = if i = j then 1 else 0 := by
    intro i j
    have h := h5 i j
    rwa [hsel, hsel] at h
  exact ⟨fun d hd => nearlyBest_of_best ip hsymm hnn vecs data M' hφ _ h2 hd,
    fun δ hδ => nearlyBest_of_worst ip hsymm hnn vecs data M' hφ (podHandlesProjCoeffs pod) h2' hδ⟩

/-! ### Examples -/

/-- Modes of three vectors, of which one has an error of length 5, are best for the vectors without error up to 10. -/
example : ∃ (lib : PodLib ℝ 2 3) (res : PodResult ℝ 2 3),
    podDirect lib exampleData none .none (some (1 / 10)) none = .ok res ∧
    NearlyBest (fun x y => weightedIp (1 : Matrix (Fin 2) (Fin 2) ℝ) x y) (exampleData - !![0, 3, 0; 0, 4, 0])ᵀ res.modes.aᵀ (2 * 5) := by
  obtain ⟨lib, hsvd, -, -, -⟩ := exists_podLib (𝕜 := ℝ) 2 3
  have hfit : (DirectWeights.none : DirectWeights ℝ).Fits 2 := trivial
  obtain ⟨res, hres⟩ := C22_direct_no_error lib exampleData .none (some (1 / 10)) none hfit (by simp) (Or.inl rfl)
  refine ⟨lib, res, hres, (C120_direct lib exampleData (exampleData - !![0, 3, 0; 0, 4, 0]) .none _ _ (by simp) hfit (by simp) hsvd res
    hres).1 5 (le_of_eq ?_)⟩
  have h1 : (DirectWeights.none : DirectWeights ℝ).matrix 2 = 1 := rfl
  rw [h1, sub_sub_cancel, Real.sqrt_eq_iff_mul_self_eq_of_pos (by norm_num), Fin.sum_univ_three]
  simp [weightedLength, dotProduct, Fin.sum_univ_two]
  norm_num

/-- Handles of the numbers 3 and 4, of which the second should have been 5. -/
example : ∃ (pod : PodHandles ℝ ℝ 2) (out : Vecs ℝ),
    podHandlesDecomp (fun _ => exampleCorrEigh) (fun x => Tuple.sort x) (fun x y => LinearMap.mul ℝ ℝ x y)
      ![3, 4] (some (1 / 10)) none = .ok pod ∧
    podHandlesModes pod ((List.range pod.r).map Int.ofNat) ((List.range pod.r).map Int.ofNat).length = .ok out ∧
    NearlyBest (fun x y => LinearMap.mul ℝ ℝ x y) ![3, 5] out.v (2 * 1) := by
  obtain ⟨e, he⟩ := C20_no_error (fun _ => exampleCorrEigh) (fun x => Tuple.sort x)
    (handlesSymmIp (fun x y : ℝ => LinearMap.mul ℝ ℝ x y) ![3, 4]) none true (1 / 10) (by norm_num)
  have h2 : podHandlesDecomp (fun _ => exampleCorrEigh) (fun x => Tuple.sort x)
      (fun x y => LinearMap.mul ℝ ℝ x y) ![3, 4] (some (1 / 10)) none =
      .ok ⟨![3, 4], handlesSymmIp (fun x y : ℝ => LinearMap.mul ℝ ℝ x y) ![3, 4], e.r, e.w, e.V⟩ := by
    unfold podHandlesDecomp
    rw [if_neg (by norm_num)]
    dsimp only
    rw [he]
  obtain ⟨out, hout⟩ : ∃ out, podHandlesModes (𝕜 := ℝ) (⟨![3, 4], handlesSymmIp (fun x y : ℝ => LinearMap.mul ℝ ℝ x y) ![3, 4], e.r, e.w, e.V⟩ :
      PodHandles ℝ ℝ 2) ((List.range e.r).map Int.ofNat) ((List.range e.r).map Int.ofNat).length = .ok out := by
    unfold podHandlesModes
    dsimp only
    rw [handlesLinCombine_choose _ _ _ (by decide), chooseVecs, dif_pos]
    · exact ⟨_, rfl⟩
    · intro j hj
      simp at hj
      obtain ⟨a, ha, rfl⟩ := hj
      dsimp only
      constructor <;> omega
  refine ⟨_, out, h2, hout, ?_⟩
  let ip : ℝ →ₗ⋆[ℝ] ℝ →ₗ[ℝ] ℝ := LinearMap.mul ℝ ℝ
  refine (C120_handles (fun _ => exampleCorrEigh) (fun x => Tuple.sort x) ip ![3, 4] ![3, 5] none (1 / 10)
    (by norm_num) (by simp) (sort_isArgsort 2) (fun x y => mul_comm y x)
    (fun x => mul_self_nonneg (x : ℝ))
    (by rw [show gram ip ![3, 4] ![3, 4] = _ from exampleCorr]; exact exampleCorrEigh_isEigh) _ h2 _ out hout).1 1 (le_of_eq ?_)
  rw [Real.sqrt_eq_iff_mul_self_eq_of_pos (by norm_num), Fin.sum_univ_two]
  change (1 : ℝ) * 1 = (3 - 3) * (3 - 3) + (4 - 5) * (4 - 5)
  norm_num

end Modred
