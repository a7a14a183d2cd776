import Verif.Spec.Continuity
import Verif.Props.WorstCase
import Mathlib.Analysis.InnerProductSpace.Defs

/-!
# C119: eigenvalues and singular values change no more than the data, and more data do not lower them
-/

namespace Modred

open Matrix
open scoped ComplexOrder

variable {𝕜 : Type*} [RCLike 𝕜] {E E' : Type*} [AddCommGroup E] [Module 𝕜 E] [AddCommGroup E'] [Module 𝕜 E']

/-! ### Lengths -/

theorem length_add (ip : E →ₗ⋆[𝕜] E →ₗ[𝕜] 𝕜) (hsymm : ∀ x y, ip y x = star (ip x y)) (hnn : ∀ x, 0 ≤ RCLike.re (ip x x)) (u v : E) :
    √(RCLike.re (ip (u + v) (u + v))) ≤ √(RCLike.re (ip u u)) + √(RCLike.re (ip v v)) := by
  let c : PreInnerProductSpace.Core 𝕜 E :=
    { inner := fun x y => ip x y
      conj_inner_symm := fun x y => (hsymm y x).symm
      re_inner_nonneg := hnn
      add_left := fun x y z => by simp
      smul_left := fun x y r => by simp }
  letI := InnerProductSpace.Core.toSeminormedAddCommGroup (𝕜 := 𝕜) (F := E) (c := c)
  exact norm_add_le u v

/-- Lengths of linear combinations are at most the root of the sum of the squared lengths. -/
theorem C119_change (ip : E →ₗ⋆[𝕜] E →ₗ[𝕜] 𝕜) (hsymm : ∀ x y, ip y x = star (ip x y)) (hnn : ∀ x, 0 ≤ RCLike.re (ip x x))
    {m : Nat} (d : Fin m → E) : SmallChange 𝕜 (fun v => RCLike.re (ip v v)) d (√(∑ j, RCLike.re (ip (d j) (d j)))) := by
  intro x
  have hsmul : ∀ (a : 𝕜) (v : E), √(RCLike.re (ip (a • v) (a • v))) = ‖a‖ * √(RCLike.re (ip v v)) := by
    intro a v
    have : ip (a • v) (a • v) = ((‖a‖ ^ 2 : ℝ) : 𝕜) * ip v v := by
      simp only [LinearMap.map_smulₛₗ, LinearMap.smul_apply, smul_eq_mul, map_smul]
      rw [← mul_assoc, RCLike.mul_conj]
      push_cast
      ring
    rw [this, RCLike.re_ofReal_mul, Real.sqrt_mul (sq_nonneg _), Real.sqrt_sq (norm_nonneg _)]
  have hsum : ∀ s : Finset (Fin m), √(RCLike.re (ip (∑ j ∈ s, x j • d j) (∑ j ∈ s, x j • d j))) ≤
      ∑ j ∈ s, ‖x j‖ * √(RCLike.re (ip (d j) (d j))) := by
    intro s
    induction s using Finset.cons_induction with
    | empty => simp
    | cons j s hj ih =>
      rw [Finset.sum_cons, Finset.sum_cons]
      refine (length_add ip hsymm hnn _ _).trans ?_
      rw [hsmul]
      exact add_le_add le_rfl ih
  refine (hsum Finset.univ).trans ?_
  have h := Real.sum_mul_le_sqrt_mul_sqrt Finset.univ (fun j => ‖x j‖) fun j => √(RCLike.re (ip (d j) (d j)))
  simp only [Real.sq_sqrt (hnn _)] at h
  rw [mul_comm]
  exact h

/-! ### The comparison -/

variable {m m' r r' : Nat} {sqL : E → ℝ} {sqL' : E' → ℝ} {data : Fin m → E} {data' : Fin m' → E'}
  {modes : Fin r → E} {modes' : Fin r' → E'} {coeffs : Matrix (Fin r) (Fin m) 𝕜} {coeffs' : Matrix (Fin r') (Fin m') 𝕜}
  {S : Fin r → ℝ} {S' : Fin r' → ℝ}

theorem BestInWorstCase.compare (h : BestInWorstCase sqL data modes coeffs S) (P : E' →ₗ[𝕜] E) (f : Fin m → Fin m')
    (hf : Function.Injective f) (tri : ∀ u v, √(sqL (u + v)) ≤ √(sqL u) + √(sqL v)) (hP : ∀ v, sqL (P v) ≤ sqL' v) {δ : ℝ}
    (hδ : SmallChange 𝕜 sqL (fun j => data j - P (data' (f j))) δ) (k : Fin r) (q : Fin k → E') (c : Matrix (Fin k) (Fin m') 𝕜)
    {B : ℝ} (hB0 : 0 ≤ B)
    (hB : ∀ x : Fin m' → 𝕜, sqL' (∑ j, x j • (data' j - ∑ i, c i j • q i)) ≤ B * ∑ j, ‖x j‖ ^ 2) :
    √(S k) ≤ √B + δ := by
  obtain ⟨x, hx, hS⟩ := h.best k (fun i => P (q i)) (c.submatrix id f)
  have hext : ∀ j, Function.extend f x 0 (f j) = x j := fun j => hf.extend_apply _ _ _
  have hout : ∀ j, j ∉ Set.range f → Function.extend f x 0 j = 0 := fun j hj => by
    rw [Function.extend_apply' _ _ _ (fun ⟨i, hi⟩ => hj ⟨i, hi⟩)]
    rfl
  have hlen : ∑ j, ‖Function.extend f x 0 j‖ ^ 2 = ∑ j, ‖x j‖ ^ 2 :=
    (Fintype.sum_of_injective f hf (fun j => ‖x j‖ ^ 2) _ (fun j hj => by simp [hout j hj]) fun j => by rw [hext]).symm
  have hsum : ∑ j, Function.extend f x 0 j • (data' j - ∑ i, c i j • q i) = ∑ j, x j • (data' (f j) - ∑ i, c i (f j) • q i) :=
    (Fintype.sum_of_injective f hf (fun j => x j • (data' (f j) - ∑ i, c i (f j) • q i)) _
      (fun j hj => by simp [hout j hj]) fun j => by rw [hext]).symm
  have hsplit : ∑ j, x j • (data j - ∑ i, (c.submatrix id f) i j • P (q i)) =
      ∑ j, x j • (data j - P (data' (f j))) + P (∑ j, Function.extend f x 0 j • (data' j - ∑ i, c i j • q i)) := by
    rw [hsum, map_sum, ← Finset.sum_add_distrib]
    refine Finset.sum_congr rfl fun j _ => ?_
    rw [map_smul, map_sub, map_sum, ← smul_add]
    simp [Matrix.submatrix]
  rw [hsplit] at hS
  have hL : 0 < √(∑ j, ‖x j‖ ^ 2) := by
    refine Real.sqrt_pos.mpr ?_
    obtain ⟨j, hj⟩ := Function.ne_iff.mp hx
    exact Finset.sum_pos' (fun i _ => sq_nonneg _) ⟨j, Finset.mem_univ _, pow_pos (norm_pos_iff.mpr hj) 2⟩
  have h1 := Real.sqrt_le_sqrt hS
  rw [Real.sqrt_mul' _ (Finset.sum_nonneg fun i _ => sq_nonneg _)] at h1
  have h2 := Real.sqrt_le_sqrt ((hP _).trans (hB (Function.extend f x 0)))
  rw [Real.sqrt_mul hB0, hlen] at h2
  have h3 := h1.trans ((tri _ _).trans (add_le_add (hδ x) h2))
  rw [← add_mul, add_comm] at h3
  exact le_of_mul_le_mul_right h3 hL

/-- The comparison with values of the second decomposition, and with its tolerance. -/
theorem BestInWorstCase.le_value (h : BestInWorstCase sqL data modes coeffs S)
    (h' : BestInWorstCase sqL' data' modes' coeffs' S') (P : E' →ₗ[𝕜] E) (f : Fin m → Fin m')
    (hf : Function.Injective f) (tri : ∀ u v, √(sqL (u + v)) ≤ √(sqL u) + √(sqL v)) (hP : ∀ v, sqL (P v) ≤ sqL' v) {δ : ℝ}
    (hδ : SmallChange 𝕜 sqL (fun j => data j - P (data' (f j))) δ) (k : Fin r) (k' : Fin r') (hk : k.val = k'.val)
    (h0 : 0 ≤ S' k') : √(S k) ≤ √(S' k') + δ := by
  obtain ⟨k, hkr⟩ := k
  obtain ⟨k', hkr'⟩ := k'
  obtain rfl : k = k' := hk
  exact h.compare P f hf tri hP hδ ⟨k, hkr⟩ (fun i => modes' (Fin.castLE hkr'.le i))
    (coeffs'.submatrix (Fin.castLE hkr'.le) id) h0 (h'.error ⟨k, hkr'⟩)

theorem BestInWorstCase.le_tolerance (h : BestInWorstCase sqL data modes coeffs S) {b : ℝ} (hb : 0 ≤ b)
    (h' : WithinTolerance sqL' data' modes' coeffs' b) (P : E' →ₗ[𝕜] E) (f : Fin m → Fin m')
    (hf : Function.Injective f) (tri : ∀ u v, √(sqL (u + v)) ≤ √(sqL u) + √(sqL v)) (hP : ∀ v, sqL (P v) ≤ sqL' v) {δ : ℝ}
    (hδ : SmallChange 𝕜 sqL (fun j => data j - P (data' (f j))) δ) (k : Fin r) (hk : r' ≤ k.val) : √(S k) ≤ √b + δ := by
  obtain ⟨k, hkr⟩ := k
  obtain ⟨d, rfl⟩ : ∃ d, k = r' + d := ⟨k - r', by dsimp only at hk; omega⟩
  refine h.compare P f hf tri hP hδ ⟨r' + d, hkr⟩ (Fin.append modes' fun _ => 0)
    (Matrix.of fun i j => Fin.append (fun i => coeffs' i j) (fun _ => 0) i) hb fun x => ?_
  have : ∀ j, ∑ i : Fin (r' + d), (Matrix.of fun i j => Fin.append (fun i => coeffs' i j) (fun _ : Fin d => (0 : 𝕜)) i) i j •
      Fin.append modes' (fun _ : Fin d => (0 : E')) i = ∑ i, coeffs' i j • modes' i := by
    intro j
    rw [Fin.sum_univ_add]
    simp
  simp only [this]
  exact h' x

theorem SmallChange.neg {d : Fin m → E} {δ : ℝ} (h : SmallChange 𝕜 sqL d δ) : SmallChange 𝕜 sqL (fun j => -d j) δ := by
  intro x
  have := h fun j => -x j
  simp only [norm_neg, neg_smul] at this
  simpa only [smul_neg] using this

/-- Values for data and for other data of the same number. -/
theorem close_values {data'' : Fin m → E} {modes'' : Fin r' → E} {coeffs'' : Matrix (Fin r') (Fin m) 𝕜}
    (h : BestInWorstCase sqL data modes coeffs S) (h' : BestInWorstCase sqL data'' modes'' coeffs'' S') {b b' : ℝ} (hb : 0 ≤ b)
    (hb' : 0 ≤ b') (ht : WithinTolerance sqL data modes coeffs b) (ht' : WithinTolerance sqL data'' modes'' coeffs'' b')
    (h0 : ∀ i, 0 ≤ S i) (h0' : ∀ i, 0 ≤ S' i)
    (tri : ∀ u v, √(sqL (u + v)) ≤ √(sqL u) + √(sqL v)) {δ : ℝ} (hδ : SmallChange 𝕜 sqL (fun j => data j - data'' j) δ) :
    CloseValues δ b b' S S' := by
  have hδ' : SmallChange 𝕜 sqL (fun j => data'' j - data j) δ := by
    have := hδ.neg
    simpa only [neg_sub] using this
  refine ⟨fun i i' hi => ?_, fun i hi => ?_, fun i hi => ?_⟩
  · rw [abs_sub_le_iff]
    constructor
    · have := h.le_value h' LinearMap.id id Function.injective_id tri (fun _ => le_rfl) hδ i i' hi (h0' _)
      linarith
    · have := h'.le_value h LinearMap.id id Function.injective_id tri (fun _ => le_rfl) hδ' i' i hi.symm (h0 _)
      linarith
  · exact h.le_tolerance hb' ht' LinearMap.id id Function.injective_id tri (fun _ => le_rfl) hδ i hi
  · exact h'.le_tolerance hb ht LinearMap.id id Function.injective_id tri (fun _ => le_rfl) hδ' i hi

/-- Values for data that are a part of others. -/
theorem not_lowered (h : BestInWorstCase sqL data modes coeffs S) (h' : BestInWorstCase sqL' data' modes' coeffs' S') {b : ℝ}
    (hb : 0 ≤ b) (hS : ∀ i, b < S i) (ht' : WithinTolerance sqL' data' modes' coeffs' b) (h0' : ∀ i, 0 ≤ S' i)
    (tri : ∀ u v, √(sqL (u + v)) ≤ √(sqL u) + √(sqL v)) (P : E' →ₗ[𝕜] E) (hP : ∀ v, sqL (P v) ≤ sqL' v) (f : Fin m → Fin m')
    (hf : Function.Injective f) (hz : sqL 0 = 0) (hdata : ∀ j, data j = P (data' (f j))) : NotLowered S S' := by
  have hδ : SmallChange 𝕜 sqL (fun j => data j - P (data' (f j))) 0 := by
    intro x
    simp [hdata, hz]
  refine ⟨?_, fun i i' hi => ?_⟩
  · by_contra hlt
    push Not at hlt
    have h1 := h.le_tolerance hb ht' P f hf tri hP hδ ⟨r', hlt⟩ le_rfl
    rw [add_zero] at h1
    have h2 := (Real.sqrt_le_sqrt_iff hb).mp h1
    exact absurd (hS ⟨r', hlt⟩) (not_lt.mpr h2)
  · have h1 := h.le_value h' P f hf tri hP hδ i i' hi (h0' _)
    rw [add_zero] at h1
    exact (Real.sqrt_le_sqrt_iff (h0' _)).mp h1

/-! ### POD -/

theorem utilEigh_above {m : Nat} (lib : Matrix (Fin m) (Fin m) 𝕜 → EighOut 𝕜 m) (argsort : (Fin m → ℝ) → Equiv.Perm (Fin m))
    (C : Matrix (Fin m) (Fin m) 𝕜) (t : ℝ) (ht : 0 ≤ t) (rtol : Option ℝ) (hr : ∀ t ∈ rtol, 0 ≤ t) (hs : IsArgsort argsort)
    (e : Eigh 𝕜 m) (he : utilEigh lib argsort C (some t) rtol true = .ok e) (i : Fin e.r) : t < e.w i := by
  have hpos := C20_positive_partial _ _ _ _ t ht hs hr e he i
  obtain ⟨p, -, hle, hk, hv⟩ := C20_kept_iff lib argsort C (some t) rtol true hs hr e he
  have hi := i.isLt
  have h1 := ((hk ⟨i, by omega⟩).mp hi).1.1 t rfl
  dsimp only at h1
  rw [← (hv i ⟨i, by omega⟩ rfl).1, abs_of_pos hpos] at h1
  exact h1

theorem weightedIp_symm {n : Nat} {W : Matrix (Fin n) (Fin n) 𝕜} (hW : W.PosSemidef) (x y : Fin n → 𝕜) :
    weightedIp W y x = star (weightedIp W x y) := by
  change star y ⬝ᵥ (W *ᵥ x) = star (star x ⬝ᵥ (W *ᵥ y))
  rw [star_dotProduct, star_mulVec, hW.isHermitian.eq, dotProduct_mulVec]

theorem weightedIp_nonneg {n : Nat} {W : Matrix (Fin n) (Fin n) 𝕜} (hW : W.PosSemidef) (x : Fin n → 𝕜) :
    0 ≤ RCLike.re (weightedIp W x x) := hW.re_dotProduct_nonneg x

theorem weighted_tri {n : Nat} {W : Matrix (Fin n) (Fin n) 𝕜} (hW : W.PosSemidef) (u v : Fin n → 𝕜) :
    √(weightedLength W (u + v)) ≤ √(weightedLength W u) + √(weightedLength W v) :=
  length_add (weightedIp W) (weightedIp_symm hW) (weightedIp_nonneg hW) u v

theorem plain_tri {n : Nat} (u v : Fin n → 𝕜) : √(plainLength (u + v)) ≤ √(plainLength u) + √(plainLength v) := by
  have := weighted_tri (W := (1 : Matrix (Fin n) (Fin n) 𝕜)) Matrix.PosSemidef.one u v
  rwa [weightedLength_one] at this

section Snaps

variable {n m m' : Nat} (lib : PodLib 𝕜 n m) (lib' : PodLib 𝕜 n m') (X : Matrix (Fin n) (Fin m) 𝕜) (X' : Matrix (Fin n) (Fin m') 𝕜)
  (idx idx' : Option (List Int)) (weights : Option (NdArray 𝕜)) (ws : Weights 𝕜) (rtol rtol' : Option ℝ) (t t' : ℝ)

theorem snaps_above (ht : 0 ≤ t) (hr : ∀ t ∈ rtol, 0 ≤ t) (hs : IsArgsort lib.argsort) (hws : arraysInit weights = .ok ws)
    (hfit : ws.Fits n) (res : PodResult 𝕜 n m) (corr : Matrix (Fin m) (Fin m) 𝕜)
    (hres : podSnaps lib X idx weights (some t) rtol = .ok (res, corr)) (i : Fin res.r) : t < res.eigvals i := by
  obtain ⟨e, c, he, -, h⟩ := podSnaps_cases lib X idx weights ws _ _ hws hfit _ hres
  obtain ⟨rfl, rfl⟩ := Prod.mk.inj h
  exact utilEigh_above _ _ _ t ht rtol hr hs e he i

/-- **C119**, method of snapshots: roots of eigenvalues change by at most the size of the change of the vectors. -/
theorem C119_snaps (lib₂ : PodLib 𝕜 n m) (X₂ : Matrix (Fin n) (Fin m) 𝕜) (ht : 0 ≤ t) (ht' : 0 ≤ t') (hr : ∀ t ∈ rtol, 0 ≤ t)
    (hr' : ∀ t ∈ rtol', 0 ≤ t) (hs : IsArgsort lib.argsort) (hs' : IsArgsort lib₂.argsort) (hws : arraysInit weights = .ok ws)
    (hfit : ws.Fits n) (hW : (ws.matrix n).PosSemidef)
    (hlib : IsEigh (Xᴴ * ws.matrix n * X) (lib.eigh (Xᴴ * ws.matrix n * X)))
    (hlib' : IsEigh (X₂ᴴ * ws.matrix n * X₂) (lib₂.eigh (X₂ᴴ * ws.matrix n * X₂)))
    (res res' : PodResult 𝕜 n m) (corr corr' : Matrix (Fin m) (Fin m) 𝕜)
    (hres : podSnaps lib X idx weights (some t) rtol = .ok (res, corr))
    (hres' : podSnaps lib₂ X₂ idx' weights (some t') rtol' = .ok (res', corr')) {δ : ℝ}
    (hδ : SmallChange 𝕜 (weightedLength (ws.matrix n)) (fun j => (X - X₂)ᵀ j) δ) {b b' : ℝ}
    (hb : ToleranceBound (lib.eigh (Xᴴ * ws.matrix n * X)).w (some t) rtol b)
    (hb' : ToleranceBound (lib₂.eigh (X₂ᴴ * ws.matrix n * X₂)).w (some t') rtol' b') :
    CloseValues δ b b' res.eigvals res'.eigvals := by
  obtain ⟨M, -, h1, h2⟩ := C81_snaps lib X idx weights ws rtol t ht hr hs hws hfit hW hlib res corr hres
  obtain ⟨M', -, h1', h2'⟩ := C81_snaps lib₂ X₂ idx' weights ws rtol' t' ht' hr' hs' hws hfit hW hlib' res' corr' hres'
  refine close_values h1 h1' hb.nonneg hb'.nonneg (h2 b hb) (h2' b' hb') (fun i => ht.trans (snaps_above lib X idx weights ws rtol t ht hr hs
    hws hfit res corr hres i).le) (fun i => ht'.trans (snaps_above lib₂ X₂ idx' weights ws rtol' t' ht' hr' hs' hws hfit res' corr' hres'
    i).le) (weighted_tri hW) hδ

/-- **C119**, method of snapshots: vectors that are added, at any places, lower neither the number of eigenvalues nor any of
them. -/
theorem C119_snaps_more (ht : 0 ≤ t) (hs : IsArgsort lib.argsort) (hs' : IsArgsort lib'.argsort)
    (hws : arraysInit weights = .ok ws) (hfit : ws.Fits n) (hW : (ws.matrix n).PosSemidef)
    (hlib : IsEigh (Xᴴ * ws.matrix n * X) (lib.eigh (Xᴴ * ws.matrix n * X)))
    (hlib' : IsEigh (X'ᴴ * ws.matrix n * X') (lib'.eigh (X'ᴴ * ws.matrix n * X')))
    (f : Fin m → Fin m') (hf : Function.Injective f) (hX : X = X'.submatrix id f)
    (res : PodResult 𝕜 n m) (res' : PodResult 𝕜 n m') (corr : Matrix (Fin m) (Fin m) 𝕜) (corr' : Matrix (Fin m') (Fin m') 𝕜)
    (hres : podSnaps lib X idx weights (some t) none = .ok (res, corr))
    (hres' : podSnaps lib' X' idx' weights (some t) none = .ok (res', corr')) : NotLowered res.eigvals res'.eigvals := by
  obtain ⟨M, -, h1, h2⟩ := C81_snaps lib X idx weights ws none t ht (by simp) hs hws hfit hW hlib res corr hres
  obtain ⟨M', -, h1', h2'⟩ := C81_snaps lib' X' idx' weights ws none t ht (by simp) hs' hws hfit hW hlib' res' corr' hres'
  refine not_lowered h1 h1' ht (snaps_above lib X idx weights ws none t ht (by simp) hs hws hfit res corr hres)
    (h2' t ⟨ht, by simp, by simp⟩) (fun i => ht.trans (snaps_above lib' X' idx' weights ws none t ht (by simp) hs' hws hfit res'
    corr' hres' i).le) (weighted_tri hW) LinearMap.id (fun _ => le_rfl) f hf (by simp [weightedLength]) fun j => ?_
  rw [hX]
  rfl

end Snaps

section Direct

variable {n m m' : Nat} (lib : PodLib 𝕜 n m) (lib' : PodLib 𝕜 n m') (X : Matrix (Fin n) (Fin m) 𝕜) (X' : Matrix (Fin n) (Fin m') 𝕜)
  (idx idx' : Option (List Int)) (ws : DirectWeights 𝕜) (t t' : ℝ)

theorem direct_above (ht : 0 ≤ t) (hfit : ws.Fits n) (hchol : ∀ p q w, ws = .d2 p q w → IsCholesky lib.cholesky (ws.matrix n))
    (hlib : ∀ a, IsSvd a (lib.svd a)) (res : PodResult 𝕜 n m) (hres : podDirect lib X idx ws (some t) none = .ok res)
    (i : Fin res.r) : t ^ 2 < res.eigvals i := by
  obtain ⟨G, H, -, -, h3⟩ := podDirect_cases lib X idx ws (some t) none hfit hchol
  obtain ⟨s, c, hs, -, rfl⟩ := h3 res hres
  have h := utilSvd_positive lib.svd _ none t (by simp) (hlib _) s hs i
  dsimp only
  rw [Real.rpow_two]
  exact pow_lt_pow_left₀ h ht two_ne_zero

/-- **C119**, direct method. -/
theorem C119_direct (lib₂ : PodLib 𝕜 n m) (X₂ : Matrix (Fin n) (Fin m) 𝕜) (ht : 0 ≤ t) (ht' : 0 ≤ t') (hfit : ws.Fits n)
    (hchol : ∀ p q w, ws = .d2 p q w → IsCholesky lib.cholesky (ws.matrix n))
    (hchol' : ∀ p q w, ws = .d2 p q w → IsCholesky lib₂.cholesky (ws.matrix n))
    (hlib : ∀ a, IsSvd a (lib.svd a)) (hlib' : ∀ a, IsSvd a (lib₂.svd a)) (res res' : PodResult 𝕜 n m)
    (hres : podDirect lib X idx ws (some t) none = .ok res) (hres' : podDirect lib₂ X₂ idx' ws (some t') none = .ok res') {δ : ℝ}
    (hδ : SmallChange 𝕜 (weightedLength (ws.matrix n)) (fun j => (X - X₂)ᵀ j) δ) :
    CloseValues δ (t ^ 2) (t' ^ 2) res.eigvals res'.eigvals := by
  obtain ⟨M, G, -, h1, hG, h2⟩ := C81_direct lib X idx ws (some t) none (by simp) hfit hchol hlib res hres
  obtain ⟨M', G', -, h1', -, h2'⟩ := C81_direct lib₂ X₂ idx' ws (some t') none (by simp) hfit hchol' hlib' res' hres'
  have hW : (ws.matrix n).PosSemidef := by rw [← hG]; exact Matrix.posSemidef_conjTranspose_mul_self _
  exact close_values h1 h1' (sq_nonneg _) (sq_nonneg _) (h2 t ⟨ht, by simp, by simp⟩) (h2' t' ⟨ht', by simp, by simp⟩)
    (fun i => (sq_nonneg t).trans (direct_above lib X idx ws t ht hfit hchol hlib res hres i).le)
    (fun i => (sq_nonneg t').trans (direct_above lib₂ X₂ idx' ws t' ht' hfit hchol' hlib' res' hres' i).le) (weighted_tri hW) hδ

theorem C119_direct_more (ht : 0 ≤ t) (hfit : ws.Fits n)
    (hchol : ∀ p q w, ws = .d2 p q w → IsCholesky lib.cholesky (ws.matrix n))
    (hchol' : ∀ p q w, ws = .d2 p q w → IsCholesky lib'.cholesky (ws.matrix n))
    (hlib : ∀ a, IsSvd a (lib.svd a)) (hlib' : ∀ a, IsSvd a (lib'.svd a))
    (f : Fin m → Fin m') (hf : Function.Injective f) (hX : X = X'.submatrix id f) (res : PodResult 𝕜 n m) (res' : PodResult 𝕜 n m')
    (hres : podDirect lib X idx ws (some t) none = .ok res) (hres' : podDirect lib' X' idx' ws (some t) none = .ok res') :
    NotLowered res.eigvals res'.eigvals := by
  obtain ⟨M, G, -, h1, hG, h2⟩ := C81_direct lib X idx ws (some t) none (by simp) hfit hchol hlib res hres
  obtain ⟨M', G', -, h1', -, h2'⟩ := C81_direct lib' X' idx' ws (some t) none (by simp) hfit hchol' hlib' res' hres'
  have hW : (ws.matrix n).PosSemidef := by rw [← hG]; exact Matrix.posSemidef_conjTranspose_mul_self _
  refine not_lowered h1 h1' (sq_nonneg _) (direct_above lib X idx ws t ht hfit hchol hlib res hres)
    (h2' t ⟨ht, by simp, by simp⟩) (fun i => (sq_nonneg t).trans (direct_above lib' X' idx' ws t ht hfit hchol' hlib' res'
    hres' i).le) (weighted_tri hW) LinearMap.id (fun _ => le_rfl) f hf (by simp [weightedLength]) fun j => ?_
  rw [hX]
  rfl

end Direct

section Handles

variable {m m' : Nat} (eigh : Matrix (Fin m) (Fin m) 𝕜 → EighOut 𝕜 m) (argsort : (Fin m → ℝ) → Equiv.Perm (Fin m))
  (eigh' : Matrix (Fin m') (Fin m') 𝕜 → EighOut 𝕜 m') (argsort' : (Fin m' → ℝ) → Equiv.Perm (Fin m'))
  (ip : E →ₗ⋆[𝕜] E →ₗ[𝕜] 𝕜) (vecs : Fin m → E) (vecs' : Fin m' → E) (rtol rtol' : Option ℝ) (t t' : ℝ)

theorem handles_above (ht : 0 ≤ t) (hr : ∀ t ∈ rtol, 0 ≤ t) (hs : IsArgsort argsort) (pod : PodHandles 𝕜 E m)
    (hpod : podHandlesDecomp eigh argsort (fun x y => ip x y) vecs (some t) rtol = .ok pod) (i : Fin pod.r) : t < pod.eigvals i := by
  obtain ⟨e, he, rfl⟩ := podHandlesDecomp_cases eigh argsort ip vecs _ _ pod hpod
  exact utilEigh_above _ _ _ t ht rtol hr hs e he i

/-- **C119** for `PODHandles`. -/
theorem C119_handles (eigh₂ : Matrix (Fin m) (Fin m) 𝕜 → EighOut 𝕜 m) (argsort₂ : (Fin m → ℝ) → Equiv.Perm (Fin m))
    (vecs₂ : Fin m → E) (ht : 0 ≤ t) (ht' : 0 ≤ t') (hr : ∀ t ∈ rtol, 0 ≤ t) (hr' : ∀ t ∈ rtol', 0 ≤ t) (hs : IsArgsort argsort)
    (hs' : IsArgsort argsort₂) (hsymm : ∀ x y, ip y x = star (ip x y)) (hnn : ∀ x, 0 ≤ RCLike.re (ip x x))
    (hlib : IsEigh (gram ip vecs vecs) (eigh (gram ip vecs vecs)))
    (hlib' : IsEigh (gram ip vecs₂ vecs₂) (eigh₂ (gram ip vecs₂ vecs₂))) (pod pod' : PodHandles 𝕜 E m)
    (hpod : podHandlesDecomp eigh argsort (fun x y => ip x y) vecs (some t) rtol = .ok pod)
    (hpod' : podHandlesDecomp eigh₂ argsort₂ (fun x y => ip x y) vecs₂ (some t') rtol' = .ok pod') {δ : ℝ}
    (hδ : SmallChange 𝕜 (fun v => RCLike.re (ip v v)) (fun j => vecs j - vecs₂ j) δ) {b b' : ℝ}
    (hb : ToleranceBound (eigh (gram ip vecs vecs)).w (some t) rtol b)
    (hb' : ToleranceBound (eigh₂ (gram ip vecs₂ vecs₂)).w (some t') rtol' b') :
    CloseValues δ b b' pod.eigvals pod'.eigvals := by
  obtain ⟨M, -, h1, h2⟩ := C81_handles eigh argsort ip vecs rtol t ht hr hs hsymm hnn hlib pod hpod
  obtain ⟨M', -, h1', h2'⟩ := C81_handles eigh₂ argsort₂ ip vecs₂ rtol' t' ht' hr' hs' hsymm hnn hlib' pod' hpod'
  exact close_values h1 h1' hb.nonneg hb'.nonneg (h2 b hb) (h2' b' hb')
    (fun i => ht.trans (handles_above eigh argsort ip vecs rtol t ht hr hs pod hpod i).le)
    (fun i => ht'.trans (handles_above eigh₂ argsort₂ ip vecs₂ rtol' t' ht' hr' hs' pod' hpod' i).le) (length_add ip hsymm hnn) hδ

theorem C119_handles_more (ht : 0 ≤ t) (hs : IsArgsort argsort) (hs' : IsArgsort argsort')
    (hsymm : ∀ x y, ip y x = star (ip x y)) (hnn : ∀ x, 0 ≤ RCLike.re (ip x x))
    (hlib : IsEigh (gram ip vecs vecs) (eigh (gram ip vecs vecs)))
    (hlib' : IsEigh (gram ip vecs' vecs') (eigh' (gram ip vecs' vecs')))
    (f : Fin m → Fin m') (hf : Function.Injective f) (hv : ∀ j, vecs j = vecs' (f j)) (pod : PodHandles 𝕜 E m)
    (pod' : PodHandles 𝕜 E m') (hpod : podHandlesDecomp eigh argsort (fun x y => ip x y) vecs (some t) none = .ok pod)
    (hpod' : podHandlesDecomp eigh' argsort' (fun x y => ip x y) vecs' (some t) none = .ok pod') :
    NotLowered pod.eigvals pod'.eigvals := by
  obtain ⟨M, -, h1, h2⟩ := C81_handles eigh argsort ip vecs none t ht (by simp) hs hsymm hnn hlib pod hpod
  obtain ⟨M', -, h1', h2'⟩ := C81_handles eigh' argsort' ip vecs' none t ht (by simp) hs' hsymm hnn hlib' pod' hpod'
  exact not_lowered h1 h1' ht (handles_above eigh argsort ip vecs none t ht (by simp) hs pod hpod)
    (h2' t ⟨ht, by simp, by simp⟩) (fun i => ht.trans (handles_above eigh' argsort' ip vecs' none t ht (by simp) hs' pod' hpod' i).le)
    (length_add ip hsymm hnn) LinearMap.id (fun _ => le_rfl) f hf (by simp) hv

end Handles

/-! ### Balanced POD and ERA -/

section Hankel

variable {n m n' m' : Nat} {svd : Matrix (Fin n) (Fin m) 𝕜 → SvdOut 𝕜 n m} {svd₂ : Matrix (Fin n) (Fin m) 𝕜 → SvdOut 𝕜 n m}
  {svd' : Matrix (Fin n') (Fin m') 𝕜 → SvdOut 𝕜 n' m'} {H H₂ : Matrix (Fin n) (Fin m) 𝕜} {H' : Matrix (Fin n') (Fin m') 𝕜}

theorem svd_close (hlib : IsSvd H (svd H)) (hlib' : IsSvd H₂ (svd₂ H₂)) {t t' : ℝ} (ht : 0 ≤ t) (ht' : 0 ≤ t')
    (s s' : Svd 𝕜 n m) (hs : utilSvd svd H (some t) none = .ok s) (hs' : utilSvd svd₂ H₂ (some t') none = .ok s') {δ : ℝ}
    (hδ : SmallChange 𝕜 plainLength (fun j => (H - H₂)ᵀ j) δ) :
    CloseValues δ (t ^ 2) (t' ^ 2) (fun i => s.S i ^ 2) (fun i => s'.S i ^ 2) := by
  have hS := utilSvd_positive svd _ none t (by simp) hlib s hs
  have hS' := utilSvd_positive svd₂ _ none t' (by simp) hlib' s' hs'
  obtain ⟨⟨h1, h2⟩, -⟩ := utilSvd_worst hlib (by simp) s hs fun i => ht.trans_lt (hS i)
  obtain ⟨⟨h1', h2'⟩, -⟩ := utilSvd_worst hlib' (by simp) s' hs' fun i => ht'.trans_lt (hS' i)
  exact close_values h1 h1' (sq_nonneg _) (sq_nonneg _) (h2 t ⟨ht, by simp, by simp⟩) (h2' t' ⟨ht', by simp, by simp⟩)
    (fun i => sq_nonneg _) (fun i => sq_nonneg _) plain_tri hδ

theorem svd_part (hlib : IsSvd H (svd H)) (hlib' : IsSvd H' (svd' H')) {t : ℝ} (ht : 0 ≤ t)
    (s : Svd 𝕜 n m) (s' : Svd 𝕜 n' m') (hs : utilSvd svd H (some t) none = .ok s) (hs' : utilSvd svd' H' (some t) none = .ok s')
    (f : Fin m → Fin m') (hf : Function.Injective f) (g : Fin n → Fin n') (hg : Function.Injective g) (hH : H = H'.submatrix g f) :
    NotLowered s.S s'.S := by
  have hS := utilSvd_positive svd _ none t (by simp) hlib s hs
  have hS' := utilSvd_positive svd' _ none t (by simp) hlib' s' hs'
  obtain ⟨⟨h1, h2⟩, -⟩ := utilSvd_worst hlib (by simp) s hs fun i => ht.trans_lt (hS i)
  obtain ⟨⟨h1', h2'⟩, -⟩ := utilSvd_worst hlib' (by simp) s' hs' fun i => ht.trans_lt (hS' i)
  have h := not_lowered h1 h1' (sq_nonneg t) (fun i => pow_lt_pow_left₀ (hS i) ht two_ne_zero) (h2' t ⟨ht, by simp, by simp⟩)
    (fun i => sq_nonneg _) plain_tri (LinearMap.funLeft 𝕜 𝕜 g) (fun v => ?_) f hf (by simp [plainLength]) fun j => ?_
  · exact ⟨h.number, fun i i' hi => le_of_sq_le_sq (h.values i i' hi) (ht.trans (hS' i').le)⟩
  · unfold plainLength
    calc ∑ i, ‖LinearMap.funLeft 𝕜 𝕜 g v i‖ ^ 2 = ∑ i ∈ Finset.univ.map ⟨g, hg⟩, ‖v i‖ ^ 2 := by
          rw [Finset.sum_map]
          rfl
      _ ≤ _ := Finset.sum_le_sum_of_subset_of_nonneg (Finset.subset_univ _) fun i _ _ => sq_nonneg _
  · rw [hH]
    rfl

/-- What is close, in terms of singular values. -/
theorem close_roots {r r' : Nat} {δ t t' : ℝ} (ht : 0 ≤ t) (ht' : 0 ≤ t') {v : Fin r → ℝ} {v' : Fin r' → ℝ} (hv : ∀ i, 0 ≤ v i)
    (hv' : ∀ i, 0 ≤ v' i) (h : CloseValues δ (t ^ 2) (t' ^ 2) (fun i => v i ^ 2) (fun i => v' i ^ 2)) :
    (∀ (i : Fin r) (i' : Fin r'), i.val = i'.val → |v i - v' i'| ≤ δ) ∧ (∀ i : Fin r, r' ≤ i.val → v i ≤ t' + δ) ∧
      ∀ i : Fin r', r ≤ i.val → v' i ≤ t + δ := by
  have h1 := h.close
  have h2 := h.first
  have h3 := h.second
  simp only [Real.sqrt_sq ht, Real.sqrt_sq ht', Real.sqrt_sq (hv _), Real.sqrt_sq (hv' _)] at h1 h2 h3
  exact ⟨h1, h2, h3⟩

end Hankel

section Bpod

variable {n md ma : Nat} (svd svd' : Matrix (Fin ma) (Fin md) 𝕜 → SvdOut 𝕜 ma md) (X X' : Matrix (Fin n) (Fin md) 𝕜)
  (Y Y' : Matrix (Fin n) (Fin ma) 𝕜) (p q : Nat) (idxD idxA idxD' idxA' : Option (List Int)) (weights : Option (NdArray 𝕜)) (ws : Weights 𝕜)
  (t t' : ℝ)

/-- **C119** for balanced POD of arrays: singular values change by at most the size of the change of the Hankel array. -/
theorem C119_bpod_arrays (ht : 0 ≤ t) (ht' : 0 ≤ t') (hws : arraysInit weights = .ok ws) (hfit : ws.Fits n)
    (hlib : ∀ a, IsSvd a (svd a)) (hlib' : ∀ a, IsSvd a (svd' a)) (res res' : BpodResult 𝕜 n md ma)
    (hres : bpodArrays svd X Y p q idxD idxA weights (some t) none = .ok res)
    (hres' : bpodArrays svd' X' Y' p q idxD' idxA' weights (some t') none = .ok res') {δ : ℝ}
    (hδ : SmallChange 𝕜 plainLength (fun j => (res.hankel - res'.hankel)ᵀ j) δ) :
    (∀ (i : Fin res.r) (i' : Fin res'.r), i.val = i'.val → |res.singVals i - res'.singVals i'| ≤ δ) ∧
      (∀ i : Fin res.r, res'.r ≤ i.val → res.singVals i ≤ t' + δ) ∧
      ∀ i : Fin res'.r, res.r ≤ i.val → res'.singVals i ≤ t + δ := by
  obtain ⟨rows, s, dm, am, -, -, hs, -, -, rfl⟩ := bpodArrays_cases svd X Y p q idxD idxA weights ws _ _ hws hfit res hres
  obtain ⟨rows', s', dm', am', -, -, hs', -, -, rfl⟩ :=
    bpodArrays_cases svd' X' Y' p q idxD' idxA' weights ws _ _ hws hfit res' hres'
  exact close_roots ht ht' (fun i => ht.trans (utilSvd_positive svd _ none t (by simp) (hlib _) s hs i).le)
    (fun i => ht'.trans (utilSvd_positive svd' _ none t' (by simp) (hlib' _) s' hs' i).le)
    (svd_close (hlib _) (hlib' _) ht ht' s s' hs hs' hδ)

theorem C119_bpod_handles {E : Type*} [AddCommGroup E] [Module 𝕜 E] (ip : E → E → 𝕜) (X X' : Fin md → E) (Y Y' : Fin ma → E)
    (svd svd' : Matrix (Fin (ma / q * q)) (Fin (md / p * p)) 𝕜 → SvdOut 𝕜 (ma / q * q) (md / p * p)) (ht : 0 ≤ t) (ht' : 0 ≤ t')
    (hlib : ∀ a, IsSvd a (svd a)) (hlib' : ∀ a, IsSvd a (svd' a)) (b b' : BpodHandles 𝕜 E md ma (ma / q * q) (md / p * p))
    (hb : bpodHandlesDecomp ip X Y p q svd (some t) none = .ok b) (hb' : bpodHandlesDecomp ip X' Y' p q svd' (some t') none = .ok b')
    {δ : ℝ} (hδ : SmallChange 𝕜 plainLength (fun j => (b.hankel - b'.hankel)ᵀ j) δ) :
    (∀ (i : Fin b.r) (i' : Fin b'.r), i.val = i'.val → |b.singVals i - b'.singVals i'| ≤ δ) ∧
      (∀ i : Fin b.r, b'.r ≤ i.val → b.singVals i ≤ t' + δ) ∧ ∀ i : Fin b'.r, b.r ≤ i.val → b'.singVals i ≤ t + δ := by
  obtain ⟨rows, s, -, hs, rfl⟩ := bpodHandlesDecomp_cases _ _ _ _ _ _ _ _ b hb
  obtain ⟨rows', s', -, hs', rfl⟩ := bpodHandlesDecomp_cases _ _ _ _ _ _ _ _ b' hb'
  exact close_roots ht ht' (fun i => ht.trans (utilSvd_positive svd _ none t (by simp) (hlib _) s hs i).le)
    (fun i => ht'.trans (utilSvd_positive svd' _ none t' (by simp) (hlib' _) s' hs' i).le)
    (svd_close (hlib _) (hlib' _) ht ht' s s' hs hs' hδ)

end Bpod

section Era

variable (svd : ∀ {m n : Nat}, Matrix (Fin m) (Fin n) 𝕜 → SvdOut 𝕜 m n) (cast : 𝕜 → 𝕜) (self self' o o' : EraObj)
  (markovs markovs' : MarkovsIn 𝕜) (mc mo mc' mo' : Option Int)

/-- Hankel arrays of the first Markov parameters are parts of those of more. -/
theorem hankel_part (m m' : Markovs 𝕜) (hno : m'.no = m.no) (hni : m'.ni = m.ni)
    (hat : ∀ k i j, k < m.nt → k < m'.nt → i < m.no → j < m.ni → m'.at_ k i j = m.at_ k i j) (h h' : HankelPair 𝕜)
    (hh : assembleHankel cast m mc mo = .ok h) (hh' : assembleHankel cast m' mc' mo' = .ok h') (i j : Nat) (hi : i < h.rows)
    (hj : j < h.cols) (hi' : i < h'.rows) (hj' : j < h'.cols) : h.h i j = h'.h i j := by
  obtain ⟨a, b, hr, hc, hb⟩ := assembleHankel_blocks cast m mc mo h hh
  obtain ⟨a', b', hr', hc', hb'⟩ := assembleHankel_blocks cast m' mc' mo' h' hh'
  rw [hno] at hr' hb'
  rw [hni] at hc' hb'
  have hno0 : 0 < m.no := Nat.pos_of_ne_zero fun h0 => by rw [hr, h0, Nat.zero_mul] at hi; omega
  have hni0 : 0 < m.ni := Nat.pos_of_ne_zero fun h0 => by rw [hc, h0, Nat.zero_mul] at hj; omega
  have e1 : i / m.no * m.no + i % m.no = i := Nat.div_add_mod' i m.no
  have e2 : j / m.ni * m.ni + j % m.ni = j := Nat.div_add_mod' j m.ni
  obtain ⟨h1, h2⟩ := hb (i / m.no) (j / m.ni) (Nat.div_lt_of_lt_mul (hr ▸ hi)) (Nat.div_lt_of_lt_mul (hc ▸ hj))
  obtain ⟨h1', h2'⟩ := hb' (i / m.no) (j / m.ni) (Nat.div_lt_of_lt_mul (hr' ▸ hi')) (Nat.div_lt_of_lt_mul (hc' ▸ hj'))
  have h3 := (h2 (i % m.no) (j % m.ni) (Nat.mod_lt _ hno0) (Nat.mod_lt _ hni0)).1
  have h3' := (h2' (i % m.no) (j % m.ni) (Nat.mod_lt _ hno0) (Nat.mod_lt _ hni0)).1
  rw [e1, e2] at h3 h3'
  rw [h3, h3', hat _ _ _ (by omega) (by omega) (Nat.mod_lt _ hno0) (Nat.mod_lt _ hni0)]

/-- **C119** for `ERA.compute_model`: larger Hankel arrays, of the same or of more Markov parameters, lower neither the number of
states nor any singular value. -/
theorem C119_era_more (hlib : ∀ {m n : Nat} (a : Matrix (Fin m) (Fin n) 𝕜), IsSvd a (svd a)) (numStates : Nat)
    (model model' : LtiModel 𝕜) (m m' : Markovs 𝕜) (hm : setMarkovs markovs = .ok m) (hm' : setMarkovs markovs' = .ok m')
    (hres : eraModel svd cast self markovs numStates mc mo = .ok (o, model))
    (hres' : eraModel svd cast self' markovs' numStates mc' mo' = .ok (o', model')) (hno : m'.no = m.no) (hni : m'.ni = m.ni)
    (hat : ∀ k i j, k < m.nt → k < m'.nt → i < m.no → j < m.ni → m'.at_ k i j = m.at_ k i j)
    (hsize : ∀ h h', eraHankel cast self markovs mc mo = .ok (o, h) → eraHankel cast self' markovs' mc' mo' = .ok (o', h') →
      h.rows ≤ h'.rows ∧ h.cols ≤ h'.cols) :
    model.r ≤ model'.r ∧ ∃ h h' s s', eraHankel cast self markovs mc mo = .ok (o, h) ∧
      eraHankel cast self' markovs' mc' mo' = .ok (o', h') ∧ utilSvd svd h.array (some svdAtol) none = .ok s ∧
      utilSvd svd h'.array (some svdAtol) none = .ok s' ∧ NotLowered s.S s'.S := by
  obtain ⟨h, h1, h2, h3⟩ := eraModel_cases svd cast self o markovs m mc mo numStates model hm hres
  obtain ⟨h', h1', h2', h3'⟩ := eraModel_cases svd cast self' o' markovs' m' mc' mo' numStates model' hm' hres'
  obtain ⟨hrow, hcol⟩ := hsize h h' h1 h1'
  unfold eraReduce at h3 h3'
  split at h3
  · cases h3
  rename_i s hs
  cases h3
  split at h3'
  · cases h3'
  rename_i s' hs'
  cases h3'
  have hn := svd_part (svd := fun a => svd a) (svd' := fun a => svd a) (hlib _) (hlib _) (t := svdAtol) (by norm_num [svdAtol]) s s' hs hs' (Fin.castLE hcol)
    (Fin.castLE_injective _) (Fin.castLE hrow) (Fin.castLE_injective _) (by
      ext i j
      exact hankel_part cast mc mo mc' mo' m m' hno hni hat h h' h2 h2' i j i.isLt j.isLt (by omega) (by omega))
  exact ⟨min_le_min le_rfl hn.number, h, h', s, s', h1, h1', hs, hs', hn⟩

end Era

/-! ### Examples -/

/-- The direct method for three vectors and for the first and the last of them. -/
example : ∃ (lib : PodLib ℝ 2 2) (lib' : PodLib ℝ 2 3) (res : PodResult ℝ 2 2) (res' : PodResult ℝ 2 3),
    podDirect lib (exampleData.submatrix id ![0, 2]) none .none (some (1 / 10)) none = .ok res ∧
    podDirect lib' exampleData none .none (some (1 / 10)) none = .ok res' ∧ NotLowered res.eigvals res'.eigvals := by
  obtain ⟨lib, hsvd, -, -, -⟩ := exists_podLib (𝕜 := ℝ) 2 2
  obtain ⟨lib', hsvd', -, -, -⟩ := exists_podLib (𝕜 := ℝ) 2 3
  have hfit : (DirectWeights.none : DirectWeights ℝ).Fits 2 := trivial
  obtain ⟨res, hres⟩ := C22_direct_no_error lib (exampleData.submatrix id ![0, 2]) .none (some (1 / 10)) none hfit (by simp)
    (Or.inl rfl)
  obtain ⟨res', hres'⟩ := C22_direct_no_error lib' exampleData .none (some (1 / 10)) none hfit (by simp) (Or.inl rfl)
  exact ⟨lib, lib', res, res', hres, hres', C119_direct_more lib lib' _ _ none none .none _ (by norm_num) hfit (by simp) (by simp)
    hsvd hsvd' ![0, 2] (by decide) rfl res res' hres hres'⟩

/-- The direct method for three vectors, and for vectors of which one is changed by 3 in one entry and by 4 in the other: the
roots of the eigenvalues change by at most 5. -/
example : ∃ (lib : PodLib ℝ 2 3) (res res' : PodResult ℝ 2 3),
    podDirect lib exampleData none .none (some (1 / 10)) none = .ok res ∧
    podDirect lib (exampleData - !![0, 3, 0; 0, 4, 0]) none .none (some (1 / 10)) none = .ok res' ∧
    CloseValues 5 ((1 / 10) ^ 2) ((1 / 10) ^ 2) res.eigvals res'.eigvals := by
  obtain ⟨lib, hsvd, -, -, -⟩ := exists_podLib (𝕜 := ℝ) 2 3
  have hfit : (DirectWeights.none : DirectWeights ℝ).Fits 2 := trivial
  obtain ⟨res, hres⟩ := C22_direct_no_error lib exampleData .none (some (1 / 10)) none hfit (by simp) (Or.inl rfl)
  obtain ⟨res', hres'⟩ := C22_direct_no_error lib (exampleData - !![0, 3, 0; 0, 4, 0]) .none (some (1 / 10)) none hfit (by simp)
    (Or.inl rfl)
  refine ⟨lib, res, res', hres, hres', C119_direct lib exampleData none none .none _ _ lib _ (by norm_num) (by norm_num) hfit (by simp)
    (by simp) hsvd hsvd res res' hres hres' ?_⟩
  have h1 : (DirectWeights.none : DirectWeights ℝ).matrix 2 = 1 := rfl
  have h := C119_change (weightedIp (1 : Matrix (Fin 2) (Fin 2) ℝ)) (weightedIp_symm Matrix.PosSemidef.one)
    (weightedIp_nonneg Matrix.PosSemidef.one) fun j : Fin 3 => (!![0, 3, 0; 0, 4, 0] : Matrix (Fin 2) (Fin 3) ℝ)ᵀ j
  rw [h1, sub_sub_cancel]
  have h5 : √(∑ j : Fin 3, RCLike.re (weightedIp (1 : Matrix (Fin 2) (Fin 2) ℝ) ((!![0, 3, 0; 0, 4, 0] : Matrix (Fin 2) (Fin 3) ℝ)ᵀ j)
      ((!![0, 3, 0; 0, 4, 0] : Matrix (Fin 2) (Fin 3) ℝ)ᵀ j))) = 5 := by
    rw [Real.sqrt_eq_iff_mul_self_eq_of_pos (by norm_num), Fin.sum_univ_three]
    simp [weightedIp, dotProduct, Fin.sum_univ_two]
    norm_num
  rw [h5] at h
  exact h

/-- A model of one block of Markov parameters, and of two. -/
example : ∃ (svd : ∀ {m n : Nat}, Matrix (Fin m) (Fin n) ℝ → SvdOut ℝ m n) (o o' : EraObj) (model model' : LtiModel ℝ),
    eraModel svd id (eraInit none none) (.d3 (halves 1)) 3 none none = .ok (o, model) ∧
    eraModel svd id (eraInit none none) (.d3 (halves 1)) 3 (some 2) (some 2) = .ok (o', model') ∧ model.r ≤ model'.r := by
  choose svd hsvd using fun (m n : Nat) (a : Matrix (Fin m) (Fin n) ℝ) => exists_isSvd a
  obtain ⟨o, h, hh, h1, h2, h3⟩ := halves_hankel 1
  have hnt : (halves 1).nt = 6 := by simp [halves]
  obtain ⟨h', hh', h1', h2', -⟩ := C33_blocks id (halves 1) 2 2 (by rw [hnt]) (by rw [hnt])
  have hh2 := eraHankel_ok id (eraInit none none) (.d3 (halves 1)) (halves 1) 2 2 h' (halves_set 1) hh'
  obtain ⟨model, hmodel⟩ := C36_no_error (fun {m n} => svd m n) id (eraInit none none) o (.d3 (halves 1)) none none 3 h hh
  obtain ⟨model', hmodel'⟩ := C36_no_error (fun {m n} => svd m n) id (eraInit none none) _ (.d3 (halves 1)) _ _ 3 h' hh2
  refine ⟨fun {m n} => svd m n, o, _, model, model', hmodel, hmodel', (C119_era_more (fun {m n} => svd m n) id _ _ _ _ _ _ _ _ _ _
    (fun a => hsvd _ _ a) 3 model model' _ _ (halves_set 1) (halves_set 1) hmodel hmodel' rfl rfl (fun _ _ _ _ _ _ _ => rfl) ?_).1⟩
  intro k k' hk hk'
  rw [hh] at hk
  rw [hh2] at hk'
  cases hk
  cases hk'
  rw [h1, h2, h1', h2']
  simp [halves]

/-- Balanced POD of impulse responses `1, 2`, with two tolerances. -/
example : ∃ (svd : Matrix (Fin 2) (Fin 2) ℝ → SvdOut ℝ 2 2) (res res' : BpodResult ℝ 1 2 2),
    bpodArrays svd !![1, 2] !![1, 2] 1 1 none none none (some (1 / 10)) none = .ok res ∧
    bpodArrays svd !![1, 2] !![1, 2] 1 1 none none none (some (1 / 20)) none = .ok res' ∧
    ∀ (i : Fin res.r) (i' : Fin res'.r), i.val = i'.val → |res.singVals i - res'.singVals i'| ≤ 0 := by
  choose svd hsvd using fun a : Matrix (Fin 2) (Fin 2) ℝ => exists_isSvd a
  obtain ⟨res, hres⟩ := C25_no_error svd !![1, 2] !![1, 2] 1 1 none .none (some (1 / 10)) none
    (by decide) (by decide) (by decide) (by decide) (by decide) (by decide) rfl trivial
  obtain ⟨res', hres'⟩ := C25_no_error svd !![1, 2] !![1, 2] 1 1 none .none (some (1 / 20)) none
    (by decide) (by decide) (by decide) (by decide) (by decide) (by decide) rfl trivial
  refine ⟨svd, res, res', hres, hres', (C119_bpod_arrays svd svd _ _ _ _ 1 1 _ _ _ _ _ .none _ _ (by norm_num) (by norm_num) rfl trivial
    hsvd hsvd res res' hres hres' ?_).1⟩
  obtain ⟨rows, s, dm, am, h1, -, -, -, -, rfl⟩ := bpodArrays_cases svd _ _ 1 1 none none none .none _ _ rfl trivial res hres
  obtain ⟨rows', s', dm', am', h2, -, -, -, -, rfl⟩ := bpodArrays_cases svd _ _ 1 1 none none none .none _ _ rfl trivial res' hres'
  have h := h1.symm.trans h2
  cases h
  intro x
  simp [plainLength]

end Modred
