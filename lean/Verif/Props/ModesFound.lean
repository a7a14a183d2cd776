import Verif.Spec.ModesFound
import Verif.Props.Continuity

/-!
# C122: modes found in data with errors

POD of vectors with errors: the modes of the vectors without errors are linear combinations of the modes that are found, up to an
error that is in proportion to the size of the errors, and that is the smaller the larger the eigenvalue of the mode is.
-/

namespace Modred

open Matrix
open scoped ComplexOrder

variable {𝕜 : Type*} [RCLike 𝕜] {E : Type*} [AddCommGroup E] [Module 𝕜 E]

/-- Linear combinations of the data are found among the modes of other data. -/
theorem modesFound_of_worst {m r r' : Nat} {sqL : E → ℝ} {data data' : Fin m → E} {modes : Fin r → E} {vals : Fin r → ℝ}
    {modes' : Fin r' → E} {coeffs' : Matrix (Fin r') (Fin m) 𝕜} {vals' : Fin r' → ℝ} {δ b' : ℝ}
    (tri : ∀ u v, √(sqL (u + v)) ≤ √(sqL u) + √(sqL v)) (T : Matrix (Fin m) (Fin r) 𝕜)
    (hT : ∀ i, 0 < vals i → modes i = ∑ j, T j i • data j) (hn : ∀ i, 0 < vals i → ∑ j, ‖T j i‖ ^ 2 = 1 / vals i)
    (hδ : SmallChange 𝕜 sqL (fun j => data j - data' j) δ) (hworst : BestInWorstCase sqL data' modes' coeffs' vals')
    (htol : WithinTolerance sqL data' modes' coeffs' b') : ModesFound 𝕜 sqL modes vals modes' vals' δ b' := by
  have key : ∀ i, 0 < vals i → ∀ (k : Nat) (hk : k ≤ r') (b : ℝ),
      sqL (∑ j, T j i • (data' j - ∑ l : Fin k, coeffs' (Fin.castLE hk l) j • modes' (Fin.castLE hk l))) ≤ b * ∑ j, ‖T j i‖ ^ 2 →
      FoundIn 𝕜 sqL (modes i) (fun l : Fin k => modes' (Fin.castLE hk l)) ((√b + δ) / √(vals i)) := by
    intro i hi k hk b hb
    refine ⟨fun l => ∑ j, T j i * coeffs' (Fin.castLE hk l) j, ?_⟩
    have e : modes i - ∑ l : Fin k, (∑ j, T j i * coeffs' (Fin.castLE hk l) j) • modes' (Fin.castLE hk l) =
        ∑ j, T j i • (data j - data' j) +
          ∑ j, T j i • (data' j - ∑ l : Fin k, coeffs' (Fin.castLE hk l) j • modes' (Fin.castLE hk l)) := by
      rw [hT i hi, ← Finset.sum_add_distrib]
      simp only [← smul_add, sub_add_sub_cancel, smul_sub, Finset.sum_sub_distrib, Finset.smul_sum, Finset.sum_smul, smul_smul]
      rw [Finset.sum_comm]
    have hs : √(1 / vals i) = 1 / √(vals i) := by rw [Real.sqrt_div zero_le_one, Real.sqrt_one]
    have h1 := hδ fun j => T j i
    rw [hn i hi, hs] at h1
    have h2 := Real.sqrt_le_sqrt hb
    rw [hn i hi, Real.sqrt_mul' _ (by positivity), hs] at h2
    rw [e]
    refine (tri _ _).trans ((add_le_add h1 h2).trans (le_of_eq ?_))
    ring
  exact ⟨fun i hi => key i hi r' le_rfl b' (htol _), fun i k hi => key i hi k k.isLt.le _ (hworst.error k _)⟩

/-- Squared lengths of coefficients with which modes are built. -/
theorem build_length {m r : Nat} {V : Matrix (Fin m) (Fin r) 𝕜} (hV : Vᴴ * V = 1) (w : Fin r → ℝ) (i : Fin r) (hi : 0 < w i) :
    ∑ j, ‖(V * diagPow (𝕜 := 𝕜) w (-0.5)) j i‖ ^ 2 = 1 / w i := by
  have h1 : ∑ j, ‖V j i‖ ^ 2 = 1 := by
    have h := congrFun (congrFun hV i) i
    rw [Matrix.mul_apply, Matrix.one_apply_eq] at h
    have : ((∑ j, ‖V j i‖ ^ 2 : ℝ) : 𝕜) = ((1 : ℝ) : 𝕜) := by
      rw [RCLike.ofReal_one, ← h]
      push_cast
      exact Finset.sum_congr rfl fun j _ => by rw [← RCLike.conj_mul]; rfl
    exact_mod_cast this
  have h2 : ∀ j, ‖(V * diagPow (𝕜 := 𝕜) w (-0.5)) j i‖ ^ 2 = ‖V j i‖ ^ 2 * (1 / w i) := by
    intro j
    unfold diagPow
    have h3 : (w i ^ (-0.5 : ℝ)) ^ 2 = 1 / w i := by
      rw [← Real.rpow_natCast, ← Real.rpow_mul hi.le, show (-0.5 : ℝ) * ((2 : ℕ) : ℝ) = -1 by norm_num, Real.rpow_neg hi.le,
        Real.rpow_one, one_div]
    rw [Matrix.mul_diagonal, norm_mul, mul_pow, RCLike.norm_ofReal, sq_abs, h3]
  rw [Finset.sum_congr rfl fun j _ => h2 j, ← Finset.sum_mul, h1, one_mul]

section Arrays

variable {n m : Nat} (lib lib₂ : PodLib 𝕜 n m) (X X₂ : Matrix (Fin n) (Fin m) 𝕜) (idx idx' : Option (List Int))

/-- **C122**, method of snapshots. -/
theorem C122_snaps (weights : Option (NdArray 𝕜)) (ws : Weights 𝕜) (rtol rtol' : Option ℝ) (t t' : ℝ)
    (ht : 0 ≤ t) (ht' : 0 ≤ t') (hr : ∀ t ∈ rtol, 0 ≤ t)
    (hr' : ∀ t ∈ rtol', 0 ≤ t) (hs : IsArgsort lib.argsort) (hs' : IsArgsort lib₂.argsort) (hws : arraysInit weights = .ok ws)
    (hfit : ws.Fits n) (hW : (ws.matrix n).PosSemidef)
    (hlib : IsEigh (Xᴴ * ws.matrix n * X) (lib.eigh (Xᴴ * ws.matrix n * X)))
    (hlib' : IsEigh (X₂ᴴ * ws.matrix n * X₂) (lib₂.eigh (X₂ᴴ * ws.matrix n * X₂)))
    (res res' : PodResult 𝕜 n m) (corr corr' : Matrix (Fin m) (Fin m) 𝕜)
    (hres : podSnaps lib X idx weights (some t) rtol = .ok (res, corr))
    (hres' : podSnaps lib₂ X₂ idx' weights (some t') rtol' = .ok (res', corr')) {δ : ℝ}
    (hδ : SmallChange 𝕜 (weightedLength (ws.matrix n)) (fun j => (X - X₂)ᵀ j) δ) {b' : ℝ}
    (hb' : ToleranceBound (lib₂.eigh (X₂ᴴ * ws.matrix n * X₂)).w (some t') rtol' b') :
    (∀ i, 0 < res.eigvals i) ∧ ∃ (M : Matrix (Fin n) (Fin res.r) 𝕜) (M' : Matrix (Fin n) (Fin res'.r) 𝕜),
      SelectedFrom idx res.modes M ∧ SelectedFrom idx' res'.modes M' ∧
      ModesFound 𝕜 (weightedLength (ws.matrix n)) Mᵀ res.eigvals M'ᵀ res'.eigvals δ b' := by
  obtain ⟨M', h1', h2', h3'⟩ := C81_snaps lib₂ X₂ idx' weights ws rtol' t' ht' hr' hs' hws hfit hW hlib' res' corr' hres'
  obtain ⟨e, c, he, hc, h⟩ := podSnaps_cases lib X idx weights ws _ _ hws hfit _ hres
  obtain ⟨rfl, rfl⟩ := Prod.mk.inj h
  obtain ⟨hV, -, -⟩ := C20_eigenpairs _ _ _ _ _ _ hlib hs e he
  refine ⟨C20_positive_partial _ _ _ _ t ht hs hr e he, X * (e.V * diagPow (𝕜 := 𝕜) e.w (-0.5)), M', ?_, h1',
    modesFound_of_worst (weighted_tri hW) (e.V * diagPow (𝕜 := 𝕜) e.w (-0.5)) ?_ (fun i hi => build_length hV e.w i hi) hδ h2' (h3' b' hb')⟩
  · intro i j hij b
    have h1 := selectedFrom_of_pick _ _ _ hc i j hij
    dsimp only
    rw [Matrix.mul_apply]
    simp only [h1]
    rw [← Matrix.mul_apply, Matrix.mul_one]
  · intro i _
    funext a
    rw [Finset.sum_apply, Matrix.transpose_apply, Matrix.mul_apply]
    exact Finset.sum_congr rfl fun j _ => mul_comm _ _

/-- **C122**, direct method. -/
theorem C122_direct (ws : DirectWeights 𝕜) (atol rtol atol' rtol' : Option ℝ) (hr' : ∀ t ∈ rtol', 0 ≤ t)
    (hfit : ws.Fits n) (hchol : ∀ p q w, ws = .d2 p q w → IsCholesky lib.cholesky (ws.matrix n))
    (hchol' : ∀ p q w, ws = .d2 p q w → IsCholesky lib₂.cholesky (ws.matrix n))
    (hlib : ∀ a, IsSvd a (lib.svd a)) (hlib' : ∀ a, IsSvd a (lib₂.svd a)) (res res' : PodResult 𝕜 n m)
    (hres : podDirect lib X idx ws atol rtol = .ok res) (hres' : podDirect lib₂ X₂ idx' ws atol' rtol' = .ok res') {δ : ℝ}
    (hδ : SmallChange 𝕜 (weightedLength (ws.matrix n)) (fun j => (X - X₂)ᵀ j) δ) :
    ∃ (M : Matrix (Fin n) (Fin res.r) 𝕜) (M' : Matrix (Fin n) (Fin res'.r) 𝕜) (G : Matrix (Fin n) (Fin n) 𝕜),
      SelectedFrom idx res.modes M ∧ SelectedFrom idx' res'.modes M' ∧ Gᴴ * G = ws.matrix n ∧
      ∀ b', ToleranceBound (lib₂.svd (G * X₂)).S atol' rtol' b' →
        ModesFound 𝕜 (weightedLength (ws.matrix n)) Mᵀ res.eigvals M'ᵀ res'.eigvals δ (b' ^ 2) := by
  obtain ⟨M', G', h1', h2', hG', h3'⟩ := C81_direct lib₂ X₂ idx' ws atol' rtol' hr' hfit hchol' hlib' res' hres'
  obtain ⟨G, H, h1, h2, h3⟩ := podDirect_cases lib X idx ws atol rtol hfit hchol
  obtain ⟨s, c, hs, hc, rfl⟩ := h3 res hres
  obtain ⟨-, hV, hAV, -, hS, -⟩ := C19_singular_triples _ _ _ _ (hlib _) s hs
  have hW : (ws.matrix n).PosSemidef := by
    rw [← h2]
    exact posSemidef_conjTranspose_mul_self _
  have hHG : H * G = 1 := mul_eq_one_comm.mp h1
  refine ⟨H * s.U, M', G', ?_, h1', hG', fun b' hb' => modesFound_of_worst (weighted_tri hW)
    (s.V * diagPow (𝕜 := 𝕜) (fun i => s.S i ^ (2 : ℝ)) (-0.5)) ?_ (fun i hi => build_length hV _ i hi) hδ h2' (h3' b' hb')⟩
  · exact selectedFrom_of_pick _ _ _ hc
  · intro i hi
    funext a
    have hSi : 0 < s.S i := lt_of_le_of_ne (hS i) fun h0 => by
      dsimp only at hi
      rw [← h0, Real.zero_rpow two_ne_zero] at hi
      exact lt_irrefl _ hi
    have e1 : (H * s.U) a i * (s.S i : 𝕜) = (X * s.V) a i := by
      rw [← Matrix.mul_diagonal (fun i => (s.S i : 𝕜)) (H * s.U) a i, Matrix.mul_assoc, ← hAV, ← Matrix.mul_assoc, ← Matrix.mul_assoc, hHG,
        Matrix.one_mul]
    have e2 : ((s.S i ^ (2 : ℝ)) ^ (-0.5 : ℝ)) = (s.S i)⁻¹ := by
      rw [← Real.rpow_mul hSi.le, show (2 : ℝ) * (-0.5) = -1 by norm_num, Real.rpow_neg hSi.le, Real.rpow_one]
    rw [Finset.sum_apply]
    change (H * s.U) a i = _
    have e3 : ∀ j, ((s.V * diagPow (𝕜 := 𝕜) (fun i => s.S i ^ (2 : ℝ)) (-0.5)) j i • Xᵀ j) a = X a j * s.V j i * ((s.S i)⁻¹ : ℝ) := by
      intro j
      unfold diagPow
      rw [Pi.smul_apply, Matrix.mul_diagonal, e2, smul_eq_mul, Matrix.transpose_apply]
      ring
    refine Eq.trans ?_ (Finset.sum_congr rfl fun j _ => (e3 j).symm)
    rw [← Finset.sum_mul, ← Matrix.mul_apply, ← e1, mul_assoc, ← RCLike.ofReal_mul,
      mul_inv_cancel₀ hSi.ne', RCLike.ofReal_one, mul_one]

end Arrays

/-- **C122** for `PODHandles`. -/
theorem C122_handles {m : Nat} (eigh eigh₂ : Matrix (Fin m) (Fin m) 𝕜 → EighOut 𝕜 m)
    (argsort argsort₂ : (Fin m → ℝ) → Equiv.Perm (Fin m)) (ip : E →ₗ⋆[𝕜] E →ₗ[𝕜] 𝕜) (vecs vecs₂ : Fin m → E) (rtol rtol' : Option ℝ)
    (t t' : ℝ) (ht : 0 ≤ t) (ht' : 0 ≤ t') (hr : ∀ t ∈ rtol, 0 ≤ t) (hr' : ∀ t ∈ rtol', 0 ≤ t) (hs : IsArgsort argsort)
    (hs' : IsArgsort argsort₂) (hsymm : ∀ x y, ip y x = star (ip x y)) (hnn : ∀ x, 0 ≤ RCLike.re (ip x x))
    (hlib : IsEigh (gram ip vecs vecs) (eigh (gram ip vecs vecs)))
    (hlib' : IsEigh (gram ip vecs₂ vecs₂) (eigh₂ (gram ip vecs₂ vecs₂))) (pod pod' : PodHandles 𝕜 E m)
    (hpod : podHandlesDecomp eigh argsort (fun x y => ip x y) vecs (some t) rtol = .ok pod)
    (hpod' : podHandlesDecomp eigh₂ argsort₂ (fun x y => ip x y) vecs₂ (some t') rtol' = .ok pod') {δ : ℝ}
    (hδ : SmallChange 𝕜 (fun v => RCLike.re (ip v v)) (fun j => vecs j - vecs₂ j) δ) {b' : ℝ}
    (hb' : ToleranceBound (eigh₂ (gram ip vecs₂ vecs₂)).w (some t') rtol' b') :
    (∀ i, 0 < pod.eigvals i) ∧ ∃ (M : Fin pod.r → E) (M' : Fin pod'.r → E),
      (∀ l k out, podHandlesModes pod l k = .ok out → ∀ (i : Fin out.k) (j : Fin pod.r), l[i.val]? = some (j : Int) → out.v i = M j) ∧
      (∀ l k out, podHandlesModes pod' l k = .ok out → ∀ (i : Fin out.k) (j : Fin pod'.r),
        l[i.val]? = some (j : Int) → out.v i = M' j) ∧
      ModesFound 𝕜 (fun v => RCLike.re (ip v v)) M pod.eigvals M' pod'.eigvals δ b' := by
  obtain ⟨M', h1', h2', h3'⟩ := C81_handles eigh₂ argsort₂ ip vecs₂ rtol' t' ht' hr' hs' hsymm hnn hlib' pod' hpod'
  obtain ⟨e, he, rfl⟩ := podHandlesDecomp_cases eigh argsort ip vecs _ _ pod hpod
  obtain ⟨hV, -, -⟩ := C20_eigenpairs _ _ _ _ _ _ hlib hs e he
  refine ⟨C20_positive_partial _ _ _ _ t ht hs hr e he, combine vecs (e.V * diagPow (𝕜 := 𝕜) e.w (-0.5)), M', ?_, h1',
    modesFound_of_worst (length_add ip hsymm hnn) (e.V * diagPow (𝕜 := 𝕜) e.w (-0.5)) (fun i _ => rfl)
      (fun i hi => build_length hV e.w i hi) hδ h2' (h3' b' hb')⟩
  intro l k out hout i j hij
  obtain ⟨sel, -, h2, h3⟩ := podHandlesModes_cases _ l k out hout
  have := h2 i _ hij
  unfold npAxisIndex at this
  have hj := j.isLt
  dsimp only at hj this
  rw [dif_pos (by omega)] at this
  rw [h3]
  dsimp only
  congr 1
  have := Except.ok.inj this
  rw [← this]
  rfl

/-! ### Examples -/

/-- Three vectors, and vectors of which one is changed by 3 in one entry and by 4 in the other. -/
example : ∃ (lib : PodLib ℝ 2 3) (res res' : PodResult ℝ 2 3),
    podDirect lib exampleData none .none (some (1 / 10)) none = .ok res ∧
    podDirect lib (exampleData - !![0, 3, 0; 0, 4, 0]) none .none (some (1 / 10)) none = .ok res' ∧
    ∃ (M : Matrix (Fin 2) (Fin res.r) ℝ) (M' : Matrix (Fin 2) (Fin res'.r) ℝ),
      SelectedFrom none res.modes M ∧ SelectedFrom none res'.modes M' ∧
      ModesFound ℝ (weightedLength (1 : Matrix (Fin 2) (Fin 2) ℝ)) Mᵀ res.eigvals M'ᵀ res'.eigvals 5 ((1 / 10) ^ 2) := by
  obtain ⟨lib, hsvd, -, -, -⟩ := exists_podLib (𝕜 := ℝ) 2 3
  have hfit : (DirectWeights.none : DirectWeights ℝ).Fits 2 := trivial
  obtain ⟨res, hres⟩ := C22_direct_no_error lib exampleData .none (some (1 / 10)) none hfit (by simp) (Or.inl rfl)
  obtain ⟨res', hres'⟩ := C22_direct_no_error lib (exampleData - !![0, 3, 0; 0, 4, 0]) .none (some (1 / 10)) none hfit (by simp)
    (Or.inl rfl)
  have h1 : (DirectWeights.none : DirectWeights ℝ).matrix 2 = 1 := rfl
  have hδ : SmallChange ℝ (weightedLength ((DirectWeights.none : DirectWeights ℝ).matrix 2))
      (fun j => (exampleData - (exampleData - !![0, 3, 0; 0, 4, 0]))ᵀ j) 5 := by
    have h := C119_change (weightedIp (1 : Matrix (Fin 2) (Fin 2) ℝ)) (weightedIp_symm Matrix.PosSemidef.one)
      (weightedIp_nonneg Matrix.PosSemidef.one) fun j : Fin 3 => (!![0, 3, 0; 0, 4, 0] : Matrix (Fin 2) (Fin 3) ℝ)ᵀ j
    rw [h1, sub_sub_cancel]
    have h5 : √(∑ j : Fin 3, RCLike.re (weightedIp (1 : Matrix (Fin 2) (Fin 2) ℝ) ((!![0, 3, 0; 0, 4, 0] : Matrix (Fin 2) (Fin 3) ℝ)ᵀ j)
        ((!![0, 3, 0; 0, 4, 0] : Matrix (Fin 2) (Fin 3) ℝ)ᵀ j))) = 5 := by
      rw [Real.sqrt_eq_iff_mul_self_eq_of_pos (by norm_num), Fin.sum_univ_three]
      simp [weightedIp, dotProduct, Fin.sum_univ_two]
      norm_num
    rw [h5] at h
    exact h
  obtain ⟨M, M', G, e1, e2, -, e3⟩ := C122_direct lib lib exampleData _ none none .none _ _ _ _ (by simp) hfit (by simp) (by simp) hsvd hsvd
    res res' hres hres' hδ
  exact ⟨lib, res, res', hres, hres', M, M', e1, e2, e3 _ ⟨by norm_num, by simp, by simp⟩⟩

end Modred
