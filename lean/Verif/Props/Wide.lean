import Verif.Lemmas.Wide
import Verif.Spec.Wide

/-!
# C115: more vectors that carry the same information
-/

namespace Modred

open Matrix

variable {𝕜 : Type*} [RCLike 𝕜] {n m m' : Nat}

/-! ### Arrays -/

/-- **C115**, method of snapshots. -/
theorem C115_pod_snaps (lib : PodLib 𝕜 n m) (lib' : PodLib 𝕜 n m') (vecs : Matrix (Fin n) (Fin m) 𝕜) (a : 𝕜) (Q : Matrix (Fin m) (Fin m') 𝕜)
    (weights : Option (NdArray 𝕜)) (ws : Weights 𝕜) (rtol : Option ℝ) (t : ℝ) (ha : a ≠ 0) (hQ : Q * Qᴴ = 1) (ht : 0 ≤ t)
    (hr : ∀ t ∈ rtol, 0 ≤ t) (hs : IsArgsort lib.argsort) (hs' : IsArgsort lib'.argsort)
    (hws : arraysInit weights = .ok ws) (hfit : ws.Fits n) (hW : (ws.matrix n).IsHermitian)
    (hlib : ∀ C, C.IsHermitian → IsEigh C (lib.eigh C)) (hlib' : ∀ C, C.IsHermitian → IsEigh C (lib'.eigh C))
    (res : PodResult 𝕜 n m) (corr : Matrix (Fin m) (Fin m) 𝕜)
    (hres : podSnaps lib vecs none weights (some t) rtol = .ok (res, corr)) :
    ∃ (res' : PodResult 𝕜 n m') (corr' : Matrix (Fin m') (Fin m') 𝕜) (modes : Matrix (Fin n) (Fin res.r) 𝕜)
      (modes' : Matrix (Fin n) (Fin res'.r) 𝕜),
      podSnaps lib' (a • (vecs * Q)) none weights (some (‖a‖ ^ 2 * t)) rtol = .ok (res', corr') ∧
      res.modes = ⟨res.r, modes⟩ ∧ res'.modes = ⟨res'.r, modes'⟩ ∧
      SameModes a res.eigvals res'.eigvals modes modes' ∧
      modes' * res'.projCoeffs = a • (modes * res.projCoeffs * Q) := by
  have na : 0 < ‖a‖ ^ 2 := pow_pos (norm_pos_iff.mpr ha) 2
  obtain ⟨e, c, he, hc, h⟩ := podSnaps_cases lib vecs none weights ws _ _ hws hfit _ hres
  obtain ⟨rfl, rfl⟩ := Prod.mk.inj h
  cases hc
  have hA : (a • (vecs * Q))ᴴ * ws.matrix n * (a • (vecs * Q)) =
      ((‖a‖ ^ 2 : ℝ) : 𝕜) • (Qᴴ * (vecsᴴ * ws.matrix n * vecs) * Q) := by
    rw [conjTranspose_smul, Matrix.smul_mul, Matrix.mul_smul, Matrix.smul_mul, smul_smul, mul_comm a, norm_sq_smul,
      conjTranspose_mul]
    simp only [Matrix.mul_assoc]
  have herm : ∀ {p : Nat} (X : Matrix (Fin n) (Fin p) 𝕜), (Xᴴ * ws.matrix n * X).IsHermitian := by
    intro p X
    unfold Matrix.IsHermitian
    rw [conjTranspose_mul, conjTranspose_mul, conjTranspose_conjTranspose, hW.eq, Matrix.mul_assoc]
  have hm := wide_pos hQ (pos_of_utilEigh_ok he)
  obtain ⟨e', he'⟩ := C20_no_error lib'.eigh lib'.argsort ((a • (vecs * Q))ᴴ * ws.matrix n * (a • (vecs * Q))) rtol true
    (‖a‖ ^ 2 * t) hm
  have hl := hlib _ (herm vecs)
  have hl' := hlib' _ (herm (a • (vecs * Q)))
  obtain ⟨k1, k2, -⟩ := eigh_wide hl hl' hQ hA na ht hs hs' hr e e' he he'
  obtain ⟨k3, k4⟩ := build_wide hl hl' hQ hA na ht hs hs' hr e e' he he'
  have hw := C20_positive_partial _ _ _ _ t ht hs hr e he
  have hw' := C20_positive_partial _ _ _ _ _ (mul_nonneg na.le ht) hs' hr e' he'
  refine ⟨⟨e'.r, e'.w, ⟨e'.r, (a • (vecs * Q)) * (e'.V * diagPow (𝕜 := 𝕜) e'.w (-0.5))⟩, diagPow (𝕜 := 𝕜) e'.w 0.5 * e'.Vᴴ, e'.V⟩,
    (a • (vecs * Q))ᴴ * ws.matrix n * (a • (vecs * Q)), vecs * (e.V * diagPow (𝕜 := 𝕜) e.w (-0.5)), (a • (vecs * Q)) * (e'.V * diagPow (𝕜 := 𝕜) e'.w (-0.5)), ?_, ?_, rfl,
    ⟨k1, k2, fun f g hfg => ?_⟩, ?_⟩
  · unfold podSnaps symmIpArray
    rw [hws]
    dsimp only
    rw [C45_formula ws hfit]
    dsimp only
    rw [he']
    rfl
  · rw [Matrix.mul_one]
  · have := congrArg (fun M => vecs * Q * M * (vecs * Q)ᴴ) (k3 f g hfg)
    dsimp only at this ⊢
    rw [conjTranspose_mul (a • (vecs * Q)), conjTranspose_smul, Matrix.smul_mul, Matrix.smul_mul, Matrix.mul_smul,
      Matrix.mul_smul, Matrix.smul_mul, smul_smul, norm_sq_smul]
    rw [Matrix.mul_smul, Matrix.smul_mul] at this
    rw [show vecs * Q * (e'.V * diagPow (𝕜 := 𝕜) e'.w (-0.5)) * diagonal (fun i => g (e'.w i)) *
      ((e'.V * diagPow (𝕜 := 𝕜) e'.w (-0.5))ᴴ * (vecs * Q)ᴴ) = vecs * Q * ((e'.V * diagPow (𝕜 := 𝕜) e'.w (-0.5)) *
        diagonal (fun i => g (e'.w i)) * (e'.V * diagPow (𝕜 := 𝕜) e'.w (-0.5))ᴴ) * (vecs * Q)ᴴ by
      simp only [Matrix.mul_assoc], this, conjTranspose_mul vecs Q, conjTranspose_mul vecs]
    generalize e.V * diagPow (𝕜 := 𝕜) e.w (-0.5) = B
    rw [show vecs * Q * (Qᴴ * (B * diagonal (fun i => f (e.w i)) * Bᴴ) * Q) * (Qᴴ * vecsᴴ) =
      vecs * (Q * Qᴴ) * (B * diagonal (fun i => f (e.w i)) * Bᴴ) * (Q * Qᴴ) * vecsᴴ by simp only [Matrix.mul_assoc], hQ,
      Matrix.mul_one, Matrix.mul_one]
    simp only [Matrix.mul_assoc]
  · dsimp only
    rw [Matrix.mul_assoc, build_mul_proj hw', Matrix.mul_assoc vecs, build_mul_proj hw, k4, Matrix.smul_mul]
    congr 1
    rw [show vecs * Q * (Qᴴ * (e.V * e.Vᴴ) * Q) = vecs * (Q * Qᴴ) * (e.V * e.Vᴴ) * Q by simp only [Matrix.mul_assoc], hQ,
      Matrix.mul_one]

/-- **C115**, direct method. -/
theorem C115_pod_direct (lib : PodLib 𝕜 n m) (lib' : PodLib 𝕜 n m') (vecs : Matrix (Fin n) (Fin m) 𝕜) (a : 𝕜) (Q : Matrix (Fin m) (Fin m') 𝕜)
    (ws : DirectWeights 𝕜) (rtol : Option ℝ) (t : ℝ) (ha : a ≠ 0) (hQ : Q * Qᴴ = 1) (ht : 0 ≤ t) (hr : ∀ t ∈ rtol, 0 ≤ t)
    (hfit : ws.Fits n) (hchol : ∀ p q w, ws = .d2 p q w → IsCholesky lib.cholesky (ws.matrix n))
    (hchol' : ∀ p q w, ws = .d2 p q w → IsCholesky lib'.cholesky (ws.matrix n))
    (hlib : ∀ B, IsSvd B (lib.svd B)) (hlib' : ∀ B, IsSvd B (lib'.svd B)) (res : PodResult 𝕜 n m)
    (hres : podDirect lib vecs none ws (some t) rtol = .ok res) :
    ∃ (res' : PodResult 𝕜 n m') (modes : Matrix (Fin n) (Fin res.r) 𝕜) (modes' : Matrix (Fin n) (Fin res'.r) 𝕜),
      podDirect lib' (a • (vecs * Q)) none ws (some (‖a‖ * t)) rtol = .ok res' ∧
      res.modes = ⟨res.r, modes⟩ ∧ res'.modes = ⟨res'.r, modes'⟩ ∧
      SameModes a res.eigvals res'.eigvals modes modes' ∧
      modes' * res'.projCoeffs = a • (modes * res.projCoeffs * Q) := by
  have na : 0 < ‖a‖ := norm_pos_iff.mpr ha
  obtain ⟨G, H, hGH, hG, h3⟩ := podDirect_cases lib vecs none ws (some t) rtol hfit hchol
  obtain ⟨e, c, he, hc, rfl⟩ := h3 res hres
  cases hc
  obtain ⟨G', H', hGH', hG', h3'⟩ := podDirect_cases lib' (a • (vecs * Q)) none ws (some (‖a‖ * t)) rtol hfit hchol'
  have hok : ∃ res', podDirect lib' (a • (vecs * Q)) none ws (some (‖a‖ * t)) rtol = .ok res' := by
    refine C22_direct_no_error lib' _ ws _ rtol hfit hchol' ?_
    by_contra hc'
    push Not at hc'
    have hz : ¬ 0 < min n m := fun h => by
      have := wide_pos hQ (show 0 < m by omega)
      omega
    have hc : ¬ (rtol = none ∨ 0 < min n m) := fun h => h.elim hc'.1 hz
    push Not at hc
    have := (C19_error_iff lib.svd (G * vecs) (some t) rtol .indexError).mpr ⟨rfl, hc.1, by omega⟩
    rw [he] at this
    cases this
  obtain ⟨res', hres'⟩ := hok
  obtain ⟨e', c', he', hc', rfl⟩ := h3' res' hres'
  cases hc'
  have hT : (G' * H)ᴴ * (G' * H) = 1 := by
    rw [conjTranspose_mul, show Hᴴ * G'ᴴ * (G' * H) = Hᴴ * (G'ᴴ * G') * H by simp only [Matrix.mul_assoc], hG', ← hG,
      show Hᴴ * (Gᴴ * G) * H = (G * H)ᴴ * (G * H) by rw [conjTranspose_mul]; simp only [Matrix.mul_assoc], hGH,
      conjTranspose_one, Matrix.mul_one]
  have hHG : H * G = 1 := mul_eq_one_comm.mp hGH
  have hHG' : H' * G' = 1 := mul_eq_one_comm.mp hGH'
  have hB : G' * (a • (vecs * Q)) = a • (G' * H * (G * vecs) * Q) := by
    rw [Matrix.mul_smul, show G' * H * (G * vecs) * Q = G' * (H * G) * vecs * Q by simp only [Matrix.mul_assoc], hHG,
      Matrix.mul_one, Matrix.mul_assoc]
  obtain ⟨k1, k2, k3⟩ := svd_wide (hlib _) (hlib' _) hT hQ hB ha ht hr e e' he he'
  obtain ⟨-, -, hAV, -, hS, -⟩ := C19_singular_triples _ _ _ _ (hlib _) e he
  obtain ⟨-, -, hAV', -, hS', -⟩ := C19_singular_triples _ _ _ _ (hlib' _) e' he'
  refine ⟨_, H * e.U, H' * e'.U, hres', rfl, rfl, ⟨k1, fun i' i hi => ?_, fun f g hfg => ?_⟩, ?_⟩
  · dsimp only
    rw [k2 i' i hi, Real.mul_rpow na.le (hS i), Real.rpow_two, Real.rpow_two]
  · obtain ⟨k4, -⟩ := k3 (fun x => f (x ^ (2 : ℝ))) (fun x => g (x ^ (2 : ℝ))) fun x hx => by
      rw [Real.mul_rpow na.le hx.le, Real.rpow_two ‖a‖]
      exact hfg _ (Real.rpow_pos_of_pos hx _)
    dsimp only
    rw [conjTranspose_mul, show H' * e'.U * diagonal (fun i => g (e'.S i ^ (2 : ℝ))) * (e'.Uᴴ * H'ᴴ) =
      H' * (e'.U * diagonal (fun i => g (e'.S i ^ (2 : ℝ))) * e'.Uᴴ) * H'ᴴ by simp only [Matrix.mul_assoc], k4,
      conjTranspose_mul, conjTranspose_mul]
    rw [show H * e.U * diagonal (fun i => f (e.S i ^ (2 : ℝ))) * (e.Uᴴ * Hᴴ) =
      H * (e.U * diagonal (fun i => f (e.S i ^ (2 : ℝ))) * e.Uᴴ) * Hᴴ by simp only [Matrix.mul_assoc]]
    generalize e.U * diagonal (fun i => f (e.S i ^ (2 : ℝ))) * e.Uᴴ = M
    rw [show H' * (G' * H * M * (Hᴴ * G'ᴴ)) * H'ᴴ = H' * G' * H * M * Hᴴ * (H' * G')ᴴ by
      rw [conjTranspose_mul]; simp only [Matrix.mul_assoc], hHG', conjTranspose_one, Matrix.mul_one, Matrix.one_mul]
  · dsimp only
    rw [diagPow_sq hS, diagPow_sq hS']
    obtain ⟨-, k5⟩ := k3 (fun _ => 1) (fun _ => 1) fun _ _ => rfl
    simp only [diagonal_one, Matrix.mul_one] at k5
    rw [show H' * e'.U * (diagonal (fun i => (e'.S i : 𝕜)) * e'.Vᴴ) = H' * (e'.U * diagonal (fun i => (e'.S i : 𝕜))) * e'.Vᴴ by
        simp only [Matrix.mul_assoc], ← hAV',
      show H * e.U * (diagonal (fun i => (e.S i : 𝕜)) * e.Vᴴ) = H * (e.U * diagonal (fun i => (e.S i : 𝕜))) * e.Vᴴ by
        simp only [Matrix.mul_assoc], ← hAV]
    rw [show H' * (G' * (a • (vecs * Q)) * e'.V) * e'.Vᴴ = H' * G' * (a • (vecs * Q)) * (e'.V * e'.Vᴴ) by
      simp only [Matrix.mul_assoc], hHG', Matrix.one_mul, k5,
      show H * (G * vecs * e.V) * e.Vᴴ = H * G * vecs * (e.V * e.Vᴴ) by simp only [Matrix.mul_assoc], hHG, Matrix.one_mul,
      Matrix.smul_mul]
    congr 1
    rw [show vecs * Q * (Qᴴ * (e.V * e.Vᴴ) * Q) = vecs * (Q * Qᴴ) * (e.V * e.Vᴴ) * Q by simp only [Matrix.mul_assoc], hQ,
      Matrix.mul_one]

/-! ### Handles -/

section Handles

variable {E : Type*} [AddCommGroup E] [Module 𝕜 E]

theorem weighted_sum_wide (ip : E →ₗ⋆[𝕜] E →ₗ[𝕜] 𝕜) (v : Fin m → E) (Q : Matrix (Fin m) (Fin m') 𝕜)
    (M : Matrix (Fin m') (Fin m') 𝕜) (x : E) :
    ∑ j, (M *ᵥ fun k => ip (combine v Q k) x) j • combine v Q j =
      ∑ j, ((Q * M * Qᴴ) *ᵥ fun k => ip (v k) x) j • v j := by
  have h1 : (fun k => ip (combine v Q k) x) = Qᴴ *ᵥ fun k => ip (v k) x := by
    ext i
    unfold combine
    rw [map_sum, LinearMap.sum_apply, Matrix.mulVec, dotProduct]
    refine Finset.sum_congr rfl fun k _ => ?_
    rw [LinearMap.map_smulₛₗ, LinearMap.smul_apply, smul_eq_mul]
    rfl
  have h2 : ∀ z, (Q * M * Qᴴ) *ᵥ z = Q *ᵥ (M *ᵥ (Qᴴ *ᵥ z)) := by
    intro z
    rw [Matrix.mulVec_mulVec, Matrix.mulVec_mulVec, Matrix.mul_assoc]
  rw [h1, h2]
  generalize M *ᵥ (Qᴴ *ᵥ fun k => ip (v k) x) = y
  unfold combine
  simp only [Finset.smul_sum, smul_smul]
  rw [Finset.sum_comm]
  refine Finset.sum_congr rfl fun j _ => ?_
  rw [← Finset.sum_smul, Matrix.mulVec, dotProduct]
  congr 1
  exact Finset.sum_congr rfl fun i _ => mul_comm _ _

/-- **C115** for handles: the modes of the vectors `a ∑ Q i j v i` are those of the vectors `v j`.  Modes are those that
`compute_modes` puts. -/
theorem C115_pod_handles (eigh : Matrix (Fin m) (Fin m) 𝕜 → EighOut 𝕜 m) (eigh' : Matrix (Fin m') (Fin m') 𝕜 → EighOut 𝕜 m')
    (argsort : (Fin m → ℝ) → Equiv.Perm (Fin m)) (argsort' : (Fin m' → ℝ) → Equiv.Perm (Fin m')) (ip : E →ₗ⋆[𝕜] E →ₗ[𝕜] 𝕜) (vecs : Fin m → E) (a : 𝕜)
    (Q : Matrix (Fin m) (Fin m') 𝕜) (rtol : Option ℝ) (t : ℝ) (ha : a ≠ 0) (hQ : Q * Qᴴ = 1) (ht : 0 ≤ t)
    (hr : ∀ t ∈ rtol, 0 ≤ t) (hs : IsArgsort argsort) (hs' : IsArgsort argsort') (hsymm : ∀ x y, ip y x = star (ip x y))
    (hlib : ∀ C, C.IsHermitian → IsEigh C (eigh C)) (hlib' : ∀ C, C.IsHermitian → IsEigh C (eigh' C)) (pod : PodHandles 𝕜 E m)
    (hpod : podHandlesDecomp eigh argsort (fun x y => ip x y) vecs (some t) rtol = .ok pod) :
    ∃ (pod' : PodHandles 𝕜 E m') (modes : Fin pod.r → E) (modes' : Fin pod'.r → E),
      podHandlesDecomp eigh' argsort' (fun x y => ip x y) (fun j => a • ∑ i, Q i j • vecs i) (some (‖a‖ ^ 2 * t)) rtol =
        .ok pod' ∧
      (∀ l k out, podHandlesModes pod l k = .ok out → ∀ (i : Fin out.k) (j : Fin pod.r), l[i.val]? = some (j : Int) →
        out.v i = modes j) ∧
      (∀ l k out, podHandlesModes pod' l k = .ok out → ∀ (i : Fin out.k) (j : Fin pod'.r), l[i.val]? = some (j : Int) →
        out.v i = modes' j) ∧
      SameModesOf ip a pod.eigvals pod'.eigvals modes modes' ∧
      ∀ j, ∑ i, podHandlesProjCoeffs pod' i j • modes' i = a • ∑ k, Q k j • ∑ i, podHandlesProjCoeffs pod i k • modes i := by
  have na : 0 < ‖a‖ ^ 2 := pow_pos (norm_pos_iff.mpr ha) 2
  have hv : (fun j => a • ∑ i, Q i j • vecs i) = combine vecs (a • Q) := by
    ext j
    unfold combine
    simp only [Finset.smul_sum, smul_smul, Matrix.smul_apply, smul_eq_mul]
  rw [hv]
  have hA : handlesSymmIp (fun x y => ip x y) (combine vecs (a • Q)) =
      ((‖a‖ ^ 2 : ℝ) : 𝕜) • (Qᴴ * handlesSymmIp (fun x y => ip x y) vecs * Q) := by
    unfold handlesSymmIp
    rw [handlesIp_combine, conjTranspose_smul, Matrix.smul_mul, Matrix.mul_smul, Matrix.smul_mul, smul_smul, mul_comm a,
      norm_sq_smul]
  have herm : ∀ {p : Nat} (v : Fin p → E), (handlesSymmIp (fun x y => ip x y) v).IsHermitian := by
    intro p v
    ext i j
    exact (hsymm _ _).symm
  obtain ⟨e, he, rfl⟩ := podHandlesDecomp_cases eigh argsort ip vecs _ _ pod hpod
  have hm := wide_pos hQ (pos_of_utilEigh_ok he)
  obtain ⟨e', he'⟩ := C20_no_error eigh' argsort' (handlesSymmIp (fun x y => ip x y) (combine vecs (a • Q))) rtol true
    (‖a‖ ^ 2 * t) hm
  have hl := hlib _ (herm vecs)
  have hl' := hlib' _ (herm (combine vecs (a • Q)))
  obtain ⟨k1, k2, -⟩ := eigh_wide hl hl' hQ hA na ht hs hs' hr e e' he he'
  obtain ⟨k3, k4⟩ := build_wide hl hl' hQ hA na ht hs hs' hr e e' he he'
  have hw := C20_positive_partial _ _ _ _ t ht hs hr e he
  have hw' := C20_positive_partial _ _ _ _ _ (mul_nonneg na.le ht) hs' hr e' he'
  have put : ∀ {p : Nat} (pod : PodHandles 𝕜 E p) (l : List Int) (k : Nat) (out : Vecs E), podHandlesModes pod l k = .ok out →
      ∀ (i : Fin out.k) (j : Fin pod.r), l[i.val]? = some (j : Int) →
        out.v i = combine pod.vecs (pod.eigvecs * diagPow (𝕜 := 𝕜) pod.eigvals (-0.5)) j := by
    intro p pod l k out hout i j hij
    obtain ⟨sel, -, h2, h3⟩ := podHandlesModes_cases _ l k out hout
    have := h2 i _ hij
    unfold npAxisIndex at this
    have hj := j.isLt
    rw [dif_pos (by omega)] at this
    rw [h3, ← Except.ok.inj this]
    rfl
  refine ⟨⟨combine vecs (a • Q), handlesSymmIp (fun x y => ip x y) (combine vecs (a • Q)), e'.r, e'.w, e'.V⟩,
    combine vecs (e.V * diagPow (𝕜 := 𝕜) e.w (-0.5)), combine (combine vecs (a • Q)) (e'.V * diagPow (𝕜 := 𝕜) e'.w (-0.5)),
    ?_, fun l k out hout i j hij => put _ l k out hout i j hij, fun l k out hout i j hij => put _ l k out hout i j hij,
    ⟨k1, k2, fun f g hfg x => ?_⟩, fun j => ?_⟩
  · unfold podHandlesDecomp
    rw [if_neg (by omega)]
    dsimp only
    rw [he']
  · rw [weighted_sum ip vecs _ (fun i => f (e.w i)), weighted_sum ip (combine vecs (a • Q)) _ (fun i => g (e'.w i)),
      weighted_sum_wide]
    have h1 := congrArg (fun M => Q * M * Qᴴ) (k3 f g hfg)
    generalize e.V * diagPow (𝕜 := 𝕜) e.w (-0.5) * diagonal (fun i => f (e.w i)) *
      (e.V * diagPow (𝕜 := 𝕜) e.w (-0.5))ᴴ = M at h1 ⊢
    generalize e'.V * diagPow (𝕜 := 𝕜) e'.w (-0.5) * diagonal (fun i => g (e'.w i)) *
      (e'.V * diagPow (𝕜 := 𝕜) e'.w (-0.5))ᴴ = M' at h1 ⊢
    rw [show Q * (Qᴴ * M * Q) * Qᴴ = (Q * Qᴴ) * M * (Q * Qᴴ) by simp only [Matrix.mul_assoc], hQ, Matrix.one_mul,
      Matrix.mul_one, Matrix.mul_smul, Matrix.smul_mul] at h1
    rw [conjTranspose_smul, Matrix.smul_mul, Matrix.mul_smul, Matrix.smul_mul, smul_smul, norm_sq_smul, h1]
  · have h1 : ∑ i, (diagPow (𝕜 := 𝕜) e'.w 0.5 * e'.Vᴴ) i j • combine (combine vecs (a • Q)) (e'.V * diagPow (𝕜 := 𝕜) e'.w (-0.5)) i =
        combine (combine (combine vecs (a • Q)) (e'.V * diagPow (𝕜 := 𝕜) e'.w (-0.5))) (diagPow (𝕜 := 𝕜) e'.w 0.5 * e'.Vᴴ) j := rfl
    have h2 : ∀ k, ∑ i, (diagPow (𝕜 := 𝕜) e.w 0.5 * e.Vᴴ) i k • combine vecs (e.V * diagPow (𝕜 := 𝕜) e.w (-0.5)) i =
        combine (combine vecs (e.V * diagPow (𝕜 := 𝕜) e.w (-0.5))) (diagPow (𝕜 := 𝕜) e.w 0.5 * e.Vᴴ) k := fun _ => rfl
    unfold podHandlesProjCoeffs
    rw [h1]
    simp only [h2]
    rw [combine_combine, combine_combine, build_mul_proj hw', combine_combine, build_mul_proj hw, k4]
    have h3 : a • ∑ k, Q k j • combine vecs (e.V * e.Vᴴ) k = a • combine (combine vecs (e.V * e.Vᴴ)) Q j := rfl
    rw [h3, combine_combine, Matrix.smul_mul,
      show Q * (Qᴴ * (e.V * e.Vᴴ) * Q) = (Q * Qᴴ) * (e.V * e.Vᴴ) * Q by simp only [Matrix.mul_assoc], hQ, Matrix.one_mul]
    unfold combine
    simp only [Finset.smul_sum, smul_smul, Matrix.smul_apply, smul_eq_mul]

end Handles


/-! ### Vectors that are zero, and vectors that are repeated -/

theorem placeRows_orthonormal (ι : Fin m → Fin m') (hι : Function.Injective ι) :
    placeRows 𝕜 ι * (placeRows 𝕜 ι)ᴴ = 1 := by
  ext i k
  rw [Matrix.mul_apply, Matrix.one_apply]
  simp only [placeRows, conjTranspose_apply, ite_mul, one_mul, zero_mul, Finset.sum_ite_eq, Finset.mem_univ, if_true]
  by_cases h : i = k
  · rw [h, if_pos rfl, if_pos rfl, star_one]
  · rw [if_neg h, if_neg fun hc => h (hι hc).symm, star_zero]

theorem placeRows_sum {E : Type*} [AddCommGroup E] [Module 𝕜 E] (ι : Fin m → Fin m') (hι : Function.Injective ι)
    (v : Fin m → E) (v' : Fin m' → E) (h1 : ∀ i, v' (ι i) = v i) (h0 : ∀ j, (∀ i, ι i ≠ j) → v' j = 0) (j : Fin m') :
    v' j = ∑ i, placeRows 𝕜 ι i j • v i := by
  simp only [placeRows, ite_smul, one_smul, zero_smul]
  by_cases h : ∃ i, ι i = j
  · obtain ⟨i, rfl⟩ := h
    rw [Finset.sum_eq_single i, if_pos rfl, h1]
    · intro k _ hk
      rw [if_neg fun hc => hk (hι hc)]
    · intro hc
      exact absurd (Finset.mem_univ _) hc
  · push Not at h
    rw [h0 j h, Finset.sum_eq_zero]
    intro i _
    rw [if_neg (h i)]

theorem sqrt_nat_ne {p : Nat} (hp : 0 < p) : ((Real.sqrt p : ℝ) : 𝕜) ≠ 0 :=
  RCLike.ofReal_ne_zero.mpr (Real.sqrt_pos.mpr (Nat.cast_pos.mpr hp)).ne'

theorem repeatRows_orthonormal (σ : Fin m' → Fin m) {p : Nat} (hp : 0 < p)
    (hσ : ∀ i, (Finset.univ.filter fun j => σ j = i).card = p) : repeatRows 𝕜 σ p * (repeatRows 𝕜 σ p)ᴴ = 1 := by
  ext i k
  rw [Matrix.mul_apply, Matrix.one_apply]
  simp only [repeatRows, conjTranspose_apply]
  by_cases h : i = k
  · subst h
    have h1 : ∀ j, (if σ j = i then ((Real.sqrt p : ℝ) : 𝕜)⁻¹ else 0) * star (if σ j = i then ((Real.sqrt p : ℝ) : 𝕜)⁻¹ else 0) =
        if σ j = i then ((p : 𝕜))⁻¹ else 0 := by
      intro j
      by_cases hj : σ j = i
      · rw [if_pos hj, if_pos hj, star_inv₀, RCLike.star_def, RCLike.conj_ofReal, ← mul_inv, ← RCLike.ofReal_mul,
          Real.mul_self_sqrt (Nat.cast_nonneg p), RCLike.ofReal_natCast]
      · rw [if_neg hj, if_neg hj, zero_mul]
    simp only [h1]
    rw [Finset.sum_ite, Finset.sum_const_zero, add_zero, Finset.sum_const, hσ, nsmul_eq_mul, if_true]
    exact mul_inv_cancel₀ (Nat.cast_ne_zero.mpr hp.ne')
  · rw [if_neg h]
    refine Finset.sum_eq_zero fun j _ => ?_
    by_cases hj : σ j = i
    · rw [if_neg (show ¬ σ j = k from fun hc => h (hj.symm.trans hc)), star_zero, mul_zero]
    · rw [if_neg hj, zero_mul]

theorem repeatRows_sum {E : Type*} [AddCommGroup E] [Module 𝕜 E] (σ : Fin m' → Fin m) {p : Nat} (hp : 0 < p) (v : Fin m → E)
    (j : Fin m') : v (σ j) = ((Real.sqrt p : ℝ) : 𝕜) • ∑ i, repeatRows 𝕜 σ p i j • v i := by
  simp only [repeatRows, ite_smul, zero_smul, Finset.sum_ite_eq, Finset.mem_univ, if_true]
  rw [smul_smul, mul_inv_cancel₀ (sqrt_nat_ne hp), one_smul]

theorem norm_sqrt_sq (p : Nat) : ‖((Real.sqrt p : ℝ) : 𝕜)‖ ^ 2 = p := by
  rw [RCLike.norm_ofReal, sq_abs, Real.sq_sqrt (Nat.cast_nonneg p)]

/-- The columns of a product. -/
theorem columns_of_sum {vecs : Matrix (Fin n) (Fin m) 𝕜} {vecs' : Matrix (Fin n) (Fin m') 𝕜} {a : 𝕜} {Q : Matrix (Fin m) (Fin m') 𝕜}
    (h : ∀ j, vecs'ᵀ j = a • ∑ i, Q i j • vecsᵀ i) : vecs' = a • (vecs * Q) := by
  ext l j
  have := congrFun (h j) l
  rw [Pi.smul_apply, Finset.sum_apply] at this
  rw [Matrix.smul_apply, Matrix.mul_apply, show vecs' l j = vecs'ᵀ j l from rfl, this]
  congr 1
  refine Finset.sum_congr rfl fun i _ => ?_
  rw [Pi.smul_apply, smul_eq_mul, mul_comm]
  rfl

/-- **C115**, method of snapshots: zero vectors at any places change nothing; they get coefficients that are zero. -/
theorem C115_zero_vectors_snaps (lib : PodLib 𝕜 n m) (lib' : PodLib 𝕜 n m') (vecs : Matrix (Fin n) (Fin m) 𝕜)
    (vecs' : Matrix (Fin n) (Fin m') 𝕜) (ι : Fin m → Fin m') (hι : Function.Injective ι) (h1 : ∀ i, vecs'ᵀ (ι i) = vecsᵀ i)
    (h0 : ∀ j, (∀ i, ι i ≠ j) → vecs'ᵀ j = 0)
    (weights : Option (NdArray 𝕜)) (ws : Weights 𝕜) (rtol : Option ℝ) (t : ℝ) (ht : 0 ≤ t)
    (hr : ∀ t ∈ rtol, 0 ≤ t) (hs : IsArgsort lib.argsort) (hs' : IsArgsort lib'.argsort)
    (hws : arraysInit weights = .ok ws) (hfit : ws.Fits n) (hW : (ws.matrix n).IsHermitian)
    (hlib : ∀ C, C.IsHermitian → IsEigh C (lib.eigh C)) (hlib' : ∀ C, C.IsHermitian → IsEigh C (lib'.eigh C))
    (res : PodResult 𝕜 n m) (corr : Matrix (Fin m) (Fin m) 𝕜)
    (hres : podSnaps lib vecs none weights (some t) rtol = .ok (res, corr)) :
    ∃ (res' : PodResult 𝕜 n m') (corr' : Matrix (Fin m') (Fin m') 𝕜) (modes : Matrix (Fin n) (Fin res.r) 𝕜)
      (modes' : Matrix (Fin n) (Fin res'.r) 𝕜),
      podSnaps lib' vecs' none weights (some t) rtol = .ok (res', corr') ∧
      res.modes = ⟨res.r, modes⟩ ∧ res'.modes = ⟨res'.r, modes'⟩ ∧ SameModes 1 res.eigvals res'.eigvals modes modes' := by
  obtain ⟨res', corr', modes, modes', k1, k2, k3, k4, -⟩ := C115_pod_snaps lib lib' vecs (1 : 𝕜) (placeRows 𝕜 ι) weights ws rtol t
    one_ne_zero (placeRows_orthonormal ι hι) ht hr hs hs' hws hfit hW hlib hlib' res corr hres
  rw [norm_one, one_pow, one_mul, ← columns_of_sum (vecs' := vecs') fun j => by
    rw [one_smul]; exact placeRows_sum ι hι _ _ h1 h0 j] at k1
  exact ⟨res', corr', modes, modes', k1, k2, k3, k4⟩

/-- **C115**, direct method: zero vectors at any places change nothing. -/
theorem C115_zero_vectors_direct (lib : PodLib 𝕜 n m) (lib' : PodLib 𝕜 n m') (vecs : Matrix (Fin n) (Fin m) 𝕜)
    (vecs' : Matrix (Fin n) (Fin m') 𝕜) (ι : Fin m → Fin m') (hι : Function.Injective ι) (h1 : ∀ i, vecs'ᵀ (ι i) = vecsᵀ i)
    (h0 : ∀ j, (∀ i, ι i ≠ j) → vecs'ᵀ j = 0)
    (ws : DirectWeights 𝕜) (rtol : Option ℝ) (t : ℝ) (ht : 0 ≤ t) (hr : ∀ t ∈ rtol, 0 ≤ t)
    (hfit : ws.Fits n) (hchol : ∀ p q w, ws = .d2 p q w → IsCholesky lib.cholesky (ws.matrix n))
    (hchol' : ∀ p q w, ws = .d2 p q w → IsCholesky lib'.cholesky (ws.matrix n))
    (hlib : ∀ B, IsSvd B (lib.svd B)) (hlib' : ∀ B, IsSvd B (lib'.svd B)) (res : PodResult 𝕜 n m)
    (hres : podDirect lib vecs none ws (some t) rtol = .ok res) :
    ∃ (res' : PodResult 𝕜 n m') (modes : Matrix (Fin n) (Fin res.r) 𝕜) (modes' : Matrix (Fin n) (Fin res'.r) 𝕜),
      podDirect lib' vecs' none ws (some t) rtol = .ok res' ∧
      res.modes = ⟨res.r, modes⟩ ∧ res'.modes = ⟨res'.r, modes'⟩ ∧ SameModes 1 res.eigvals res'.eigvals modes modes' := by
  obtain ⟨res', modes, modes', k1, k2, k3, k4, -⟩ := C115_pod_direct lib lib' vecs (1 : 𝕜) (placeRows 𝕜 ι) ws rtol t
    one_ne_zero (placeRows_orthonormal ι hι) ht hr hfit hchol hchol' hlib hlib' res hres
  rw [norm_one, one_mul, ← columns_of_sum (vecs' := vecs') fun j => by
    rw [one_smul]; exact placeRows_sum ι hι _ _ h1 h0 j] at k1
  exact ⟨res', modes, modes', k1, k2, k3, k4⟩

/-- **C115**, method of snapshots: if every vector is given `p` times in any order, then eigenvalues are `p` times as large and
modes are the same. -/
theorem C115_repeated_snaps (lib : PodLib 𝕜 n m) (lib' : PodLib 𝕜 n m') (vecs : Matrix (Fin n) (Fin m) 𝕜)
    (σ : Fin m' → Fin m) (p : Nat) (hp : 0 < p) (hσ : ∀ i, (Finset.univ.filter fun j => σ j = i).card = p)
    (weights : Option (NdArray 𝕜)) (ws : Weights 𝕜) (rtol : Option ℝ) (t : ℝ) (ht : 0 ≤ t)
    (hr : ∀ t ∈ rtol, 0 ≤ t) (hs : IsArgsort lib.argsort) (hs' : IsArgsort lib'.argsort)
    (hws : arraysInit weights = .ok ws) (hfit : ws.Fits n) (hW : (ws.matrix n).IsHermitian)
    (hlib : ∀ C, C.IsHermitian → IsEigh C (lib.eigh C)) (hlib' : ∀ C, C.IsHermitian → IsEigh C (lib'.eigh C))
    (res : PodResult 𝕜 n m) (corr : Matrix (Fin m) (Fin m) 𝕜)
    (hres : podSnaps lib vecs none weights (some t) rtol = .ok (res, corr)) :
    ∃ (res' : PodResult 𝕜 n m') (corr' : Matrix (Fin m') (Fin m') 𝕜) (modes : Matrix (Fin n) (Fin res.r) 𝕜)
      (modes' : Matrix (Fin n) (Fin res'.r) 𝕜),
      podSnaps lib' (of fun l j => vecs l (σ j)) none weights (some (p * t)) rtol = .ok (res', corr') ∧
      res.modes = ⟨res.r, modes⟩ ∧ res'.modes = ⟨res'.r, modes'⟩ ∧
      SameModes ((Real.sqrt p : ℝ) : 𝕜) res.eigvals res'.eigvals modes modes' ∧
      modes' * res'.projCoeffs = of fun l j => (modes * res.projCoeffs) l (σ j) := by
  obtain ⟨res', corr', modes, modes', k1, k2, k3, k4, k5⟩ := C115_pod_snaps lib lib' vecs ((Real.sqrt p : ℝ) : 𝕜) (repeatRows 𝕜 σ p)
    weights ws rtol t (sqrt_nat_ne hp) (repeatRows_orthonormal σ hp hσ) ht hr hs hs' hws hfit hW hlib hlib' res corr hres
  have key : ∀ {q : Nat} (X : Matrix (Fin q) (Fin m) 𝕜), (of fun l j => X l (σ j)) = ((Real.sqrt p : ℝ) : 𝕜) • (X * repeatRows 𝕜 σ p) :=
    fun X => columns_of_sum fun j => repeatRows_sum σ hp Xᵀ j
  rw [norm_sqrt_sq, ← key] at k1
  exact ⟨res', corr', modes, modes', k1, k2, k3, k4, by rw [k5, key]⟩

/-- **C115**, direct method: the absolute tolerance concerns singular values, so that it grows with the root of `p`. -/
theorem C115_repeated_direct (lib : PodLib 𝕜 n m) (lib' : PodLib 𝕜 n m') (vecs : Matrix (Fin n) (Fin m) 𝕜)
    (σ : Fin m' → Fin m) (p : Nat) (hp : 0 < p) (hσ : ∀ i, (Finset.univ.filter fun j => σ j = i).card = p)
    (ws : DirectWeights 𝕜) (rtol : Option ℝ) (t : ℝ) (ht : 0 ≤ t) (hr : ∀ t ∈ rtol, 0 ≤ t)
    (hfit : ws.Fits n) (hchol : ∀ p q w, ws = .d2 p q w → IsCholesky lib.cholesky (ws.matrix n))
    (hchol' : ∀ p q w, ws = .d2 p q w → IsCholesky lib'.cholesky (ws.matrix n))
    (hlib : ∀ B, IsSvd B (lib.svd B)) (hlib' : ∀ B, IsSvd B (lib'.svd B)) (res : PodResult 𝕜 n m)
    (hres : podDirect lib vecs none ws (some t) rtol = .ok res) :
    ∃ (res' : PodResult 𝕜 n m') (modes : Matrix (Fin n) (Fin res.r) 𝕜) (modes' : Matrix (Fin n) (Fin res'.r) 𝕜),
      podDirect lib' (of fun l j => vecs l (σ j)) none ws (some (Real.sqrt p * t)) rtol = .ok res' ∧
      res.modes = ⟨res.r, modes⟩ ∧ res'.modes = ⟨res'.r, modes'⟩ ∧
      SameModes ((Real.sqrt p : ℝ) : 𝕜) res.eigvals res'.eigvals modes modes' ∧
      modes' * res'.projCoeffs = of fun l j => (modes * res.projCoeffs) l (σ j) := by
  obtain ⟨res', modes, modes', k1, k2, k3, k4, k5⟩ := C115_pod_direct lib lib' vecs ((Real.sqrt p : ℝ) : 𝕜) (repeatRows 𝕜 σ p)
    ws rtol t (sqrt_nat_ne hp) (repeatRows_orthonormal σ hp hσ) ht hr hfit hchol hchol' hlib hlib' res hres
  have key : ∀ {q : Nat} (X : Matrix (Fin q) (Fin m) 𝕜), (of fun l j => X l (σ j)) = ((Real.sqrt p : ℝ) : 𝕜) • (X * repeatRows 𝕜 σ p) :=
    fun X => columns_of_sum fun j => repeatRows_sum σ hp Xᵀ j
  rw [RCLike.norm_ofReal, abs_of_nonneg (Real.sqrt_nonneg _), ← key] at k1
  exact ⟨res', modes, modes', k1, k2, k3, k4, by rw [k5, key]⟩

section Handles

variable {E : Type*} [AddCommGroup E] [Module 𝕜 E]

/-- **C115** for handles: zero vectors at any places change nothing. -/
theorem C115_zero_vectors_handles (eigh : Matrix (Fin m) (Fin m) 𝕜 → EighOut 𝕜 m) (eigh' : Matrix (Fin m') (Fin m') 𝕜 → EighOut 𝕜 m')
    (argsort : (Fin m → ℝ) → Equiv.Perm (Fin m)) (argsort' : (Fin m' → ℝ) → Equiv.Perm (Fin m')) (ip : E →ₗ⋆[𝕜] E →ₗ[𝕜] 𝕜)
    (vecs : Fin m → E) (vecs' : Fin m' → E) (ι : Fin m → Fin m') (hι : Function.Injective ι) (h1 : ∀ i, vecs' (ι i) = vecs i)
    (h0 : ∀ j, (∀ i, ι i ≠ j) → vecs' j = 0) (rtol : Option ℝ) (t : ℝ) (ht : 0 ≤ t)
    (hr : ∀ t ∈ rtol, 0 ≤ t) (hs : IsArgsort argsort) (hs' : IsArgsort argsort') (hsymm : ∀ x y, ip y x = star (ip x y))
    (hlib : ∀ C, C.IsHermitian → IsEigh C (eigh C)) (hlib' : ∀ C, C.IsHermitian → IsEigh C (eigh' C)) (pod : PodHandles 𝕜 E m)
    (hpod : podHandlesDecomp eigh argsort (fun x y => ip x y) vecs (some t) rtol = .ok pod) :
    ∃ (pod' : PodHandles 𝕜 E m') (modes : Fin pod.r → E) (modes' : Fin pod'.r → E),
      podHandlesDecomp eigh' argsort' (fun x y => ip x y) vecs' (some t) rtol = .ok pod' ∧
      (∀ l k out, podHandlesModes pod l k = .ok out → ∀ (i : Fin out.k) (j : Fin pod.r), l[i.val]? = some (j : Int) →
        out.v i = modes j) ∧
      (∀ l k out, podHandlesModes pod' l k = .ok out → ∀ (i : Fin out.k) (j : Fin pod'.r), l[i.val]? = some (j : Int) →
        out.v i = modes' j) ∧
      SameModesOf ip 1 pod.eigvals pod'.eigvals modes modes' := by
  obtain ⟨pod', modes, modes', k1, k2, k3, k4, -⟩ := C115_pod_handles eigh eigh' argsort argsort' ip vecs (1 : 𝕜) (placeRows 𝕜 ι)
    rtol t one_ne_zero (placeRows_orthonormal ι hι) ht hr hs hs' hsymm hlib hlib' pod hpod
  rw [norm_one, one_pow, one_mul, show (fun j => (1 : 𝕜) • ∑ i, placeRows 𝕜 ι i j • vecs i) = vecs' by
    ext j; rw [one_smul]; exact (placeRows_sum ι hι _ _ h1 h0 j).symm] at k1
  exact ⟨pod', modes, modes', k1, k2, k3, k4⟩

/-- **C115** for handles: if every vector is given `p` times, then eigenvalues are `p` times as large and modes are the same. -/
theorem C115_repeated_handles (eigh : Matrix (Fin m) (Fin m) 𝕜 → EighOut 𝕜 m) (eigh' : Matrix (Fin m') (Fin m') 𝕜 → EighOut 𝕜 m')
    (argsort : (Fin m → ℝ) → Equiv.Perm (Fin m)) (argsort' : (Fin m' → ℝ) → Equiv.Perm (Fin m')) (ip : E →ₗ⋆[𝕜] E →ₗ[𝕜] 𝕜)
    (vecs : Fin m → E) (σ : Fin m' → Fin m) (p : Nat) (hp : 0 < p) (hσ : ∀ i, (Finset.univ.filter fun j => σ j = i).card = p)
    (rtol : Option ℝ) (t : ℝ) (ht : 0 ≤ t)
    (hr : ∀ t ∈ rtol, 0 ≤ t) (hs : IsArgsort argsort) (hs' : IsArgsort argsort') (hsymm : ∀ x y, ip y x = star (ip x y))
    (hlib : ∀ C, C.IsHermitian → IsEigh C (eigh C)) (hlib' : ∀ C, C.IsHermitian → IsEigh C (eigh' C)) (pod : PodHandles 𝕜 E m)
    (hpod : podHandlesDecomp eigh argsort (fun x y => ip x y) vecs (some t) rtol = .ok pod) :
    ∃ (pod' : PodHandles 𝕜 E m') (modes : Fin pod.r → E) (modes' : Fin pod'.r → E),
      podHandlesDecomp eigh' argsort' (fun x y => ip x y) (fun j => vecs (σ j)) (some (p * t)) rtol = .ok pod' ∧
      (∀ l k out, podHandlesModes pod l k = .ok out → ∀ (i : Fin out.k) (j : Fin pod.r), l[i.val]? = some (j : Int) →
        out.v i = modes j) ∧
      (∀ l k out, podHandlesModes pod' l k = .ok out → ∀ (i : Fin out.k) (j : Fin pod'.r), l[i.val]? = some (j : Int) →
        out.v i = modes' j) ∧
      SameModesOf ip ((Real.sqrt p : ℝ) : 𝕜) pod.eigvals pod'.eigvals modes modes' := by
  obtain ⟨pod', modes, modes', k1, k2, k3, k4, -⟩ := C115_pod_handles eigh eigh' argsort argsort' ip vecs ((Real.sqrt p : ℝ) : 𝕜)
    (repeatRows 𝕜 σ p) rtol t (sqrt_nat_ne hp) (repeatRows_orthonormal σ hp hσ) ht hr hs hs' hsymm hlib hlib' pod hpod
  rw [norm_sqrt_sq, show (fun j => ((Real.sqrt p : ℝ) : 𝕜) • ∑ i, repeatRows 𝕜 σ p i j • vecs i) = fun j => vecs (σ j) by
    ext j; exact (repeatRows_sum σ hp vecs j).symm] at k1
  exact ⟨pod', modes, modes', k1, k2, k3, k4⟩

end Handles

/-- The hypotheses can be met: the first two of three vectors are those of the example, in the other order, and the third one is
zero; a sequence in which every vector occurs twice. -/
example : (Function.Injective fun i : Fin 2 => (⟨1 - i.val, by omega⟩ : Fin 3)) ∧
    ∀ i : Fin 2, (Finset.univ.filter fun j : Fin 4 => (⟨j.val / 2, by omega⟩ : Fin 2) = i).card = 2 := by
  constructor
  · decide
  · decide

/-- The hypotheses on libraries, weights and data can be met, for vectors of two entries given three times. -/
example : ∃ (lib : PodLib ℝ 2 3) (lib' : PodLib ℝ 2 9) (res : PodResult ℝ 2 3) (res' : PodResult ℝ 2 9)
    (corr : Matrix (Fin 3) (Fin 3) ℝ) (corr' : Matrix (Fin 9) (Fin 9) ℝ),
    podSnaps lib exampleData none none (some 2) none = .ok (res, corr) ∧
    podSnaps lib' (of fun l j => exampleData l ⟨j.val / 3, by omega⟩) none none (some ((3 : Nat) * 2)) none = .ok (res', corr') ∧
    res'.r = res.r := by
  obtain ⟨lib, -, heigh, hs, -⟩ := exists_podLib (𝕜 := ℝ) 2 3
  obtain ⟨lib', -, heigh', hs', -⟩ := exists_podLib (𝕜 := ℝ) 2 9
  obtain ⟨e, he⟩ := C20_no_error lib.eigh lib.argsort (exampleDataᴴ * Weights.matrix 2 (Weights.none : Weights ℝ) * exampleData)
    none true 2 (by norm_num)
  have hres : ∃ res corr, podSnaps lib exampleData none none (some 2) none = .ok (res, corr) := by
    refine ⟨⟨e.r, e.w, ⟨e.r, exampleData * (e.V * diagPow e.w (-0.5))⟩, diagPow e.w 0.5 * e.Vᴴ, e.V⟩,
      exampleDataᴴ * Weights.matrix 2 (Weights.none : Weights ℝ) * exampleData, ?_⟩
    · unfold podSnaps
      rw [show arraysInit (none : Option (NdArray ℝ)) = .ok .none from rfl]
      dsimp only
      unfold symmIpArray
      rw [C45_formula _ (by trivial)]
      dsimp only
      rw [he]
      rfl
  obtain ⟨res, corr, hres⟩ := hres
  obtain ⟨res', corr', modes, modes', h1, h2, -, h3, -⟩ := C115_repeated_snaps lib lib' exampleData
    (fun j => ⟨j.val / 3, by omega⟩) 3 (by norm_num) (by decide) none .none none 2
    (by norm_num) (by simp) hs hs' rfl trivial
    (by rw [show Weights.matrix 2 (Weights.none : Weights ℝ) = 1 from rfl]; exact Matrix.isHermitian_one) heigh heigh' res corr hres
  exact ⟨lib, lib', res, res', corr, corr', hres, h1, h3.number⟩

end Modred
