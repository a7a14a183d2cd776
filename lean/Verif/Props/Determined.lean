import Verif.Spec.Determined
import Verif.Lemmas.DeterminedSvd
import Verif.Lemmas.DmdHandles

/-!
# Modes do not depend on the order and units of the data (C94)
-/

namespace Modred

open Matrix
open scoped ComplexOrder

variable {𝕜 : Type*} [RCLike 𝕜] {n m : Nat}

section Algebra

variable {A A' Q : Matrix (Fin m) (Fin m) 𝕜} {lib lib' : Matrix (Fin m) (Fin m) 𝕜 → EighOut 𝕜 m}
  {argsort argsort' : (Fin m → ℝ) → Equiv.Perm (Fin m)} {s t : ℝ} {rtol : Option ℝ}

/-- Only the values of the functions for positive numbers matter. -/
theorem eigh_determined_pos (h : IsEigh A (lib A)) (h' : IsEigh A' (lib' A')) (hQ : Q * Qᴴ = 1)
    (hA : A' = (s : 𝕜) • (Qᴴ * A * Q)) (hs0 : 0 < s) (ht : 0 ≤ t) (hs : IsArgsort argsort) (hs' : IsArgsort argsort')
    (hr : ∀ t ∈ rtol, 0 ≤ t) (e e' : Eigh 𝕜 m) (he : utilEigh lib argsort A (some t) rtol true = .ok e)
    (he' : utilEigh lib' argsort' A' (some (s * t)) rtol true = .ok e') (f g : ℝ → 𝕜) (hfg : ∀ x, 0 < x → g (s * x) = f x) :
    e'.V * diagonal (fun i => g (e'.w i)) * e'.Vᴴ = Qᴴ * (e.V * diagonal (fun i => f (e.w i)) * e.Vᴴ) * Q := by
  classical
  have hw := C20_positive_partial _ _ _ _ t ht hs hr e he
  have hw' := C20_positive_partial _ _ _ _ (s * t) (mul_nonneg hs0.le ht) hs' hr e' he'
  have := (eigh_determined h h' hQ hA hs0 ht hs hs' hr e e' he he').2.2 (fun x => if 0 < x then f x else 0)
    (fun x => if 0 < x then g x else 0) fun x => by
      by_cases hx : 0 < x
      · rw [if_pos (mul_pos hs0 hx), if_pos hx, hfg x hx]
      · rw [if_neg hx, if_neg fun h => hx (pos_of_mul_pos_right h hs0.le)]
  simpa only [hw, hw', if_true] using this

/-- Modes built from retained eigenvectors, weighted. -/
theorem build_weighted {r : Nat} {w : Fin r → ℝ} (hw : ∀ i, 0 < w i) (V : Matrix (Fin m) (Fin r) 𝕜) (f : ℝ → 𝕜) :
    (V * diagPow (𝕜 := 𝕜) w (-0.5)) * diagonal (fun i => f (w i)) * (V * diagPow (𝕜 := 𝕜) w (-0.5))ᴴ =
      V * diagonal (fun i => f (w i) / (w i : 𝕜)) * Vᴴ := by
  rw [conjTranspose_mul, diagPow_conjTranspose,
    show V * diagPow (𝕜 := 𝕜) w (-0.5) * diagonal (fun i => f (w i)) * (diagPow (𝕜 := 𝕜) w (-0.5) * Vᴴ) =
      V * (diagPow (𝕜 := 𝕜) w (-0.5) * diagonal (fun i => f (w i)) * diagPow (𝕜 := 𝕜) w (-0.5)) * Vᴴ by
      simp only [Matrix.mul_assoc]]
  congr 2
  unfold diagPow
  rw [diagonal_mul_diagonal, diagonal_mul_diagonal]
  congr 1
  ext i
  rw [mul_comm, ← mul_assoc, ← RCLike.ofReal_mul, ← Real.rpow_add (hw i), show (-0.5 + -0.5 : ℝ) = -1 by norm_num,
    Real.rpow_neg_one, RCLike.ofReal_inv, div_eq_inv_mul]

/-- Weights for the scaled eigenvalues. -/
theorem scaled_weights {f g : ℝ → 𝕜} (hs0 : 0 < s) (hfg : ∀ x, 0 < x → g (s * x) = f x) (x : ℝ) (hx : 0 < x) :
    (s : 𝕜) * (g (s * x) / ((s * x : ℝ) : 𝕜)) = f x / (x : 𝕜) := by
  have h1 : (s : 𝕜) ≠ 0 := RCLike.ofReal_ne_zero.mpr hs0.ne'
  have h2 : (x : 𝕜) ≠ 0 := RCLike.ofReal_ne_zero.mpr hx.ne'
  rw [hfg x hx, RCLike.ofReal_mul]
  field_simp

theorem diagonal_smul_mul {r : Nat} (c : 𝕜) (d : Fin r → 𝕜) (V : Matrix (Fin m) (Fin r) 𝕜) :
    V * diagonal (fun i => c * d i) * Vᴴ = c • (V * diagonal d * Vᴴ) := by
  rw [show diagonal (fun i => c * d i) = c • diagonal d by rw [← diagonal_smul]; rfl, Matrix.mul_smul, Matrix.smul_mul]

/-- What the coefficients `V w^(-1/2)` of the modes determine. -/
theorem build_determined (h : IsEigh A (lib A)) (h' : IsEigh A' (lib' A')) (hQ : Q * Qᴴ = 1)
    (hA : A' = (s : 𝕜) • (Qᴴ * A * Q)) (hs0 : 0 < s) (ht : 0 ≤ t) (hs : IsArgsort argsort) (hs' : IsArgsort argsort')
    (hr : ∀ t ∈ rtol, 0 ≤ t) (e e' : Eigh 𝕜 m) (he : utilEigh lib argsort A (some t) rtol true = .ok e)
    (he' : utilEigh lib' argsort' A' (some (s * t)) rtol true = .ok e') :
    (∀ f g : ℝ → 𝕜, (∀ x, 0 < x → g (s * x) = f x) →
      (s : 𝕜) • ((e'.V * diagPow (𝕜 := 𝕜) e'.w (-0.5)) * diagonal (fun i => g (e'.w i)) *
        (e'.V * diagPow (𝕜 := 𝕜) e'.w (-0.5))ᴴ) =
      Qᴴ * ((e.V * diagPow (𝕜 := 𝕜) e.w (-0.5)) * diagonal (fun i => f (e.w i)) *
        (e.V * diagPow (𝕜 := 𝕜) e.w (-0.5))ᴴ) * Q) ∧
    e'.V * e'.Vᴴ = Qᴴ * (e.V * e.Vᴴ) * Q := by
  have hw := C20_positive_partial _ _ _ _ t ht hs hr e he
  have hw' := C20_positive_partial _ _ _ _ (s * t) (mul_nonneg hs0.le ht) hs' hr e' he'
  constructor
  · intro f g hfg
    rw [build_weighted hw, build_weighted hw', ← diagonal_smul_mul]
    exact eigh_determined_pos h h' hQ hA hs0 ht hs hs' hr e e' he he' (fun x => f x / (x : 𝕜))
      (fun x => (s : 𝕜) * (g x / (x : 𝕜))) (scaled_weights hs0 hfg)
  · have := eigh_determined_pos h h' hQ hA hs0 ht hs hs' hr e e' he he' (fun _ => 1) (fun _ => 1) fun _ _ => rfl
    simpa only [diagonal_one, Matrix.mul_one] using this

theorem pos_of_utilEigh_ok {e : Eigh 𝕜 m} (he : utilEigh lib argsort A (some t) rtol true = .ok e) : 0 < m := by
  obtain ⟨atol', num, h1, -⟩ := utilEigh_cases lib argsort A _ _ _ e he
  unfold adjustTol npMin at h1
  by_contra hc
  simp only [if_true, dif_neg hc] at h1
  cases h1

end Algebra

/-! ### Arrays -/

/-- Method of snapshots. -/
theorem C94_pod_snaps (lib lib' : PodLib 𝕜 n m) (vecs : Matrix (Fin n) (Fin m) 𝕜) (a : 𝕜) (Q : Matrix (Fin m) (Fin m) 𝕜)
    (weights : Option (NdArray 𝕜)) (ws : Weights 𝕜) (rtol : Option ℝ) (t : ℝ) (ha : a ≠ 0) (hQ : Q * Qᴴ = 1) (ht : 0 ≤ t)
    (hr : ∀ t ∈ rtol, 0 ≤ t) (hs : IsArgsort lib.argsort) (hs' : IsArgsort lib'.argsort)
    (hws : arraysInit weights = .ok ws) (hfit : ws.Fits n) (hW : (ws.matrix n).IsHermitian)
    (hlib : ∀ C, C.IsHermitian → IsEigh C (lib.eigh C)) (hlib' : ∀ C, C.IsHermitian → IsEigh C (lib'.eigh C))
    (res : PodResult 𝕜 n m) (corr : Matrix (Fin m) (Fin m) 𝕜)
    (hres : podSnaps lib vecs none weights (some t) rtol = .ok (res, corr)) :
    ∃ (res' : PodResult 𝕜 n m) (corr' : Matrix (Fin m) (Fin m) 𝕜) (modes : Matrix (Fin n) (Fin res.r) 𝕜)
      (modes' : Matrix (Fin n) (Fin res'.r) 𝕜),
      podSnaps lib' (a • (vecs * Q)) none weights (some (‖a‖ ^ 2 * t)) rtol = .ok (res', corr') ∧
      res.modes = ⟨res.r, modes⟩ ∧ res'.modes = ⟨res'.r, modes'⟩ ∧
      SameModes a res.eigvals res'.eigvals modes modes' ∧
      modes' * res'.projCoeffs = a • (modes * res.projCoeffs * Q) := by
  have na : 0 < ‖a‖ ^ 2 := pow_pos (norm_pos_iff.mpr ha) 2
  obtain ⟨e, c, he, hc, h⟩ := podSnaps_cases lib vecs none weights ws _ _ hws hfit _ hres
  obtain ⟨rfl, rfl⟩ := Prod.mk.inj h
  cases hc
  have hA : (a • (vecs * Q))ᴴ * ws.matrix n * (a • (vecs * Q)) =
      ((‖a‖ ^ 2 : ℝ) : 𝕜) • (Qᴴ * (vecsᴴ * ws.matrix n * vecs) * Q) := by
    rw [conjTranspose_smul, Matrix.smul_mul, Matrix.mul_smul, Matrix.smul_mul, smul_smul, mul_comm a, norm_sq_smul,
      conjTranspose_mul]
    simp only [Matrix.mul_assoc]
  have herm : ∀ X : Matrix (Fin n) (Fin m) 𝕜, (Xᴴ * ws.matrix n * X).IsHermitian := by
    intro X
    unfold Matrix.IsHermitian
    rw [conjTranspose_mul, conjTranspose_mul, conjTranspose_conjTranspose, hW.eq, Matrix.mul_assoc]
  have hm := pos_of_utilEigh_ok he
  obtain ⟨e', he'⟩ := C20_no_error lib'.eigh lib'.argsort ((a • (vecs * Q))ᴴ * ws.matrix n * (a • (vecs * Q))) rtol true
    (‖a‖ ^ 2 * t) hm
  have hl := hlib _ (herm vecs)
  have hl' := hlib' _ (herm (a • (vecs * Q)))
  obtain ⟨k1, k2, -⟩ := eigh_determined hl hl' hQ hA na ht hs hs' hr e e' he he'
  obtain ⟨k3, k4⟩ := build_determined hl hl' hQ hA na ht hs hs' hr e e' he he'
  have hw := C20_positive_partial _ _ _ _ t ht hs hr e he
  have hw' := C20_positive_partial _ _ _ _ _ (mul_nonneg na.le ht) hs' hr e' he'
  refine ⟨⟨e'.r, e'.w, ⟨e'.r, (a • (vecs * Q)) * (e'.V * diagPow (𝕜 := 𝕜) e'.w (-0.5))⟩, diagPow (𝕜 := 𝕜) e'.w 0.5 * e'.Vᴴ, e'.V⟩,
    (a • (vecs * Q))ᴴ * ws.matrix n * (a • (vecs * Q)), vecs * (e.V * diagPow (𝕜 := 𝕜) e.w (-0.5)), (a • (vecs * Q)) * (e'.V * diagPow (𝕜 := 𝕜) e'.w (-0.5)), ?_, ?_, rfl,
    ⟨k1, k2, fun f g hfg => ?_⟩, ?_⟩
  · unfold podSnaps symmIpArray
    rw [hws]
    dsimp only
    rw [C45_formula ws hfit]
    dsimp only
    rw [he']
    rfl
  · rw [Matrix.mul_one]
  · have := congrArg (fun M => vecs * Q * M * (vecs * Q)ᴴ) (k3 f g hfg)
    dsimp only at this ⊢
    rw [conjTranspose_mul (a • (vecs * Q)), conjTranspose_smul, Matrix.smul_mul, Matrix.smul_mul, Matrix.mul_smul,
      Matrix.mul_smul, Matrix.smul_mul, smul_smul, norm_sq_smul]
    rw [Matrix.mul_smul, Matrix.smul_mul] at this
    rw [show vecs * Q * (e'.V * diagPow (𝕜 := 𝕜) e'.w (-0.5)) * diagonal (fun i => g (e'.w i)) *
      ((e'.V * diagPow (𝕜 := 𝕜) e'.w (-0.5))ᴴ * (vecs * Q)ᴴ) = vecs * Q * ((e'.V * diagPow (𝕜 := 𝕜) e'.w (-0.5)) *
        diagonal (fun i => g (e'.w i)) * (e'.V * diagPow (𝕜 := 𝕜) e'.w (-0.5))ᴴ) * (vecs * Q)ᴴ by
      simp only [Matrix.mul_assoc], this, conjTranspose_mul vecs Q, conjTranspose_mul vecs]
    generalize e.V * diagPow (𝕜 := 𝕜) e.w (-0.5) = B
    rw [show vecs * Q * (Qᴴ * (B * diagonal (fun i => f (e.w i)) * Bᴴ) * Q) * (Qᴴ * vecsᴴ) =
      vecs * (Q * Qᴴ) * (B * diagonal (fun i => f (e.w i)) * Bᴴ) * (Q * Qᴴ) * vecsᴴ by simp only [Matrix.mul_assoc], hQ,
      Matrix.mul_one, Matrix.mul_one]
    simp only [Matrix.mul_assoc]
  · dsimp only
    rw [Matrix.mul_assoc, build_mul_proj hw', Matrix.mul_assoc vecs, build_mul_proj hw, k4, Matrix.smul_mul]
    congr 1
    rw [show vecs * Q * (Qᴴ * (e.V * e.Vᴴ) * Q) = vecs * (Q * Qᴴ) * (e.V * e.Vᴴ) * Q by simp only [Matrix.mul_assoc], hQ,
      Matrix.mul_one]

/-- Direct method. -/
theorem C94_pod_direct (lib lib' : PodLib 𝕜 n m) (vecs : Matrix (Fin n) (Fin m) 𝕜) (a : 𝕜) (Q : Matrix (Fin m) (Fin m) 𝕜)
    (ws : DirectWeights 𝕜) (rtol : Option ℝ) (t : ℝ) (ha : a ≠ 0) (hQ : Q * Qᴴ = 1) (ht : 0 ≤ t) (hr : ∀ t ∈ rtol, 0 ≤ t)
    (hfit : ws.Fits n) (hchol : ∀ p q w, ws = .d2 p q w → IsCholesky lib.cholesky (ws.matrix n))
    (hchol' : ∀ p q w, ws = .d2 p q w → IsCholesky lib'.cholesky (ws.matrix n))
    (hlib : ∀ B, IsSvd B (lib.svd B)) (hlib' : ∀ B, IsSvd B (lib'.svd B)) (res : PodResult 𝕜 n m)
    (hres : podDirect lib vecs none ws (some t) rtol = .ok res) :
    ∃ (res' : PodResult 𝕜 n m) (modes : Matrix (Fin n) (Fin res.r) 𝕜) (modes' : Matrix (Fin n) (Fin res'.r) 𝕜),
      podDirect lib' (a • (vecs * Q)) none ws (some (‖a‖ * t)) rtol = .ok res' ∧
      res.modes = ⟨res.r, modes⟩ ∧ res'.modes = ⟨res'.r, modes'⟩ ∧
      SameModes a res.eigvals res'.eigvals modes modes' ∧
      modes' * res'.projCoeffs = a • (modes * res.projCoeffs * Q) := by
  have na : 0 < ‖a‖ := norm_pos_iff.mpr ha
  obtain ⟨G, H, hGH, hG, h3⟩ := podDirect_cases lib vecs none ws (some t) rtol hfit hchol
  obtain ⟨e, c, he, hc, rfl⟩ := h3 res hres
  cases hc
  obtain ⟨G', H', hGH', hG', h3'⟩ := podDirect_cases lib' (a • (vecs * Q)) none ws (some (‖a‖ * t)) rtol hfit hchol'
  have hok : ∃ res', podDirect lib' (a • (vecs * Q)) none ws (some (‖a‖ * t)) rtol = .ok res' := by
    refine C22_direct_no_error lib' _ ws _ rtol hfit hchol' ?_
    by_contra hc
    push Not at hc
    have := (C19_error_iff lib.svd (G * vecs) (some t) rtol .indexError).mpr ⟨rfl, hc.1, by omega⟩
    rw [he] at this
    cases this
  obtain ⟨res', hres'⟩ := hok
  obtain ⟨e', c', he', hc', rfl⟩ := h3' res' hres'
  cases hc'
  have hT : (G' * H)ᴴ * (G' * H) = 1 := by
    rw [conjTranspose_mul, show Hᴴ * G'ᴴ * (G' * H) = Hᴴ * (G'ᴴ * G') * H by simp only [Matrix.mul_assoc], hG', ← hG,
      show Hᴴ * (Gᴴ * G) * H = (G * H)ᴴ * (G * H) by rw [conjTranspose_mul]; simp only [Matrix.mul_assoc], hGH,
      conjTranspose_one, Matrix.mul_one]
  have hHG : H * G = 1 := mul_eq_one_comm.mp hGH
  have hHG' : H' * G' = 1 := mul_eq_one_comm.mp hGH'
  have hB : G' * (a • (vecs * Q)) = a • (G' * H * (G * vecs) * Q) := by
    rw [Matrix.mul_smul, show G' * H * (G * vecs) * Q = G' * (H * G) * vecs * Q by simp only [Matrix.mul_assoc], hHG,
      Matrix.mul_one, Matrix.mul_assoc]
  obtain ⟨k1, k2, k3⟩ := svd_determined (hlib _) (hlib' _) hT hQ hB ha ht hr e e' he he'
  obtain ⟨-, -, hAV, -, hS, -⟩ := C19_singular_triples _ _ _ _ (hlib _) e he
  obtain ⟨-, -, hAV', -, hS', -⟩ := C19_singular_triples _ _ _ _ (hlib' _) e' he'
  refine ⟨_, H * e.U, H' * e'.U, hres', rfl, rfl, ⟨k1, fun i' i hi => ?_, fun f g hfg => ?_⟩, ?_⟩
  · dsimp only
    rw [k2 i' i hi, Real.mul_rpow na.le (hS i), Real.rpow_two, Real.rpow_two]
  · obtain ⟨k4, -⟩ := k3 (fun x => f (x ^ (2 : ℝ))) (fun x => g (x ^ (2 : ℝ))) fun x hx => by
      rw [Real.mul_rpow na.le hx.le, Real.rpow_two ‖a‖]
      exact hfg _ (Real.rpow_pos_of_pos hx _)
    dsimp only
    rw [conjTranspose_mul, show H' * e'.U * diagonal (fun i => g (e'.S i ^ (2 : ℝ))) * (e'.Uᴴ * H'ᴴ) =
      H' * (e'.U * diagonal (fun i => g (e'.S i ^ (2 : ℝ))) * e'.Uᴴ) * H'ᴴ by simp only [Matrix.mul_assoc], k4,
      conjTranspose_mul, conjTranspose_mul]
    rw [show H * e.U * diagonal (fun i => f (e.S i ^ (2 : ℝ))) * (e.Uᴴ * Hᴴ) =
      H * (e.U * diagonal (fun i => f (e.S i ^ (2 : ℝ))) * e.Uᴴ) * Hᴴ by simp only [Matrix.mul_assoc]]
    generalize e.U * diagonal (fun i => f (e.S i ^ (2 : ℝ))) * e.Uᴴ = M
    rw [show H' * (G' * H * M * (Hᴴ * G'ᴴ)) * H'ᴴ = H' * G' * H * M * Hᴴ * (H' * G')ᴴ by
      rw [conjTranspose_mul]; simp only [Matrix.mul_assoc], hHG', conjTranspose_one, Matrix.mul_one, Matrix.one_mul]
  · dsimp only
    rw [diagPow_sq hS, diagPow_sq hS']
    obtain ⟨-, k5⟩ := k3 (fun _ => 1) (fun _ => 1) fun _ _ => rfl
    simp only [diagonal_one, Matrix.mul_one] at k5
    rw [show H' * e'.U * (diagonal (fun i => (e'.S i : 𝕜)) * e'.Vᴴ) = H' * (e'.U * diagonal (fun i => (e'.S i : 𝕜))) * e'.Vᴴ by
        simp only [Matrix.mul_assoc], ← hAV',
      show H * e.U * (diagonal (fun i => (e.S i : 𝕜)) * e.Vᴴ) = H * (e.U * diagonal (fun i => (e.S i : 𝕜))) * e.Vᴴ by
        simp only [Matrix.mul_assoc], ← hAV]
    rw [show H' * (G' * (a • (vecs * Q)) * e'.V) * e'.Vᴴ = H' * G' * (a • (vecs * Q)) * (e'.V * e'.Vᴴ) by
      simp only [Matrix.mul_assoc], hHG', Matrix.one_mul, k5,
      show H * (G * vecs * e.V) * e.Vᴴ = H * G * vecs * (e.V * e.Vᴴ) by simp only [Matrix.mul_assoc], hHG, Matrix.one_mul,
      Matrix.smul_mul]
    congr 1
    rw [show vecs * Q * (Qᴴ * (e.V * e.Vᴴ) * Q) = vecs * (Q * Qᴴ) * (e.V * e.Vᴴ) * Q by simp only [Matrix.mul_assoc], hQ,
      Matrix.mul_one]

/-- A mode, whose eigenvalue differs from all others, is determined up to a factor of modulus one. -/
theorem C94_single_modes {r r' : Nat} {a : 𝕜} {w : Fin r → ℝ} {w' : Fin r' → ℝ} {Φ : Matrix (Fin n) (Fin r) 𝕜}
    {Φ' : Matrix (Fin n) (Fin r') 𝕜} (W : Matrix (Fin n) (Fin n) 𝕜) (h : SameModes a w w' Φ Φ') (ha : a ≠ 0)
    (hΦ : Φᴴ * W * Φ = 1) (hΦ' : Φ'ᴴ * W * Φ' = 1) (i : Fin r) (i' : Fin r') (hi : i'.val = i.val)
    (hsimple : ∀ j, w j = w i → j = i) :
    ∃ c : 𝕜, ‖c‖ = 1 ∧ ∀ k, Φ' k i' = c * Φ k i := by
  classical
  have na : ‖a‖ ^ 2 ≠ 0 := (pow_pos (norm_pos_iff.mpr ha) 2).ne'
  have hr := h.number
  subst hr
  obtain rfl : i' = i := Fin.ext hi
  have hsimple' : ∀ j, w' j = w' i' → j = i' := by
    intro j hj
    rw [h.energies j j rfl, h.energies i' i' rfl] at hj
    exact hsimple j (mul_left_cancel₀ na hj)
  have hm := h.modes (fun x => if x = w i' then 1 else 0) (fun x => if x = w' i' then 1 else 0) fun x _ => by
    rw [h.energies i' i' rfl]
    simp only [mul_right_inj' na]
  have col : ∀ (v : Fin r' → ℝ) (hv : ∀ j, v j = v i' → j = i') (Ψ : Matrix (Fin n) (Fin r') 𝕜) (p q : Fin n),
      (Ψ * diagonal (fun j => if v j = v i' then (1 : 𝕜) else 0) * Ψᴴ) p q = Ψ p i' * star (Ψ q i') := by
    intro v hv Ψ p q
    rw [Matrix.mul_apply, Finset.sum_eq_single i']
    · rw [mul_diagonal, if_pos rfl, mul_one, conjTranspose_apply]
    · intro j _ hj
      rw [mul_diagonal, if_neg fun hc => hj (hv j hc), mul_zero, zero_mul]
    · intro hc
      exact absurd (Finset.mem_univ _) hc
  have hpq : ∀ p q, Φ' p i' * star (Φ' q i') = Φ p i' * star (Φ q i') := by
    intro p q
    rw [← col w' hsimple' Φ' p q, ← col w hsimple Φ p q, hm]
  have one : ∀ (Ψ : Matrix (Fin n) (Fin r') 𝕜), Ψᴴ * W * Ψ = 1 →
      ∑ q, ∑ l, star (Ψ q i') * W q l * Ψ l i' = 1 := by
    intro Ψ hΨ
    have h1 := congrFun (congrFun hΨ i') i'
    rw [Matrix.mul_assoc, Matrix.mul_apply, one_apply_eq] at h1
    rw [← h1]
    refine Finset.sum_congr rfl fun q _ => ?_
    rw [Matrix.mul_apply, Finset.mul_sum, conjTranspose_apply]
    exact Finset.sum_congr rfl fun l _ => mul_assoc _ _ _
  set c := ∑ q, ∑ l, star (Φ q i') * W q l * Φ' l i' with hc
  have hk : ∀ k, Φ' k i' = c * Φ k i' := by
    intro k
    calc Φ' k i' = Φ' k i' * ∑ q, ∑ l, star (Φ' q i') * W q l * Φ' l i' := by rw [one Φ' hΦ', mul_one]
      _ = ∑ q, ∑ l, (Φ' k i' * star (Φ' q i')) * W q l * Φ' l i' := by
        simp only [Finset.mul_sum, mul_assoc]
      _ = ∑ q, ∑ l, (Φ k i' * star (Φ q i')) * W q l * Φ' l i' := by simp only [hpq]
      _ = c * Φ k i' := by
        rw [hc, mul_comm]
        simp only [Finset.mul_sum, mul_assoc]
  refine ⟨c, ?_, hk⟩
  have h1 := one Φ' hΦ'
  simp only [hk] at h1
  have h2 : star c * c * ∑ q, ∑ l, star (Φ q i') * W q l * Φ l i' = 1 := by
    rw [← h1]
    simp only [Finset.mul_sum, star_mul']
    refine Finset.sum_congr rfl fun q _ => Finset.sum_congr rfl fun l _ => ?_
    ring
  rw [one Φ hΦ, mul_one, norm_sq_smul] at h2
  have h3 : ‖c‖ ^ 2 = 1 := by exact_mod_cast h2
  exact (pow_eq_one_iff_of_nonneg (norm_nonneg c) two_ne_zero).mp h3

/-! ### Handles -/

section Handles

variable {E : Type*} [AddCommGroup E] [Module 𝕜 E]

theorem weighted_sum {r : Nat} (ip : E →ₗ⋆[𝕜] E →ₗ[𝕜] 𝕜) (v : Fin m → E) (B : Matrix (Fin m) (Fin r) 𝕜) (d : Fin r → 𝕜) (x : E) :
    ∑ i, (d i * ip (combine v B i) x) • combine v B i =
      ∑ j, ((B * diagonal d * Bᴴ) *ᵥ fun k => ip (v k) x) j • v j := by
  have h1 : ∀ i, ip (combine v B i) x = ∑ k, star (B k i) * ip (v k) x := by
    intro i
    unfold combine
    rw [map_sum, LinearMap.sum_apply]
    refine Finset.sum_congr rfl fun k _ => ?_
    rw [LinearMap.map_smulₛₗ, LinearMap.smul_apply, smul_eq_mul]
    rfl
  simp only [h1]
  unfold combine
  simp only [Finset.smul_sum, smul_smul]
  rw [Finset.sum_comm]
  refine Finset.sum_congr rfl fun j _ => ?_
  rw [← Finset.sum_smul]
  congr 1
  rw [Matrix.mul_assoc, ← Matrix.mulVec_mulVec, Matrix.mulVec, dotProduct]
  refine Finset.sum_congr rfl fun i _ => ?_
  rw [← Matrix.mulVec_mulVec, Matrix.mulVec_diagonal, Matrix.mulVec, dotProduct]
  simp only [conjTranspose_apply]
  ring

theorem weighted_sum_smul (ip : E →ₗ⋆[𝕜] E →ₗ[𝕜] 𝕜) (v : Fin m → E) (Q M : Matrix (Fin m) (Fin m) 𝕜) (x : E) :
    ∑ j, (M *ᵥ fun k => ip (combine v Q k) x) j • combine v Q j =
      ∑ j, ((Q * M * Qᴴ) *ᵥ fun k => ip (v k) x) j • v j := by
  have h1 : (fun k => ip (combine v Q k) x) = Qᴴ *ᵥ fun k => ip (v k) x := by
    ext i
    unfold combine
    rw [map_sum, LinearMap.sum_apply, Matrix.mulVec, dotProduct]
    refine Finset.sum_congr rfl fun k _ => ?_
    rw [LinearMap.map_smulₛₗ, LinearMap.smul_apply, smul_eq_mul]
    rfl
  have h2 : ∀ z, (Q * M * Qᴴ) *ᵥ z = Q *ᵥ (M *ᵥ (Qᴴ *ᵥ z)) := by
    intro z
    rw [Matrix.mulVec_mulVec, Matrix.mulVec_mulVec, Matrix.mul_assoc]
  rw [h1, h2]
  generalize M *ᵥ (Qᴴ *ᵥ fun k => ip (v k) x) = y
  unfold combine
  simp only [Finset.smul_sum, smul_smul]
  rw [Finset.sum_comm]
  refine Finset.sum_congr rfl fun j _ => ?_
  rw [← Finset.sum_smul, Matrix.mulVec, dotProduct]
  congr 1
  exact Finset.sum_congr rfl fun i _ => mul_comm _ _

/-- Decompositions of handles: the modes of the vectors `a ∑ Q i j v i` are those of the vectors `v j`.  Modes are those that
`compute_modes` puts. -/
theorem C94_pod_handles (eigh eigh' : Matrix (Fin m) (Fin m) 𝕜 → EighOut 𝕜 m)
    (argsort argsort' : (Fin m → ℝ) → Equiv.Perm (Fin m)) (ip : E →ₗ⋆[𝕜] E →ₗ[𝕜] 𝕜) (vecs : Fin m → E) (a : 𝕜)
    (Q : Matrix (Fin m) (Fin m) 𝕜) (rtol : Option ℝ) (t : ℝ) (ha : a ≠ 0) (hQ : Q * Qᴴ = 1) (ht : 0 ≤ t)
    (hr : ∀ t ∈ rtol, 0 ≤ t) (hs : IsArgsort argsort) (hs' : IsArgsort argsort') (hsymm : ∀ x y, ip y x = star (ip x y))
    (hlib : ∀ C, C.IsHermitian → IsEigh C (eigh C)) (hlib' : ∀ C, C.IsHermitian → IsEigh C (eigh' C)) (pod : PodHandles 𝕜 E m)
    (hpod : podHandlesDecomp eigh argsort (fun x y => ip x y) vecs (some t) rtol = .ok pod) :
    ∃ (pod' : PodHandles 𝕜 E m) (modes : Fin pod.r → E) (modes' : Fin pod'.r → E),
      podHandlesDecomp eigh' argsort' (fun x y => ip x y) (fun j => a • ∑ i, Q i j • vecs i) (some (‖a‖ ^ 2 * t)) rtol =
        .ok pod' ∧
      (∀ l k out, podHandlesModes pod l k = .ok out → ∀ (i : Fin out.k) (j : Fin pod.r), l[i.val]? = some (j : Int) →
        out.v i = modes j) ∧
      (∀ l k out, podHandlesModes pod' l k = .ok out → ∀ (i : Fin out.k) (j : Fin pod'.r), l[i.val]? = some (j : Int) →
        out.v i = modes' j) ∧
      SameModesOf ip a pod.eigvals pod'.eigvals modes modes' ∧
      ∀ j, ∑ i, podHandlesProjCoeffs pod' i j • modes' i = a • ∑ k, Q k j • ∑ i, podHandlesProjCoeffs pod i k • modes i := by
  have na : 0 < ‖a‖ ^ 2 := pow_pos (norm_pos_iff.mpr ha) 2
  have hv : (fun j => a • ∑ i, Q i j • vecs i) = combine vecs (a • Q) := by
    ext j
    unfold combine
    simp only [Finset.smul_sum, smul_smul, Matrix.smul_apply, smul_eq_mul]
  rw [hv]
  have hA : handlesSymmIp (fun x y => ip x y) (combine vecs (a • Q)) =
      ((‖a‖ ^ 2 : ℝ) : 𝕜) • (Qᴴ * handlesSymmIp (fun x y => ip x y) vecs * Q) := by
    unfold handlesSymmIp
    rw [handlesIp_combine, conjTranspose_smul, Matrix.smul_mul, Matrix.mul_smul, Matrix.smul_mul, smul_smul, mul_comm a,
      norm_sq_smul]
  have herm : ∀ v : Fin m → E, (handlesSymmIp (fun x y => ip x y) v).IsHermitian := by
    intro v
    ext i j
    exact (hsymm _ _).symm
  obtain ⟨e, he, rfl⟩ := podHandlesDecomp_cases eigh argsort ip vecs _ _ pod hpod
  have hm := pos_of_utilEigh_ok he
  obtain ⟨e', he'⟩ := C20_no_error eigh' argsort' (handlesSymmIp (fun x y => ip x y) (combine vecs (a • Q))) rtol true
    (‖a‖ ^ 2 * t) hm
  have hl := hlib _ (herm vecs)
  have hl' := hlib' _ (herm (combine vecs (a • Q)))
  obtain ⟨k1, k2, -⟩ := eigh_determined hl hl' hQ hA na ht hs hs' hr e e' he he'
  obtain ⟨k3, k4⟩ := build_determined hl hl' hQ hA na ht hs hs' hr e e' he he'
  have hw := C20_positive_partial _ _ _ _ t ht hs hr e he
  have hw' := C20_positive_partial _ _ _ _ _ (mul_nonneg na.le ht) hs' hr e' he'
  have put : ∀ (pod : PodHandles 𝕜 E m) (l : List Int) (k : Nat) (out : Vecs E), podHandlesModes pod l k = .ok out →
      ∀ (i : Fin out.k) (j : Fin pod.r), l[i.val]? = some (j : Int) →
        out.v i = combine pod.vecs (pod.eigvecs * diagPow (𝕜 := 𝕜) pod.eigvals (-0.5)) j := by
    intro pod l k out hout i j hij
    obtain ⟨sel, -, h2, h3⟩ := podHandlesModes_cases _ l k out hout
    have := h2 i _ hij
    unfold npAxisIndex at this
    have hj := j.isLt
    rw [dif_pos (by omega)] at this
    rw [h3, ← Except.ok.inj this]
    rfl
  refine ⟨⟨combine vecs (a • Q), handlesSymmIp (fun x y => ip x y) (combine vecs (a • Q)), e'.r, e'.w, e'.V⟩,
    combine vecs (e.V * diagPow (𝕜 := 𝕜) e.w (-0.5)), combine (combine vecs (a • Q)) (e'.V * diagPow (𝕜 := 𝕜) e'.w (-0.5)),
    ?_, fun l k out hout i j hij => put _ l k out hout i j hij, fun l k out hout i j hij => put _ l k out hout i j hij,
    ⟨k1, k2, fun f g hfg x => ?_⟩, fun j => ?_⟩
  · unfold podHandlesDecomp
    rw [if_neg (by omega)]
    dsimp only
    rw [he']
  · rw [weighted_sum ip vecs _ (fun i => f (e.w i)), weighted_sum ip (combine vecs (a • Q)) _ (fun i => g (e'.w i)),
      weighted_sum_smul]
    have h1 := congrArg (fun M => Q * M * Qᴴ) (k3 f g hfg)
    generalize e.V * diagPow (𝕜 := 𝕜) e.w (-0.5) * diagonal (fun i => f (e.w i)) *
      (e.V * diagPow (𝕜 := 𝕜) e.w (-0.5))ᴴ = M at h1 ⊢
    generalize e'.V * diagPow (𝕜 := 𝕜) e'.w (-0.5) * diagonal (fun i => g (e'.w i)) *
      (e'.V * diagPow (𝕜 := 𝕜) e'.w (-0.5))ᴴ = M' at h1 ⊢
    rw [show Q * (Qᴴ * M * Q) * Qᴴ = (Q * Qᴴ) * M * (Q * Qᴴ) by simp only [Matrix.mul_assoc], hQ, Matrix.one_mul,
      Matrix.mul_one, Matrix.mul_smul, Matrix.smul_mul] at h1
    rw [conjTranspose_smul, Matrix.smul_mul, Matrix.mul_smul, Matrix.smul_mul, smul_smul, norm_sq_smul, h1]
  · have h1 : ∑ i, (diagPow (𝕜 := 𝕜) e'.w 0.5 * e'.Vᴴ) i j • combine (combine vecs (a • Q)) (e'.V * diagPow (𝕜 := 𝕜) e'.w (-0.5)) i =
        combine (combine (combine vecs (a • Q)) (e'.V * diagPow (𝕜 := 𝕜) e'.w (-0.5))) (diagPow (𝕜 := 𝕜) e'.w 0.5 * e'.Vᴴ) j := rfl
    have h2 : ∀ k, ∑ i, (diagPow (𝕜 := 𝕜) e.w 0.5 * e.Vᴴ) i k • combine vecs (e.V * diagPow (𝕜 := 𝕜) e.w (-0.5)) i =
        combine (combine vecs (e.V * diagPow (𝕜 := 𝕜) e.w (-0.5))) (diagPow (𝕜 := 𝕜) e.w 0.5 * e.Vᴴ) k := fun _ => rfl
    unfold podHandlesProjCoeffs
    rw [h1]
    simp only [h2]
    rw [combine_combine, combine_combine, build_mul_proj hw', combine_combine, build_mul_proj hw, k4]
    have h3 : a • ∑ k, Q k j • combine vecs (e.V * e.Vᴴ) k = a • combine (combine vecs (e.V * e.Vᴴ)) Q j := rfl
    rw [h3, combine_combine, Matrix.smul_mul,
      show Q * (Qᴴ * (e.V * e.Vᴴ) * Q) = (Q * Qᴴ) * (e.V * e.Vᴴ) * Q by simp only [Matrix.mul_assoc], hQ, Matrix.one_mul]
    unfold combine
    simp only [Finset.smul_sum, smul_smul, Matrix.smul_apply, smul_eq_mul]

end Handles

/-! ### Tolerances have units -/

/-- The only eigenvalue of an array with one entry. -/
theorem eigh_one (x : ℝ) (o : EighOut ℝ 1) (h : IsEigh (!![x] : Matrix (Fin 1) (Fin 1) ℝ) o) : o.w 0 = x := by
  have h3 := congrFun (congrFun h.eigen 0) 0
  have h4 := congrFun (congrFun h.orthonormal 0) 0
  simp only [Matrix.mul_apply, Fin.sum_univ_one, Matrix.conjTranspose_apply, Matrix.one_apply_eq,
    Matrix.diagonal_apply_eq] at h3 h4
  have h5 : o.V 0 0 ≠ 0 := by rintro h5; rw [h5] at h4; simp at h4
  have h6 : o.V 0 0 * (o.w 0 - x) = 0 := by
    simp at h3
    linarith
  rcases mul_eq_zero.mp h6 with h | h
  · exact absurd h h5
  · linarith

/-- One vector with one entry. -/
theorem podSnaps_one (lib : PodLib ℝ 1 1) (heigh : ∀ a, a.IsHermitian → IsEigh a (lib.eigh a)) (hs : IsArgsort lib.argsort)
    (x t : ℝ) : ∃ res corr, podSnaps lib !![x] none none (some t) none = .ok (res, corr) ∧
      (t < x ^ 2 → res.r = 1) ∧ (¬ t < x ^ 2 → res.r = 0) := by
  have hC : (!![x] : Matrix (Fin 1) (Fin 1) ℝ)ᴴ * (1 : Matrix (Fin 1) (Fin 1) ℝ) * !![x] = !![x ^ 2] := by
    ext i j
    fin_cases i; fin_cases j
    simp [Matrix.mul_apply]
    ring
  have hherm : (!![x ^ 2] : Matrix (Fin 1) (Fin 1) ℝ).IsHermitian := by
    ext i j
    fin_cases i; fin_cases j
    simp
  obtain ⟨e, he⟩ := C20_no_error lib.eigh lib.argsort (!![x ^ 2] : Matrix (Fin 1) (Fin 1) ℝ) none true t (by norm_num)
  obtain ⟨p, -, hle, hk, -⟩ := C20_kept_iff _ _ _ _ _ _ hs (by simp) e he
  have hw := eigh_one _ _ (heigh _ hherm)
  have hk0 := hk 0
  rw [Subsingleton.elim (p 0) 0, hw] at hk0
  have h1 : 0 < e.r ↔ t < x ^ 2 := by
    refine hk0.trans ?_
    unfold Obeys
    simp only [Option.mem_def, Option.some.injEq, forall_eq', reduceCtorEq, false_implies, implies_true, and_true, true_implies]
    rw [Subsingleton.elim (p 0) 0, hw, abs_of_nonneg (sq_nonneg x)]
    refine ⟨fun h => h.1, fun h => ⟨h, fun j hj => ?_⟩⟩
    rw [Subsingleton.elim j 0, hw] at hj
    exact absurd hj (not_lt.mpr (sq_nonneg x))
  refine ⟨⟨e.r, e.w, ⟨e.r, !![x] * (e.V * diagPow e.w (-0.5))⟩, diagPow e.w 0.5 * e.Vᴴ, e.V⟩, !![x ^ 2], ?_, fun h => ?_,
    fun h => ?_⟩
  · unfold podSnaps
    rw [show arraysInit (none : Option (NdArray ℝ)) = .ok .none from rfl]
    dsimp only
    unfold symmIpArray
    rw [C45_formula _ (by trivial)]
    dsimp only
    rw [show Weights.matrix 1 (Weights.none : Weights ℝ) = 1 from rfl, hC, he]
    rfl
  · have := h1.mpr h
    dsimp only
    omega
  · dsimp only
    by_contra hc
    exact h (h1.mp (by omega))

/-- With an absolute tolerance that is not changed with the units, such as the default one of `1e-13`, the number of modes depends on the
units: a length of one metre has one mode, the same length of 1e-7 (in units of ten thousand kilometres) has none. -/
theorem C94_default_tolerance_has_units_violation (lib : PodLib ℝ 1 1) (heigh : ∀ a, a.IsHermitian → IsEigh a (lib.eigh a))
    (hs : IsArgsort lib.argsort) :
    (∃ res corr, podSnaps lib !![1] none none (some (1 / 10 ^ 13)) none = .ok (res, corr) ∧ res.r = 1) ∧
    ∃ res corr, podSnaps lib !![1 / 10 ^ 7] none none (some (1 / 10 ^ 13)) none = .ok (res, corr) ∧ res.r = 0 := by
  constructor
  · obtain ⟨res, corr, h1, h2, -⟩ := podSnaps_one lib heigh hs 1 (1 / 10 ^ 13)
    exact ⟨res, corr, h1, h2 (by norm_num)⟩
  · obtain ⟨res, corr, h1, -, h2⟩ := podSnaps_one lib heigh hs (1 / 10 ^ 7) (1 / 10 ^ 13)
    exact ⟨res, corr, h1, h2 (by norm_num)⟩

/-! ### Examples -/

/-- The order of three vectors is reversed, and units change by a factor of -1000. -/
example : ∃ (lib lib' : PodLib ℝ 2 3) (res res' : PodResult ℝ 2 3) (corr corr' : Matrix (Fin 3) (Fin 3) ℝ),
    podSnaps lib exampleData none none (some (1 / 10 ^ 13)) none = .ok (res, corr) ∧
    podSnaps lib' !![-1000, 0, -1000; -1000, -2000, 0] none none (some (1 / 10 ^ 7)) none = .ok (res', corr') ∧ res'.r = res.r ∧
    ∀ (i' : Fin res'.r) (i : Fin res.r), i'.val = i.val → res'.eigvals i' = 10 ^ 6 * res.eigvals i := by
  obtain ⟨lib, -, heigh, hs, -⟩ := exists_podLib (𝕜 := ℝ) 2 3
  obtain ⟨e, he⟩ := C20_no_error lib.eigh lib.argsort (exampleDataᴴ * Weights.matrix 2 (Weights.none : Weights ℝ) * exampleData)
    none true (1 / 10 ^ 13) (by norm_num)
  have hres : ∃ res corr, podSnaps lib exampleData none none (some (1 / 10 ^ 13)) none = .ok (res, corr) := by
    refine ⟨⟨e.r, e.w, ⟨e.r, exampleData * (e.V * diagPow e.w (-0.5))⟩, diagPow e.w 0.5 * e.Vᴴ, e.V⟩,
      exampleDataᴴ * Weights.matrix 2 (Weights.none : Weights ℝ) * exampleData, ?_⟩
    · unfold podSnaps
      rw [show arraysInit (none : Option (NdArray ℝ)) = .ok .none from rfl]
      dsimp only
      unfold symmIpArray
      rw [C45_formula _ (by trivial)]
      dsimp only
      rw [he]
      rfl
  obtain ⟨res, corr, hres⟩ := hres
  have hQ : (!![0, 0, 1; 0, 1, 0; 1, 0, 0] : Matrix (Fin 3) (Fin 3) ℝ) * (!![0, 0, 1; 0, 1, 0; 1, 0, 0] : Matrix (Fin 3) (Fin 3) ℝ)ᴴ = 1 := by
    ext i j
    fin_cases i <;> fin_cases j <;> simp [Matrix.mul_apply, Fin.sum_univ_three]
  obtain ⟨res', corr', modes, modes', h1, -, -, h2, -⟩ := C94_pod_snaps lib lib exampleData (-1000)
    !![0, 0, 1; 0, 1, 0; 1, 0, 0] none .none none (1 / 10 ^ 13) (by norm_num) hQ (by norm_num) (by simp) hs hs rfl trivial
    (by rw [show Weights.matrix 2 (Weights.none : Weights ℝ) = 1 from rfl]; exact Matrix.isHermitian_one) heigh heigh res corr hres
  have hX : (-1000 : ℝ) • (exampleData * (!![0, 0, 1; 0, 1, 0; 1, 0, 0] : Matrix (Fin 3) (Fin 3) ℝ)) =
      !![-1000, 0, -1000; -1000, -2000, 0] := by
    ext i j
    fin_cases i <;> fin_cases j <;> norm_num [exampleData, Matrix.mul_apply, Fin.sum_univ_three]
  rw [hX, show ‖(-1000 : ℝ)‖ ^ 2 * (1 / 10 ^ 13) = 1 / 10 ^ 7 by norm_num] at h1
  refine ⟨lib, lib, res, res', corr, corr', hres, h1, h2.number, fun i' i hi => ?_⟩
  rw [h2.energies i' i hi]
  norm_num

end Modred
