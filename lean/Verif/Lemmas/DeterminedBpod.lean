import Verif.Lemmas.Wide
import Verif.Lemmas.DeterminedSvd
import Verif.Lemmas.Balance
import Verif.Props.Determined

/-!
# What the balancing coefficients determine
-/

namespace Modred

open Matrix

variable {𝕜 : Type*} [RCLike 𝕜] {n m k r : Nat}

/-- Modes of two kinds, weighted. -/
theorem build_two {w : Fin r → ℝ} (hw : ∀ i, 0 < w i) (V : Matrix (Fin m) (Fin r) 𝕜) (U : Matrix (Fin k) (Fin r) 𝕜) (f : ℝ → 𝕜) :
    (V * diagPow (𝕜 := 𝕜) w (-0.5)) * diagonal (fun i => f (w i)) * (U * diagPow (𝕜 := 𝕜) w (-0.5))ᴴ =
      V * diagonal (fun i => f (w i) / (w i : 𝕜)) * Uᴴ := by
  rw [conjTranspose_mul, diagPow_conjTranspose,
    show V * diagPow (𝕜 := 𝕜) w (-0.5) * diagonal (fun i => f (w i)) * (diagPow (𝕜 := 𝕜) w (-0.5) * Uᴴ) =
      V * (diagPow (𝕜 := 𝕜) w (-0.5) * diagonal (fun i => f (w i)) * diagPow (𝕜 := 𝕜) w (-0.5)) * Uᴴ by
      simp only [Matrix.mul_assoc]]
  congr 2
  unfold diagPow
  rw [diagonal_mul_diagonal, diagonal_mul_diagonal]
  congr 1
  ext i
  rw [mul_comm, ← mul_assoc, ← RCLike.ofReal_mul, ← Real.rpow_add (hw i), show (-0.5 + -0.5 : ℝ) = -1 by norm_num,
    Real.rpow_neg_one, RCLike.ofReal_inv, div_eq_inv_mul]

/-- Modes times coefficients, weighted. -/
theorem build_with_coeffs {w : Fin r → ℝ} (hw : ∀ i, 0 < w i) (V : Matrix (Fin m) (Fin r) 𝕜) (U : Matrix (Fin k) (Fin r) 𝕜) (f : ℝ → 𝕜) :
    (V * diagPow (𝕜 := 𝕜) w (-0.5)) * diagonal (fun i => f (w i)) * (diagPow (𝕜 := 𝕜) w 0.5 * Uᴴ) =
      V * diagonal (fun i => f (w i)) * Uᴴ := by
  rw [show V * diagPow (𝕜 := 𝕜) w (-0.5) * diagonal (fun i => f (w i)) * (diagPow (𝕜 := 𝕜) w 0.5 * Uᴴ) =
      V * (diagPow (𝕜 := 𝕜) w (-0.5) * diagonal (fun i => f (w i)) * diagPow (𝕜 := 𝕜) w 0.5) * Uᴴ by
      simp only [Matrix.mul_assoc]]
  congr 2
  unfold diagPow
  rw [diagonal_mul_diagonal, diagonal_mul_diagonal]
  congr 1
  ext i
  rw [mul_comm, ← mul_assoc, ← RCLike.ofReal_mul, ← Real.rpow_add (hw i), show (0.5 + -0.5 : ℝ) = 0 by norm_num,
    Real.rpow_zero, RCLike.ofReal_one, one_mul]

/-- Left singular vectors in terms of right ones. -/
theorem mixed_eq {B : Matrix (Fin n) (Fin m) 𝕜} {S : Fin r → ℝ} {U : Matrix (Fin n) (Fin r) 𝕜} {V : Matrix (Fin m) (Fin r) 𝕜}
    (hS : ∀ i, 0 < S i) (hBV : B * V = U * diagPow (𝕜 := 𝕜) S 1) (f : ℝ → 𝕜) :
    V * diagonal (fun i => f (S i)) * Uᴴ = V * diagonal (fun i => f (S i) / (S i : 𝕜)) * Vᴴ * Bᴴ := by
  rw [Matrix.mul_assoc _ Vᴴ, ← conjTranspose_mul, hBV, conjTranspose_mul, diagPow_conjTranspose, diagPow_one, ← Matrix.mul_assoc,
    Matrix.mul_assoc V _ (diagonal _), diagonal_mul_diagonal]
  congr 3
  ext i
  exact (div_mul_cancel₀ _ (RCLike.ofReal_ne_zero.mpr (hS i).ne')).symm

section Determined

variable {n' m' : Nat} {B : Matrix (Fin n) (Fin m) 𝕜} {B' : Matrix (Fin n') (Fin m') 𝕜}
  {lib : Matrix (Fin n) (Fin m) 𝕜 → SvdOut 𝕜 n m} {lib' : Matrix (Fin n') (Fin m') 𝕜 → SvdOut 𝕜 n' m'}
  {R : Matrix (Fin n) (Fin n') 𝕜} {Q : Matrix (Fin m) (Fin m') 𝕜} {a b : 𝕜} {t : ℝ} {rtol : Option ℝ}

/-- What the coefficients of direct modes, `V S^(-1/2)`, and of adjoint modes, `U S^(-1/2)`, determine. -/
theorem balance_determined (h : IsSvd B (lib B)) (h' : IsSvd B' (lib' B')) (hR : R * Rᴴ = 1) (hQ : Q * Qᴴ = 1)
    (hB : B' = (star b * a) • (Rᴴ * B * Q)) (ha : a ≠ 0) (hb : b ≠ 0) (ht : 0 ≤ t) (hr : ∀ t ∈ rtol, 0 ≤ t) (e : Svd 𝕜 n m)
    (e' : Svd 𝕜 n' m')
    (he : utilSvd lib B (some t) rtol = .ok e) (he' : utilSvd lib' B' (some (‖a‖ * ‖b‖ * t)) rtol = .ok e') :
    e'.r = e.r ∧ (∀ (i' : Fin e'.r) (i : Fin e.r), i'.val = i.val → e'.S i' = ‖a‖ * ‖b‖ * e.S i) ∧
    ∀ f g : ℝ → 𝕜, (∀ x, 0 < x → g (‖a‖ * ‖b‖ * x) = f x) →
      (a * star b) • ((e'.V * diagPow (𝕜 := 𝕜) e'.S (-0.5)) * diagonal (fun i => g (e'.S i)) *
          (e'.U * diagPow (𝕜 := 𝕜) e'.S (-0.5))ᴴ) =
        Qᴴ * ((e.V * diagPow (𝕜 := 𝕜) e.S (-0.5)) * diagonal (fun i => f (e.S i)) * (e.U * diagPow (𝕜 := 𝕜) e.S (-0.5))ᴴ) * R ∧
      ((‖a‖ * ‖b‖ : ℝ) : 𝕜) • ((e'.V * diagPow (𝕜 := 𝕜) e'.S (-0.5)) * diagonal (fun i => g (e'.S i)) *
          (e'.V * diagPow (𝕜 := 𝕜) e'.S (-0.5))ᴴ) =
        Qᴴ * ((e.V * diagPow (𝕜 := 𝕜) e.S (-0.5)) * diagonal (fun i => f (e.S i)) * (e.V * diagPow (𝕜 := 𝕜) e.S (-0.5))ᴴ) * Q ∧
      ((‖a‖ * ‖b‖ : ℝ) : 𝕜) • ((e'.U * diagPow (𝕜 := 𝕜) e'.S (-0.5)) * diagonal (fun i => g (e'.S i)) *
          (e'.U * diagPow (𝕜 := 𝕜) e'.S (-0.5))ᴴ) =
        Rᴴ * ((e.U * diagPow (𝕜 := 𝕜) e.S (-0.5)) * diagonal (fun i => f (e.S i)) * (e.U * diagPow (𝕜 := 𝕜) e.S (-0.5))ᴴ) * R ∧
      (e'.V * diagPow (𝕜 := 𝕜) e'.S (-0.5)) * diagonal (fun i => g (e'.S i)) * (diagPow (𝕜 := 𝕜) e'.S 0.5 * e'.Vᴴ) =
        Qᴴ * ((e.V * diagPow (𝕜 := 𝕜) e.S (-0.5)) * diagonal (fun i => f (e.S i)) * (diagPow (𝕜 := 𝕜) e.S 0.5 * e.Vᴴ)) * Q ∧
      (e'.U * diagPow (𝕜 := 𝕜) e'.S (-0.5)) * diagonal (fun i => g (e'.S i)) * (diagPow (𝕜 := 𝕜) e'.S 0.5 * e'.Uᴴ) =
        Rᴴ * ((e.U * diagPow (𝕜 := 𝕜) e.S (-0.5)) * diagonal (fun i => f (e.S i)) * (diagPow (𝕜 := 𝕜) e.S 0.5 * e.Uᴴ)) * R := by
  have hc : star b * a ≠ 0 := mul_ne_zero (star_ne_zero.mpr hb) ha
  have hn : ‖star b * a‖ = ‖a‖ * ‖b‖ := by rw [norm_mul, norm_star, mul_comm]
  have np : 0 < ‖a‖ * ‖b‖ := mul_pos (norm_pos_iff.mpr ha) (norm_pos_iff.mpr hb)
  have hT : Rᴴᴴ * Rᴴ = 1 := by rw [conjTranspose_conjTranspose]; exact hR
  have det := svd_wide h h' hT hQ hB hc ht hr e e' he (by rw [hn]; exact he')
  rw [hn] at det
  obtain ⟨k1, k2, k3⟩ := det
  have hS : ∀ i, 0 < e.S i := fun i => lt_of_le_of_lt ht (utilSvd_positive lib B rtol t hr h e he i)
  have hS' : ∀ i, 0 < e'.S i := fun i =>
    lt_of_le_of_lt (mul_nonneg np.le ht) (utilSvd_positive lib' B' rtol _ hr h' e' he' i)
  obtain ⟨-, -, hBV, -⟩ := utilSvd_triples lib B _ _ h e he
  obtain ⟨-, -, hBV', -⟩ := utilSvd_triples lib' B' _ _ h' e' he'
  refine ⟨k1, k2, fun f g hfg => ?_⟩
  have scaled : ∀ (c : 𝕜) {p q s : Nat} (M : Matrix (Fin p) (Fin s) 𝕜) (N : Matrix (Fin q) (Fin s) 𝕜) (d : Fin s → 𝕜),
      c • (M * diagonal d * Nᴴ) = M * diagonal (fun i => c * d i) * Nᴴ := by
    intro c p q s M N d
    rw [show diagonal (fun i => c * d i) = c • diagonal d by rw [← diagonal_smul]; rfl, Matrix.mul_smul, Matrix.smul_mul]
  have kd := k3 (fun x => f x / (x : 𝕜)) (fun x => ((‖a‖ * ‖b‖ : ℝ) : 𝕜) * (g x / (x : 𝕜))) (scaled_weights np hfg)
  have kk := k3 f g hfg
  refine ⟨?_, ?_, ?_, ?_, ?_⟩
  · rw [build_two hS, build_two hS', mixed_eq hS hBV (fun x => f x / (x : 𝕜)), mixed_eq hS' hBV' (fun x => g x / (x : 𝕜))]
    have km := (k3 (fun x => f x / (x : 𝕜) / (x : 𝕜)) (fun x => ((‖a‖ * ‖b‖ : ℝ) : 𝕜) ^ 2 * (g x / (x : 𝕜) / (x : 𝕜)))
      fun x hx => by
        rw [hfg x hx, RCLike.ofReal_mul (‖a‖ * ‖b‖) x]
        have h1 : ((‖a‖ * ‖b‖ : ℝ) : 𝕜) ≠ 0 := RCLike.ofReal_ne_zero.mpr np.ne'
        have h2 : (x : 𝕜) ≠ 0 := RCLike.ofReal_ne_zero.mpr hx.ne'
        field_simp).2
    rw [← scaled] at km
    generalize e'.V * diagonal (fun i => g (e'.S i) / (e'.S i : 𝕜) / (e'.S i : 𝕜)) * e'.Vᴴ = M' at km ⊢
    generalize e.V * diagonal (fun i => f (e.S i) / (e.S i : 𝕜) / (e.S i : 𝕜)) * e.Vᴴ = M at km ⊢
    have hm : ((‖a‖ * ‖b‖ : ℝ) : 𝕜) ^ 2 = (a * star b) * star (star b * a) := by
      rw [star_mul, star_star, show a * star b * (star a * b) = (a * star a) * (b * star b) by ring]
      rw [RCLike.ofReal_mul, mul_pow]
      congr 1 <;> exact (RCLike.mul_conj _).symm
    rw [hB, conjTranspose_smul, Matrix.mul_smul, smul_smul, ← hm, conjTranspose_mul, conjTranspose_mul,
      conjTranspose_conjTranspose, ← Matrix.smul_mul, km,
      show Qᴴ * M * Q * (Qᴴ * (Bᴴ * R)) = Qᴴ * M * (Q * Qᴴ) * Bᴴ * R by simp only [Matrix.mul_assoc], hQ, Matrix.mul_one,
      Matrix.mul_assoc Qᴴ]
  · rw [build_two hS, build_two hS', scaled]
    exact kd.2
  · rw [build_two hS, build_two hS', scaled]
    rw [kd.1, conjTranspose_conjTranspose]
  · rw [build_with_coeffs hS, build_with_coeffs hS']
    exact kk.2
  · rw [build_with_coeffs hS, build_with_coeffs hS', kk.1, conjTranspose_conjTranspose]

theorem sandwich {p p' q q' s : Nat} (Q' : Matrix (Fin p') (Fin p) 𝕜) (M : Matrix (Fin p) (Fin s) 𝕜) (D : Matrix (Fin s) (Fin s) 𝕜)
    (N : Matrix (Fin s) (Fin q) 𝕜) (R' : Matrix (Fin q) (Fin q') 𝕜) : Q' * M * D * (N * R') = Q' * (M * D * N) * R' := by
  simp only [Matrix.mul_assoc]

/-- The same for coefficients of modes in terms of the first vectors. -/
theorem balance_determined_first (h : IsSvd B (lib B)) (h' : IsSvd B' (lib' B')) (hR : R * Rᴴ = 1) (hQ : Q * Qᴴ = 1)
    (hB : B' = (star b * a) • (Rᴴ * B * Q)) (ha : a ≠ 0) (hb : b ≠ 0) (ht : 0 ≤ t) (hr : ∀ t ∈ rtol, 0 ≤ t) (e : Svd 𝕜 n m)
    (e' : Svd 𝕜 n' m')
    (he : utilSvd lib B (some t) rtol = .ok e) (he' : utilSvd lib' B' (some (‖a‖ * ‖b‖ * t)) rtol = .ok e')
    (f g : ℝ → 𝕜) (hfg : ∀ x, 0 < x → g (‖a‖ * ‖b‖ * x) = f x) :
    ((a • Q) * (e'.V * diagPow (𝕜 := 𝕜) e'.S (-0.5))) * diagonal (fun i => g (e'.S i)) *
        ((b • R) * (e'.U * diagPow (𝕜 := 𝕜) e'.S (-0.5)))ᴴ =
      (e.V * diagPow (𝕜 := 𝕜) e.S (-0.5)) * diagonal (fun i => f (e.S i)) * (e.U * diagPow (𝕜 := 𝕜) e.S (-0.5))ᴴ ∧
    ((a • Q) * (e'.V * diagPow (𝕜 := 𝕜) e'.S (-0.5))) * diagonal (fun i => g (e'.S i)) *
        ((a • Q) * (e'.V * diagPow (𝕜 := 𝕜) e'.S (-0.5)))ᴴ =
      ((‖a‖ / ‖b‖ : ℝ) : 𝕜) • ((e.V * diagPow (𝕜 := 𝕜) e.S (-0.5)) * diagonal (fun i => f (e.S i)) *
        (e.V * diagPow (𝕜 := 𝕜) e.S (-0.5))ᴴ) ∧
    ((b • R) * (e'.U * diagPow (𝕜 := 𝕜) e'.S (-0.5))) * diagonal (fun i => g (e'.S i)) *
        ((b • R) * (e'.U * diagPow (𝕜 := 𝕜) e'.S (-0.5)))ᴴ =
      ((‖b‖ / ‖a‖ : ℝ) : 𝕜) • ((e.U * diagPow (𝕜 := 𝕜) e.S (-0.5)) * diagonal (fun i => f (e.S i)) *
        (e.U * diagPow (𝕜 := 𝕜) e.S (-0.5))ᴴ) ∧
    ((a • Q) * (e'.V * diagPow (𝕜 := 𝕜) e'.S (-0.5))) * diagonal (fun i => g (e'.S i)) * (diagPow (𝕜 := 𝕜) e'.S 0.5 * e'.Vᴴ) =
      a • ((e.V * diagPow (𝕜 := 𝕜) e.S (-0.5)) * diagonal (fun i => f (e.S i)) * (diagPow (𝕜 := 𝕜) e.S 0.5 * e.Vᴴ) * Q) ∧
    ((b • R) * (e'.U * diagPow (𝕜 := 𝕜) e'.S (-0.5))) * diagonal (fun i => g (e'.S i)) * (diagPow (𝕜 := 𝕜) e'.S 0.5 * e'.Uᴴ) =
      b • ((e.U * diagPow (𝕜 := 𝕜) e.S (-0.5)) * diagonal (fun i => f (e.S i)) * (diagPow (𝕜 := 𝕜) e.S 0.5 * e.Uᴴ) * R) := by
  obtain ⟨k1, k2, k3, k4, k5⟩ := (balance_determined h h' hR hQ hB ha hb ht hr e e' he he').2.2 f g hfg
  have na : 0 < ‖a‖ := norm_pos_iff.mpr ha
  have nb : 0 < ‖b‖ := norm_pos_iff.mpr hb
  have np : ((‖a‖ * ‖b‖ : ℝ) : 𝕜) ≠ 0 := RCLike.ofReal_ne_zero.mpr (mul_pos na nb).ne'
  have undo : ∀ {p q p' q' : Nat} (G : Matrix (Fin p) (Fin p') 𝕜) (K : Matrix (Fin q) (Fin q') 𝕜) (hG : G * Gᴴ = 1) (hK : K * Kᴴ = 1)
      (M : Matrix (Fin p) (Fin q) 𝕜), G * (Gᴴ * M * K) * Kᴴ = M := by
    intro p q p' q' G K hG hK M
    rw [show G * (Gᴴ * M * K) * Kᴴ = (G * Gᴴ) * M * (K * Kᴴ) by simp only [Matrix.mul_assoc], hG, hK, Matrix.one_mul,
      Matrix.mul_one]
  have inner : ∀ {p q p' q' : Nat} (G : Matrix (Fin p') (Fin p) 𝕜) (K : Matrix (Fin q) (Fin q') 𝕜) (c : 𝕜) (M : Matrix (Fin p) (Fin q) 𝕜),
      c • (G * M * K) = G * (c • M) * K := by
    intro p q p' q' G K c M
    rw [Matrix.mul_smul, Matrix.smul_mul]
  have undo1 : ∀ {p q p' : Nat} (G : Matrix (Fin p) (Fin p') 𝕜) (hG : G * Gᴴ = 1) (M : Matrix (Fin p) (Fin q) 𝕜), G * (Gᴴ * M) = M := by
    intro p q p' G hG M
    rw [← Matrix.mul_assoc, hG, Matrix.one_mul]
  have ratio : ∀ (x y : 𝕜) (hx : 0 < ‖x‖) (hy : 0 < ‖y‖), x * star x = ((‖x‖ / ‖y‖ : ℝ) : 𝕜) * ((‖x‖ * ‖y‖ : ℝ) : 𝕜) := by
    intro x y hx hy
    rw [← RCLike.ofReal_mul, show ‖x‖ / ‖y‖ * (‖x‖ * ‖y‖) = ‖x‖ ^ 2 by field_simp, RCLike.ofReal_pow]
    exact RCLike.mul_conj x
  generalize e'.V * diagPow (𝕜 := 𝕜) e'.S (-0.5) = P' at *
  generalize e'.U * diagPow (𝕜 := 𝕜) e'.S (-0.5) = N' at *
  generalize e.V * diagPow (𝕜 := 𝕜) e.S (-0.5) = P at *
  generalize e.U * diagPow (𝕜 := 𝕜) e.S (-0.5) = N at *
  refine ⟨?_, ?_, ?_, ?_, ?_⟩
  · rw [conjTranspose_mul, sandwich, conjTranspose_smul, Matrix.mul_smul, Matrix.smul_mul, Matrix.smul_mul, smul_smul,
      mul_comm (star b), ← Matrix.smul_mul, ← Matrix.mul_smul, k1, undo Q R hQ hR]
  · rw [conjTranspose_mul, sandwich, conjTranspose_smul, Matrix.mul_smul, Matrix.smul_mul, Matrix.smul_mul, smul_smul,
      mul_comm (star a), ratio a b na nb, mul_smul, inner Q Qᴴ, k2, undo Q Q hQ hQ]
  · rw [conjTranspose_mul, sandwich, conjTranspose_smul, Matrix.mul_smul, Matrix.smul_mul, Matrix.smul_mul, smul_smul,
      mul_comm (star b), ratio b a nb na, mul_smul, mul_comm ‖b‖ ‖a‖, inner R Rᴴ, k3, undo R R hR hR]
  · rw [Matrix.smul_mul, Matrix.smul_mul, Matrix.smul_mul, Matrix.mul_assoc Q, Matrix.mul_assoc Q, k4, Matrix.mul_assoc Qᴴ, undo1 Q hQ]
  · rw [Matrix.smul_mul, Matrix.smul_mul, Matrix.smul_mul, Matrix.mul_assoc R, Matrix.mul_assoc R, k5, Matrix.mul_assoc Rᴴ, undo1 R hR]

end Determined

/-- Weighted sums of modes of two kinds. -/
theorem weighted_sum_two {E : Type*} [AddCommGroup E] [Module 𝕜 E] (ip : E →ₗ⋆[𝕜] E →ₗ[𝕜] 𝕜) (u : Fin m → E) (v : Fin k → E)
    (B : Matrix (Fin m) (Fin r) 𝕜) (C : Matrix (Fin k) (Fin r) 𝕜) (d : Fin r → 𝕜) (x : E) :
    ∑ i, (d i * ip (combine v C i) x) • combine u B i =
      ∑ j, ((B * diagonal d * Cᴴ) *ᵥ fun k => ip (v k) x) j • u j := by
  have h1 : ∀ i, ip (combine v C i) x = ∑ k, star (C k i) * ip (v k) x := by
    intro i
    unfold combine
    rw [map_sum, LinearMap.sum_apply]
    refine Finset.sum_congr rfl fun k _ => ?_
    rw [LinearMap.map_smulₛₗ, LinearMap.smul_apply, smul_eq_mul]
    rfl
  simp only [h1]
  unfold combine
  simp only [Finset.smul_sum, smul_smul]
  rw [Finset.sum_comm]
  refine Finset.sum_congr rfl fun j _ => ?_
  rw [← Finset.sum_smul]
  congr 1
  rw [Matrix.mul_assoc, ← Matrix.mulVec_mulVec, Matrix.mulVec, dotProduct]
  refine Finset.sum_congr rfl fun i _ => ?_
  rw [← Matrix.mulVec_mulVec, Matrix.mulVec_diagonal, Matrix.mulVec, dotProduct]
  simp only [conjTranspose_apply]
  ring

/-- Weighted sums of modes with coefficients. -/
theorem weighted_combine {E : Type*} [AddCommGroup E] [Module 𝕜 E] (u : Fin m → E) (B : Matrix (Fin m) (Fin r) 𝕜)
    (C : Matrix (Fin r) (Fin k) 𝕜) (d : Fin r → 𝕜) (j : Fin k) :
    ∑ i, (d i * C i j) • combine u B i = combine u (B * diagonal d * C) j := by
  rw [Matrix.mul_assoc, ← combine_combine]
  unfold combine
  simp only [diagonal_mul]

end Modred
