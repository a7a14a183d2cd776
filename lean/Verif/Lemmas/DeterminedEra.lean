import Verif.Lemmas.DeterminedBpod
import Verif.Model.EraModel

/-!
# What determines the impulse response of a model of ERA
-/

namespace Modred

open Matrix

variable {𝕜 : Type*} [RCLike 𝕜] {n m : Nat}

/-- Values of the first `ns` entries as functions of the values. -/
theorem firstCols_functions {r : Nat} (U : Matrix (Fin n) (Fin r) 𝕜) (V : Matrix (Fin m) (Fin r) 𝕜) (S : Fin r → ℝ) (ns : Nat)
    (P : ℝ → Prop) [DecidablePred P] (hP : ∀ i : Fin r, i.val < ns ↔ P (S i)) (f : ℝ → 𝕜) :
    firstCols U ns * diagonal (fun i => f (firstEntries S ns i)) * (firstCols V ns)ᴴ =
      U * diagonal (fun i => if P (S i) then f (S i) else 0) * Vᴴ := by
  ext l q
  rw [Matrix.mul_apply, Matrix.mul_apply]
  unfold firstCols firstEntries
  simp only [Matrix.mul_diagonal, conjTranspose_apply, submatrix_apply, id_eq]
  rw [sum_first (Nat.min_le_right ns r) fun i => U l i * f (S i) * star (V q i)]
  refine Finset.sum_congr rfl fun i _ => ?_
  by_cases h : i.val < ns
  · rw [if_pos (lt_min h i.isLt), if_pos ((hP i).mp h)]
  · rw [if_neg fun h' => h (lt_of_lt_of_le h' (Nat.min_le_left _ _)), if_neg (fun h' => h ((hP i).mpr h')), mul_zero, zero_mul]

/-- Array of all outputs of a model, from which the Markov parameter number `k` is taken. -/
noncomputable def eraOutputs (e : Svd 𝕜 n m) (K : Matrix (Fin n) (Fin m) 𝕜) (ns k : Nat) : Matrix (Fin n) (Fin m) 𝕜 :=
  firstCols e.U ns * diagPow (𝕜 := 𝕜) (firstEntries e.S ns) 0.5 *
    (diagPow (𝕜 := 𝕜) (firstEntries e.S ns) (-0.5) * ((firstCols e.U ns)ᴴ *
      (K * (firstCols e.V ns * diagPow (𝕜 := 𝕜) (firstEntries e.S ns) (-0.5))))) ^ k *
    (diagPow (𝕜 := 𝕜) (firstEntries e.S ns) 0.5 * (firstCols e.V ns)ᴴ)

theorem eraOutputs_zero (e : Svd 𝕜 n m) (K : Matrix (Fin n) (Fin m) 𝕜) (ns : Nat) (hS : ∀ i, 0 < e.S i) :
    eraOutputs e K ns 0 =
      firstCols e.U ns * diagonal (fun i => ((firstEntries e.S ns i : ℝ) : 𝕜)) * (firstCols e.V ns)ᴴ := by
  have hE : ∀ i, 0 < firstEntries e.S ns i := fun i => hS _
  unfold eraOutputs
  rw [pow_zero, Matrix.mul_one, show firstCols e.U ns * diagPow (𝕜 := 𝕜) (firstEntries e.S ns) 0.5 *
    (diagPow (𝕜 := 𝕜) (firstEntries e.S ns) 0.5 * (firstCols e.V ns)ᴴ) = firstCols e.U ns *
    (diagPow (𝕜 := 𝕜) (firstEntries e.S ns) 0.5 * diagPow (𝕜 := 𝕜) (firstEntries e.S ns) 0.5) * (firstCols e.V ns)ᴴ by
      simp only [Matrix.mul_assoc], diagPow_mul _ hE, show (0.5 + 0.5 : ℝ) = 1 by norm_num, diagPow_one]

theorem eraOutputs_succ (e : Svd 𝕜 n m) (K : Matrix (Fin n) (Fin m) 𝕜) (ns k : Nat) (hS : ∀ i, 0 < e.S i)
    (hU : (firstCols e.U ns)ᴴ * firstCols e.U ns = 1) :
    eraOutputs e K ns (k + 1) = (firstCols e.U ns * diagonal (fun _ => (1 : 𝕜)) * (firstCols e.U ns)ᴴ) * K *
      (firstCols e.V ns * diagonal (fun i => 1 / ((firstEntries e.S ns i : ℝ) : 𝕜)) * (firstCols e.U ns)ᴴ) *
      eraOutputs e K ns k := by
  have hE : ∀ i, 0 < firstEntries e.S ns i := fun i => hS _
  unfold eraOutputs
  rw [pow_succ']
  generalize (diagPow (𝕜 := 𝕜) (firstEntries e.S ns) (-0.5) * ((firstCols e.U ns)ᴴ *
      (K * (firstCols e.V ns * diagPow (𝕜 := 𝕜) (firstEntries e.S ns) (-0.5))))) ^ k = Ak
  have h1 : diagonal (fun i => 1 / ((firstEntries e.S ns i : ℝ) : 𝕜)) =
      diagPow (𝕜 := 𝕜) (firstEntries e.S ns) (-0.5) * diagPow (𝕜 := 𝕜) (firstEntries e.S ns) (-0.5) := by
    rw [diagPow_mul _ hE, show (-0.5 + -0.5 : ℝ) = -1 by norm_num]
    unfold diagPow
    congr 1
    ext i
    rw [Real.rpow_neg_one, RCLike.ofReal_inv, one_div]
  have h2 : diagPow (𝕜 := 𝕜) (firstEntries e.S ns) 0.5 * diagPow (𝕜 := 𝕜) (firstEntries e.S ns) (-0.5) = 1 := by
    rw [diagPow_mul _ hE, show (0.5 + -0.5 : ℝ) = 0 by norm_num, diagPow_zero]
  have h3 : diagPow (𝕜 := 𝕜) (firstEntries e.S ns) (-0.5) * diagPow (𝕜 := 𝕜) (firstEntries e.S ns) 0.5 = 1 := by
    rw [diagPow_mul _ hE, show (-0.5 + 0.5 : ℝ) = 0 by norm_num, diagPow_zero]
  rw [h1, diagonal_one, Matrix.mul_one]
  generalize firstCols e.U ns = U at *
  generalize firstCols e.V ns = V at *
  generalize diagPow (𝕜 := 𝕜) (firstEntries e.S ns) 0.5 = D at *
  generalize diagPow (𝕜 := 𝕜) (firstEntries e.S ns) (-0.5) = D' at *
  rw [show U * D * (D' * (Uᴴ * (K * (V * D'))) * Ak) * (D * Vᴴ) = U * (D * D') * (Uᴴ * (K * (V * D'))) * Ak * (D * Vᴴ) by
      simp only [Matrix.mul_assoc], h2,
    show U * Uᴴ * K * (V * (D' * D') * Uᴴ) * (U * D * Ak * (D * Vᴴ)) =
      U * Uᴴ * K * (V * D') * (D' * ((Uᴴ * U) * D)) * Ak * (D * Vᴴ) by simp only [Matrix.mul_assoc], hU, Matrix.one_mul, h3,
    Matrix.mul_one, Matrix.mul_one]
  simp only [Matrix.mul_assoc]

variable {n' m' : Nat} {B : Matrix (Fin n) (Fin m) 𝕜} {B' : Matrix (Fin n') (Fin m') 𝕜}
  {lib : Matrix (Fin n) (Fin m) 𝕜 → SvdOut 𝕜 n m} {lib' : Matrix (Fin n') (Fin m') 𝕜 → SvdOut 𝕜 n' m'}
  {R : Matrix (Fin n) (Fin n') 𝕜} {Q : Matrix (Fin m) (Fin m') 𝕜} {c : 𝕜} {t : ℝ}

/-- Outputs of models of arrays that differ by unitary factors and a number, if equal singular values are not separated. -/
theorem eraOutputs_determined (h : IsSvd B (lib B)) (h' : IsSvd B' (lib' B')) (hR : R * Rᴴ = 1) (hQ : Q * Qᴴ = 1)
    (hB : B' = c • (Rᴴ * B * Q)) (hc : c ≠ 0) (ht : 0 ≤ t) (e : Svd 𝕜 n m) (e' : Svd 𝕜 n' m')
    (he : utilSvd lib B (some t) none = .ok e) (he' : utilSvd lib' B' (some (‖c‖ * t)) none = .ok e')
    (K : Matrix (Fin n) (Fin m) 𝕜) (K' : Matrix (Fin n') (Fin m') 𝕜) (hK : K' = c • (Rᴴ * K * Q)) (ns : Nat)
    (gap : ∀ i j : Fin e.r, i.val < ns → ns ≤ j.val → e.S j < e.S i) (k : Nat) :
    e'.r = e.r ∧ eraOutputs e' K' ns k = c • (Rᴴ * eraOutputs e K ns k * Q) := by
  classical
  have nc : 0 < ‖c‖ := norm_pos_iff.mpr hc
  have hr : ∀ t ∈ (none : Option ℝ), 0 ≤ t := by simp
  obtain ⟨k1, k2, k3⟩ := balance_determined (a := c) (b := 1) h h' hR hQ (by rw [star_one, one_mul]; exact hB) hc one_ne_zero ht hr
    e e' he (by rw [norm_one, mul_one]; exact he')
  rw [norm_one, mul_one] at k2 k3
  have hS : ∀ i, 0 < e.S i := fun i => lt_of_le_of_lt ht (utilSvd_positive lib B none t hr h e he i)
  have hS' : ∀ i, 0 < e'.S i := fun i =>
    lt_of_le_of_lt (mul_nonneg nc.le ht) (utilSvd_positive lib' B' none _ hr h' e' he' i)
  refine ⟨k1, ?_⟩
  let P : ℝ → Prop := fun x => ∃ i : Fin e.r, i.val < ns ∧ e.S i = x
  let P' : ℝ → Prop := fun x => ∃ i : Fin e'.r, i.val < ns ∧ e'.S i = x
  have hP : ∀ i : Fin e.r, i.val < ns ↔ P (e.S i) := by
    intro i
    constructor
    · intro hi
      exact ⟨i, hi, rfl⟩
    · rintro ⟨j, hj, hij⟩
      by_contra hc
      exact (gap j i hj (not_lt.mp hc)).ne hij.symm
  have hPP : ∀ x, P' (‖c‖ * x) ↔ P x := by
    intro x
    constructor
    · rintro ⟨i, hi, hx⟩
      rw [k2 i ⟨i, k1 ▸ i.isLt⟩ rfl] at hx
      exact ⟨_, hi, mul_left_cancel₀ nc.ne' hx⟩
    · rintro ⟨i, hi, hx⟩
      refine ⟨⟨i, k1.symm ▸ i.isLt⟩, hi, ?_⟩
      rw [k2 _ i rfl, hx]
  have hP' : ∀ i : Fin e'.r, i.val < ns ↔ P' (e'.S i) := by
    intro i
    rw [k2 i ⟨i, k1 ▸ i.isLt⟩ rfl, hPP]
    exact hP ⟨i, k1 ▸ i.isLt⟩
  have nz : ∀ i, ((e.S i : ℝ) : 𝕜) ≠ 0 := fun i => RCLike.ofReal_ne_zero.mpr (hS i).ne'
  have nz' : ∀ i, ((e'.S i : ℝ) : 𝕜) ≠ 0 := fun i => RCLike.ofReal_ne_zero.mpr (hS' i).ne'
  have cz : ((‖c‖ : ℝ) : 𝕜) ≠ 0 := RCLike.ofReal_ne_zero.mpr nc.ne'
  have k4 : ∀ f g : ℝ → 𝕜, (∀ x, 0 < x → g (‖c‖ * x) = f x) →
      c • (e'.V * diagonal (fun i => g (e'.S i) / (e'.S i : 𝕜)) * e'.Uᴴ) =
        Qᴴ * (e.V * diagonal (fun i => f (e.S i) / (e.S i : 𝕜)) * e.Uᴴ) * R ∧
      ((‖c‖ : ℝ) : 𝕜) • (e'.U * diagonal (fun i => g (e'.S i) / (e'.S i : 𝕜)) * e'.Uᴴ) =
        Rᴴ * (e.U * diagonal (fun i => f (e.S i) / (e.S i : 𝕜)) * e.Uᴴ) * R := by
    intro f g hfg
    obtain ⟨h1, -, h2, -⟩ := k3 f g hfg
    rw [build_two hS, build_two hS', star_one, mul_one] at h1
    rw [build_two hS, build_two hS'] at h2
    exact ⟨h1, h2⟩
  -- three functions of the singular values
  have fU : firstCols e'.U ns * diagonal (fun _ => (1 : 𝕜)) * (firstCols e'.U ns)ᴴ =
      Rᴴ * (firstCols e.U ns * diagonal (fun _ => (1 : 𝕜)) * (firstCols e.U ns)ᴴ) * R := by
    have h1 := (k4 (fun x => if P x then (x : 𝕜) else 0) (fun x => if P' x then (x : 𝕜) / ((‖c‖ : ℝ) : 𝕜) else 0)
      fun x _ => by
        simp only [hPP]
        by_cases hx : P x
        · rw [if_pos hx, if_pos hx, RCLike.ofReal_mul, mul_div_cancel_left₀ _ cz]
        · rw [if_neg hx, if_neg hx]).2
    rw [firstCols_functions e.U e.U e.S ns P hP fun _ => 1, firstCols_functions e'.U e'.U e'.S ns P' hP' fun _ => 1]
    have e1 : diagonal (fun i => (if P (e.S i) then ((e.S i : ℝ) : 𝕜) else 0) / ((e.S i : ℝ) : 𝕜)) =
        diagonal (fun i => if P (e.S i) then (1 : 𝕜) else 0) := by
      congr 1
      ext i
      split
      · rw [div_self (nz i)]
      · rw [zero_div]
    have e2 : diagonal (fun i => (if P' (e'.S i) then ((e'.S i : ℝ) : 𝕜) / ((‖c‖ : ℝ) : 𝕜) else 0) / ((e'.S i : ℝ) : 𝕜)) =
        ((‖c‖ : ℝ) : 𝕜)⁻¹ • diagonal (fun i => if P' (e'.S i) then (1 : 𝕜) else 0) := by
      rw [← diagonal_smul]
      congr 1
      ext i
      rw [Pi.smul_apply, smul_eq_mul]
      split
      · have := nz' i
        field_simp
      · rw [zero_div, mul_zero]
    rw [e1, e2, Matrix.mul_smul, Matrix.smul_mul, smul_smul, mul_inv_cancel₀ cz, one_smul] at h1
    exact h1
  have fP : c • (firstCols e'.V ns * diagonal (fun i => 1 / ((firstEntries e'.S ns i : ℝ) : 𝕜)) * (firstCols e'.U ns)ᴴ) =
      Qᴴ * (firstCols e.V ns * diagonal (fun i => 1 / ((firstEntries e.S ns i : ℝ) : 𝕜)) * (firstCols e.U ns)ᴴ) * R := by
    have h1 := (k4 (fun x => if P x then (1 : 𝕜) else 0) (fun x => if P' x then (1 : 𝕜) else 0)
      fun x _ => by simp only [hPP]).1
    rw [firstCols_functions e.V e.U e.S ns P hP fun x => 1 / (x : 𝕜),
      firstCols_functions e'.V e'.U e'.S ns P' hP' fun x => 1 / (x : 𝕜)]
    simp only [ite_div, zero_div] at h1
    exact h1
  have fM : firstCols e'.U ns * diagonal (fun i => ((firstEntries e'.S ns i : ℝ) : 𝕜)) * (firstCols e'.V ns)ᴴ =
      c • (Rᴴ * (firstCols e.U ns * diagonal (fun i => ((firstEntries e.S ns i : ℝ) : 𝕜)) * (firstCols e.V ns)ᴴ) * Q) := by
    have h1 := (k4 (fun x => if P x then (star c * c) * (x * x : 𝕜) else 0) (fun x => if P' x then (x * x : 𝕜) else 0)
      fun x _ => by
        simp only [hPP]
        by_cases hx : P x
        · rw [if_pos hx, if_pos hx, norm_sq_smul, RCLike.ofReal_mul, RCLike.ofReal_pow]
          ring
        · rw [if_neg hx, if_neg hx]).1
    have e1 : diagonal (fun i => (if P (e.S i) then (star c * c) * ((e.S i : 𝕜) * (e.S i : 𝕜)) else 0) / ((e.S i : ℝ) : 𝕜)) =
        (star c * c) • diagonal (fun i => if P (e.S i) then ((e.S i : ℝ) : 𝕜) else 0) := by
      rw [← diagonal_smul]
      congr 1
      ext i
      rw [Pi.smul_apply, smul_eq_mul]
      split
      · rw [← mul_assoc, mul_div_cancel_right₀ _ (nz i)]
      · rw [zero_div, mul_zero]
    have e2 : diagonal (fun i => (if P' (e'.S i) then ((e'.S i : 𝕜) * (e'.S i : 𝕜)) else 0) / ((e'.S i : ℝ) : 𝕜)) =
        diagonal (fun i => if P' (e'.S i) then ((e'.S i : ℝ) : 𝕜) else 0) := by
      congr 1
      ext i
      split
      · rw [mul_div_cancel_right₀ _ (nz' i)]
      · rw [zero_div]
    have real : ∀ {r : Nat} (S : Fin r → ℝ) (p : ℝ → Prop) [DecidablePred p],
        (diagonal (fun i => if p (S i) then ((S i : ℝ) : 𝕜) else 0))ᴴ = diagonal (fun i => if p (S i) then ((S i : ℝ) : 𝕜) else 0) := by
      intro r S p _
      rw [diagonal_conjTranspose]
      congr 1
      ext i
      rw [Pi.star_apply]
      split
      · exact RCLike.conj_ofReal _
      · exact star_zero _
    rw [e1, e2, Matrix.mul_smul, Matrix.smul_mul, Matrix.mul_smul, Matrix.smul_mul, mul_comm (star c), mul_smul] at h1
    have h2 : e'.V * diagonal (fun i => if P' (e'.S i) then ((e'.S i : ℝ) : 𝕜) else 0) * e'.Uᴴ =
        star c • (Qᴴ * (e.V * diagonal (fun i => if P (e.S i) then ((e.S i : ℝ) : 𝕜) else 0) * e.Uᴴ) * R) :=
      smul_right_injective _ hc h1
    have h3 := congrArg conjTranspose h2
    rw [conjTranspose_mul, conjTranspose_mul, conjTranspose_conjTranspose, real, conjTranspose_smul, star_star, conjTranspose_mul,
      conjTranspose_mul, conjTranspose_mul, conjTranspose_mul, conjTranspose_conjTranspose, conjTranspose_conjTranspose, real] at h3
    rw [firstCols_functions e.U e.V e.S ns P hP fun x => (x : 𝕜), firstCols_functions e'.U e'.V e'.S ns P' hP' fun x => (x : 𝕜)]
    simp only [Matrix.mul_assoc] at h3 ⊢
    exact h3
  obtain ⟨hU, -⟩ := utilSvd_triples lib B _ _ h e he
  obtain ⟨hU', -⟩ := utilSvd_triples lib' B' _ _ h' e' he'
  have oU : (firstCols e.U ns)ᴴ * firstCols e.U ns = 1 := orthonormal_submatrix _ hU _ (Fin.castLE_injective _)
  have oU' : (firstCols e'.U ns)ᴴ * firstCols e'.U ns = 1 := orthonormal_submatrix _ hU' _ (Fin.castLE_injective _)
  induction k with
  | zero => rw [eraOutputs_zero e' K' ns hS', eraOutputs_zero e K ns hS, fM]
  | succ k ih =>
    rw [eraOutputs_succ e' K' ns k hS' oU', eraOutputs_succ e K ns k hS oU, ih, fU, hK]
    generalize firstCols e'.V ns * diagonal (fun i => 1 / ((firstEntries e'.S ns i : ℝ) : 𝕜)) * (firstCols e'.U ns)ᴴ = N' at *
    generalize firstCols e.V ns * diagonal (fun i => 1 / ((firstEntries e.S ns i : ℝ) : 𝕜)) * (firstCols e.U ns)ᴴ = N at *
    generalize firstCols e.U ns * diagonal (fun _ => (1 : 𝕜)) * (firstCols e.U ns)ᴴ = G at *
    generalize eraOutputs e K ns k = M
    rw [Matrix.mul_smul, show Rᴴ * G * R * c • (Rᴴ * K * Q) * N' = Rᴴ * G * R * (Rᴴ * K * Q) * (c • N') by
      rw [Matrix.mul_smul, Matrix.smul_mul, Matrix.mul_smul], fP]
    congr 1
    rw [show Rᴴ * G * R * (Rᴴ * K * Q) * (Qᴴ * N * R) * (Rᴴ * M * Q) =
      Rᴴ * G * (R * Rᴴ) * K * (Q * Qᴴ) * N * (R * Rᴴ) * M * Q by simp only [Matrix.mul_assoc], hR, hQ, Matrix.mul_one,
      Matrix.mul_one]
    simp only [Matrix.mul_assoc, Matrix.one_mul]

end Modred
