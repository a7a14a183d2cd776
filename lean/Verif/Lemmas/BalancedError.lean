import Verif.Model.EraModel
import Verif.Lemmas.Balance
import Verif.Spec.ModelError
import Mathlib.Analysis.InnerProductSpace.PiL2
import Mathlib.Algebra.Order.Chebyshev

/-!
# Errors of truncated balanced models
-/

namespace Modred

open Matrix

variable {𝕜 : Type*} [RCLike 𝕜]

section
variable {ι μ : Type*} [Fintype ι] [Fintype μ]

theorem sumSquares_nonneg (x : ι → 𝕜) : 0 ≤ sumSquares x := Finset.sum_nonneg fun _ _ => by positivity

theorem weightedSquares_nonneg {w : ι → ℝ} (hw : ∀ i, 0 ≤ w i) (x : ι → 𝕜) : 0 ≤ weightedSquares w x :=
  Finset.sum_nonneg fun i _ => mul_nonneg (hw i) (by positivity)

theorem sumSquares_eq (x : ι → 𝕜) : ((sumSquares x : ℝ) : 𝕜) = star x ⬝ᵥ x := by
  unfold sumSquares dotProduct
  push_cast
  refine Finset.sum_congr rfl fun i _ => ?_
  rw [Pi.star_apply, RCLike.star_def, RCLike.conj_mul]

theorem sumSquares_re (x : ι → 𝕜) : sumSquares x = RCLike.re (star x ⬝ᵥ x) := by
  rw [← sumSquares_eq, RCLike.ofReal_re]

theorem sumSquares_sub (x y : ι → 𝕜) : sumSquares (x - y) = sumSquares x + sumSquares y - 2 * RCLike.re (star x ⬝ᵥ y) := by
  have hs : RCLike.re (star y ⬝ᵥ x) = RCLike.re (star x ⬝ᵥ y) := by
    have : star y ⬝ᵥ x = star (star x ⬝ᵥ y) := by
      rw [star_dotProduct]
    rw [this, RCLike.star_def, RCLike.conj_re]
  rw [sumSquares_re, sumSquares_re, sumSquares_re, star_sub, sub_dotProduct, dotProduct_sub, dotProduct_sub]
  simp only [map_sub]
  rw [hs]
  ring

/-- Orthonormal columns keep lengths. -/
theorem sumSquares_isometry [DecidableEq ι] {U : Matrix μ ι 𝕜} (hU : Uᴴ * U = 1) (x : ι → 𝕜) :
    sumSquares (U *ᵥ x) = sumSquares x := by
  rw [sumSquares_re, sumSquares_re, star_mulVec, dotProduct_mulVec, vecMul_vecMul, hU, vecMul_one]

/-- The distance to the span of orthonormal columns. -/
theorem sumSquares_project [DecidableEq ι] {U : Matrix μ ι 𝕜} (hU : Uᴴ * U = 1) (w : μ → 𝕜) :
    sumSquares (w - U *ᵥ (Uᴴ *ᵥ w)) = sumSquares w - sumSquares (Uᴴ *ᵥ w) := by
  rw [sumSquares_sub, sumSquares_isometry hU, dotProduct_mulVec]
  have : star w ᵥ* U = star (Uᴴ *ᵥ w) := by rw [star_mulVec, conjTranspose_conjTranspose]
  rw [this, ← sumSquares_re]
  ring

/-- Bessel's inequality. -/
theorem sumSquares_bessel [DecidableEq ι] {U : Matrix μ ι 𝕜} (hU : Uᴴ * U = 1) (w : μ → 𝕜) :
    sumSquares (Uᴴ *ᵥ w) ≤ sumSquares w := by
  have := sumSquares_project hU w
  have := sumSquares_nonneg (w - U *ᵥ (Uᴴ *ᵥ w))
  linarith

end

theorem diagPow_mulVec {N : Nat} (S : Fin N → ℝ) (e : ℝ) (x : Fin N → 𝕜) (i : Fin N) :
    (diagPow (𝕜 := 𝕜) S e *ᵥ x) i = ((S i ^ e : ℝ) : 𝕜) * x i := by
  unfold diagPow
  rw [mulVec_diagonal]

/-! ### Shift structure -/

/-- Arrays that belong together as a Hankel array `H`, the array `H'` one step later, shifts `K` of columns and `L` of
rows, the first columns `E` and the first rows `F`. -/
structure IsShift {μ ν π κ : Type*} [Fintype μ] [Fintype ν] [Fintype π] [Fintype κ] (H H' : Matrix μ ν 𝕜)
    (K : Matrix ν ν 𝕜) (L : Matrix μ μ 𝕜) (E : Matrix ν π 𝕜) (F : Matrix κ μ 𝕜) : Prop where
  right : H' = H * K
  left : H' = L * H
  ctrl : ∀ z u, sumSquares (K *ᵥ z + E *ᵥ u) ≤ sumSquares z + sumSquares u
  obs : ∀ y, sumSquares (L *ᵥ y) + sumSquares (F *ᵥ y) ≤ sumSquares y

section
variable {μ ν π κ : Type*} [Fintype μ] [Fintype ν] [Fintype π] [Fintype κ] {N : Nat}
variable {H H' : Matrix μ ν 𝕜} {K : Matrix ν ν 𝕜} {L : Matrix μ μ 𝕜} {E : Matrix ν π 𝕜} {F : Matrix κ μ 𝕜}
variable {U : Matrix μ (Fin N) 𝕜} {V : Matrix ν (Fin N) 𝕜} {S : Fin N → ℝ}

/-- The state matrix with all singular values. -/
noncomputable def fullA (H' : Matrix μ ν 𝕜) (U : Matrix μ (Fin N) 𝕜) (V : Matrix ν (Fin N) 𝕜) (S : Fin N → ℝ) :
    Matrix (Fin N) (Fin N) 𝕜 :=
  diagPow (𝕜 := 𝕜) S (-0.5) * (Uᴴ * (H' * (V * diagPow (𝕜 := 𝕜) S (-0.5))))

/-- The input matrix. -/
noncomputable def fullB (E : Matrix ν π 𝕜) (V : Matrix ν (Fin N) 𝕜) (S : Fin N → ℝ) : Matrix (Fin N) π 𝕜 :=
  diagPow (𝕜 := 𝕜) S 0.5 * (Vᴴ * E)

/-- The output matrix. -/
noncomputable def fullC (F : Matrix κ μ 𝕜) (U : Matrix μ (Fin N) 𝕜) (S : Fin N → ℝ) : Matrix κ (Fin N) 𝕜 :=
  F * U * diagPow (𝕜 := 𝕜) S 0.5

theorem rpow_neg_half_mul {s : ℝ} (h : 0 ≤ s) : s ^ (-0.5 : ℝ) * s ^ (1 : ℝ) = s ^ (0.5 : ℝ) := by
  rcases h.eq_or_lt with rfl | h
  · rw [Real.zero_rpow (by norm_num), Real.zero_rpow (by norm_num), Real.zero_rpow (by norm_num), zero_mul]
  · rw [← Real.rpow_add h]; norm_num

theorem diagPow_mul_diagPow (a b : ℝ) : diagPow (𝕜 := 𝕜) S a * diagPow (𝕜 := 𝕜) S b =
    diagonal fun i => ((S i ^ a * S i ^ b : ℝ) : 𝕜) := by
  unfold diagPow
  rw [diagonal_mul_diagonal]
  push_cast
  rfl

theorem diagPow_neg_half_one (hS : ∀ i, 0 ≤ S i) :
    diagPow (𝕜 := 𝕜) S (-0.5) * diagPow (𝕜 := 𝕜) S 1 = diagPow (𝕜 := 𝕜) S 0.5 := by
  rw [diagPow_mul_diagPow]
  simp only [rpow_neg_half_mul (hS _)]
  rfl

theorem diagPow_one_neg_half (hS : ∀ i, 0 ≤ S i) :
    diagPow (𝕜 := 𝕜) S 1 * diagPow (𝕜 := 𝕜) S (-0.5) = diagPow (𝕜 := 𝕜) S 0.5 := by
  rw [diagPow_mul_diagPow]
  simp only [mul_comm (_ ^ (1 : ℝ)), rpow_neg_half_mul (hS _)]
  rfl

theorem diagPow_half_half (hS : ∀ i, 0 ≤ S i) :
    diagPow (𝕜 := 𝕜) S 0.5 * diagPow (𝕜 := 𝕜) S 0.5 = diagPow (𝕜 := 𝕜) S 1 := by
  rw [diagPow_mul_diagPow]
  unfold diagPow
  congr 1
  funext i
  congr 1
  rcases (hS i).eq_or_lt with h | h
  · rw [← h, Real.zero_rpow (by norm_num), Real.zero_rpow (by norm_num), zero_mul]
  · rw [← Real.rpow_add h]; norm_num

/-- Squares with weights as squares of scaled vectors. -/
theorem sumSquares_half (hS : ∀ i, 0 ≤ S i) (x : Fin N → 𝕜) :
    sumSquares (diagPow (𝕜 := 𝕜) S 0.5 *ᵥ x) = weightedSquares S x := by
  unfold sumSquares weightedSquares
  refine Finset.sum_congr rfl fun i _ => ?_
  rw [diagPow_mulVec, norm_mul, RCLike.norm_ofReal, abs_of_nonneg (Real.rpow_nonneg (hS i) _), mul_pow,
    ← Real.rpow_natCast, ← Real.rpow_mul (hS i)]
  norm_num

theorem sumSquares_neg_half (hS : ∀ i, 0 ≤ S i) (x : Fin N → 𝕜) :
    sumSquares (diagPow (𝕜 := 𝕜) S (-0.5) *ᵥ x) = weightedSquares (fun i => (S i)⁻¹) x := by
  unfold sumSquares weightedSquares
  refine Finset.sum_congr rfl fun i _ => ?_
  rw [diagPow_mulVec, norm_mul, RCLike.norm_ofReal, abs_of_nonneg (Real.rpow_nonneg (hS i) _), mul_pow,
    ← Real.rpow_natCast, ← Real.rpow_mul (hS i)]
  norm_num [Real.rpow_neg_one]

/-- Scaling and weighting with the inverse does not make vectors longer. -/
theorem weighted_half_le (hS : ∀ i, 0 ≤ S i) (x : Fin N → 𝕜) :
    weightedSquares (fun i => (S i)⁻¹) (diagPow (𝕜 := 𝕜) S 0.5 *ᵥ x) ≤ sumSquares x := by
  unfold sumSquares weightedSquares
  refine Finset.sum_le_sum fun i _ => ?_
  rw [diagPow_mulVec, norm_mul, RCLike.norm_ofReal, abs_of_nonneg (Real.rpow_nonneg (hS i) _), mul_pow,
    ← Real.rpow_natCast, ← Real.rpow_mul (hS i), ← mul_assoc]
  rcases (hS i).eq_or_lt with h | h
  · dsimp only
    rw [← h]; simp
  · norm_num [inv_mul_cancel₀ h.ne']

theorem weighted_neg_half_le (hS : ∀ i, 0 ≤ S i) (x : Fin N → 𝕜) :
    weightedSquares S (diagPow (𝕜 := 𝕜) S (-0.5) *ᵥ x) ≤ sumSquares x := by
  unfold sumSquares weightedSquares
  refine Finset.sum_le_sum fun i _ => ?_
  rw [diagPow_mulVec, norm_mul, RCLike.norm_ofReal, abs_of_nonneg (Real.rpow_nonneg (hS i) _), mul_pow,
    ← Real.rpow_natCast, ← Real.rpow_mul (hS i), ← mul_assoc]
  rcases (hS i).eq_or_lt with h | h
  · rw [← h]; simp
  · norm_num [Real.rpow_neg_one, mul_inv_cancel₀ h.ne']

variable (hS : ∀ i, 0 ≤ S i) (hU : Uᴴ * U = 1) (hV : Vᴴ * V = 1) (hH : H = U * diagPow (𝕜 := 𝕜) S 1 * Vᴴ)
include hS hU hV hH

theorem full_left : diagPow (𝕜 := 𝕜) S (-0.5) * (Uᴴ * H) = diagPow (𝕜 := 𝕜) S 0.5 * Vᴴ := by
  rw [hH, Matrix.mul_assoc U, ← Matrix.mul_assoc Uᴴ, hU, Matrix.one_mul, ← Matrix.mul_assoc, diagPow_neg_half_one hS]

theorem full_right : H * (V * diagPow (𝕜 := 𝕜) S (-0.5)) = U * diagPow (𝕜 := 𝕜) S 0.5 := by
  rw [hH, Matrix.mul_assoc _ Vᴴ, ← Matrix.mul_assoc Vᴴ, hV, Matrix.one_mul, Matrix.mul_assoc,
    diagPow_one_neg_half hS]

variable (hsh : IsShift H H' K L E F)
include hsh

/-- States that are reached. -/
theorem full_step_ctrl (x : Fin N → 𝕜) (u : π → 𝕜) :
    fullA H' U V S *ᵥ x + fullB E V S *ᵥ u =
      diagPow (𝕜 := 𝕜) S 0.5 *ᵥ (Vᴴ *ᵥ (K *ᵥ (V *ᵥ (diagPow (𝕜 := 𝕜) S (-0.5) *ᵥ x)) + E *ᵥ u)) := by
  have h1 : fullA H' U V S = diagPow (𝕜 := 𝕜) S 0.5 * Vᴴ * (K * (V * diagPow (𝕜 := 𝕜) S (-0.5))) := by
    rw [← full_left hS hU hV hH]
    unfold fullA
    rw [hsh.right]
    simp only [Matrix.mul_assoc]
  rw [h1]
  unfold fullB
  simp only [mulVec_add, mulVec_mulVec, Matrix.mul_assoc]

theorem full_step_obs (x : Fin N → 𝕜) :
    fullA H' U V S *ᵥ x =
      diagPow (𝕜 := 𝕜) S (-0.5) *ᵥ (Uᴴ *ᵥ (L *ᵥ (U *ᵥ (diagPow (𝕜 := 𝕜) S 0.5 *ᵥ x)))) := by
  have h1 : fullA H' U V S = diagPow (𝕜 := 𝕜) S (-0.5) * (Uᴴ * (L * (U * diagPow (𝕜 := 𝕜) S 0.5))) := by
    rw [← full_right hS hU hV hH]
    unfold fullA
    rw [hsh.left]
    simp only [Matrix.mul_assoc]
  rw [h1]
  simp only [mulVec_mulVec, Matrix.mul_assoc]

theorem full_ctrl (x : Fin N → 𝕜) (u : π → 𝕜) :
    weightedSquares (fun i => (S i)⁻¹) (fullA H' U V S *ᵥ x + fullB E V S *ᵥ u) ≤
      weightedSquares (fun i => (S i)⁻¹) x + sumSquares u := by
  rw [full_step_ctrl hS hU hV hH hsh]
  refine (weighted_half_le hS _).trans ((sumSquares_bessel hV _).trans ((hsh.ctrl _ _).trans (le_of_eq ?_)))
  rw [sumSquares_isometry hV, sumSquares_neg_half hS]

theorem full_obs (x : Fin N → 𝕜) :
    weightedSquares S (fullA H' U V S *ᵥ x) + sumSquares (fullC F U S *ᵥ x) ≤ weightedSquares S x := by
  rw [full_step_obs hS hU hV hH hsh]
  have h1 := (weighted_neg_half_le hS (Uᴴ *ᵥ (L *ᵥ (U *ᵥ (diagPow (𝕜 := 𝕜) S 0.5 *ᵥ x))))).trans (sumSquares_bessel hU _)
  have h2 := hsh.obs (U *ᵥ (diagPow (𝕜 := 𝕜) S 0.5 *ᵥ x))
  rw [sumSquares_isometry hU, sumSquares_half hS] at h2
  have h3 : fullC F U S *ᵥ x = F *ᵥ (U *ᵥ (diagPow (𝕜 := 𝕜) S 0.5 *ᵥ x)) := by
    unfold fullC
    simp only [mulVec_mulVec, Matrix.mul_assoc]
  rw [h3]
  linarith

/-- The full model has the shifted inputs as its states. -/
theorem full_state (w : ν → 𝕜) (u : π → 𝕜) :
    fullA H' U V S *ᵥ (diagPow (𝕜 := 𝕜) S 0.5 *ᵥ (Vᴴ *ᵥ w)) + fullB E V S *ᵥ u =
      diagPow (𝕜 := 𝕜) S 0.5 *ᵥ (Vᴴ *ᵥ (K *ᵥ w + E *ᵥ u)) := by
  have h1 : fullA H' U V S * (diagPow (𝕜 := 𝕜) S 0.5 * Vᴴ) = diagPow (𝕜 := 𝕜) S 0.5 * Vᴴ * K := by
    have h2 : fullA H' U V S = diagPow (𝕜 := 𝕜) S (-0.5) * (Uᴴ * (L * (U * diagPow (𝕜 := 𝕜) S 0.5))) := by
      rw [← full_right hS hU hV hH]
      unfold fullA
      rw [hsh.left]
      simp only [Matrix.mul_assoc]
    have h3 : U * (diagPow (𝕜 := 𝕜) S 0.5 * (diagPow (𝕜 := 𝕜) S 0.5 * Vᴴ)) = H := by
      rw [← Matrix.mul_assoc (diagPow S 0.5), diagPow_half_half hS, ← Matrix.mul_assoc, ← hH]
    rw [h2]
    simp only [Matrix.mul_assoc]
    rw [h3, ← hsh.left, hsh.right, ← Matrix.mul_assoc Uᴴ, ← Matrix.mul_assoc (diagPow S (-0.5)),
      full_left hS hU hV hH, Matrix.mul_assoc]
  have h4 : fullA H' U V S *ᵥ (diagPow (𝕜 := 𝕜) S 0.5 *ᵥ (Vᴴ *ᵥ w)) = (diagPow (𝕜 := 𝕜) S 0.5 * Vᴴ * K) *ᵥ w := by
    rw [← h1]
    simp only [mulVec_mulVec, Matrix.mul_assoc]
  rw [h4]
  unfold fullB
  simp only [mulVec_add, mulVec_mulVec, Matrix.mul_assoc]

theorem full_output (w : ν → 𝕜) :
    fullC F U S *ᵥ (diagPow (𝕜 := 𝕜) S 0.5 *ᵥ (Vᴴ *ᵥ w)) = F *ᵥ (H *ᵥ w) := by
  unfold fullC
  rw [hH, ← diagPow_half_half hS]
  simp only [mulVec_mulVec, Matrix.mul_assoc]

end

/-! ### Truncation -/

/-- Only the first `k` entries. -/
def maskTo {N : Nat} (k : Nat) (x : Fin N → 𝕜) : Fin N → 𝕜 := fun i => if i.val < k then x i else 0

/-- States of the model with the first `k` states, in the coordinates of the full model. -/
noncomputable def maskStates {N : Nat} {π : Type*} [Fintype π] (A : Matrix (Fin N) (Fin N) 𝕜) (B : Matrix (Fin N) π 𝕜)
    (u : Nat → π → 𝕜) (k : Nat) : Nat → Fin N → 𝕜
  | 0 => 0
  | t + 1 => maskTo k (A *ᵥ maskStates A B u k t + B *ᵥ u t)

section
variable {π κ : Type*} [Fintype π] [Fintype κ] {N : Nat} {S : Fin N → ℝ}
variable {A : Matrix (Fin N) (Fin N) 𝕜} {B : Matrix (Fin N) π 𝕜} {C : Matrix κ (Fin N) 𝕜}

theorem norm_parallelogram (a b : 𝕜) : ‖a - b‖ ^ 2 + ‖a + b‖ ^ 2 = 2 * ‖a‖ ^ 2 + 2 * ‖b‖ ^ 2 := by
  have h1 : ∀ z : 𝕜, ‖z‖ ^ 2 = RCLike.re z ^ 2 + RCLike.im z ^ 2 := fun z => by
    rw [RCLike.norm_sq_eq_def]; ring
  simp only [h1, map_add, map_sub]
  ring

/-- Removing one more state. -/
theorem mask_entry (hS : ∀ i, 0 ≤ S i) (k : Fin N) (a b : Fin N → 𝕜) :
    weightedSquares S (maskTo (k + 1) a - maskTo k b) +
      S k ^ 2 * weightedSquares (fun i => (S i)⁻¹) (maskTo (k + 1) a + maskTo k b) ≤
    weightedSquares S (a - b) + S k ^ 2 * weightedSquares (fun i => (S i)⁻¹) (a + b) := by
  unfold weightedSquares
  rw [Finset.mul_sum, Finset.mul_sum, ← Finset.sum_add_distrib, ← Finset.sum_add_distrib]
  refine Finset.sum_le_sum fun i _ => ?_
  simp only [Pi.sub_apply, Pi.add_apply, maskTo]
  have hk := hS k
  have hi := hS i
  have hi' := inv_nonneg.mpr hi
  rcases lt_trichotomy i.val k.val with h | h | h
  · rw [if_pos (by omega), if_pos h]
  · obtain rfl : i = k := Fin.ext h
    rw [if_pos (by omega), if_neg (by omega), sub_zero, add_zero]
    have hinv : S i ^ 2 * (S i)⁻¹ = S i := by
      rcases hi.eq_or_lt with h0 | h0
      · rw [← h0]; simp
      · field_simp
    rw [← mul_assoc, ← mul_assoc, hinv]
    have := norm_parallelogram (a i) (b i)
    nlinarith [mul_nonneg hi (sq_nonneg ‖b i‖)]
  · rw [if_neg (by omega), if_neg (by omega)]
    simp only [sub_zero, add_zero, norm_zero, ne_eq, OfNat.ofNat_ne_zero, not_false_eq_true, zero_pow, mul_zero]
    positivity

/-- Dissipation of the difference between models with `k + 1` and with `k` states. -/
theorem mask_dissipation (hS : ∀ i, 0 ≤ S i)
    (hobs : ∀ x, weightedSquares S (A *ᵥ x) + sumSquares (C *ᵥ x) ≤ weightedSquares S x)
    (hctrl : ∀ x u, weightedSquares (fun i => (S i)⁻¹) (A *ᵥ x + B *ᵥ u) ≤
      weightedSquares (fun i => (S i)⁻¹) x + sumSquares u) (u : Nat → π → 𝕜) (k : Fin N) (T : Nat) :
    weightedSquares S (maskStates A B u (k + 1) T - maskStates A B u k T) +
      S k ^ 2 * weightedSquares (fun i => (S i)⁻¹) (maskStates A B u (k + 1) T + maskStates A B u k T) +
      signalEnergy T (fun t => C *ᵥ maskStates A B u (k + 1) t - C *ᵥ maskStates A B u k t) ≤
    4 * S k ^ 2 * signalEnergy T u := by
  induction T with
  | zero => simp [maskStates, signalEnergy, weightedSquares]
  | succ T ih =>
    unfold signalEnergy at ih ⊢
    rw [Finset.sum_range_succ, Finset.sum_range_succ]
    rw [maskStates, maskStates]
    have h1 := mask_entry hS k (A *ᵥ maskStates A B u (k + 1) T + B *ᵥ u T) (A *ᵥ maskStates A B u k T + B *ᵥ u T)
    have h2 := hobs (maskStates A B u (k + 1) T - maskStates A B u k T)
    have h3 := hctrl (maskStates A B u (k + 1) T + maskStates A B u k T) (u T + u T)
    have e1 : A *ᵥ maskStates A B u (k + 1) T + B *ᵥ u T - (A *ᵥ maskStates A B u k T + B *ᵥ u T) =
        A *ᵥ (maskStates A B u (k + 1) T - maskStates A B u k T) := by
      rw [mulVec_sub]; abel
    have e2 : A *ᵥ maskStates A B u (k + 1) T + B *ᵥ u T + (A *ᵥ maskStates A B u k T + B *ᵥ u T) =
        A *ᵥ (maskStates A B u (k + 1) T + maskStates A B u k T) + B *ᵥ (u T + u T) := by
      rw [mulVec_add, mulVec_add]; abel
    have e3 : sumSquares (u T + u T) = 4 * sumSquares (u T) := by
      unfold sumSquares
      rw [Finset.mul_sum]
      refine Finset.sum_congr rfl fun i _ => ?_
      rw [Pi.add_apply, ← two_mul, norm_mul, RCLike.norm_ofNat]
      ring
    rw [e1, e2] at h1
    rw [e3] at h3
    rw [mulVec_sub C] at h2
    have h4 := mul_le_mul_of_nonneg_left h3 (sq_nonneg (S k))
    linarith

/-- The norm of a signal. -/
theorem signalEnergy_nonneg (T : Nat) (y : Nat → κ → 𝕜) : 0 ≤ signalEnergy T y :=
  Finset.sum_nonneg fun _ _ => sumSquares_nonneg _

theorem signalEnergy_norm (T : Nat) (y : Nat → κ → 𝕜) :
    √(signalEnergy T y) = ‖(WithLp.toLp 2 fun p : Fin T × κ => y p.1 p.2 : EuclideanSpace 𝕜 (Fin T × κ))‖ := by
  rw [EuclideanSpace.norm_eq]
  congr 1
  unfold signalEnergy sumSquares
  rw [Fintype.sum_prod_type, Finset.sum_range]

theorem signalEnergy_triangle (T : Nat) (x y z : Nat → κ → 𝕜) :
    √(signalEnergy T (fun t => x t - z t)) ≤
      √(signalEnergy T fun t => x t - y t) + √(signalEnergy T fun t => y t - z t) := by
  rw [signalEnergy_norm, signalEnergy_norm, signalEnergy_norm]
  refine le_trans (le_of_eq ?_) (norm_add_le _ _)
  congr 1
  ext p
  simp

/-- Twice the sum of neglected singular values. -/
theorem mask_error (hS : ∀ i, 0 ≤ S i)
    (hobs : ∀ x, weightedSquares S (A *ᵥ x) + sumSquares (C *ᵥ x) ≤ weightedSquares S x)
    (hctrl : ∀ x u, weightedSquares (fun i => (S i)⁻¹) (A *ᵥ x + B *ᵥ u) ≤
      weightedSquares (fun i => (S i)⁻¹) x + sumSquares u) (u : Nat → π → 𝕜) (T : Nat) (d : Nat) : ∀ k, k + d = N →
    √(signalEnergy T fun t => C *ᵥ maskStates A B u N t - C *ᵥ maskStates A B u k t) ≤
      2 * (∑ i : Fin N, if k ≤ i.val then S i else 0) * √(signalEnergy T u) := by
  induction d with
  | zero =>
    intro k hk
    obtain rfl : k = N := hk
    simp only [sub_self]
    have : signalEnergy T (fun _ => (0 : κ → 𝕜)) = 0 := by simp [signalEnergy, sumSquares]
    rw [this, Real.sqrt_zero]
    have : 0 ≤ ∑ i : Fin k, if k ≤ i.val then S i else 0 := Finset.sum_nonneg fun i _ => by
      split
      · exact hS i
      · exact le_rfl
    positivity
  | succ d ih =>
    intro k hk
    have h1 := ih (k + 1) (by omega)
    have h2 := mask_dissipation hS hobs hctrl u ⟨k, by omega⟩ T
    dsimp only at h2
    have h3 : signalEnergy T (fun t => C *ᵥ maskStates A B u (k + 1) t - C *ᵥ maskStates A B u k t) ≤
        (2 * S ⟨k, by omega⟩ * √(signalEnergy T u)) ^ 2 := by
      rw [mul_pow, Real.sq_sqrt (signalEnergy_nonneg T u)]
      have p1 := weightedSquares_nonneg hS (maskStates A B u (k + 1) T - maskStates A B u k T)
      have p2 := mul_nonneg (sq_nonneg (S ⟨k, by omega⟩)) (weightedSquares_nonneg (w := fun i => (S i)⁻¹)
        (fun i => inv_nonneg.mpr (hS i)) (maskStates A B u (k + 1) T + maskStates A B u k T))
      nlinarith
    have h4 := Real.sqrt_le_sqrt h3
    rw [Real.sqrt_sq (mul_nonneg (mul_nonneg zero_le_two (hS _)) (Real.sqrt_nonneg _))] at h4
    refine (signalEnergy_triangle T _ (fun t => C *ᵥ maskStates A B u (k + 1) t) _).trans ?_
    have h5 : (∑ i : Fin N, if k ≤ i.val then S i else 0) =
        (∑ i : Fin N, if k + 1 ≤ i.val then S i else 0) + S ⟨k, by omega⟩ := by
      have h6 : ∀ i : Fin N, (if k ≤ i.val then S i else 0) =
          (if k + 1 ≤ i.val then S i else 0) + if i = ⟨k, by omega⟩ then S i else 0 := by
        intro i
        by_cases h : i = ⟨k, by omega⟩
        · subst h; simp
        · have : i.val ≠ k := fun e => h (Fin.ext e)
          rw [if_neg h, add_zero]
          by_cases h' : k ≤ i.val
          · rw [if_pos h', if_pos (by omega)]
          · rw [if_neg h', if_neg (by omega)]
      rw [Finset.sum_congr rfl fun i _ => h6 i, Finset.sum_add_distrib, Finset.sum_ite_eq' Finset.univ]
      simp
    rw [h5]
    linarith

end

/-! ### Decay -/

section
variable {μ ν π κ : Type*} [Fintype μ] [Fintype ν] [Fintype π] [Fintype κ] {N : Nat}
variable {H H' : Matrix μ ν 𝕜} {K : Matrix ν ν 𝕜} {L : Matrix μ μ 𝕜} {E : Matrix ν π 𝕜} {F : Matrix κ μ 𝕜}
variable {U : Matrix μ (Fin N) 𝕜} {V : Matrix ν (Fin N) 𝕜} {S : Fin N → ℝ}

theorem sumSquares_norm {ι : Type*} [Fintype ι] (x : ι → 𝕜) :
    √(sumSquares x) = ‖(WithLp.toLp 2 x : EuclideanSpace 𝕜 ι)‖ := by
  rw [EuclideanSpace.norm_eq]
  rfl

theorem sumSquares_add_le {ι : Type*} [Fintype ι] (x y : ι → 𝕜) : √(sumSquares (x + y)) ≤ √(sumSquares x) + √(sumSquares y) := by
  rw [sumSquares_norm, sumSquares_norm, sumSquares_norm]
  exact norm_add_le _ _

/-- Sequences that nearly follow a contraction. -/
theorem near_power [DecidableEq μ] (hL : ∀ y, sumSquares (L *ᵥ y) ≤ sumSquares y) (y : Nat → μ → 𝕜) (n : Nat) :
    √(sumSquares (y n - L ^ n *ᵥ y 0)) ≤ ∑ j ∈ Finset.range n, √(sumSquares (y (j + 1) - L *ᵥ y j)) := by
  induction n with
  | zero => simp [sumSquares]
  | succ n ih =>
    rw [Finset.sum_range_succ]
    have e : y (n + 1) - L ^ (n + 1) *ᵥ y 0 = L *ᵥ (y n - L ^ n *ᵥ y 0) + (y (n + 1) - L *ᵥ y n) := by
      rw [mulVec_sub, mulVec_mulVec, ← pow_succ']; abel
    rw [e]
    exact (sumSquares_add_le _ _).trans (add_le_add ((Real.sqrt_le_sqrt (hL _)).trans ih) le_rfl)

/-- Losses add up to a fixed part of the energy. -/
theorem near_nilpotent [DecidableEq μ] (hL : ∀ y, sumSquares (L *ᵥ y) ≤ sumSquares y) (y : Nat → μ → 𝕜)
    (hy : ∀ j, sumSquares (y (j + 1) - L *ᵥ y j) ≤ sumSquares (y j) - sumSquares (y (j + 1))) (n : Nat) (hn : L ^ n = 0) :
    (n + 1) * sumSquares (y n) ≤ n * sumSquares (y 0) := by
  have h1 := near_power hL y n
  rw [hn, zero_mulVec, sub_zero] at h1
  have h2 := sq_le_sq' (by have := Real.sqrt_nonneg (sumSquares (y n)); have := h1; linarith) h1
  rw [Real.sq_sqrt (sumSquares_nonneg _)] at h2
  have h3 := sq_sum_le_card_mul_sum_sq (s := Finset.range n) (f := fun j => √(sumSquares (y (j + 1) - L *ᵥ y j)))
  have h4 : ∑ j ∈ Finset.range n, √(sumSquares (y (j + 1) - L *ᵥ y j)) ^ 2 ≤
      ∑ j ∈ Finset.range n, (sumSquares (y j) - sumSquares (y (j + 1))) := by
    refine Finset.sum_le_sum fun j _ => ?_
    rw [Real.sq_sqrt (sumSquares_nonneg _)]
    exact hy j
  rw [Finset.sum_range_sub'] at h4
  rw [Finset.card_range] at h3
  have h5 := mul_le_mul_of_nonneg_left h4 (Nat.cast_nonneg (α := ℝ) n)
  linarith

variable (hS : ∀ i, 0 ≤ S i) (hU : Uᴴ * U = 1) (hV : Vᴴ * V = 1) (hH : H = U * diagPow (𝕜 := 𝕜) S 1 * Vᴴ)
variable (hsh : IsShift H H' K L E F)
include hS hU hV hH hsh

/-- One step of the truncated model. -/
theorem mask_step (k : Nat) (hk : ∀ i : Fin N, i.val < k → 0 < S i) (x : Fin N → 𝕜) :
    sumSquares (U *ᵥ (diagPow (𝕜 := 𝕜) S 0.5 *ᵥ maskTo k (fullA H' U V S *ᵥ x)) -
      L *ᵥ (U *ᵥ (diagPow (𝕜 := 𝕜) S 0.5 *ᵥ x))) ≤
    sumSquares (U *ᵥ (diagPow (𝕜 := 𝕜) S 0.5 *ᵥ x)) -
      sumSquares (U *ᵥ (diagPow (𝕜 := 𝕜) S 0.5 *ᵥ maskTo k (fullA H' U V S *ᵥ x))) := by
  rw [full_step_obs hS hU hV hH hsh]
  have hobs := hsh.obs (U *ᵥ (diagPow (𝕜 := 𝕜) S 0.5 *ᵥ x))
  have hF := sumSquares_nonneg (F *ᵥ (U *ᵥ (diagPow (𝕜 := 𝕜) S 0.5 *ᵥ x)))
  generalize U *ᵥ (diagPow (𝕜 := 𝕜) S 0.5 *ᵥ x) = y at hobs hF ⊢
  have h1 : diagPow (𝕜 := 𝕜) S 0.5 *ᵥ maskTo k (diagPow (𝕜 := 𝕜) S (-0.5) *ᵥ (Uᴴ *ᵥ (L *ᵥ y))) =
      maskTo k (Uᴴ *ᵥ (L *ᵥ y)) := by
    funext i
    rw [diagPow_mulVec]
    unfold maskTo
    split
    · rename_i hi
      rw [diagPow_mulVec, ← mul_assoc, ← RCLike.ofReal_mul, ← Real.rpow_add (hk i hi)]
      norm_num
    · rw [mul_zero]
  rw [h1]
  have h2 : RCLike.re (star (U *ᵥ maskTo k (Uᴴ *ᵥ (L *ᵥ y))) ⬝ᵥ (L *ᵥ y)) = sumSquares (maskTo k (Uᴴ *ᵥ (L *ᵥ y))) := by
    rw [star_mulVec, ← dotProduct_mulVec, sumSquares_re]
    congr 1
    unfold dotProduct maskTo
    refine Finset.sum_congr rfl fun i _ => ?_
    simp only [Pi.star_apply]
    split
    · rfl
    · rw [star_zero, zero_mul, zero_mul]
  rw [sumSquares_sub, h2, sumSquares_isometry hU]
  linarith

/-- **Decay.** -/
theorem mask_decay [DecidableEq μ] (k : Nat) (hk : ∀ i : Fin N, i.val < k → 0 < S i) (x : Nat → Fin N → 𝕜)
    (hx : ∀ t, x (t + 1) = maskTo k (fullA H' U V S *ᵥ x t)) (n : Nat) (hn : L ^ n = 0) :
    (n + 1) * weightedSquares S (x n) ≤ n * weightedSquares S (x 0) := by
  have h := near_nilpotent (L := L) (fun y => by have := hsh.obs y; have := sumSquares_nonneg (F *ᵥ y); linarith)
    (fun t => U *ᵥ (diagPow (𝕜 := 𝕜) S 0.5 *ᵥ x t)) (fun j => by
      rw [hx j]
      exact mask_step hS hU hV hH hsh k hk (x j)) n hn
  rwa [sumSquares_isometry hU, sumSquares_isometry hU, sumSquares_half hS, sumSquares_half hS] at h

end

end Modred
