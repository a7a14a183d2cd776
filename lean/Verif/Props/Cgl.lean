import Verif.Model.Cgl
import Verif.Spec.Cgl
import Verif.Props.Bpod
import Verif.Props.Galerkin
import Verif.Props.HermiteRoots

/-!
# C74: the example of the complex Ginzburg-Landau equation
-/

namespace Modred

open Matrix

variable {𝕜 : Type*} [RCLike 𝕜]

/-! ### Weights -/

/-- **C74.** The weights are those of the trapezoidal rule. -/
theorem C74_weights_trapezoidal {N : Nat} (x w : Fin (N + 1) → ℝ) (hw : cglWeights x = .ok w) (f : Fin (N + 1) → 𝕜) :
    ∑ i, (w i : 𝕜) * f i = trapezoidalRule x f := by
  unfold cglWeights at hw
  split at hw
  · rename_i h2
    cases hw
    let a : Fin (N + 1) → ℝ := fun i => if h : i.val < N then (x ⟨i + 1, by omega⟩ - x i) / 2 else 0
    let b : Fin (N + 1) → ℝ := fun i => if h : i.val = 0 then 0 else (x i - x ⟨i - 1, by omega⟩) / 2
    have hab : ∀ i : Fin (N + 1), (if i.val = 0 then 0.5 * (x ⟨1, by omega⟩ - x ⟨0, by omega⟩)
      else if hi : i.val + 1 < N + 1 then 0.5 * (x ⟨i + 1, hi⟩ - x ⟨i - 1, by omega⟩)
      else 0.5 * (x ⟨N + 1 - 1, by omega⟩ - x ⟨N + 1 - 2, by omega⟩)) = a i + b i := by
      intro i
      have hi := i.isLt
      by_cases h0 : i.val = 0
      · have e : x i = x ⟨0, by omega⟩ := congrArg x (Fin.ext h0)
        have e1 : ∀ h, x ⟨i + 1, h⟩ = x ⟨1, by omega⟩ := fun h => congrArg x (Fin.ext (by dsimp only; omega))
        rw [if_pos h0]
        simp only [a, b, dif_pos h0]
        rw [dif_pos (by omega), e1, e]
        norm_num
        ring
      · rw [if_neg h0]
        simp only [a, b, dif_neg h0]
        by_cases hN : i.val + 1 < N + 1
        · rw [dif_pos hN, dif_pos (by omega)]
          ring
        · rw [dif_neg hN, dif_neg (by omega)]
          have e : x i = x ⟨N + 1 - 1, by omega⟩ := congrArg x (Fin.ext (by dsimp only; omega))
          have e2 : ∀ h, x ⟨i - 1, h⟩ = x ⟨N + 1 - 2, by omega⟩ := fun h => congrArg x (Fin.ext (by dsimp only; omega))
          rw [e2, e]
          ring
    simp only [hab, RCLike.ofReal_add, add_mul, Finset.sum_add_distrib]
    rw [Fin.sum_univ_castSucc, Fin.sum_univ_succ (fun i => (b i : 𝕜) * f i)]
    have ha : ∀ i : Fin N, a i.castSucc = (x i.succ - x i.castSucc) / 2 := by
      intro i
      simp only [a]
      rw [dif_pos (show i.castSucc.val < N from i.isLt)]
      rfl
    have hb : ∀ i : Fin N, b i.succ = (x i.succ - x i.castSucc) / 2 := by
      intro i
      simp only [b]
      rw [dif_neg (by simp)]
      rfl
    have ha' : a (Fin.last N) = 0 := by simp [a]
    have hb' : b 0 = 0 := by simp [b]
    simp only [ha, hb, ha', hb', RCLike.ofReal_zero, zero_mul, add_zero, zero_add]
    rw [← Finset.sum_add_distrib]
    refine Finset.sum_congr rfl fun i _ => ?_
    push_cast
    ring
  · cases hw

/-- **C74.** They are positive if the nodes are in ascending order. -/
theorem C74_weights_positive {n : Nat} (x w : Fin n → ℝ) (hx : StrictMono x) (hw : cglWeights x = .ok w) (i : Fin n) :
    0 < w i := by
  unfold cglWeights at hw
  split at hw
  · cases hw
    dsimp only
    have hi := i.isLt
    split
    · have := hx (a := ⟨0, by omega⟩) (b := ⟨1, by omega⟩) (Fin.mk_lt_mk.mpr (by omega))
      norm_num
      linarith
    · split
      · have := hx (a := ⟨i - 1, by omega⟩) (b := ⟨i + 1, by omega⟩) (Fin.mk_lt_mk.mpr (by omega))
        norm_num
        linarith
      · have := hx (a := ⟨n - 2, by omega⟩) (b := ⟨n - 1, by omega⟩) (Fin.mk_lt_mk.mpr (by omega))
        norm_num
        linarith
  · cases hw

/-- Three nodes. -/
example : ∃ w, cglWeights ![0, 1, 4] = .ok w ∧ w 0 = 1 / 2 ∧ w 1 = 2 ∧ w 2 = 3 / 2 := by
  refine ⟨_, rfl, ?_, ?_, ?_⟩ <;> norm_num

/-! ### The adjoint system -/

theorem cglSystem_cases {N : Nat} {svd : Matrix (Fin (N + 1)) (Fin (N + 1)) 𝕜 → SvdOut 𝕜 (N + 1) (N + 1)} {steps : Nat}
    {x : Fin (N + 1) → ℝ} {A Adiscrete : Matrix (Fin (N + 1)) (Fin (N + 1)) 𝕜} {sensor : Fin (N + 1) → ℝ}
    {s : CglSystem 𝕜 N} (hs : cglSystem svd steps x A Adiscrete sensor = .ok s) :
    cglWeights x = .ok s.weights ∧ (∀ i, s.weights i ≠ 0) ∧ s.A = A ∧
      s.C = (fun i => (sensor i : 𝕜) * s.weights i) ∧
      s.Aadj = diagonal (fun i => (s.weights i : 𝕜)⁻¹) * (Aᴴ * diagonal fun i => (s.weights i : 𝕜)) ∧
      s.Cadj = (fun i => (sensor i : 𝕜)) ∧
      ∃ v, (cglGrowth svd (diagPow (𝕜 := 𝕜) s.weights 0.5) (diagPow (𝕜 := 𝕜) s.weights (-0.5)) Adiscrete steps).optimalDist =
        some v ∧ s.B = -(diagPow (𝕜 := 𝕜) s.weights (-0.5) *ᵥ v) := by
  unfold cglSystem at hs
  split at hs
  · cases hs
  rename_i w hw
  dsimp only at hs
  split at hs
  · cases hs
  rename_i invM hinv
  split at hs
  · cases hs
  rename_i v hv
  cases hs
  dsimp only
  unfold npInv at hinv
  split at hinv
  · rename_i hu
    cases hinv
    rw [det_diagonal, isUnit_iff_ne_zero, Finset.prod_ne_zero_iff] at hu
    have hne : ∀ i, (w i : 𝕜) ≠ 0 := fun i => hu i (Finset.mem_univ _)
    have hinv : (diagonal fun i => (w i : 𝕜))⁻¹ = diagonal fun i => (w i : 𝕜)⁻¹ := by
      refine inv_eq_left_inv ?_
      rw [diagonal_mul_diagonal, ← diagonal_one]
      congr 1
      ext i
      exact inv_mul_cancel₀ (hne i)
    refine ⟨hw, fun i h => hne i (by rw [h, RCLike.ofReal_zero]), rfl, ?_, by rw [hinv], ?_, v, hv, rfl⟩
    · ext i
      rw [vecMul_diagonal]
    · rw [hinv]
      ext i
      rw [mulVec_diagonal, Pi.star_apply, vecMul_diagonal, star_mul', RCLike.star_def, RCLike.conj_ofReal,
        RCLike.conj_ofReal]
      have := hne i
      field_simp
  · cases hinv

theorem nodeIp_mulVec {n : Nat} (w : Fin n → ℝ) (hw : ∀ i, w i ≠ 0) (A : Matrix (Fin n) (Fin n) 𝕜) (u v : Fin n → 𝕜) :
    nodeIp w ((diagonal (fun i => (w i : 𝕜)⁻¹) * (Aᴴ * diagonal fun i => (w i : 𝕜))) *ᵥ u) v = nodeIp w u (A *ᵥ v) := by
  have h1 : ∀ i, star (((diagonal (fun i => (w i : 𝕜)⁻¹) * (Aᴴ * diagonal fun i => (w i : 𝕜))) *ᵥ u) i) * (w i * v i) =
      ∑ k, star (u k) * (w k * (A k i * v i)) := by
    intro i
    have hi : (w i : 𝕜) ≠ 0 := by exact_mod_cast hw i
    rw [← mulVec_mulVec, mulVec_diagonal, ← mulVec_mulVec, mulVec, dotProduct, star_mul', star_sum, Finset.mul_sum,
      Finset.sum_mul]
    refine Finset.sum_congr rfl fun k _ => ?_
    rw [mulVec_diagonal, conjTranspose_apply, star_mul', star_mul', star_star, RCLike.star_def, map_inv₀,
      RCLike.conj_ofReal, RCLike.conj_ofReal]
    field_simp
  unfold nodeIp
  simp only [h1]
  rw [Finset.sum_comm]
  refine Finset.sum_congr rfl fun k _ => ?_
  rw [mulVec, dotProduct, Finset.mul_sum, Finset.mul_sum]

/-- **C74.** The adjoint system is the adjoint in the weighted inner product. -/
theorem C74_adjoint {N : Nat} (svd : Matrix (Fin (N + 1)) (Fin (N + 1)) 𝕜 → SvdOut 𝕜 (N + 1) (N + 1)) (steps : Nat)
    (x : Fin (N + 1) → ℝ) (A Adiscrete : Matrix (Fin (N + 1)) (Fin (N + 1)) 𝕜) (sensor : Fin (N + 1) → ℝ)
    (s : CglSystem 𝕜 N) (hs : cglSystem svd steps x A Adiscrete sensor = .ok s) :
    (∀ u v, nodeIp s.weights (s.Aadj *ᵥ u) v = nodeIp s.weights u (s.A *ᵥ v)) ∧
    (∀ v, nodeIp s.weights s.Cadj v = s.C ⬝ᵥ v) ∧
    ∀ v, s.C ⬝ᵥ v = trapezoidalRule x fun i => (sensor i : 𝕜) * v i := by
  obtain ⟨h1, h2, h3, h4, h5, h6, -⟩ := cglSystem_cases hs
  refine ⟨fun u v => ?_, fun v => ?_, fun v => ?_⟩
  · rw [h5, h3, nodeIp_mulVec _ h2]
  · rw [h6, h4]
    unfold nodeIp
    refine Finset.sum_congr rfl fun i _ => ?_
    rw [RCLike.star_def, RCLike.conj_ofReal, mul_assoc]
  · rw [← C74_weights_trapezoidal x _ h1, h4]
    refine Finset.sum_congr rfl fun i _ => ?_
    ring

/-! ### The optimal disturbance -/

/-- The sum of squared absolute values. -/
noncomputable def vecSq {n : Nat} (v : Fin n → 𝕜) : ℝ := ∑ i, ‖v i‖ ^ 2

theorem vecSq_ofReal {n : Nat} (v : Fin n → 𝕜) : ((vecSq v : ℝ) : 𝕜) = star v ⬝ᵥ v := by
  unfold vecSq dotProduct
  rw [RCLike.ofReal_sum]
  refine Finset.sum_congr rfl fun i _ => ?_
  rw [RCLike.ofReal_pow, ← RCLike.conj_mul]
  rfl

theorem vecSq_nonneg {n : Nat} (v : Fin n → 𝕜) : 0 ≤ vecSq v := Finset.sum_nonneg fun _ _ => sq_nonneg _

theorem vecSq_neg {n : Nat} (v : Fin n → 𝕜) : vecSq (-v) = vecSq v := by
  unfold vecSq
  refine Finset.sum_congr rfl fun i _ => ?_
  rw [Pi.neg_apply, norm_neg]

theorem vecSq_eq_zero {n : Nat} (v : Fin n → 𝕜) (h : vecSq v ≤ 0) : v = 0 := by
  have h1 := (Finset.sum_eq_zero_iff_of_nonneg fun i _ => sq_nonneg ‖v i‖).mp (le_antisymm h (vecSq_nonneg v))
  ext i
  have := h1 i (Finset.mem_univ _)
  simpa using this

theorem star_mulVec_dot {m n : Nat} (a : Matrix (Fin m) (Fin n) 𝕜) (z : Fin n → 𝕜) (y : Fin m → 𝕜) :
    star (a *ᵥ z) ⬝ᵥ y = star z ⬝ᵥ (aᴴ *ᵥ y) := by
  rw [star_mulVec, ← dotProduct_mulVec]

theorem vecSq_isometry {m k : Nat} (U : Matrix (Fin m) (Fin k) 𝕜) (h : Uᴴ * U = 1) (z : Fin k → 𝕜) :
    vecSq (U *ᵥ z) = vecSq z := by
  have : ((vecSq (U *ᵥ z) : ℝ) : 𝕜) = (vecSq z : ℝ) := by
    rw [vecSq_ofReal, vecSq_ofReal, star_mulVec_dot, mulVec_mulVec, h, one_mulVec]
  exact_mod_cast this

theorem vecSq_coisometry {k n : Nat} (V : Matrix (Fin k) (Fin n) 𝕜) (h : V * Vᴴ = 1) (z : Fin n → 𝕜) :
    vecSq (V *ᵥ z) ≤ vecSq z := by
  have h1 : ((vecSq z : ℝ) : 𝕜) = (vecSq (V *ᵥ z) : ℝ) + (vecSq (z - Vᴴ *ᵥ (V *ᵥ z)) : ℝ) := by
    rw [vecSq_ofReal, vecSq_ofReal, vecSq_ofReal, star_sub, sub_dotProduct, dotProduct_sub, dotProduct_sub,
      star_mulVec_dot Vᴴ, star_mulVec_dot Vᴴ, conjTranspose_conjTranspose, mulVec_mulVec _ V Vᴴ, h, one_mulVec,
      ← star_mulVec_dot V]
    ring
  have h2 : vecSq z = vecSq (V *ᵥ z) + vecSq (z - Vᴴ *ᵥ (V *ᵥ z)) := by exact_mod_cast h1
  have := vecSq_nonneg (z - Vᴴ *ᵥ (V *ᵥ z))
  linarith

/-- The first singular value is the largest factor by which lengths grow. -/
theorem IsSvd.growth {m n : Nat} {a : Matrix (Fin m) (Fin n) 𝕜} {o : SvdOut 𝕜 m n} (h : IsSvd a o) (first : Fin (min m n))
    (hf : first.val = 0) (z : Fin n → 𝕜) : vecSq (a *ᵥ z) ≤ o.S first ^ 2 * vecSq z := by
  have h1 : a *ᵥ z = o.U *ᵥ (diagonal (fun i => (o.S i : 𝕜)) *ᵥ (o.Vh *ᵥ z)) := by
    rw [mulVec_mulVec, mulVec_mulVec, ← h.product]
  rw [h1, vecSq_isometry _ h.left]
  refine le_trans ?_ (mul_le_mul_of_nonneg_left (vecSq_coisometry _ h.right z) (sq_nonneg _))
  unfold vecSq
  rw [Finset.mul_sum]
  refine Finset.sum_le_sum fun i _ => ?_
  rw [mulVec_diagonal, norm_mul, mul_pow, RCLike.norm_ofReal, sq_abs]
  refine mul_le_mul_of_nonneg_right ?_ (sq_nonneg _)
  exact pow_le_pow_left₀ (h.nonneg i) (h.sorted (Fin.le_def.mpr (by omega))) 2

/-- It is attained. -/
theorem IsSvd.growth_attained {m n : Nat} {a : Matrix (Fin m) (Fin n) 𝕜} {o : SvdOut 𝕜 m n} (h : IsSvd a o)
    (i : Fin (min m n)) : vecSq (fun j => o.Vhᴴ j i) = 1 ∧ vecSq (a *ᵥ fun j => o.Vhᴴ j i) = o.S i ^ 2 := by
  have hv : (fun j => o.Vhᴴ j i) = o.Vhᴴ *ᵥ Pi.single i 1 := by
    rw [mulVec_single_one]
    rfl
  have h1 : vecSq (Pi.single i 1 : Fin (min m n) → 𝕜) = 1 := by
    unfold vecSq
    rw [Finset.sum_eq_single i]
    · simp
    · intro j _ hj
      simp [hj]
    · simp
  have h2 : a *ᵥ (o.Vhᴴ *ᵥ Pi.single i 1) = o.U *ᵥ (diagonal (fun i => (o.S i : 𝕜)) *ᵥ Pi.single i 1) := by
    conv_lhs => rw [h.product]
    rw [mulVec_mulVec, Matrix.mul_assoc, h.right, Matrix.mul_one, mulVec_mulVec]
  rw [hv, h2]
  refine ⟨?_, ?_⟩
  · rw [vecSq_isometry _ (by rw [conjTranspose_conjTranspose]; exact h.right), h1]
  · rw [vecSq_isometry _ h.left]
    unfold vecSq
    rw [Finset.sum_eq_single i]
    · rw [mulVec_diagonal, Pi.single_eq_same, mul_one, RCLike.norm_ofReal, sq_abs]
    · intro j _ hj
      rw [mulVec_diagonal, Pi.single_eq_of_ne hj, mul_zero, norm_zero, zero_pow two_ne_zero]
    · simp

theorem energy_eq {n : Nat} (w : Fin n → ℝ) (hw : ∀ i, 0 < w i) (v : Fin n → 𝕜) :
    energy w v = vecSq (diagPow (𝕜 := 𝕜) w 0.5 *ᵥ v) := by
  unfold energy vecSq diagPow
  refine Finset.sum_congr rfl fun i _ => ?_
  rw [mulVec_diagonal, norm_mul, mul_pow, RCLike.norm_ofReal, sq_abs, ← Real.rpow_natCast (w i ^ (0.5 : ℝ)), ← Real.rpow_mul (hw i).le]
  norm_num

/-- The loop keeps the largest growth so far. -/
structure GrowthInv {N : Nat} (Msqrt invMsqrt Ad : Matrix (Fin (N + 1)) (Fin (N + 1)) 𝕜) (k : Nat) (g : CglGrowth 𝕜 N) :
    Prop where
  power : g.expArray = Ad ^ k
  nonneg : 0 ≤ g.maxSingVal
  bound : ∀ j, 1 ≤ j → j ≤ k → ∀ v, vecSq ((Msqrt * (Ad ^ j * invMsqrt)) *ᵥ v) ≤ g.maxSingVal ^ 2 * vecSq v
  attained : ∀ d, g.optimalDist = some d → vecSq d = 1 ∧
    ∃ i, 1 ≤ i ∧ i ≤ k ∧ vecSq ((Msqrt * (Ad ^ i * invMsqrt)) *ᵥ d) = g.maxSingVal ^ 2
  none : g.optimalDist = none → g.maxSingVal = 0

theorem cglGrowth_inv {N : Nat} (svd : Matrix (Fin (N + 1)) (Fin (N + 1)) 𝕜 → SvdOut 𝕜 (N + 1) (N + 1))
    (hlib : ∀ a, IsSvd a (svd a)) (Msqrt invMsqrt Ad : Matrix (Fin (N + 1)) (Fin (N + 1)) 𝕜) (k : Nat) :
    GrowthInv Msqrt invMsqrt Ad k (cglGrowth svd Msqrt invMsqrt Ad k) := by
  induction k with
  | zero => exact ⟨(pow_zero _).symm, le_rfl, fun j h1 h2 => absurd h2 (by omega), fun d hd => (by cases hd), fun _ => rfl⟩
  | succ k ih =>
    obtain ⟨h1, h2, h3, h4, h5⟩ := ih
    unfold cglGrowth
    dsimp only
    have he : (cglGrowth svd Msqrt invMsqrt Ad k).expArray * Ad = Ad ^ (k + 1) := by rw [h1, pow_succ]
    rw [he]
    have hsv := hlib (Msqrt * (Ad ^ (k + 1) * invMsqrt))
    generalize svd (Msqrt * (Ad ^ (k + 1) * invMsqrt)) = o at hsv ⊢
    generalize cglGrowth svd Msqrt invMsqrt Ad k = g at h1 h2 h3 h4 h5 ⊢
    split
    · rename_i hlt
      refine ⟨rfl, hsv.nonneg _, fun j hj hjk v => ?_, fun d hd => ?_, fun h => by cases h⟩
      · rcases Nat.lt_or_ge k j with hk | hk
        · obtain rfl : j = k + 1 := by omega
          exact hsv.growth _ rfl v
        · refine (h3 j hj hk v).trans (mul_le_mul_of_nonneg_right ?_ (vecSq_nonneg v))
          exact pow_le_pow_left₀ h2 hlt.le 2
      · cases hd
        obtain ⟨k1, k2⟩ := hsv.growth_attained ⟨0, by omega⟩
        exact ⟨k1, k + 1, by omega, le_rfl, k2⟩
    · rename_i hlt
      refine ⟨rfl, h2, fun j hj hjk v => ?_, fun d hd => ?_, h5⟩
      · rcases Nat.lt_or_ge k j with hk | hk
        · obtain rfl : j = k + 1 := by omega
          refine (hsv.growth ⟨0, by omega⟩ rfl v).trans (mul_le_mul_of_nonneg_right ?_ (vecSq_nonneg v))
          exact pow_le_pow_left₀ (hsv.nonneg _) (not_lt.mp hlt) 2
        · exact h3 j hj hk v
      · obtain ⟨k1, i, k2, k3, k4⟩ := h4 d hd
        exact ⟨k1, i, k2, by omega, k4⟩

theorem halfPow_mul {n : Nat} (w : Fin n → ℝ) (hw : ∀ i, 0 < w i) (v : Fin n → 𝕜) :
    diagPow (𝕜 := 𝕜) w (-0.5) *ᵥ (diagPow (𝕜 := 𝕜) w 0.5 *ᵥ v) = v ∧
    diagPow (𝕜 := 𝕜) w 0.5 *ᵥ (diagPow (𝕜 := 𝕜) w (-0.5) *ᵥ v) = v := by
  rw [mulVec_mulVec, mulVec_mulVec, diagPow_mul _ hw, diagPow_mul _ hw, neg_add_cancel, add_neg_cancel, diagPow_zero,
    one_mulVec]
  exact ⟨rfl, rfl⟩

section

variable {N : Nat} (svd : Matrix (Fin (N + 1)) (Fin (N + 1)) 𝕜 → SvdOut 𝕜 (N + 1) (N + 1))
  (hlib : ∀ a, IsSvd a (svd a)) (steps : Nat) (x : Fin (N + 1) → ℝ) (hx : StrictMono x)
  (A Adiscrete : Matrix (Fin (N + 1)) (Fin (N + 1)) 𝕜) (sensor : Fin (N + 1) → ℝ)

include hlib hx in
/-- **C74.** The disturbance has energy one, and its energy after some number of steps is at least that of any other
disturbance with energy one after any number of steps. -/
theorem C74_optimal_disturbance (s : CglSystem 𝕜 N) (hs : cglSystem svd steps x A Adiscrete sensor = .ok s) :
    energy s.weights s.B = 1 ∧ ∃ i, 1 ≤ i ∧ i ≤ steps ∧ ∀ j, 1 ≤ j → j ≤ steps → ∀ v : Fin (N + 1) → 𝕜,
      energy s.weights (Adiscrete ^ j *ᵥ v) ≤ energy s.weights (Adiscrete ^ i *ᵥ s.B) * energy s.weights v := by
  obtain ⟨h1, -, -, -, -, -, d, h2, h3⟩ := cglSystem_cases hs
  have hw := C74_weights_positive x _ hx h1
  have g := cglGrowth_inv svd hlib (diagPow (𝕜 := 𝕜) s.weights 0.5) (diagPow (𝕜 := 𝕜) s.weights (-0.5)) Adiscrete steps
  obtain ⟨h4, i, h5, h6, h7⟩ := g.attained d h2
  refine ⟨?_, i, h5, h6, fun j hj hjs v => ?_⟩
  · rw [energy_eq _ hw, h3, mulVec_neg, vecSq_neg, (halfPow_mul _ hw d).2, h4]
  · have k1 := g.bound j hj hjs (diagPow (𝕜 := 𝕜) s.weights 0.5 *ᵥ v)
    rw [← h7, ← mulVec_mulVec, ← mulVec_mulVec, (halfPow_mul _ hw v).1, ← mulVec_mulVec, ← mulVec_mulVec] at k1
    rw [energy_eq _ hw, energy_eq _ hw, energy_eq _ hw v, h3, mulVec_neg, mulVec_neg, vecSq_neg]
    exact k1

include hlib hx in
/-- **C74.** The script finds a disturbance unless the state array of one step is zero, which it is not if it is an
exponential. -/
theorem C74_system_no_error (hN : 1 ≤ N) (hsteps : 1 ≤ steps) (hA : Adiscrete ≠ 0) :
    ∃ s, cglSystem svd steps x A Adiscrete sensor = .ok s := by
  obtain ⟨w, hw⟩ : ∃ w, cglWeights x = .ok w := ⟨_, dif_pos (by omega)⟩
  have hpos := C74_weights_positive x _ hx hw
  obtain ⟨i, hi⟩ : ∃ i, npInv (diagonal fun i => (w i : 𝕜)) = .ok i := by
    refine ⟨_, if_pos ?_⟩
    rw [det_diagonal, isUnit_iff_ne_zero, Finset.prod_ne_zero_iff]
    intro i _
    exact_mod_cast (hpos i).ne'
  unfold cglSystem
  rw [hw]
  dsimp only
  rw [hi]
  dsimp only
  have g := cglGrowth_inv svd hlib (diagPow (𝕜 := 𝕜) w 0.5) (diagPow (𝕜 := 𝕜) w (-0.5)) Adiscrete steps
  cases hd : (cglGrowth svd (diagPow (𝕜 := 𝕜) w 0.5) (diagPow (𝕜 := 𝕜) w (-0.5)) Adiscrete steps).optimalDist with
  | some d => exact ⟨_, rfl⟩
  | none =>
    refine absurd ?_ hA
    have h0 : ∀ v, Adiscrete *ᵥ v = 0 := by
      intro v
      have h1 := g.bound 1 le_rfl hsteps (diagPow (𝕜 := 𝕜) w 0.5 *ᵥ v)
      rw [g.none hd, zero_pow two_ne_zero, zero_mul] at h1
      have h2 := vecSq_eq_zero _ h1
      rw [← mulVec_mulVec, ← mulVec_mulVec, (halfPow_mul _ hpos v).1, pow_one] at h2
      rw [← (halfPow_mul w hpos (Adiscrete *ᵥ v)).1, h2, mulVec_zero]
    ext i j
    have := congrFun (h0 (Pi.single j 1)) i
    rwa [mulVec_single_one] at this

end

/-! ### The weights of the script -/

/-- The real part of `chi` is positive. -/
theorem chi_re_pos (p : CglParams) (hmu : p.mu2 ≠ 0) : 0 < p.chi.re := by
  have hg : p.gamma ≠ 0 := by
    intro h
    have := congrArg Complex.re h
    simp [CglParams.gamma] at this
  have hz : (-p.mu2 / (2 * p.gamma) : ℂ) ≠ 0 := by
    refine div_ne_zero (neg_ne_zero.mpr ?_) (mul_ne_zero two_ne_zero hg)
    exact_mod_cast hmu
  unfold CglParams.chi
  rw [Complex.cpow_def_of_ne_zero hz, Complex.exp_re]
  generalize (-p.mu2 / (2 * p.gamma) : ℂ) = z
  have him : (Complex.log z * (0.25 : ℂ)).im = z.arg / 4 := by
    rw [show (0.25 : ℂ) = ((1 / 4 : ℝ) : ℂ) by norm_num, Complex.im_mul_ofReal, Complex.log_im]
    ring
  rw [him]
  have h1 := Complex.neg_pi_lt_arg z
  have h2 := Complex.arg_le_pi z
  have h3 := Real.pi_pos
  exact mul_pos (Real.exp_pos _) (Real.cos_pos_of_mem_Ioo ⟨by linarith, by linarith⟩)

section

variable (p : CglParams) (eigvalsh : Matrix (Fin (p.N + 1)) (Fin (p.N + 1)) ℝ → Fin (p.N + 1) → ℝ)
  (expm : Matrix (Fin (p.N + 1)) (Fin (p.N + 1)) ℂ → Matrix (Fin (p.N + 1)) (Fin (p.N + 1)) ℂ)
  (svd : ∀ {m n : Nat}, Matrix (Fin m) (Fin n) ℂ → SvdOut ℂ m n)
  (hmu : p.mu2 ≠ 0) (hlib : IsEigvalsh (jacobi (p.N + 1)) (eigvalsh (jacobi (p.N + 1))))

include hmu hlib in
/-- **C74.** The nodes of the script are in ascending order, so all of the above holds for its system.  The first terms
of its state array differentiate.  The sensor is a Gaussian at the node-independent place where the growth rate
vanishes. -/
theorem C74_script_system :
    ∃ (x : Fin (p.N + 1) → ℝ) (A : Matrix (Fin (p.N + 1)) (Fin (p.N + 1)) ℂ) (D0 D1 : Matrix (Fin (p.N + 1)) (Fin (p.N + 1)) ℝ)
      (sensor : Fin (p.N + 1) → ℝ),
      cglScriptSystem p eigvalsh expm svd = cglSystem svd p.steps x A (expm ((p.dt : ℂ) • A)) sensor ∧ StrictMono x ∧
      (∀ t, IsHermiteZero (p.N + 1) (p.chi.re * t) ↔ ∃ k, t = x k) ∧
      Differentiates (fun t => Real.exp (-(p.chi.re * t) ^ 2 / 2)) x 1 D0 ∧
      Differentiates (fun t => Real.exp (-(p.chi.re * t) ^ 2 / 2)) x 2 D1 ∧
      (∀ v i, (A *ᵥ v) i = -(p.U + 2 * Complex.I * p.cu) * ∑ j, (D0 i j : ℂ) * v j +
        (1 + Complex.I * p.cd) * ∑ j, (D1 i j : ℂ) * v j + (p.mu0 - p.cu ^ 2 + p.mu2 * x i ^ 2 / 2) * v i) ∧
      ∃ loc : ℝ, 0 ≤ loc ∧ (∀ i, sensor i = Real.exp (-((x i - loc) / p.s) ^ 2)) ∧
        (0 ≤ -2 * (p.mu0 - p.cu ^ 2) / p.mu2 → p.mu0 - p.cu ^ 2 + p.mu2 * loc ^ 2 / 2 = 0) := by
  have hb := chi_re_pos p hmu
  obtain ⟨x, Dm, h1, h2, h3, h4, h5⟩ := C69_herdif p.N 2 two_pos p.chi.re hb.ne' eigvalsh hlib
  obtain ⟨D0, D1, rfl⟩ : ∃ D0 D1, Dm = [D0, D1] := List.length_eq_two.mp h2
  refine ⟨x, -(p.U + 2 * Complex.I * p.cu : ℂ) • D0.map (fun t : ℝ => (t : ℂ)) + p.gamma • D1.map (fun t : ℝ => (t : ℂ)) +
      diagonal fun i => (((p.mu0 - p.cu ^ 2) + p.mu2 * x i ^ 2 / 2 : ℝ) : ℂ), D0, D1,
    fun i => Real.exp (-((x i - -(-(-2 * (p.mu0 - p.cu ^ 2) / p.mu2) ^ (0.5 : ℝ))) / p.s) ^ 2),
    ?_, h4 hb, h3, h5 0 D0 rfl, h5 1 D1 rfl, ?_, (-2 * (p.mu0 - p.cu ^ 2) / p.mu2) ^ (0.5 : ℝ), ?_, ?_, ?_⟩
  · unfold cglScriptSystem
    dsimp only
    rw [show herdif (p.N + 1) 2 p.chi.re eigvalsh = .ok (x, [D0, D1]) from h1]
  · intro v i
    rw [add_mulVec, add_mulVec, smul_mulVec, smul_mulVec, Pi.add_apply, Pi.add_apply, mulVec_diagonal]
    simp only [Pi.smul_apply, smul_eq_mul, mulVec, dotProduct, map_apply, CglParams.gamma]
    push_cast
    ring
  · rw [show (0.5 : ℝ) = 1 / 2 by norm_num, ← Real.sqrt_eq_rpow]
    exact Real.sqrt_nonneg _
  · intro i
    rw [neg_neg]
  · intro h
    rw [show (0.5 : ℝ) = 1 / 2 by norm_num, ← Real.sqrt_eq_rpow, Real.sq_sqrt h]
    field_simp
    ring

include hmu hlib in
/-- **C74.** So are its weights positive. -/
theorem C74_script_weights (s : CglSystem ℂ p.N) (hs : cglScriptSystem p eigvalsh expm svd = .ok s) (i : Fin (p.N + 1)) :
    0 < s.weights i := by
  obtain ⟨x, A, D0, D1, sensor, h1, h2, -⟩ := C74_script_system p eigvalsh expm svd hmu hlib
  rw [h1] at hs
  exact C74_weights_positive x _ h2 (cglSystem_cases hs).1 i

include hmu hlib in
/-- **C74.** With two or more nodes and one or more steps the system is computed without error. -/
theorem C74_script_no_error (hsvd : ∀ {m n : Nat} (a : Matrix (Fin m) (Fin n) ℂ), IsSvd a (svd a))
    (hexp : ∀ a, expm a ≠ 0) (hN : 1 ≤ p.N) (hsteps : 1 ≤ p.steps) :
    ∃ s, cglScriptSystem p eigvalsh expm svd = .ok s := by
  obtain ⟨x, A, D0, D1, sensor, h1, h2, -⟩ := C74_script_system p eigvalsh expm svd hmu hlib
  rw [h1]
  exact C74_system_no_error svd hsvd p.steps x h2 A _ sensor hN hsteps (hexp _)

end

end Modred
