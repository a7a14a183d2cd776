import Verif.Lemmas.BalancedError
import Verif.Props.Systems

/-!
# Truncated models from arrays with shift structure
-/

namespace Modred

open Matrix

variable {𝕜 : Type*} [RCLike 𝕜]

/-- States of the truncated model in the coordinates of the full model. -/
def extendTo {r : Nat} (N : Nat) (x : Fin r → 𝕜) : Fin N → 𝕜 := fun i => if h : i.val < r then x ⟨i, h⟩ else 0

theorem sum_extendTo {r N : Nat} (hr : r ≤ N) {R : Type*} [AddCommMonoid R] (f : Fin N → 𝕜 → R) (hf : ∀ i, f i 0 = 0)
    (x : Fin r → 𝕜) : ∑ i, f i (extendTo N x i) = ∑ i, f (Fin.castLE hr i) (x i) := by
  obtain ⟨d, rfl⟩ := Nat.exists_eq_add_of_le hr
  rw [Fin.sum_univ_add]
  have h1 : ∑ i : Fin d, f (Fin.natAdd r i) (extendTo (r + d) x (Fin.natAdd r i)) = 0 :=
    Finset.sum_eq_zero fun i _ => by
      unfold extendTo
      rw [dif_neg (by simp), hf]
  rw [h1, add_zero]
  refine Finset.sum_congr rfl fun i _ => ?_
  unfold extendTo
  rw [dif_pos (by simp)]
  rfl

theorem mulVec_extendTo {r N : Nat} (hr : r ≤ N) {ι : Type*} (A : Matrix ι (Fin N) 𝕜) (x : Fin r → 𝕜) (i : ι) :
    (A *ᵥ extendTo N x) i = (A.submatrix id (Fin.castLE hr) *ᵥ x) i :=
  sum_extendTo hr (fun j y => A i j * y) (fun _ => mul_zero _) x

theorem weighted_extendTo {r N : Nat} (hr : r ≤ N) (S : Fin N → ℝ) (x : Fin r → 𝕜) :
    weightedSquares S (extendTo N x) = weightedSquares (fun i => S (Fin.castLE hr i)) x :=
  sum_extendTo hr (fun j y => S j * ‖y‖ ^ 2) (fun _ => by simp) x

theorem maskTo_eq {N r : Nat} (hr : r ≤ N) (a : Fin N → 𝕜) :
    maskTo r a = extendTo N fun i => a (Fin.castLE hr i) := by
  funext i
  unfold maskTo extendTo
  split
  · rfl
  · rfl

theorem weighted_maskTo_le {N : Nat} {w : Fin N → ℝ} (hw : ∀ i, 0 ≤ w i) (k : Nat) (a : Fin N → 𝕜) :
    weightedSquares w (maskTo k a) ≤ weightedSquares w a := by
  refine Finset.sum_le_sum fun i _ => mul_le_mul_of_nonneg_left ?_ (hw i)
  unfold maskTo
  split
  · exact le_rfl
  · rw [norm_zero, zero_pow two_ne_zero]; positivity

theorem stable_of_decay {r : Nat} {A : Matrix (Fin r) (Fin r) 𝕜} {σ : Fin r → ℝ} (hσ : ∀ i, 0 < σ i) (n : Nat)
    (hmono : ∀ x, weightedSquares σ (A *ᵥ x) ≤ weightedSquares σ x)
    (hd : ∀ x, ((n : ℝ) + 1 + 1) * weightedSquares σ (A ^ (n + 1) *ᵥ x) ≤ (n + 1) * weightedSquares σ x)
    (x : Fin r → 𝕜) : Filter.Tendsto (fun t => A ^ t *ᵥ x) Filter.atTop (nhds 0) := by
  have hW : ∀ x : Fin r → 𝕜, 0 ≤ weightedSquares σ x := fun x => weightedSquares_nonneg (fun i => (hσ i).le) x
  have hq : (0 : ℝ) < (n : ℝ) + 1 + 1 := by positivity
  have h1 : ∀ x, weightedSquares σ (A ^ (n + 1) *ᵥ x) ≤ ((n + 1) / (n + 1 + 1)) * weightedSquares σ x := by
    intro x
    rw [div_mul_eq_mul_div, le_div_iff₀ hq, mul_comm]
    exact hd x
  have h2 : ∀ k x, weightedSquares σ (A ^ ((n + 1) * k) *ᵥ x) ≤ ((n + 1) / (n + 1 + 1)) ^ k * weightedSquares σ x := by
    intro k
    induction k with
    | zero => intro x; simp
    | succ k ih =>
      intro x
      have e : A ^ ((n + 1) * (k + 1)) = A ^ (n + 1) * A ^ ((n + 1) * k) := by rw [← pow_add]; congr 1; ring
      rw [e, ← mulVec_mulVec, pow_succ' ((n + 1 : ℝ) / (n + 1 + 1)) k, mul_assoc]
      exact (h1 _).trans (mul_le_mul_of_nonneg_left (ih x) (by positivity))
  have h3 : ∀ k x, weightedSquares σ (A ^ k *ᵥ x) ≤ weightedSquares σ x := by
    intro k
    induction k with
    | zero => intro x; simp
    | succ k ih =>
      intro x
      rw [pow_succ', ← mulVec_mulVec]
      exact (hmono _).trans (ih x)
  have h4 : ∀ t, weightedSquares σ (A ^ t *ᵥ x) ≤ ((n + 1) / (n + 1 + 1)) ^ (t / (n + 1)) * weightedSquares σ x := by
    intro t
    conv_lhs => rw [← Nat.mod_add_div t (n + 1), pow_add, ← mulVec_mulVec]
    exact (h3 _ _).trans (h2 _ _)
  have h5 : Filter.Tendsto (fun t : Nat => ((n + 1 : ℝ) / (n + 1 + 1)) ^ (t / (n + 1)) * weightedSquares σ x)
      Filter.atTop (nhds 0) := by
    have a1 : Filter.Tendsto (fun t : Nat => t / (n + 1)) Filter.atTop Filter.atTop :=
      Nat.tendsto_div_const_atTop (by omega)
    have a2 := (tendsto_pow_atTop_nhds_zero_of_lt_one (r := (n + 1 : ℝ) / (n + 1 + 1)) (by positivity) (by
      rw [div_lt_one hq]; linarith)).comp a1
    have a3 := a2.mul_const (weightedSquares σ x)
    rw [zero_mul] at a3
    exact a3
  rw [tendsto_pi_nhds]
  intro i
  have h6 : Filter.Tendsto (fun t => ‖(A ^ t *ᵥ x) i‖ ^ 2) Filter.atTop (nhds 0) := by
    have b := h5.const_mul (σ i)⁻¹
    rw [mul_zero] at b
    refine squeeze_zero (fun t => by positivity) (fun t => ?_) b
    have c1 : σ i * ‖(A ^ t *ᵥ x) i‖ ^ 2 ≤ weightedSquares σ (A ^ t *ᵥ x) :=
      Finset.single_le_sum (f := fun i => σ i * ‖(A ^ t *ᵥ x) i‖ ^ 2)
        (fun i _ => mul_nonneg (hσ i).le (by positivity)) (Finset.mem_univ i)
    have c2 := c1.trans (h4 t)
    rw [← div_eq_inv_mul, le_div_iff₀ (hσ i), mul_comm]
    exact c2
  have h7 := h6.sqrt
  rw [Real.sqrt_zero] at h7
  simp only [Real.sqrt_sq (norm_nonneg _)] at h7
  exact tendsto_zero_iff_norm_tendsto_zero.mpr h7

theorem eigenvalue_of_decay {r : Nat} {A : Matrix (Fin r) (Fin r) 𝕜} {σ : Fin r → ℝ} (hσ : ∀ i, 0 < σ i) (n : Nat)
    (hd : ∀ x, ((n : ℝ) + 1 + 1) * weightedSquares σ (A ^ (n + 1) *ᵥ x) ≤ (n + 1) * weightedSquares σ x) (z : 𝕜)
    (hz : IsEigenvalue A z) : ‖z‖ < 1 := by
  obtain ⟨x, hx, he⟩ := hz
  have h1 : ∀ k : Nat, A ^ k *ᵥ x = z ^ k • x := by
    intro k
    induction k with
    | zero => simp
    | succ k ih => rw [pow_succ', ← mulVec_mulVec, ih, mulVec_smul, he, smul_smul, pow_succ]
  have h2 : ∀ c : 𝕜, weightedSquares σ (c • x) = ‖c‖ ^ 2 * weightedSquares σ x := by
    intro c
    unfold weightedSquares
    rw [Finset.mul_sum]
    refine Finset.sum_congr rfl fun i _ => ?_
    rw [Pi.smul_apply, smul_eq_mul, norm_mul]
    ring
  have h3 : 0 < weightedSquares σ x := by
    obtain ⟨i, hi⟩ := Function.ne_iff.mp hx
    refine Finset.sum_pos' (fun i _ => mul_nonneg (hσ i).le (by positivity)) ⟨i, Finset.mem_univ i, ?_⟩
    have := norm_pos_iff.mpr hi
    exact mul_pos (hσ i) (by positivity)
  have h4 := hd x
  rw [h1, h2, norm_pow] at h4
  by_contra hc
  have h5 : 1 ≤ (‖z‖ ^ (n + 1)) ^ 2 := one_le_pow₀ (one_le_pow₀ (not_lt.mp hc))
  have h6 := mul_le_mul_of_nonneg_right h5 h3.le
  have h7 : (0 : ℝ) ≤ n := Nat.cast_nonneg n
  nlinarith

section
variable {μ ν : Type*} [Fintype μ] [Fintype ν] [DecidableEq μ] [DecidableEq ν] {N p q r : Nat}
variable {H H' : Matrix μ ν 𝕜} {K : Matrix ν ν 𝕜} {L : Matrix μ μ 𝕜} {E : Matrix ν (Fin p) 𝕜}
  {F : Matrix (Fin q) μ 𝕜}
variable {U : Matrix μ (Fin N) 𝕜} {V : Matrix ν (Fin N) 𝕜} {S : Fin N → ℝ}
variable (hS : ∀ i, 0 ≤ S i) (hU : Uᴴ * U = 1) (hV : Vᴴ * V = 1) (hH : H = U * diagPow (𝕜 := 𝕜) S 1 * Vᴴ)
variable (hsh : IsShift H H' K L E F)
include hS hU hV hH hsh

/-- Outputs of the full model. -/
theorem full_outputs (u : Nat → Fin p → 𝕜) (t : Nat) :
    fullC F U S *ᵥ maskStates (fullA H' U V S) (fullB E V S) u N t =
      ∑ s ∈ Finset.range t, (F * (H * (K ^ (t - 1 - s) * E))) *ᵥ u s := by
  have hw : ∀ t, maskStates (fullA H' U V S) (fullB E V S) u N t = diagPow (𝕜 := 𝕜) S 0.5 *ᵥ (Vᴴ *ᵥ
      ∑ s ∈ Finset.range t, (K ^ (t - 1 - s) * E) *ᵥ u s) := by
    intro t
    induction t with
    | zero => simp [maskStates]
    | succ t ih =>
      rw [maskStates, ih, full_state hS hU hV hH hsh]
      have hm : ∀ a : Fin N → 𝕜, maskTo N a = a := fun a => by
        funext i
        exact if_pos i.isLt
      rw [hm, mulVec_sum, Finset.sum_range_succ]
      congr 3
      · refine Finset.sum_congr rfl fun s hs => ?_
        rw [Finset.mem_range] at hs
        rw [mulVec_mulVec, ← Matrix.mul_assoc, ← pow_succ', show t - 1 - s + 1 = t + 1 - 1 - s by omega]
      · rw [show t + 1 - 1 - t = 0 by omega, pow_zero, Matrix.one_mul]
  rw [hw, full_output hS hU hV hH hsh, mulVec_sum, mulVec_sum]
  refine Finset.sum_congr rfl fun s _ => ?_
  rw [mulVec_mulVec, mulVec_mulVec, Matrix.mul_assoc]

/-- States of the truncated model. -/
theorem truncated_states (hr : r ≤ N) (u : Nat → Fin p → 𝕜) (x : Nat → Fin r → 𝕜) (h0 : x 0 = 0)
    (hx : ∀ t, x (t + 1) = (fullA H' U V S).submatrix (Fin.castLE hr) (Fin.castLE hr) *ᵥ x t +
      (fullB E V S).submatrix (Fin.castLE hr) id *ᵥ u t) (t : Nat) :
    maskStates (fullA H' U V S) (fullB E V S) u r t = extendTo N (x t) := by
  induction t with
  | zero =>
    rw [maskStates, h0]
    funext i
    simp [extendTo]
  | succ t ih =>
    rw [maskStates, ih, maskTo_eq hr, hx]
    congr 1
    funext i
    rw [Pi.add_apply, Pi.add_apply, mulVec_extendTo hr]
    rfl

/-- **Accuracy of truncated models.** -/
theorem truncated_accurate (hr : r ≤ N) (hpos : ∀ i : Fin N, i.val < r → 0 < S i) (n : Nat) (hn : L ^ n = 0)
    (M : Nat → Nat → Nat → 𝕜) (hM : ∀ k (i : Fin q) (j : Fin p), (F * (H * (K ^ k * E))) i j = M k i j) :
    IsAccurateModel M (fun i => S (Fin.castLE hr i)) (2 * ∑ i : Fin N, if r ≤ i.val then S i else 0) n
      ((fullA H' U V S).submatrix (Fin.castLE hr) (Fin.castLE hr)) ((fullB E V S).submatrix (Fin.castLE hr) id)
      ((fullC F U S).submatrix id (Fin.castLE hr)) := by
  have hstep : ∀ x : Fin r → 𝕜, extendTo N ((fullA H' U V S).submatrix (Fin.castLE hr) (Fin.castLE hr) *ᵥ x) =
      maskTo r (fullA H' U V S *ᵥ extendTo N x) := by
    intro x
    rw [maskTo_eq hr]
    congr 1
    funext i
    rw [mulVec_extendTo hr]
    rfl
  have hS' : ∀ i : Fin r, 0 < S (Fin.castLE hr i) := fun i => hpos _ i.isLt
  have hout : ∀ x : Fin r → 𝕜, weightedSquares (fun i => S (Fin.castLE hr i))
      ((fullA H' U V S).submatrix (Fin.castLE hr) (Fin.castLE hr) *ᵥ x) +
        sumSquares ((fullC F U S).submatrix id (Fin.castLE hr) *ᵥ x) ≤ weightedSquares (fun i => S (Fin.castLE hr i)) x := by
    intro x
    rw [← weighted_extendTo hr, ← weighted_extendTo hr, hstep]
    have h1 := full_obs hS hU hV hH hsh (extendTo N x)
    have h2 := weighted_maskTo_le hS r (fullA H' U V S *ᵥ extendTo N x)
    have h3 : (fullC F U S).submatrix id (Fin.castLE hr) *ᵥ x = fullC F U S *ᵥ extendTo N x :=
      funext fun i => (mulVec_extendTo hr _ x i).symm
    rw [h3]
    linarith
  have hdecay : ∀ n : Nat, L ^ n = 0 → ∀ x : Fin r → 𝕜, (n + 1) * weightedSquares (fun i => S (Fin.castLE hr i))
      ((fullA H' U V S).submatrix (Fin.castLE hr) (Fin.castLE hr) ^ n *ᵥ x) ≤
        n * weightedSquares (fun i => S (Fin.castLE hr i)) x := by
    intro n hn x
    have h := mask_decay hS hU hV hH hsh r hpos
      (fun t => extendTo N ((fullA H' U V S).submatrix (Fin.castLE hr) (Fin.castLE hr) ^ t *ᵥ x))
      (fun t => by
        rw [← hstep, mulVec_mulVec, ← pow_succ']) n hn
    rwa [weighted_extendTo hr, weighted_extendTo hr, pow_zero, one_mulVec] at h
  have hn1 : L ^ (n + 1) = 0 := by rw [pow_succ, hn, Matrix.zero_mul]
  have hd1 := hdecay (n + 1) hn1
  refine ⟨?_, hout, ?_, hdecay n hn, ?_, ?_⟩
  · intro u x h0 hx T
    have h1 := mask_error hS (full_obs hS hU hV hH hsh) (full_ctrl hS hU hV hH hsh) u T (N - r) r (by omega)
    have h2 : ∀ t, fullC F U S *ᵥ maskStates (fullA H' U V S) (fullB E V S) u N t -
        fullC F U S *ᵥ maskStates (fullA H' U V S) (fullB E V S) u r t =
        impulseOutput M u t - (fullC F U S).submatrix id (Fin.castLE hr) *ᵥ x t := by
      intro t
      rw [truncated_states hS hU hV hH hsh hr u x h0 hx t, full_outputs hS hU hV hH hsh]
      funext i
      rw [Pi.sub_apply, Pi.sub_apply, mulVec_extendTo hr, Finset.sum_apply]
      congr 1
      unfold impulseOutput
      refine Finset.sum_congr rfl fun s _ => ?_
      unfold mulVec dotProduct
      exact Finset.sum_congr rfl fun j _ => by simp only [hM]
    simp only [h2] at h1
    have h3 := pow_le_pow_left₀ (Real.sqrt_nonneg _) h1 2
    rwa [Real.sq_sqrt (signalEnergy_nonneg _ _), mul_pow, Real.sq_sqrt (signalEnergy_nonneg _ _)] at h3
  · intro x u
    rw [← weighted_extendTo hr (fun i => (S i)⁻¹), ← weighted_extendTo hr (fun i => (S i)⁻¹)]
    have h1 := full_ctrl hS hU hV hH hsh (extendTo N x) u
    have h2 := weighted_maskTo_le (w := fun i => (S i)⁻¹) (fun i => inv_nonneg.mpr (hS i)) r
      (fullA H' U V S *ᵥ extendTo N x + fullB E V S *ᵥ u)
    have h3 : extendTo N ((fullA H' U V S).submatrix (Fin.castLE hr) (Fin.castLE hr) *ᵥ x +
        (fullB E V S).submatrix (Fin.castLE hr) id *ᵥ u) =
        maskTo r (fullA H' U V S *ᵥ extendTo N x + fullB E V S *ᵥ u) := by
      rw [maskTo_eq hr]
      congr 1
      funext i
      rw [Pi.add_apply, Pi.add_apply, mulVec_extendTo hr]
      rfl
    rw [h3]
    linarith
  · exact stable_of_decay hS' n (fun x => by
      have h1 := hout x
      have h2 := sumSquares_nonneg ((fullC F U S).submatrix id (Fin.castLE hr) *ᵥ x)
      linarith) (by push_cast at hd1; exact hd1)
  · exact eigenvalue_of_decay hS' n (by push_cast at hd1; exact hd1)

end

end Modred
