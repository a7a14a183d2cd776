import Verif.Spec.LeastSquares
import Verif.Lemmas.Optimal
import Verif.Lemmas.Tlsqr

/-!
# Algebra of least squares
-/

namespace Modred

open Matrix
open scoped ComplexOrder

variable {𝕜 : Type*} [RCLike 𝕜]

/-- Errors that are orthogonal to `V` are the smallest. -/
theorem orthogonal_least {n m r : Nat} {W : Matrix (Fin n) (Fin n) 𝕜} (hW : W.PosSemidef)
    {V : Matrix (Fin m) (Fin r) 𝕜} {R : Matrix (Fin n) (Fin m) 𝕜} (hR : R * V = 0) (b : Matrix (Fin n) (Fin r) 𝕜) :
    RCLike.re (weightedSq W R) ≤ RCLike.re (weightedSq W (R + b * Vᴴ)) := by
  rw [weightedSq_eq_trace, weightedSq_eq_trace]
  have h1 : (b * Vᴴ)ᴴ * W * R = V * (bᴴ * W * R) := by
    rw [conjTranspose_mul, conjTranspose_conjTranspose]
    simp only [Matrix.mul_assoc]
  have h2 : ((b * Vᴴ)ᴴ * W * R).trace = 0 := by
    rw [h1, trace_mul_comm, Matrix.mul_assoc, hR, Matrix.mul_zero, trace_zero]
  have h3 : (Rᴴ * W * (b * Vᴴ)).trace = 0 := by
    have : Rᴴ * W * (b * Vᴴ) = ((b * Vᴴ)ᴴ * W * R)ᴴ := by
      rw [conjTranspose_mul, conjTranspose_mul, conjTranspose_conjTranspose, hW.isHermitian.eq, Matrix.mul_assoc]
    rw [this, trace_conjTranspose, h2, star_zero]
  rw [conjTranspose_add, Matrix.add_mul, Matrix.add_mul, Matrix.mul_add, Matrix.mul_add, trace_add, trace_add,
    trace_add, h2, h3, add_zero, zero_add, map_add]
  exact le_add_of_nonneg_right (re_trace_nonneg (hW.conjTranspose_mul_mul_same _))

section

variable {m : Nat} {C K : Matrix (Fin m) (Fin m) 𝕜} {d : DmdDecomp 𝕜 m}

/-- Errors of the coefficients are orthogonal to the retained eigenvectors. -/
theorem DmdCore.coeffs_orthogonal (h : DmdCore C K d) :
    (d.Lᴴ * (diagPow (𝕜 := 𝕜) d.w (-0.5) * (d.Vᴴ * K)) -
      diagonal d.eigvals * (d.Lᴴ * (diagPow (𝕜 := 𝕜) d.w 0.5 * d.Vᴴ))) * d.V = 0 := by
  have h1 := congrArg (· * diagPow (𝕜 := 𝕜) d.w 0.5) h.left
  dsimp only [lowOrderMap] at h1
  have h2 : diagPow (𝕜 := 𝕜) d.w (-0.5) * diagPow (𝕜 := 𝕜) d.w 0.5 = 1 := by
    rw [diagPow_mul _ h.pos, show (-0.5 + 0.5 : ℝ) = 0 by norm_num, diagPow_zero]
  simp only [Matrix.mul_assoc] at h1
  rw [h2, Matrix.mul_one] at h1
  rw [Matrix.sub_mul]
  simp only [Matrix.mul_assoc]
  rw [h.orth, Matrix.mul_one, h1, sub_self]

/-- Products of build coefficients and coefficients of the data. -/
theorem DmdCore.proj_coeffs (h : DmdCore C K d) (hLR : d.Lᴴ * d.R = 1) :
    d.buildProj * (d.Lᴴ * (diagPow (𝕜 := 𝕜) d.w 0.5 * d.Vᴴ)) = d.V * d.Vᴴ := by
  have hRL : d.R * d.Lᴴ = 1 := mul_eq_one_comm.mp hLR
  have h2 : diagPow (𝕜 := 𝕜) d.w (-0.5) * diagPow (𝕜 := 𝕜) d.w 0.5 = 1 := by
    rw [diagPow_mul _ h.pos, show (-0.5 + 0.5 : ℝ) = 0 by norm_num, diagPow_zero]
  unfold DmdDecomp.buildProj
  rw [show d.V * (diagPow (𝕜 := 𝕜) d.w (-0.5) * d.R) * (d.Lᴴ * (diagPow (𝕜 := 𝕜) d.w 0.5 * d.Vᴴ)) =
    d.V * (diagPow (𝕜 := 𝕜) d.w (-0.5) * (d.R * d.Lᴴ) * diagPow (𝕜 := 𝕜) d.w 0.5) * d.Vᴴ by
      simp only [Matrix.mul_assoc], hRL, Matrix.mul_one, h2, Matrix.mul_one]

theorem retained_orthogonal {n : Nat} (h : DmdCore C K d) (Y : Matrix (Fin n) (Fin m) 𝕜) :
    (Y - Y * (d.V * d.Vᴴ)) * d.V = 0 := by
  rw [Matrix.sub_mul, Matrix.mul_assoc, Matrix.mul_assoc d.V, h.orth, Matrix.mul_one, sub_self]

end

/-- Both, from the decompositions. -/
theorem DmdCore.best {n m : Nat} {W : Matrix (Fin n) (Fin n) 𝕜} {X Y : Matrix (Fin n) (Fin m) 𝕜} {d : DmdDecomp 𝕜 m}
    (hW : W.PosSemidef) (h : DmdCore (Xᴴ * W * X) (Xᴴ * W * Y) d)
    (hLR : Function.Injective d.eigvals → d.Lᴴ * d.R = 1) :
    DmdBest W X Y d.eigvals (Y * d.buildExact) (X * d.buildProj) (d.Lᴴ * (diagPow (𝕜 := 𝕜) d.w 0.5 * d.Vᴴ))
      (d.Lᴴ * (diagPow (𝕜 := 𝕜) d.w (-0.5) * (d.Vᴴ * (Xᴴ * W * Y)))) := by
  refine ⟨fun B => ?_, fun hi h0 A => ?_, fun hi hr => ?_⟩
  · have h1 : (X * d.buildProj * (d.Lᴴ * (diagPow (𝕜 := 𝕜) d.w (-0.5) * (d.Vᴴ * (Xᴴ * W * Y))) -
        diagonal d.eigvals * (d.Lᴴ * (diagPow (𝕜 := 𝕜) d.w 0.5 * d.Vᴴ)))) * d.V = 0 := by
      rw [Matrix.mul_assoc, h.coeffs_orthogonal, Matrix.mul_zero]
    have h2 := orthogonal_least hW h1
      (X * d.buildProj * ((diagonal d.eigvals - B) * (d.Lᴴ * diagPow (𝕜 := 𝕜) d.w 0.5)))
    refine h2.trans (le_of_eq ?_)
    congr 2
    rw [Matrix.mul_assoc (X * d.buildProj), ← Matrix.mul_add]
    congr 1
    simp only [Matrix.sub_mul, Matrix.mul_assoc]
    abel
  · have h1 : Y * d.buildExact * (diagonal d.eigvals * (d.Lᴴ * (diagPow (𝕜 := 𝕜) d.w 0.5 * d.Vᴴ))) =
        Y * (d.V * d.Vᴴ) := by
      rw [Matrix.mul_assoc, ← Matrix.mul_assoc d.buildExact, buildExact_mul h0, h.proj_coeffs (hLR hi)]
    have h2 := orthogonal_least hW (retained_orthogonal h Y) (Y * d.V - A * X * d.V)
    rw [h1]
    refine h2.trans (le_of_eq ?_)
    rw [Matrix.mul_assoc X, h.proj_coeffs (hLR hi)]
    congr 2
    simp only [Matrix.sub_mul, Matrix.mul_assoc]
    abel
  · rw [Matrix.mul_assoc, h.proj_coeffs (hLR hi), ← Matrix.mul_assoc]
    refine span_of_rank (Z := W * (X * d.V * diagPow (𝕜 := 𝕜) d.w (-1))) h.orth ?_ hr
    have : d.V * (diagPow (𝕜 := 𝕜) d.w 1 * diagPow (𝕜 := 𝕜) d.w (-1)) = d.V := by
      rw [diagPow_mul _ h.pos, show (1 + -1 : ℝ) = 0 by norm_num, diagPow_zero, Matrix.mul_one]
    rw [← Matrix.mul_assoc, ← h.eigen] at this
    conv_lhs => rw [← this]
    simp only [Matrix.mul_assoc]

section Handles

variable {E : Type*} [AddCommGroup E] [Module 𝕜 E]

theorem gram_sum_nonneg (ip : E →ₗ⋆[𝕜] E →ₗ[𝕜] 𝕜) {m r : Nat} (hsymm : ∀ x y, ip y x = star (ip x y))
    (hnn : ∀ x, 0 ≤ RCLike.re (ip x x))
    {V : Matrix (Fin m) (Fin r) 𝕜} {R : Fin m → E} (hR : combine R V = 0) (b : Fin r → E) :
    ∑ j, RCLike.re (ip (R j) (R j)) ≤
      ∑ j, RCLike.re (ip ((R + combine b Vᴴ) j) ((R + combine b Vᴴ) j)) := by
  have h1 : ∑ j, ip (combine b Vᴴ j) (R j) = 0 := by
    have : gram ip (combine b Vᴴ) R = V * gram ip b R := by
      rw [gram_combine_left, conjTranspose_conjTranspose]
    have h2 : (gram ip (combine b Vᴴ) R).trace = 0 := by
      rw [this, trace_mul_comm, ← gram_combine_right, hR, trace]
      exact Finset.sum_eq_zero fun i _ => by simp [gram]
    exact h2
  have h2 : ∑ j, ip (R j) (combine b Vᴴ j) = 0 := by
    have := congrArg star h1
    rw [star_sum, star_zero] at this
    rw [← this]
    exact Finset.sum_congr rfl fun j _ => hsymm _ _
  have h3 : ∀ j, ip ((R + combine b Vᴴ) j) ((R + combine b Vᴴ) j) = ip (R j) (R j) + ip (combine b Vᴴ j) (R j) +
      ip (R j) (combine b Vᴴ j) + ip (combine b Vᴴ j) (combine b Vᴴ j) := by
    intro j
    simp only [Pi.add_apply, map_add, LinearMap.add_apply]
    ring
  simp only [h3, map_add]
  rw [Finset.sum_add_distrib, Finset.sum_add_distrib, Finset.sum_add_distrib, ← map_sum, ← map_sum, ← map_sum, h1, h2]
  simp only [map_zero, add_zero]
  rw [map_sum]
  exact le_add_of_nonneg_right (Finset.sum_nonneg fun j _ => hnn _)

theorem combine_add_right {p q : Nat} (v : Fin p → E) (a b : Matrix (Fin p) (Fin q) 𝕜) :
    combine v (a + b) = combine v a + combine v b := by
  ext j
  unfold combine
  simp only [Matrix.add_apply, add_smul, Finset.sum_add_distrib, Pi.add_apply]

theorem combine_zero_right {p q : Nat} (v : Fin p → E) : combine v (0 : Matrix (Fin p) (Fin q) 𝕜) = 0 := by
  ext j
  unfold combine
  simp

variable {ip : E →ₗ⋆[𝕜] E →ₗ[𝕜] 𝕜} {m : Nat} {X Y : Fin m → E} {d : DmdDecomp 𝕜 m}

/-- Both, for vectors of any space. -/
theorem DmdCore.handleBest (hsymm : ∀ x y, ip y x = star (ip x y)) (hnn : ∀ x, 0 ≤ RCLike.re (ip x x))
    (h : DmdCore (gram ip X X) (gram ip X Y) d) (hLR : Function.Injective d.eigvals → d.Lᴴ * d.R = 1) :
    DmdHandleBest ip X Y d.eigvals (combine Y d.buildExact) (combine X d.buildProj)
      (d.Lᴴ * (diagPow (𝕜 := 𝕜) d.w 0.5 * d.Vᴴ))
      (d.Lᴴ * (diagPow (𝕜 := 𝕜) d.w (-0.5) * (d.Vᴴ * gram ip X Y))) := by
  have hdiag : ∀ i j, (d.eigvals i * (d.Lᴴ * (diagPow (𝕜 := 𝕜) d.w 0.5 * d.Vᴴ)) i j) =
      (diagonal d.eigvals * (d.Lᴴ * (diagPow (𝕜 := 𝕜) d.w 0.5 * d.Vᴴ))) i j := fun i j => by rw [diagonal_mul]
  refine ⟨fun B => ?_, fun hi h0 A => ?_, fun hi hr hdef j => ?_⟩
  · simp only [hdiag]
    have h1 : combine (combine (combine X d.buildProj) (d.Lᴴ * (diagPow (𝕜 := 𝕜) d.w (-0.5) * (d.Vᴴ * gram ip X Y)) -
        diagonal d.eigvals * (d.Lᴴ * (diagPow (𝕜 := 𝕜) d.w 0.5 * d.Vᴴ)))) d.V = 0 := by
      rw [combine_combine, h.coeffs_orthogonal, combine_zero_right]
    have h2 := gram_sum_nonneg ip hsymm hnn h1
      (combine (combine X d.buildProj) ((diagonal d.eigvals - B) * (d.Lᴴ * diagPow (𝕜 := 𝕜) d.w 0.5)))
    rw [combine_combine (combine X d.buildProj) _ d.Vᴴ, ← combine_add_right] at h2
    rw [show (d.Lᴴ * (diagPow (𝕜 := 𝕜) d.w (-0.5) * (d.Vᴴ * gram ip X Y)) -
        diagonal d.eigvals * (d.Lᴴ * (diagPow (𝕜 := 𝕜) d.w 0.5 * d.Vᴴ)) +
        (diagonal d.eigvals - B) * (d.Lᴴ * diagPow (𝕜 := 𝕜) d.w 0.5) * d.Vᴴ) =
        d.Lᴴ * (diagPow (𝕜 := 𝕜) d.w (-0.5) * (d.Vᴴ * gram ip X Y)) -
          B * (d.Lᴴ * (diagPow (𝕜 := 𝕜) d.w 0.5 * d.Vᴴ)) by
      simp only [Matrix.sub_mul, Matrix.mul_assoc]; abel] at h2
    exact h2
  · simp only [hdiag]
    have h1 : ∀ j, ∑ i, (diagonal d.eigvals * (d.Lᴴ * (diagPow (𝕜 := 𝕜) d.w 0.5 * d.Vᴴ))) i j • combine Y d.buildExact i =
        combine Y (d.V * d.Vᴴ) j := by
      intro j
      show combine (combine Y d.buildExact) _ j = _
      rw [combine_combine, ← Matrix.mul_assoc, buildExact_mul h0, h.proj_coeffs (hLR hi)]
    have h3 : ∀ j, ∑ i, (d.Lᴴ * (diagPow (𝕜 := 𝕜) d.w 0.5 * d.Vᴴ)) i j • combine X d.buildProj i =
        combine X (d.V * d.Vᴴ) j := by
      intro j
      show combine (combine X d.buildProj) _ j = _
      rw [combine_combine, h.proj_coeffs (hLR hi)]
    simp only [h1, h3]
    have h4 : combine (fun j => Y j - combine Y (d.V * d.Vᴴ) j) d.V = 0 := by
      have : (fun j => Y j - combine Y (d.V * d.Vᴴ) j) = combine Y (1 - d.V * d.Vᴴ) := by
        ext j
        rw [combine_sub, combine_one]
      rw [this, combine_combine, Matrix.sub_mul, Matrix.one_mul, Matrix.mul_assoc, h.orth, Matrix.mul_one, sub_self,
        combine_zero_right]
    have h2 := gram_sum_nonneg ip hsymm hnn h4 fun i => combine Y d.V i - A (combine X d.V i)
    refine h2.trans (le_of_eq ?_)
    refine Finset.sum_congr rfl fun j _ => ?_
    have h5 : ((fun j => Y j - combine Y (d.V * d.Vᴴ) j) +
        combine (fun i => combine Y d.V i - A (combine X d.V i)) d.Vᴴ) j = Y j - A (combine X (d.V * d.Vᴴ) j) := by
      have h6 : combine (fun i => combine Y d.V i - A (combine X d.V i)) d.Vᴴ j =
          combine (combine Y d.V) d.Vᴴ j - combine (fun i => A (combine X d.V i)) d.Vᴴ j := by
        unfold combine
        simp only [smul_sub, Finset.sum_sub_distrib]
      rw [Pi.add_apply, h6, combine_combine, ← map_combine, combine_combine]
      abel
    rw [h5]
  · show combine (combine X d.buildProj) _ j = _
    rw [combine_combine, h.proj_coeffs (hLR hi)]
    have hC : gram ip X X * d.V * d.Vᴴ = gram ip X X := by
      refine span_of_rank (Z := d.V * diagPow (𝕜 := 𝕜) d.w (-1)) h.orth ?_ hr
      rw [h.herm, ← Matrix.mul_assoc, h.eigen, Matrix.mul_assoc, diagPow_mul _ h.pos,
        show (1 + -1 : ℝ) = 0 by norm_num, diagPow_zero, Matrix.mul_one]
    have h1 : gram ip (combine X (1 - d.V * d.Vᴴ)) (combine X (1 - d.V * d.Vᴴ)) = 0 := by
      rw [gram_combine, Matrix.mul_assoc, Matrix.mul_sub, Matrix.mul_one, ← Matrix.mul_assoc (gram ip X X), hC,
        sub_self, Matrix.mul_zero]
    have h2 := hdef _ (congrFun (congrFun h1 j) j)
    rw [combine_sub, combine_one, sub_eq_zero] at h2
    exact h2.symm

end Handles

end Modred
