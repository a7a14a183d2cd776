import Verif.Spec.Dmd
import Verif.Lemmas.Pod

/-!
# Algebra of dynamic mode decomposition
-/

namespace Modred

open Matrix
open scoped ComplexOrder

variable {𝕜 : Type*} [RCLike 𝕜]

/-- What all methods compute from the correlation array `C` and the cross-correlation array `K`. -/
structure DmdCore {m : Nat} (C K : Matrix (Fin m) (Fin m) 𝕜) (d : DmdDecomp 𝕜 m) : Prop where
  herm : Cᴴ = C
  orth : d.Vᴴ * d.V = 1
  eigen : C * d.V = d.V * diagPow (𝕜 := 𝕜) d.w 1
  pos : ∀ i, 0 < d.w i
  right : lowOrderMap (diagPow (𝕜 := 𝕜) d.w (-0.5)) d.V K * d.R = d.R * diagonal d.eigvals
  left : d.Lᴴ * lowOrderMap (diagPow (𝕜 := 𝕜) d.w (-0.5)) d.V K = diagonal d.eigvals * d.Lᴴ
  eigenvalue : ∀ i, ∃ x : Fin d.r → 𝕜, x ≠ 0 ∧ lowOrderMap (diagPow (𝕜 := 𝕜) d.w (-0.5)) d.V K *ᵥ x = d.eigvals i • x

/-- What the library returns are eigenvalues. -/
theorem IsEig.eigenvalue {n : Nat} {a : Matrix (Fin n) (Fin n) 𝕜} {o : EigOut 𝕜 n} (h : IsEig a o) (j : Fin n) :
    ∃ x : Fin n → 𝕜, x ≠ 0 ∧ a *ᵥ x = o.w j • x := by
  refine ⟨fun i => o.R i j, h.right_nonzero j, funext fun i => ?_⟩
  have e := congrFun (congrFun h.right i) j
  rw [mul_diagonal, Matrix.mul_apply] at e
  rw [Pi.smul_apply, smul_eq_mul, mul_comm]
  exact e

section Core

variable {m : Nat} {C K : Matrix (Fin m) (Fin m) 𝕜} {d : DmdDecomp 𝕜 m}

theorem half_half (hpos : ∀ i, 0 < d.w i) :
    diagPow (𝕜 := 𝕜) d.w (-0.5) * diagPow (𝕜 := 𝕜) d.w (-0.5) = diagonal fun i => (((d.w i)⁻¹ : ℝ) : 𝕜) := by
  rw [diagPow_mul _ hpos, show (-0.5 + -0.5 : ℝ) = -1 by norm_num]
  unfold diagPow
  congr 1
  ext i
  rw [Real.rpow_neg_one]

theorem buildExact_eq (d : DmdDecomp 𝕜 m) : d.buildExact = d.buildProj * diagonal fun i => (d.eigvals i)⁻¹ := by
  unfold DmdDecomp.buildExact DmdDecomp.buildProj
  simp only [Matrix.mul_assoc]

theorem buildExact_mul (h0 : ∀ i, d.eigvals i ≠ 0) : d.buildExact * diagonal d.eigvals = d.buildProj := by
  rw [buildExact_eq, Matrix.mul_assoc, diagonal_mul_diagonal]
  have : (diagonal fun i => (d.eigvals i)⁻¹ * d.eigvals i) = (1 : Matrix (Fin d.r) (Fin d.r) 𝕜) := by
    rw [← diagonal_one]
    congr 1
    ext i
    exact inv_mul_cancel₀ (h0 i)
  rw [this, Matrix.mul_one]

/-- Coefficients of the data. -/
theorem DmdCore.adjoint_corr (h : DmdCore C K d) :
    d.buildAdjointᴴ * C = d.Lᴴ * (diagPow (𝕜 := 𝕜) d.w 0.5 * d.Vᴴ) := by
  unfold DmdDecomp.buildAdjoint
  rw [← build_proj h.pos h.herm h.eigen, ← Matrix.mul_assoc d.V, conjTranspose_mul (d.V * _), Matrix.mul_assoc]

/-- Coefficients of the advanced data. -/
theorem adjoint_cross (d : DmdDecomp 𝕜 m) (K : Matrix (Fin m) (Fin m) 𝕜) :
    d.buildAdjointᴴ * K = d.Lᴴ * (diagPow (𝕜 := 𝕜) d.w (-0.5) * (d.Vᴴ * K)) := by
  unfold DmdDecomp.buildAdjoint
  rw [conjTranspose_mul, conjTranspose_mul, diagPow_conjTranspose]
  simp only [Matrix.mul_assoc]

theorem DmdCore.adjoint_proj (h : DmdCore C K d) (hLR : d.Lᴴ * d.R = 1) :
    d.buildAdjointᴴ * C * d.buildProj = 1 := by
  rw [h.adjoint_corr]
  unfold DmdDecomp.buildProj
  rw [show d.Lᴴ * (diagPow (𝕜 := 𝕜) d.w 0.5 * d.Vᴴ) * (d.V * (diagPow (𝕜 := 𝕜) d.w (-0.5) * d.R)) =
    d.Lᴴ * (diagPow (𝕜 := 𝕜) d.w 0.5 * (d.Vᴴ * d.V) * diagPow (𝕜 := 𝕜) d.w (-0.5)) * d.R by simp only [Matrix.mul_assoc],
    h.orth, Matrix.mul_one, diagPow_mul _ h.pos, show (0.5 + -0.5 : ℝ) = 0 by norm_num, diagPow_zero, Matrix.mul_one, hLR]

/-- `V diag(1/w) V^* K` maps the coefficients of the projected modes to their multiples. -/
theorem DmdCore.proj_coeffs_eigen (h : DmdCore C K d) :
    d.V * diagonal (fun i => (((d.w i)⁻¹ : ℝ) : 𝕜)) * d.Vᴴ * K * d.buildProj = d.buildProj * diagonal d.eigvals := by
  rw [← half_half h.pos]
  have := h.right
  unfold lowOrderMap at this
  unfold DmdDecomp.buildProj
  rw [show d.V * (diagPow (𝕜 := 𝕜) d.w (-0.5) * diagPow (𝕜 := 𝕜) d.w (-0.5)) * d.Vᴴ * K *
      (d.V * (diagPow (𝕜 := 𝕜) d.w (-0.5) * d.R)) = d.V * (diagPow (𝕜 := 𝕜) d.w (-0.5) *
      (diagPow (𝕜 := 𝕜) d.w (-0.5) * (d.Vᴴ * (K * (d.V * diagPow (𝕜 := 𝕜) d.w (-0.5)))) * d.R)) by
    simp only [Matrix.mul_assoc], this]
  simp only [Matrix.mul_assoc]

theorem diagonal_mul_inv (h0 : ∀ i, d.eigvals i ≠ 0) :
    diagonal d.eigvals * (diagonal fun i => (d.eigvals i)⁻¹) = (1 : Matrix (Fin d.r) (Fin d.r) 𝕜) := by
  rw [diagonal_mul_diagonal, ← diagonal_one]
  congr 1
  ext i
  exact mul_inv_cancel₀ (h0 i)

theorem DmdCore.exact_coeffs_eigen (h : DmdCore C K d) (h0 : ∀ i, d.eigvals i ≠ 0) :
    d.V * diagonal (fun i => (((d.w i)⁻¹ : ℝ) : 𝕜)) * d.Vᴴ * K * d.buildExact = d.buildProj := by
  rw [buildExact_eq, ← Matrix.mul_assoc, h.proj_coeffs_eigen, Matrix.mul_assoc, diagonal_mul_inv h0, Matrix.mul_one]

/-- `V V^*` does not change coefficients. -/
theorem DmdCore.proj_span (h : DmdCore C K d) : d.V * d.Vᴴ * d.buildProj = d.buildProj := by
  unfold DmdDecomp.buildProj
  rw [Matrix.mul_assoc, ← Matrix.mul_assoc d.Vᴴ, h.orth, Matrix.one_mul]

theorem DmdCore.inv_corr (h : DmdCore C K d) :
    d.V * diagonal (fun i => (((d.w i)⁻¹ : ℝ) : 𝕜)) * d.Vᴴ * C = d.V * d.Vᴴ := by
  rw [Matrix.mul_assoc, eigen_adjoint h.herm h.eigen, ← half_half h.pos, diagPow_mul _ h.pos,
    Matrix.mul_assoc, ← Matrix.mul_assoc (diagPow (𝕜 := 𝕜) d.w _), diagPow_mul _ h.pos,
    show (-0.5 + -0.5 + 1 : ℝ) = 0 by norm_num, diagPow_zero, Matrix.one_mul]

theorem DmdCore.adjoint_exact (h : DmdCore C K d) (hLR : d.Lᴴ * d.R = 1) (h0 : ∀ i, d.eigvals i ≠ 0) :
    d.buildAdjointᴴ * K * d.buildExact = 1 := by
  have e1 : d.buildAdjointᴴ * K * d.buildExact = d.Lᴴ * (lowOrderMap (diagPow (𝕜 := 𝕜) d.w (-0.5)) d.V K * d.R) *
      diagonal fun i => (d.eigvals i)⁻¹ := by
    rw [adjoint_cross]
    unfold lowOrderMap DmdDecomp.buildExact
    simp only [Matrix.mul_assoc]
  rw [e1, h.right, ← Matrix.mul_assoc, hLR, Matrix.one_mul, diagonal_mul_inv h0]

theorem DmdCore.adjoint_coeffs_eigen (h : DmdCore C K d) :
    d.buildAdjointᴴ * K * (d.V * diagonal (fun i => (((d.w i)⁻¹ : ℝ) : 𝕜)) * d.Vᴴ) =
      diagonal d.eigvals * d.buildAdjointᴴ := by
  rw [← half_half h.pos]
  have := h.left
  unfold lowOrderMap at this
  rw [adjoint_cross]
  unfold DmdDecomp.buildAdjoint
  rw [conjTranspose_mul, conjTranspose_mul, diagPow_conjTranspose]
  rw [show d.Lᴴ * (diagPow (𝕜 := 𝕜) d.w (-0.5) * (d.Vᴴ * K)) *
      (d.V * (diagPow (𝕜 := 𝕜) d.w (-0.5) * diagPow (𝕜 := 𝕜) d.w (-0.5)) * d.Vᴴ) =
      d.Lᴴ * (diagPow (𝕜 := 𝕜) d.w (-0.5) * (d.Vᴴ * (K * (d.V * diagPow (𝕜 := 𝕜) d.w (-0.5))))) *
      (diagPow (𝕜 := 𝕜) d.w (-0.5) * d.Vᴴ) by simp only [Matrix.mul_assoc], this]
  simp only [Matrix.mul_assoc]

end Core

/-- As many orthonormal combinations of rows as the rank span all rows. -/
theorem span_of_rank {n m r : Nat} {X : Matrix (Fin n) (Fin m) 𝕜} {V : Matrix (Fin m) (Fin r) 𝕜}
    {Z : Matrix (Fin n) (Fin r) 𝕜} (hV : Vᴴ * V = 1) (hZ : V = Xᴴ * Z) (hr : r = X.rank) : X * V * Vᴴ = X := by
  have hle : LinearMap.range V.mulVecLin ≤ LinearMap.range (Xᴴ).mulVecLin := by
    rintro _ ⟨x, rfl⟩
    exact ⟨Z *ᵥ x, by simp [hZ, mulVec_mulVec]⟩
  have hinj : Function.Injective V.mulVecLin := by
    intro x y hxy
    have := congrArg (Vᴴ *ᵥ ·) hxy
    simpa [mulVec_mulVec, hV] using this
  have hfin : Module.finrank 𝕜 (LinearMap.range V.mulVecLin) = Module.finrank 𝕜 (LinearMap.range (Xᴴ).mulVecLin) := by
    rw [LinearMap.finrank_range_of_inj hinj]
    have : (Xᴴ).rank = X.rank := rank_conjTranspose X
    unfold Matrix.rank at this hr
    rw [this, ← hr]
    simp
  have heq := Submodule.eq_of_le_of_finrank_eq hle hfin
  have key : V * Vᴴ * Xᴴ = Xᴴ := by
    refine ext_of_mulVec_single fun j => ?_
    have hm : Xᴴ *ᵥ Pi.single j 1 ∈ LinearMap.range V.mulVecLin := by rw [heq]; exact ⟨_, rfl⟩
    obtain ⟨y, hy⟩ := hm
    rw [← mulVec_mulVec, ← hy, mulVecLin_apply, mulVec_mulVec, Matrix.mul_assoc, hV, Matrix.mul_one]
  have := congrArg conjTranspose key
  simpa [conjTranspose_mul, Matrix.mul_assoc] using this

/-- For positive definite weights there is only one Moore-Penrose inverse. -/
theorem IsPinv.unique {n m : Nat} {W : Matrix (Fin n) (Fin n) 𝕜} {X : Matrix (Fin n) (Fin m) 𝕜}
    {P Q : Matrix (Fin m) (Fin n) 𝕜} (hW : Wᴴ = W) (hu : IsUnit W) (hP : IsPinv W X P) (hQ : IsPinv W X Q) : P = Q := by
  have h1 : W * (X * P) = W * (X * Q) := by
    calc W * (X * P) = W * X * Q * (X * P) := by
          conv_lhs => rw [← hQ.outer]
          simp only [Matrix.mul_assoc]
      _ = (W * X * Q)ᴴ * (X * P) := by rw [hQ.cols]
      _ = Qᴴ * Xᴴ * (W * X * P) := by
          simp only [conjTranspose_mul, hW, Matrix.mul_assoc]
      _ = Qᴴ * Xᴴ * (W * X * P)ᴴ := by rw [hP.cols]
      _ = Qᴴ * (X * P * X)ᴴ * W := by simp only [conjTranspose_mul, hW, Matrix.mul_assoc]
      _ = (W * X * Q)ᴴ := by rw [hP.outer]; simp only [conjTranspose_mul, hW, Matrix.mul_assoc]
      _ = W * (X * Q) := by rw [hQ.cols, Matrix.mul_assoc]
  have h2 : X * P = X * Q := hu.mul_left_cancel h1
  have h3 : P * X = Q * X := by
    calc P * X = P * X * (Q * X) := by
          conv_lhs => rw [← hQ.outer]
          simp only [Matrix.mul_assoc]
      _ = (P * X)ᴴ * (Q * X)ᴴ := by rw [hP.rows, hQ.rows]
      _ = (Q * (X * P * X))ᴴ := by simp only [conjTranspose_mul, Matrix.mul_assoc]
      _ = Q * X := by rw [hP.outer, hQ.rows]
  calc P = P * X * P := hP.inner.symm
    _ = Q * (X * P) := by rw [h3, Matrix.mul_assoc]
    _ = Q * X * Q := by rw [h2, Matrix.mul_assoc]
    _ = Q := hQ.inner

section Arrays

variable {n m : Nat} {W : Matrix (Fin n) (Fin n) 𝕜} {X Y : Matrix (Fin n) (Fin m) 𝕜} {d : DmdDecomp 𝕜 m}

/-- All relations, from the decompositions. -/
theorem DmdCore.modes (h : DmdCore (Xᴴ * W * X) (Xᴴ * W * Y) d) (hW : Wᴴ = W) (hLR : d.Lᴴ * d.R = 1)
    (h0 : ∀ i, d.eigvals i ≠ 0) :
    DmdModes W X Y d.w d.V d.eigvals (Y * d.buildExact) (X * d.buildProj) (X * d.buildAdjoint) := by
  have hG : ∀ {k : Nat} (Z : Matrix (Fin n) (Fin k) 𝕜), truncatedPinv W X d.w d.V * Z =
      d.V * diagonal (fun i => (((d.w i)⁻¹ : ℝ) : 𝕜)) * d.Vᴴ * (Xᴴ * W * Z) := fun Z => by
    unfold truncatedPinv
    simp only [Matrix.mul_assoc]
  have hGX : truncatedPinv W X d.w d.V * X = d.V * d.Vᴴ := by rw [hG, h.inv_corr]
  have hGe : truncatedPinv W X d.w d.V * (Y * d.buildExact) = d.buildProj := by
    rw [hG, ← Matrix.mul_assoc (Xᴴ * W), ← Matrix.mul_assoc, h.exact_coeffs_eigen h0]
  have hex : Y * d.buildProj = Y * d.buildExact * diagonal d.eigvals := by
    rw [Matrix.mul_assoc, buildExact_mul h0]
  have hexE : Y * truncatedPinv W X d.w d.V * (Y * d.buildExact) = Y * d.buildExact * diagonal d.eigvals := by
    rw [Matrix.mul_assoc, hGe, hex]
  have hspan : d.r = X.rank → X * d.V * d.Vᴴ = X := by
    intro hr
    refine span_of_rank (Z := W * (X * d.V * diagPow (𝕜 := 𝕜) d.w (-1))) h.orth ?_ hr
    have : d.V * (diagPow (𝕜 := 𝕜) d.w 1 * diagPow (𝕜 := 𝕜) d.w (-1)) = d.V := by
      rw [diagPow_mul _ h.pos, show (1 + -1 : ℝ) = 0 by norm_num, diagPow_zero, Matrix.mul_one]
    rw [← Matrix.mul_assoc, ← h.eigen] at this
    conv_lhs => rw [← this]
    simp only [Matrix.mul_assoc]
  have hinv : ∀ (A : Matrix (Fin n) (Fin n) 𝕜) (M : Matrix (Fin d.r) (Fin d.r) 𝕜), A * X = Y →
      A * (X * d.V) = X * d.V * M → A * (Y * d.buildExact) = Y * d.buildExact * diagonal d.eigvals := by
    intro A M hA hM
    rw [← hexE]
    have hYB : Y * d.buildExact = X * d.V * (M * (diagPow (𝕜 := 𝕜) d.w (-0.5) * (d.R * diagonal fun i => (d.eigvals i)⁻¹))) := by
      rw [← Matrix.mul_assoc _ M, ← hM, ← Matrix.mul_assoc A, hA]
      unfold DmdDecomp.buildExact
      simp only [Matrix.mul_assoc]
    rw [hYB]
    generalize M * (diagPow (𝕜 := 𝕜) d.w (-0.5) * (d.R * diagonal fun i => (d.eigvals i)⁻¹)) = Z
    rw [Matrix.mul_assoc Y, ← Matrix.mul_assoc (truncatedPinv W X d.w d.V), ← Matrix.mul_assoc (truncatedPinv W X d.w d.V), hGX, Matrix.mul_assoc d.V, h.orth, Matrix.mul_one, ← hA]
    simp only [Matrix.mul_assoc]
  refine ⟨h.orth, ?_, h.pos, ?_, ?_, hexE, ?_, ?_, ?_, ?_, ?_, hinv, ?_⟩
  · rw [h.eigen, diagPow_one]
  · rw [← h.adjoint_proj hLR, conjTranspose_mul]
    simp only [Matrix.mul_assoc]
  · rw [← h.adjoint_exact hLR h0, conjTranspose_mul]
    simp only [Matrix.mul_assoc]
  · rw [Matrix.mul_assoc, Matrix.mul_assoc Y, ← Matrix.mul_assoc (truncatedPinv W X d.w d.V) X, hGX, h.proj_span,
      hex, Matrix.mul_assoc X, ← Matrix.mul_assoc (truncatedPinv W X d.w d.V), hGe, Matrix.mul_assoc]
  · rw [Matrix.mul_assoc, hGe]
  · have := h.adjoint_coeffs_eigen
    rw [conjTranspose_mul]
    unfold truncatedPinv
    rw [show d.buildAdjointᴴ * Xᴴ * W * (Y * (d.V * (diagonal fun i => (((d.w i)⁻¹ : ℝ) : 𝕜)) * d.Vᴴ * Xᴴ * W)) =
      d.buildAdjointᴴ * (Xᴴ * W * Y) * (d.V * (diagonal fun i => (((d.w i)⁻¹ : ℝ) : 𝕜)) * d.Vᴴ) * (Xᴴ * W) by
        simp only [Matrix.mul_assoc], this]
    simp only [Matrix.mul_assoc]
  · have hRL : d.R * d.Lᴴ = 1 := mul_eq_one_comm.mp hLR
    have : d.buildProj * d.buildAdjointᴴ = d.V * diagonal (fun i => (((d.w i)⁻¹ : ℝ) : 𝕜)) * d.Vᴴ := by
      unfold DmdDecomp.buildProj DmdDecomp.buildAdjoint
      rw [conjTranspose_mul, conjTranspose_mul, diagPow_conjTranspose,
        show d.V * (diagPow (𝕜 := 𝕜) d.w (-0.5) * d.R) * (d.Lᴴ * diagPow (𝕜 := 𝕜) d.w (-0.5) * d.Vᴴ) =
          d.V * (diagPow (𝕜 := 𝕜) d.w (-0.5) * (d.R * d.Lᴴ) * diagPow (𝕜 := 𝕜) d.w (-0.5)) * d.Vᴴ by
          simp only [Matrix.mul_assoc], hRL, Matrix.mul_one, half_half h.pos]
    rw [← hex, conjTranspose_mul]
    unfold truncatedPinv
    rw [← this]
    simp only [Matrix.mul_assoc]
  · intro hr
    refine ⟨?_, ?_, ?_, ?_⟩
    · rw [Matrix.mul_assoc, hGX, ← Matrix.mul_assoc, hspan hr]
    · rw [hGX]
      unfold truncatedPinv
      simp only [← Matrix.mul_assoc]
      rw [Matrix.mul_assoc d.V d.Vᴴ d.V, h.orth, Matrix.mul_one]
    · rw [hGX, conjTranspose_mul, conjTranspose_conjTranspose]
    · unfold truncatedPinv
      simp only [conjTranspose_mul, conjTranspose_conjTranspose, hW, diagonal_conjTranspose, Matrix.mul_assoc]
      congr 6
      ext i
      simp
  · intro hr A M hA hM
    refine hinv A (d.Vᴴ * M * d.V) hA ?_
    rw [← Matrix.mul_assoc A, hA, hM]
    conv_lhs => rw [← hspan hr]
    simp only [Matrix.mul_assoc]

/-- Coefficients, from the decompositions. -/
theorem DmdCore.coeffs (h : DmdCore (Xᴴ * W * X) (Xᴴ * W * Y) d) (hm : 0 < m) :
    DmdCoeffs W X Y (X * d.buildAdjoint) (d.Lᴴ * (diagPow (𝕜 := 𝕜) d.w 0.5 * d.Vᴴ))
      (d.Lᴴ * (diagPow (𝕜 := 𝕜) d.w (-0.5) * (d.Vᴴ * (Xᴴ * W * Y)))) (spectralCoeffs d.w d.V d.L ⟨0, hm⟩) := by
  have hp : d.Lᴴ * (diagPow (𝕜 := 𝕜) d.w 0.5 * d.Vᴴ) = (X * d.buildAdjoint)ᴴ * W * X := by
    rw [← h.adjoint_corr, conjTranspose_mul]
    simp only [Matrix.mul_assoc]
  refine ⟨hp, ?_, ?_, ?_⟩
  · rw [← adjoint_cross, conjTranspose_mul]
    simp only [Matrix.mul_assoc]
  · unfold spectralCoeffs NdArray.squeeze
    by_cases h1 : d.r = 1
    · simp [h1]
    · simp [h1]
  · intro i j hj
    rw [← hp]
    unfold spectralCoeffs NdArray.squeeze
    dsimp only
    rw [dif_pos i.isLt]
    have : (⟨0, hm⟩ : Fin m) = j := by ext; exact hj.symm
    rw [this, mulVec_mulVec, ← Matrix.mul_assoc]
    rfl

end Arrays

/-! ### Uniqueness -/

section Unique

variable {n m r r' : Nat} {W : Matrix (Fin n) (Fin n) 𝕜} {X Y : Matrix (Fin n) (Fin m) 𝕜}
  {w : Fin r → ℝ} {V : Matrix (Fin m) (Fin r) 𝕜} {eigvals : Fin r → 𝕜} {exact proj adjoint : Matrix (Fin n) (Fin r) 𝕜}
  {w' : Fin r' → ℝ} {V' : Matrix (Fin m) (Fin r') 𝕜} {eigvals' : Fin r' → 𝕜}
  {exact' proj' adjoint' : Matrix (Fin n) (Fin r') 𝕜}

/-- Coefficients of eigenvectors with respect to those of another decomposition of the same map. -/
theorem DmdModes.transfer (h : DmdModes W X Y w V eigvals exact proj adjoint)
    (h' : DmdModes W X Y w' V' eigvals' exact' proj' adjoint') (hG : truncatedPinv W X w V = truncatedPinv W X w' V') :
    ∀ i j, eigvals' j * (adjoint'ᴴ * W * exact) j i = (adjoint'ᴴ * W * exact) j i * eigvals i := by
  intro i j
  have e : diagonal eigvals' * (adjoint'ᴴ * W * exact) = adjoint'ᴴ * W * exact * diagonal eigvals := by
    rw [← Matrix.mul_assoc, ← h'.adjoint_eigen, ← hG, Matrix.mul_assoc, h.exact_eigen, Matrix.mul_assoc (adjoint'ᴴ * W)]
  have := congrFun (congrFun e j) i
  rwa [diagonal_mul, mul_diagonal] at this

theorem DmdModes.expand (h : DmdModes W X Y w V eigvals exact proj adjoint)
    (h' : DmdModes W X Y w' V' eigvals' exact' proj' adjoint') (hG : truncatedPinv W X w V = truncatedPinv W X w' V')
    (h0 : ∀ i, eigvals i ≠ 0) : exact = exact' * (adjoint'ᴴ * W * exact) := by
  have e : exact * diagonal eigvals = exact' * (adjoint'ᴴ * W * exact) * diagonal eigvals := by
    conv_lhs => rw [← h.exact_eigen, hG, h'.spectral_form]
    ext k i
    rw [mul_diagonal, Matrix.mul_assoc, Matrix.mul_assoc, Matrix.mul_assoc, Matrix.mul_apply, Matrix.mul_apply, Finset.sum_mul]
    refine Finset.sum_congr rfl fun j _ => ?_
    rw [diagonal_mul, ← Matrix.mul_assoc, h.transfer h' hG, mul_assoc]
  ext k i
  have := congrFun (congrFun e k) i
  rw [mul_diagonal, mul_diagonal] at this
  exact mul_right_cancel₀ (h0 i) this

/-- Two results for the same map differ only in the order and scale of the modes. -/
theorem DmdModes.unique (h : DmdModes W X Y w V eigvals exact proj adjoint)
    (h' : DmdModes W X Y w' V' eigvals' exact' proj' adjoint') (hG : truncatedPinv W X w V = truncatedPinv W X w' V')
    (hW : Wᴴ = W) (hu : IsUnit W)
    (h0 : ∀ i, eigvals i ≠ 0) (h0' : ∀ i, eigvals' i ≠ 0) (hi : Function.Injective eigvals)
    (hi' : Function.Injective eigvals') :
    ∃ σ c, DmdSame eigvals exact proj adjoint (adjointᴴ * W * X) (adjointᴴ * W * Y) eigvals' exact' proj' adjoint'
      (adjoint'ᴴ * W * X) (adjoint'ᴴ * W * Y) σ c := by
  have ex := h.expand h' hG h0
  have ex' := h'.expand h hG.symm h0'
  have tr := h.transfer h' hG
  have tr' := h'.transfer h hG.symm
  set T := adjoint'ᴴ * W * exact with hT
  set T' := adjointᴴ * W * exact' with hT'
  have hTT : T' * T = 1 := by
    rw [hT', Matrix.mul_assoc, ← ex, h.adjoint_exact]
  have hTT' : T * T' = 1 := by
    rw [hT, Matrix.mul_assoc, ← ex', h'.adjoint_exact]
  have hex : ∀ i, ∃ j, T j i ≠ 0 := by
    intro i
    by_contra hcon
    push Not at hcon
    have := congrFun (congrFun hTT i) i
    rw [Matrix.mul_apply, one_apply_eq] at this
    simp [hcon] at this
  have hex' : ∀ j, ∃ i, T' i j ≠ 0 := by
    intro i
    by_contra hcon
    push Not at hcon
    have := congrFun (congrFun hTT' i) i
    rw [Matrix.mul_apply, one_apply_eq] at this
    simp [hcon] at this
  choose f hf using hex
  choose g hg using hex'
  have hfe : ∀ i, eigvals' (f i) = eigvals i := fun i => by
    have := tr i (f i)
    rw [mul_comm] at this
    exact mul_left_cancel₀ (hf i) this
  have hge : ∀ j, eigvals (g j) = eigvals' j := fun j => by
    have := tr' j (g j)
    rw [mul_comm] at this
    exact mul_left_cancel₀ (hg j) this
  have hoff : ∀ i j, j ≠ f i → T j i = 0 := by
    intro i j hj
    by_contra hne
    apply hj
    apply hi'
    rw [hfe]
    have := tr i j
    rw [mul_comm] at this
    exact mul_left_cancel₀ hne this
  have hoff' : ∀ j i, i ≠ g j → T' i j = 0 := by
    intro i j hj
    by_contra hne
    apply hj
    apply hi
    rw [hge]
    have := tr' i j
    rw [mul_comm] at this
    exact mul_left_cancel₀ hne this
  let σ : Fin r ≃ Fin r' := ⟨f, g, fun i => hi (by rw [hge, hfe]), fun j => hi' (by rw [hfe, hge])⟩
  have hgf : ∀ i, g (f i) = i := fun i => hi (by rw [hge, hfe])
  -- `exact k i = exact' k (f i) * T (f i) i`
  have hcol : ∀ k i, exact k i = exact' k (f i) * T (f i) i := by
    intro k i
    conv_lhs => rw [ex]
    rw [Matrix.mul_apply]
    refine Finset.sum_eq_single _ (fun j _ hj => ?_) (fun hn => absurd (Finset.mem_univ _) hn)
    rw [hoff i j hj, mul_zero]
  have hprod : ∀ i, T' i (f i) * T (f i) i = 1 := by
    intro i
    have := congrFun (congrFun hTT i) i
    rw [one_apply_eq, Matrix.mul_apply] at this
    rw [← this]
    symm
    refine Finset.sum_eq_single (f i) (fun j _ hj => ?_) (fun hn => absurd (Finset.mem_univ _) hn)
    rw [hoff i j hj, mul_zero]
  have hc0 : ∀ i, T' i (f i) ≠ 0 := fun i hz => by
    have := hprod i
    rw [hz, zero_mul] at this
    exact zero_ne_one this
  have hex1 : ∀ i k, exact' k (f i) = exact k i * T' i (f i) := by
    intro i k
    rw [hcol, mul_assoc, mul_comm (T (f i) i), hprod, mul_one]
  -- adjoint modes, from the spectral forms
  have hadj : ∀ i k, T' i (f i) * (adjoint'ᴴ * W) (f i) k = (adjointᴴ * W) i k := by
    intro i k
    have e1 : adjointᴴ * W = T' * (adjoint'ᴴ * W) := by
      have e2 : diagonal eigvals * (adjointᴴ * W) = diagonal eigvals * (T' * (adjoint'ᴴ * W)) := by
        rw [← h.adjoint_eigen, hG, h'.spectral_form]
        have e3 : T' * diagonal eigvals' = diagonal eigvals * T' := by
          ext a b
          rw [mul_diagonal, diagonal_mul, tr' b a]
        rw [show adjointᴴ * W * (exact' * diagonal eigvals' * adjoint'ᴴ * W) = T' * diagonal eigvals' * (adjoint'ᴴ * W) by
          rw [hT']; simp only [Matrix.mul_assoc], e3]
        simp only [Matrix.mul_assoc]
      ext a b
      have := congrFun (congrFun e2 a) b
      rw [diagonal_mul, diagonal_mul] at this
      exact mul_left_cancel₀ (h0 a) this
    rw [e1, Matrix.mul_apply (M := T')]
    symm
    refine Finset.sum_eq_single (f i) (fun j _ hj => ?_) (fun hn => absurd (Finset.mem_univ _) hn)
    rw [hoff' j i fun e => hj (by rw [e]; exact (σ.apply_symm_apply j).symm), zero_mul]
  refine ⟨σ, fun i => T' i (f i), hc0, hfe, hex1, ?_, ?_, ?_, ?_⟩
  · intro i k
    change proj' k (f i) = _
    rw [← h.proj_of_exact, ← h'.proj_of_exact, ← hG]
    rw [Matrix.mul_apply, Matrix.mul_apply, Finset.sum_mul]
    refine Finset.sum_congr rfl fun l _ => ?_
    rw [hex1 i l, mul_assoc]
  · intro i k
    change adjoint' k (f i) * _ = _
    have e1 : ∀ l, (W * adjoint') l (f i) * star (T' i (f i)) = (W * adjoint) l i := by
      intro l
      have := congrArg star (hadj i l)
      have eW : ∀ {q : Nat} (B : Matrix (Fin n) (Fin q) 𝕜) a b, star ((Bᴴ * W) a b) = (W * B) b a := by
        intro q B a b
        rw [← conjTranspose_apply, conjTranspose_mul, conjTranspose_conjTranspose, hW]
      rw [star_mul', eW, eW, mul_comm] at this
      exact this
    have e2 : W * (Matrix.of fun (l : Fin n) (_ : Fin 1) => adjoint' l (f i) * star (T' i (f i))) =
        W * (Matrix.of fun (l : Fin n) (_ : Fin 1) => adjoint l i) := by
      ext a b
      have := e1 a
      rw [Matrix.mul_apply, Matrix.mul_apply, Finset.sum_mul] at this
      rw [Matrix.mul_apply, Matrix.mul_apply]
      refine Eq.trans ?_ this
      exact Finset.sum_congr rfl fun l _ => (mul_assoc _ _ _).symm
    have hinv : Invertible W := hu.invertible
    have e3 := congrArg (fun Z => ⅟W * Z) e2
    simp only [← Matrix.mul_assoc, invOf_mul_self, Matrix.one_mul] at e3
    exact congrFun (congrFun e3 k) 0
  · intro i j
    rw [Matrix.mul_apply, Matrix.mul_apply, Finset.mul_sum]
    refine Finset.sum_congr rfl fun k _ => ?_
    change _ * ((adjoint'ᴴ * W) (f i) k * _) = _
    rw [← mul_assoc, hadj]
  · intro i j
    rw [Matrix.mul_apply, Matrix.mul_apply, Finset.mul_sum]
    refine Finset.sum_congr rfl fun k _ => ?_
    change _ * ((adjoint'ᴴ * W) (f i) k * _) = _
    rw [← mul_assoc, hadj]

/-- Orthonormal eigenvectors with eigenvalues above a threshold, as many as there are, span the same space. -/
theorem spectral_subspace {C : Matrix (Fin m) (Fin m) 𝕜} {o : EighOut 𝕜 m} (ho : IsEigh C o) (θ : ℝ)
    (hV : Vᴴ * V = 1) (hCV : C * V = V * diagonal fun i => (w i : 𝕜)) (hw : ∀ i, θ < w i)
    (hr : r = Fintype.card {i : Fin m // θ < o.w i}) :
    V * Vᴴ = o.V.submatrix id (fun i : {i : Fin m // θ < o.w i} => i.val) *
      (o.V.submatrix id (fun i : {i : Fin m // θ < o.w i} => i.val))ᴴ := by
  set U := o.V.submatrix id (fun i : {i : Fin m // θ < o.w i} => i.val) with hU
  have hVu : o.V * o.Vᴴ = 1 := mul_eq_one_comm.mp ho.orthonormal
  have hCo : o.Vᴴ * C = diagonal (fun i => (o.w i : 𝕜)) * o.Vᴴ := by
    have : o.Vᴴ * (C * o.V) * o.Vᴴ = o.Vᴴ * C := by
      rw [Matrix.mul_assoc, Matrix.mul_assoc C, hVu, Matrix.mul_one]
    rw [← this, ho.eigen, ← Matrix.mul_assoc o.Vᴴ, ho.orthonormal, Matrix.one_mul]
  have hzero : ∀ k i, ¬ θ < o.w k → (o.Vᴴ * V) k i = 0 := by
    intro k i hk
    have e : diagonal (fun i => (o.w i : 𝕜)) * (o.Vᴴ * V) = o.Vᴴ * V * diagonal fun i => (w i : 𝕜) := by
      rw [← Matrix.mul_assoc, ← hCo, Matrix.mul_assoc, hCV, Matrix.mul_assoc]
    have := congrFun (congrFun e k) i
    rw [diagonal_mul, mul_diagonal, mul_comm] at this
    by_contra hne
    have h2 := mul_left_cancel₀ hne this
    have h3 : o.w k = w i := by exact_mod_cast h2
    exact hk (h3 ▸ hw i)
  have hUV : U * (Uᴴ * V) = V := by
    have e : o.V * (o.Vᴴ * V) = V := by rw [← Matrix.mul_assoc, hVu, Matrix.one_mul]
    conv_rhs => rw [← e]
    ext a b
    rw [Matrix.mul_apply, Matrix.mul_apply]
    have e2 : ∀ k : {i : Fin m // θ < o.w i}, U a k * (Uᴴ * V) k b = o.V a k * (o.Vᴴ * V) k b := fun k => rfl
    simp only [e2]
    rw [← Finset.sum_subtype (Finset.univ.filter fun k => θ < o.w k) (by simp) fun k => o.V a k * (o.Vᴴ * V) k b,
      Finset.sum_filter]
    refine Finset.sum_congr rfl fun k _ => ?_
    split
    · rfl
    · rename_i hk
      rw [hzero k b hk, mul_zero]
  have hQ : (Uᴴ * V)ᴴ * (Uᴴ * V) = 1 := by
    rw [conjTranspose_mul, conjTranspose_conjTranspose, Matrix.mul_assoc, hUV, hV]
  have hQ' : (Uᴴ * V) * (Uᴴ * V)ᴴ = 1 := by
    refine (mul_eq_one_comm_of_equiv (Fintype.equivOfCardEq ?_)).mp hQ
    rw [Fintype.card_fin, hr]
  conv_lhs => rw [← hUV]
  rw [conjTranspose_mul, ← Matrix.mul_assoc, Matrix.mul_assoc U, hQ', Matrix.mul_one]

/-- The truncated inverse depends only on the span of the retained eigenvectors. -/
theorem truncatedPinv_unique (hV : Vᴴ * V = 1) (hV' : V'ᴴ * V' = 1) (hp : V * Vᴴ = V' * V'ᴴ) (hw : ∀ i, 0 < w i) (hw' : ∀ i, 0 < w' i)
    (hCV : Xᴴ * W * X * V = V * diagonal fun i => (w i : 𝕜)) (hCV' : Xᴴ * W * X * V' = V' * diagonal fun i => (w' i : 𝕜)) :
    truncatedPinv W X w V = truncatedPinv W X w' V' := by
  have hd : ∀ {q : Nat} {w : Fin q → ℝ}, (∀ i, 0 < w i) →
      diagonal (fun i => (w i : 𝕜)) * diagonal (fun i => (((w i)⁻¹ : ℝ) : 𝕜)) = 1 := by
    intro q w hw
    rw [diagonal_mul_diagonal, ← diagonal_one]
    congr 1
    ext i
    rw [← RCLike.ofReal_mul, mul_inv_cancel₀ (hw i).ne', RCLike.ofReal_one]
  have hd' : ∀ {q : Nat} {w : Fin q → ℝ}, (∀ i, 0 < w i) →
      diagonal (fun i => (((w i)⁻¹ : ℝ) : 𝕜)) * diagonal (fun i => (w i : 𝕜)) = 1 := by
    intro q w hw
    exact mul_eq_one_comm.mp (hd hw)
  have key : V * diagonal (fun i => (((w i)⁻¹ : ℝ) : 𝕜)) * Vᴴ = V' * diagonal (fun i => (((w' i)⁻¹ : ℝ) : 𝕜)) * V'ᴴ := by
    have a1 : V * diagonal (fun i => (w i : 𝕜)) * Vᴴ = V' * diagonal (fun i => (w' i : 𝕜)) * V'ᴴ := by
      rw [← hCV, ← hCV', Matrix.mul_assoc _ V, Matrix.mul_assoc _ V', hp]
    calc V * diagonal (fun i => (((w i)⁻¹ : ℝ) : 𝕜)) * Vᴴ
        = V * diagonal (fun i => (((w i)⁻¹ : ℝ) : 𝕜)) * Vᴴ * (V * Vᴴ) := by
          rw [← Matrix.mul_assoc, Matrix.mul_assoc _ Vᴴ V, hV, Matrix.mul_one]
      _ = V * diagonal (fun i => (((w i)⁻¹ : ℝ) : 𝕜)) * Vᴴ * ((V' * diagonal (fun i => (w' i : 𝕜)) * V'ᴴ) *
            (V' * diagonal (fun i => (((w' i)⁻¹ : ℝ) : 𝕜)) * V'ᴴ)) := by
          rw [hp]
          congr 1
          rw [show V' * diagonal (fun i => (w' i : 𝕜)) * V'ᴴ * (V' * diagonal (fun i => (((w' i)⁻¹ : ℝ) : 𝕜)) * V'ᴴ) =
            V' * (diagonal (fun i => (w' i : 𝕜)) * (V'ᴴ * V') * diagonal (fun i => (((w' i)⁻¹ : ℝ) : 𝕜))) * V'ᴴ by
              simp only [Matrix.mul_assoc], hV', Matrix.mul_one, hd hw', Matrix.mul_one]
      _ = V * Vᴴ * (V' * diagonal (fun i => (((w' i)⁻¹ : ℝ) : 𝕜)) * V'ᴴ) := by
          rw [← a1, ← Matrix.mul_assoc]
          congr 1
          rw [show V * diagonal (fun i => (((w i)⁻¹ : ℝ) : 𝕜)) * Vᴴ * (V * diagonal (fun i => (w i : 𝕜)) * Vᴴ) =
            V * (diagonal (fun i => (((w i)⁻¹ : ℝ) : 𝕜)) * (Vᴴ * V) * diagonal (fun i => (w i : 𝕜))) * Vᴴ by
              simp only [Matrix.mul_assoc], hV, Matrix.mul_one, hd' hw, Matrix.mul_one]
      _ = V' * diagonal (fun i => (((w' i)⁻¹ : ℝ) : 𝕜)) * V'ᴴ := by
          rw [hp, Matrix.mul_assoc V' _ V'ᴴ, Matrix.mul_assoc V', ← Matrix.mul_assoc V'ᴴ V', hV', Matrix.one_mul]
  unfold truncatedPinv
  rw [key]

end Unique

end Modred
