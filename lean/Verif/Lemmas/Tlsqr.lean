import Verif.Spec.Tlsqr
import Verif.Lemmas.DmdHandles

/-!
# Algebra of total-least-squares dynamic mode decomposition
-/

namespace Modred

open Matrix
open scoped ComplexOrder

variable {𝕜 : Type*} [RCLike 𝕜] {m : Nat}

theorem TlsDecomp.proj_herm (t : TlsDecomp 𝕜 m) : t.projᴴ = t.proj := by
  unfold TlsDecomp.proj
  rw [conjTranspose_mul, conjTranspose_conjTranspose]

theorem TlsDecomp.proj_idem (t : TlsDecomp 𝕜 m) (h : t.sumVᴴ * t.sumV = 1) : t.proj * t.proj = t.proj := by
  unfold TlsDecomp.proj
  rw [Matrix.mul_assoc, ← Matrix.mul_assoc t.sumVᴴ, h, Matrix.one_mul]

theorem TlsDecomp.projCorr (t : TlsDecomp 𝕜 m) (C : Matrix (Fin m) (Fin m) 𝕜) :
    tlsProjCorr t.sumV C = t.proj * C * t.proj := by
  unfold tlsProjCorr TlsDecomp.proj
  simp only [Matrix.mul_assoc]

theorem TlsDecomp.lowOrder (t : TlsDecomp 𝕜 m) (K : Matrix (Fin m) (Fin m) 𝕜) (s : Matrix (Fin t.d.r) (Fin t.d.r) 𝕜) :
    tlsLowOrderMap s t.d.V t.sumV K = lowOrderMap s t.d.V (t.proj * K * t.proj) := by
  unfold tlsLowOrderMap lowOrderMap TlsDecomp.proj
  simp only [Matrix.mul_assoc]

/-- What the methods compute from the correlation arrays. -/
structure TlsCore (C C' K : Matrix (Fin m) (Fin m) 𝕜) (t : TlsDecomp 𝕜 m) : Prop where
  sum : TlsProjection C C' t.sumW t.sumV
  core : DmdCore (t.proj * C * t.proj) (t.proj * K * t.proj) t.d

section

variable {C C' K : Matrix (Fin m) (Fin m) 𝕜} {t : TlsDecomp 𝕜 m}

/-- The retained eigenvectors lie in the range of the projection. -/
theorem TlsCore.fixed (h : TlsCore C C' K t) : t.proj * t.d.V = t.d.V := by
  have h1 : t.d.V = t.proj * C * t.proj * t.d.V * diagPow (𝕜 := 𝕜) t.d.w (-1) := by
    rw [h.core.eigen, Matrix.mul_assoc, diagPow_mul _ h.core.pos, show (1 + -1 : ℝ) = 0 by norm_num, diagPow_zero,
      Matrix.mul_one]
  rw [h1]
  simp only [← Matrix.mul_assoc, t.proj_idem h.sum.orthonormal]

theorem TlsCore.buildProj (h : TlsCore C C' K t) : t.buildProj = t.d.buildProj := by
  have e : t.buildProj = t.proj * t.d.V * (diagPow (𝕜 := 𝕜) t.d.w (-0.5) * t.d.R) := by
    unfold TlsDecomp.buildProj TlsDecomp.proj
    simp only [Matrix.mul_assoc]
  rw [e, h.fixed]
  rfl

theorem TlsCore.buildAdjoint (h : TlsCore C C' K t) : t.buildAdjoint = t.d.buildAdjoint := by
  have e : t.buildAdjoint = t.proj * t.d.V * (diagPow (𝕜 := 𝕜) t.d.w (-0.5) * t.d.L) := by
    unfold TlsDecomp.buildAdjoint TlsDecomp.proj
    simp only [Matrix.mul_assoc]
  rw [e, h.fixed]
  rfl

theorem TlsCore.buildExact (h : TlsCore C C' K t) : t.buildExact = t.d.buildExact := by
  have e : t.buildExact = t.proj * t.d.V * (diagPow (𝕜 := 𝕜) t.d.w (-0.5) * (t.d.R * diagonal fun i => (t.d.eigvals i)⁻¹)) := by
    unfold TlsDecomp.buildExact TlsDecomp.proj
    simp only [Matrix.mul_assoc]
  rw [e, h.fixed]
  rfl

theorem TlsDecomp.buildExact_eq (t : TlsDecomp 𝕜 m) :
    t.buildExact = t.buildProj * diagonal fun i => (t.d.eigvals i)⁻¹ := by
  unfold TlsDecomp.buildExact TlsDecomp.buildProj
  simp only [Matrix.mul_assoc]

/-- Coefficients are in the range of the projection, so those of the data are those of the projected data. -/
theorem TlsCore.range (h : TlsCore C C' K t) : t.proj * t.d.buildProj = t.d.buildProj ∧
    t.proj * t.d.buildExact = t.d.buildExact ∧ t.proj * t.d.buildAdjoint = t.d.buildAdjoint := by
  unfold DmdDecomp.buildProj DmdDecomp.buildExact DmdDecomp.buildAdjoint
  refine ⟨?_, ?_, ?_⟩ <;> rw [← Matrix.mul_assoc, h.fixed]

/-- Coefficients of the advanced data. -/
theorem TlsCore.advCoeffs (t : TlsDecomp 𝕜 m) (K : Matrix (Fin m) (Fin m) 𝕜) :
    t.d.Lᴴ * (diagPow (𝕜 := 𝕜) t.d.w (-0.5) * (t.d.Vᴴ * (t.sumV * (t.sumVᴴ * (K * (t.sumV * t.sumVᴴ)))))) =
      t.d.Lᴴ * (diagPow (𝕜 := 𝕜) t.d.w (-0.5) * (t.d.Vᴴ * (t.proj * K * t.proj))) := by
  unfold TlsDecomp.proj
  simp only [Matrix.mul_assoc]

end

/-- Correlation arrays of projected data. -/
theorem gram_proj {n : Nat} (W : Matrix (Fin n) (Fin n) 𝕜) (X Y : Matrix (Fin n) (Fin m) 𝕜) (t : TlsDecomp 𝕜 m) :
    (X * t.proj)ᴴ * W * (Y * t.proj) = t.proj * (Xᴴ * W * Y) * t.proj := by
  rw [conjTranspose_mul, t.proj_herm]
  simp only [Matrix.mul_assoc]

theorem gram_proj_vecs {E : Type*} [AddCommGroup E] [Module 𝕜 E] (ip : E →ₗ⋆[𝕜] E →ₗ[𝕜] 𝕜) (X Y : Fin m → E)
    (t : TlsDecomp 𝕜 m) : gram ip (combine X t.proj) (combine Y t.proj) = t.proj * gram ip X Y * t.proj := by
  rw [gram_combine, t.proj_herm]

/-- The spectral coefficients of the snapshot method are absolute values of entries of `Lᴴ Σ^½ V^T`. -/
theorem tlsSpectral_shape {r : Nat} (w : Fin r → ℝ) (V : Matrix (Fin m) (Fin r) 𝕜) (L : Matrix (Fin r) (Fin r) 𝕜)
    (first : Fin m) : (tlsSpectralCoeffs w V L first).shape = (if r = 1 then [] else [r]) ∧
      ∀ i : Fin r, (tlsSpectralCoeffs w V L first).data i = ‖(Lᴴ * (diagPow (𝕜 := 𝕜) w 0.5 * Vᵀ)) i first‖ := by
  constructor
  · unfold tlsSpectralCoeffs NdArray.squeeze
    by_cases h1 : r = 1
    · simp [h1]
    · simp [h1]
  · intro i
    unfold tlsSpectralCoeffs NdArray.squeeze
    dsimp only
    rw [dif_pos i.isLt, mulVec_mulVec, ← Matrix.mul_assoc]
    rfl

/-- Stacked arrays. -/
theorem stackRows_gram {n q : Nat} (a b : Matrix (Fin n) (Fin q) 𝕜) :
    (stackRows a b)ᴴ * stackRows a b = aᴴ * a + bᴴ * b := by
  ext i j
  rw [Matrix.mul_apply, Fin.sum_univ_add, Matrix.add_apply, Matrix.mul_apply, Matrix.mul_apply]
  simp only [stackRows, conjTranspose_apply, of_apply, Fin.addCases_left, Fin.addCases_right]

theorem posDef_sum_zero {n : Nat} {W : Matrix (Fin n) (Fin n) 𝕜} (hW : W.PosDef) {A B : Matrix (Fin n) (Fin m) 𝕜}
    (h : Aᴴ * W * A + Bᴴ * W * B = 0) : A = 0 ∧ B = 0 := by
  have e : ∀ (Z : Matrix (Fin n) (Fin m) 𝕜) j, (Zᴴ * W * Z) j j = star (fun i => Z i j) ⬝ᵥ W *ᵥ fun i => Z i j := by
    intro Z j
    rw [Matrix.mul_assoc]
    rfl
  have hnn : ∀ (Z : Matrix (Fin n) (Fin m) 𝕜) j, 0 ≤ (Zᴴ * W * Z) j j := fun Z j => by
    rw [e]
    exact hW.posSemidef.dotProduct_mulVec_nonneg _
  have hz : ∀ (Z : Matrix (Fin n) (Fin m) 𝕜), (∀ j, (Zᴴ * W * Z) j j = 0) → Z = 0 := by
    intro Z hZ
    ext i j
    by_contra hne
    have hx : (fun i => Z i j) ≠ 0 := fun h0 => hne (congrFun h0 i)
    have := hW.dotProduct_mulVec_pos hx
    rw [← e, hZ] at this
    exact lt_irrefl _ this
  have hs : ∀ j, (Aᴴ * W * A) j j + (Bᴴ * W * B) j j = 0 := fun j => congrFun (congrFun h j) j
  exact ⟨hz A fun j => ((add_eq_zero_iff_of_nonneg (hnn A j) (hnn B j)).mp (hs j)).1,
    hz B fun j => ((add_eq_zero_iff_of_nonneg (hnn A j) (hnn B j)).mp (hs j)).2⟩

/-- If as many directions are retained as the data and advanced data together have, the projection changes neither. -/
theorem proj_full {n q : Nat} {W : Matrix (Fin n) (Fin n) 𝕜} (hW : W.PosDef) {X Y : Matrix (Fin n) (Fin m) 𝕜}
    {sumW : Fin q → ℝ} {sumV : Matrix (Fin m) (Fin q) 𝕜} (h : TlsProjection (Xᴴ * W * X) (Yᴴ * W * Y) sumW sumV)
    (hq : q = (Xᴴ * W * X + Yᴴ * W * Y).rank) : X * (sumV * sumVᴴ) = X ∧ Y * (sumV * sumVᴴ) = Y := by
  have hherm : (Xᴴ * W * X + Yᴴ * W * Y)ᴴ = Xᴴ * W * X + Yᴴ * W * Y := by
    simp only [conjTranspose_add, conjTranspose_mul, conjTranspose_conjTranspose, hW.isHermitian.eq, Matrix.mul_assoc]
  have hS : (Xᴴ * W * X + Yᴴ * W * Y) * sumV * sumVᴴ = Xᴴ * W * X + Yᴴ * W * Y := by
    refine span_of_rank (Z := sumV * diagPow (𝕜 := 𝕜) sumW (-1)) h.orthonormal ?_ hq
    rw [hherm, ← Matrix.mul_assoc, h.eigen, ← diagPow_one, Matrix.mul_assoc, diagPow_mul _ h.pos,
      show (1 + -1 : ℝ) = 0 by norm_num, diagPow_zero, Matrix.mul_one]
  have h0 : (X - X * (sumV * sumVᴴ))ᴴ * W * (X - X * (sumV * sumVᴴ)) +
      (Y - Y * (sumV * sumVᴴ))ᴴ * W * (Y - Y * (sumV * sumVᴴ)) = 0 := by
    have e : ∀ Z : Matrix (Fin n) (Fin m) 𝕜, Z - Z * (sumV * sumVᴴ) = Z * (1 - sumV * sumVᴴ) := fun Z => by
      rw [Matrix.mul_sub, Matrix.mul_one]
    rw [e, e, conjTranspose_mul, conjTranspose_mul]
    have e2 : (1 - sumV * sumVᴴ)ᴴ * Xᴴ * W * (X * (1 - sumV * sumVᴴ)) + (1 - sumV * sumVᴴ)ᴴ * Yᴴ * W * (Y * (1 - sumV * sumVᴴ)) =
        (1 - sumV * sumVᴴ)ᴴ * ((Xᴴ * W * X + Yᴴ * W * Y) * (1 - sumV * sumVᴴ)) := by
      simp only [Matrix.add_mul, Matrix.mul_add, Matrix.mul_assoc]
    rw [e2, Matrix.mul_sub, Matrix.mul_one, ← Matrix.mul_assoc, hS, sub_self, Matrix.mul_zero]
  obtain ⟨h1, h2⟩ := posDef_sum_zero hW h0
  exact ⟨(sub_eq_zero.mp h1).symm, (sub_eq_zero.mp h2).symm⟩

end Modred
