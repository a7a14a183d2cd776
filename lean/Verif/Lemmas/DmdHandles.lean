import Verif.Spec.DmdHandles
import Verif.Lemmas.Dmd
import Verif.Lemmas.HandlesLA

/-!
# Algebra of dynamic mode decomposition of vectors of any space
-/

namespace Modred

open Matrix
open scoped ComplexOrder

variable {𝕜 : Type*} [RCLike 𝕜] {E : Type*} [AddCommGroup E] [Module 𝕜 E]

section

variable (ip : E →ₗ⋆[𝕜] E →ₗ[𝕜] 𝕜)

theorem gram_combine {p q r s : Nat} (v : Fin p → E) (w : Fin q → E) (a : Matrix (Fin p) (Fin r) 𝕜)
    (b : Matrix (Fin q) (Fin s) 𝕜) : gram ip (combine v a) (combine w b) = aᴴ * gram ip v w * b :=
  handlesIp_combine ip v w a b

theorem gram_combine_left {p q r : Nat} (v : Fin p → E) (w : Fin q → E) (a : Matrix (Fin p) (Fin r) 𝕜) :
    gram ip (combine v a) w = aᴴ * gram ip v w :=
  handlesIp_combine_left ip v w a

theorem gram_combine_right {p q s : Nat} (v : Fin p → E) (w : Fin q → E) (b : Matrix (Fin q) (Fin s) 𝕜) :
    gram ip v (combine w b) = gram ip v w * b :=
  handlesIp_combine_right ip v w b

theorem combine_diagonal {p : Nat} (v : Fin p → E) (d : Fin p → 𝕜) (j : Fin p) :
    combine v (diagonal d) j = d j • v j := by
  unfold combine
  rw [Finset.sum_eq_single j]
  · rw [diagonal_apply_eq]
  · intro i _ hi
    rw [diagonal_apply_ne _ hi, zero_smul]
  · intro h
    exact absurd (Finset.mem_univ j) h

theorem map_combine (A : E →ₗ[𝕜] E) {p q : Nat} (v : Fin p → E) (c : Matrix (Fin p) (Fin q) 𝕜) (j : Fin q) :
    A (combine v c j) = combine (fun i => A (v i)) c j := by
  unfold combine
  simp

variable {m r : Nat} (X Y : Fin m → E) (w : Fin r → ℝ) (V : Matrix (Fin m) (Fin r) 𝕜)

theorem dmdMap_family {k : Nat} (F : Fin k → E) (j : Fin k) : dmdMap ip X Y w V (F j) =
    combine Y (V * diagonal (fun i => (((w i)⁻¹ : ℝ) : 𝕜)) * Vᴴ * gram ip X F) j := rfl

theorem dmdMap_single (v : E) : dmdMap ip X Y w V v =
    combine Y (V * diagonal (fun i => (((w i)⁻¹ : ℝ) : 𝕜)) * Vᴴ * gram ip X (fun _ : Fin 1 => v)) 0 := rfl

end

variable {ip : E →ₗ⋆[𝕜] E →ₗ[𝕜] 𝕜} {m : Nat} {X Y : Fin m → E} {d : DmdDecomp 𝕜 m}

theorem build_product (hpos : ∀ i, 0 < d.w i) (hLR : d.Lᴴ * d.R = 1) :
    d.buildProj * d.buildAdjointᴴ = d.V * diagonal (fun i => (((d.w i)⁻¹ : ℝ) : 𝕜)) * d.Vᴴ := by
  have hRL : d.R * d.Lᴴ = 1 := mul_eq_one_comm.mp hLR
  unfold DmdDecomp.buildProj DmdDecomp.buildAdjoint
  rw [conjTranspose_mul, conjTranspose_mul, diagPow_conjTranspose,
    show d.V * (diagPow (𝕜 := 𝕜) d.w (-0.5) * d.R) * (d.Lᴴ * diagPow (𝕜 := 𝕜) d.w (-0.5) * d.Vᴴ) =
      d.V * (diagPow (𝕜 := 𝕜) d.w (-0.5) * (d.R * d.Lᴴ) * diagPow (𝕜 := 𝕜) d.w (-0.5)) * d.Vᴴ by
      simp only [Matrix.mul_assoc], hRL, Matrix.mul_one, half_half hpos]

/-- All relations, from the decompositions. -/
theorem DmdCore.handleModes (h : DmdCore (gram ip X X) (gram ip X Y) d) (hLR : d.Lᴴ * d.R = 1)
    (h0 : ∀ i, d.eigvals i ≠ 0) :
    DmdHandleModes ip X Y d.w d.V d.eigvals (combine Y d.buildExact) (combine X d.buildProj)
      (combine X d.buildAdjoint) := by
  have hex : ∀ j, combine Y d.buildProj j = d.eigvals j • combine Y d.buildExact j := fun j => by
    rw [← buildExact_mul h0, ← combine_combine, combine_diagonal]
  have hE : ∀ Z : Fin m → E, ∀ j, dmdMap ip X Z d.w d.V (combine Y d.buildExact j) = combine Z d.buildProj j := fun Z j => by
    rw [dmdMap_family, gram_combine_right, ← Matrix.mul_assoc, h.exact_coeffs_eigen h0]
  have hP : ∀ Z : Fin m → E, ∀ j, dmdMap ip X Z d.w d.V (combine X d.buildProj j) = combine Z d.buildProj j := fun Z j => by
    rw [dmdMap_family, gram_combine_right, ← Matrix.mul_assoc, h.inv_corr, h.proj_span]
  have hdata : ∀ j, dmdMap ip X Y d.w d.V (X j) = combine Y (d.V * d.Vᴴ) j := fun j => by
    rw [dmdMap_family, h.inv_corr]
  have hfull : d.r = (gram ip X X).rank → (∀ v, ip v v = 0 → v = 0) → ∀ j, combine X (d.V * d.Vᴴ) j = X j := by
    intro hr hdef j
    have hC : gram ip X X * d.V * d.Vᴴ = gram ip X X := by
      refine span_of_rank (Z := d.V * diagPow (𝕜 := 𝕜) d.w (-1)) h.orth ?_ hr
      rw [h.herm, ← Matrix.mul_assoc, h.eigen, Matrix.mul_assoc, diagPow_mul _ h.pos,
        show (1 + -1 : ℝ) = 0 by norm_num, diagPow_zero, Matrix.mul_one]
    have h1 : gram ip (combine X (1 - d.V * d.Vᴴ)) (combine X (1 - d.V * d.Vᴴ)) = 0 := by
      rw [gram_combine, Matrix.mul_assoc, Matrix.mul_sub, Matrix.mul_one, ← Matrix.mul_assoc (gram ip X X), hC,
        sub_self, Matrix.mul_zero]
    have h2 := hdef _ (congrFun (congrFun h1 j) j)
    rw [combine_sub, combine_one, sub_eq_zero] at h2
    exact h2.symm
  have hinv : ∀ A : E →ₗ[𝕜] E, (∀ j, A (X j) = Y j) → (∀ v ∈ retained X d.V, A v ∈ retained X d.V) →
      ∀ j, A (combine Y d.buildExact j) = d.eigvals j • combine Y d.buildExact j := by
    intro A hA hM j
    -- the projection of what is retained is itself
    have hfix : ∀ v ∈ retained X d.V, dmdMap ip X X d.w d.V v = v := by
      intro v hv
      obtain ⟨c, rfl⟩ := (Submodule.mem_span_range_iff_exists_fun 𝕜).mp hv
      have e : (∑ k, c k • ∑ i, d.V i k • X i) = combine X (d.V * Matrix.of fun k (_ : Fin 1) => c k) 0 := by
        rw [← combine_combine]
        rfl
      rw [e, dmdMap_family, gram_combine_right, ← Matrix.mul_assoc, h.inv_corr, ← Matrix.mul_assoc, Matrix.mul_assoc d.V,
        h.orth, Matrix.mul_one]
    have hmem : combine Y d.buildExact j ∈ retained X d.V := by
      have e : combine Y d.buildExact j = A (combine X d.buildExact j) := by
        rw [map_combine]
        simp only [hA]
      rw [e]
      apply hM
      unfold DmdDecomp.buildExact
      rw [← combine_combine]
      exact Submodule.sum_mem _ fun i _ => Submodule.smul_mem _ _ (Submodule.subset_span ⟨i, rfl⟩)
    have e1 : combine Y d.buildExact j = combine X d.buildProj j := by rw [← hE X j, hfix _ hmem]
    rw [← hex j]
    rw [e1, map_combine]
    simp only [hA]
  have happly : ∀ {k l : Nat} (a : Fin k → E) (b : Fin l → E) (i j), gram ip a b i j = ip (a i) (b j) := fun _ _ _ _ => rfl
  have hsp : ∀ v, dmdMap ip X Y d.w d.V v = ∑ i, (d.eigvals i * ip (combine X d.buildAdjoint i) v) • combine Y d.buildExact i := by
    intro v
    have e : (∑ i, (d.eigvals i * ip (combine X d.buildAdjoint i) v) • combine Y d.buildExact i) =
        combine (combine Y d.buildExact) (diagonal d.eigvals * gram ip (combine X d.buildAdjoint) (fun _ : Fin 1 => v)) 0 := by
      unfold combine
      refine Finset.sum_congr rfl fun i _ => ?_
      rw [diagonal_mul]
      rfl
    rw [e, combine_combine, ← Matrix.mul_assoc, buildExact_mul h0, gram_combine_left, ← Matrix.mul_assoc,
      build_product h.pos hLR]
    exact dmdMap_single ip X Y d.w d.V v
  have hAE : gram ip (combine X d.buildAdjoint) (combine Y d.buildExact) = 1 := by
    rw [gram_combine, h.adjoint_exact hLR h0]
  refine ⟨h.orth, ?_, h.pos, ?_, ?_, ?_, ?_, ?_, ?_, hsp, hdata, ?_, hinv, ?_⟩
  · rw [h.eigen, diagPow_one]
  · intro i j
    rw [← happly, gram_combine, h.adjoint_proj hLR, Matrix.one_apply]
  · intro i j
    rw [← happly, hAE, Matrix.one_apply]
  · intro j
    rw [hE Y j, hex]
  · intro j
    rw [hP Y j, hex j]
    have : ∀ (c : 𝕜) v, dmdMap ip X X d.w d.V (c • v) = c • dmdMap ip X X d.w d.V v := by
      intro c v
      unfold dmdMap
      rw [Finset.smul_sum]
      refine Finset.sum_congr rfl fun k _ => ?_
      rw [show (fun i => ip (X i) (c • v)) = c • fun i => ip (X i) v by ext i; simp, Matrix.mulVec_smul, Pi.smul_apply, smul_assoc]
    rw [this, hE X j]
  · intro j
    exact hE X j
  · intro i v
    rw [hsp v, map_sum]
    rw [Finset.sum_eq_single i]
    · rw [map_smul, ← happly, hAE, Matrix.one_apply_eq, smul_eq_mul, mul_one]
    · intro k _ hk
      rw [map_smul, ← happly, hAE, Matrix.one_apply_ne hk.symm, smul_zero]
    · intro hi
      exact absurd (Finset.mem_univ i) hi
  · intro hr hdef A hA j
    rw [hdata, ← hA j, ← hfull hr hdef j, map_combine]
    simp only [hA]
  · intro hr hdef A hA hY
    have hle : ∀ j, X j ∈ retained X d.V := by
      intro j
      rw [← hfull hr hdef j, ← combine_combine]
      exact Submodule.sum_mem _ fun i _ => Submodule.smul_mem _ _ (Submodule.subset_span ⟨i, rfl⟩)
    have hle' : Submodule.span 𝕜 (Set.range X) ≤ retained X d.V := by
      rw [Submodule.span_le]
      rintro _ ⟨j, rfl⟩
      exact hle j
    refine hinv A hA fun v hv => ?_
    obtain ⟨c, rfl⟩ := (Submodule.mem_span_range_iff_exists_fun 𝕜).mp hv
    rw [map_sum]
    refine Submodule.sum_mem _ fun k _ => ?_
    rw [map_smul]
    refine Submodule.smul_mem _ _ ?_
    rw [map_sum]
    refine Submodule.sum_mem _ fun i _ => ?_
    rw [map_smul, hA]
    exact Submodule.smul_mem _ _ (hle' (hY i))

/-- Coefficients, from the decompositions. -/
theorem DmdCore.handleCoeffs (h : DmdCore (gram ip X X) (gram ip X Y) d) :
    DmdHandleCoeffs ip X Y (combine X d.buildAdjoint) (d.Lᴴ * (diagPow (𝕜 := 𝕜) d.w 0.5 * d.Vᴴ))
      (d.Lᴴ * (diagPow (𝕜 := 𝕜) d.w (-0.5) * (d.Vᴴ * gram ip X Y))) := by
  refine ⟨fun i j => ?_, fun i j => ?_⟩
  · rw [← h.adjoint_corr, ← gram_combine_left]
    rfl
  · rw [← adjoint_cross, ← gram_combine_left]
    rfl

/-- Coefficients of the first vector, as `compute_spectrum` computes them. -/
theorem DmdCore.handleSpectrum (h : DmdCore (gram ip X X) (gram ip X Y) d) (hm : 0 < m) :
    DmdHandleSpectrum ip X (combine X d.buildAdjoint) (NdArray.squeeze ⟨[d.r], fun i => if hi : i < d.r then
        ‖(d.Lᴴ *ᵥ star (diagPow (𝕜 := 𝕜) d.w 0.5 *ᵥ d.V ⟨0, hm⟩)) ⟨i, hi⟩‖ else 0⟩) := by
  refine ⟨?_, fun i j hj => ?_⟩
  · unfold NdArray.squeeze
    by_cases h1 : d.r = 1
    · simp [h1]
    · simp [h1]
  · unfold NdArray.squeeze
    dsimp only
    rw [dif_pos i.isLt]
    have e : (⟨0, hm⟩ : Fin m) = j := by ext; exact hj.symm
    rw [e, ← h.handleCoeffs.proj i j, star_mulVec, diagPow_conjTranspose, ← mulVec_transpose,
      show (diagPow (𝕜 := 𝕜) d.w 0.5)ᵀ = diagPow (𝕜 := 𝕜) d.w 0.5 from diagonal_transpose _, mulVec_mulVec, ← Matrix.mul_assoc]
    rfl

end Modred
