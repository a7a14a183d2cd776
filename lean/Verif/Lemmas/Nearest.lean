import Verif.Spec.Nearest
import Verif.Lemmas.LeastSquares
import Verif.Props.Optimal
import Mathlib.Analysis.Matrix.Order

/-!
# Algebra of least-squares projection
-/

namespace Modred

open Matrix
open scoped ComplexOrder

variable {𝕜 : Type*} [RCLike 𝕜]

/-- Coefficients with a remainder that is orthogonal to the modes are the nearest. -/
theorem nearestVecs_of_orthogonal {E : Type*} [AddCommGroup E] [Module 𝕜 E] {ip : E →ₗ⋆[𝕜] E →ₗ[𝕜] 𝕜} {m p r : Nat}
    {Z : Fin m → E} {X : Fin p → E} {A B : Matrix (Fin p) (Fin r) 𝕜} {coeffs : Matrix (Fin r) (Fin m) 𝕜}
    (hsymm : ∀ x y, ip y x = star (ip x y)) (hnn : ∀ x, 0 ≤ RCLike.re (ip x x)) (hAB : Aᴴ * gram ip X X * B = 1)
    (horth : ∀ i j, ip (combine X B i) (Z j - ∑ k, coeffs k j • combine X B k) = 0) :
    NearestVecs ip Z (combine X B) coeffs := by
  intro j c hc
  set e := Z j - ∑ k, coeffs k j • combine X B k with he
  set b : Fin r → 𝕜 := fun i => coeffs i j - c i with hb
  have h1 : Z j - ∑ i, c i • combine X B i = e + ∑ i, b i • combine X B i := by
    rw [he, hb]
    simp only [sub_smul, Finset.sum_sub_distrib]
    abel
  have h2 : ip (∑ i, b i • combine X B i) e = 0 := by
    rw [map_sum, LinearMap.sum_apply]
    refine Finset.sum_eq_zero fun i _ => ?_
    rw [LinearMap.map_smulₛₗ, LinearMap.smul_apply, horth i j, smul_zero]
  have h3 : ip e (∑ i, b i • combine X B i) = 0 := by rw [hsymm _ e, h2, star_zero]
  have h4 : ∑ i, b i • combine X B i = combine X (B * Matrix.of fun i (_ : Fin 1) => b i) 0 := by
    rw [← combine_combine]
    rfl
  have h5 : ip (∑ i, b i • combine X B i) (∑ i, b i • combine X B i) =
      star (B *ᵥ b) ⬝ᵥ (gram ip X X *ᵥ (B *ᵥ b)) := by
    have := congrFun (congrFun (gram_combine (ip := ip) X X (B * Matrix.of fun i (_ : Fin 1) => b i)
      (B * Matrix.of fun i (_ : Fin 1) => b i)) 0) 0
    rw [h4]
    refine Eq.trans this ?_
    rw [Matrix.mul_assoc, Matrix.mul_apply]
    rfl
  have hps : (gram ip X X).PosSemidef := handlesIp_posSemidef ip hsymm hnn X
  have h6 : 0 < RCLike.re (ip (∑ i, b i • combine X B i) (∑ i, b i • combine X B i)) := by
    refine lt_of_le_of_ne (hnn _) fun h0 => ?_
    rw [h5] at h0
    have h7 := hps.dotProduct_mulVec_nonneg (B *ᵥ b)
    have h8 : star (B *ᵥ b) ⬝ᵥ (gram ip X X *ᵥ (B *ᵥ b)) = 0 := by
      rw [RCLike.nonneg_iff] at h7
      exact RCLike.ext (by simpa using h0.symm) (by simpa using h7.2)
    have h9 := (hps.dotProduct_mulVec_zero_iff _).mp h8
    have h10 : b = 0 := by
      have := congrArg (fun v => Aᴴ *ᵥ v) h9
      simpa [mulVec_mulVec, ← Matrix.mul_assoc, hAB] using this
    refine hc (funext fun i => ?_)
    have := congrFun h10 i
    rw [hb] at this
    exact (sub_eq_zero.mp this).symm
  rw [h1]
  simp only [map_add, LinearMap.add_apply, h2, h3, add_zero, zero_add]
  linarith [h6]

variable {m : Nat} {C K : Matrix (Fin m) (Fin m) 𝕜} {d : DmdDecomp 𝕜 m}

/-- Projected modes times the coefficients of the adjoint modes take nothing away from the projected modes. -/
theorem DmdCore.proj_orthogonal (h : DmdCore C K d) (hLR : d.Lᴴ * d.R = 1) :
    d.buildProjᴴ * C * d.buildProj * d.buildAdjointᴴ = d.buildProjᴴ := by
  have hRL : d.R * d.Lᴴ = 1 := mul_eq_one_comm.mp hLR
  have h1 : d.buildProjᴴ * C = d.Rᴴ * (diagPow (𝕜 := 𝕜) d.w 0.5 * d.Vᴴ) := by
    unfold DmdDecomp.buildProj
    rw [← build_proj h.pos h.herm h.eigen, ← Matrix.mul_assoc d.V, conjTranspose_mul (d.V * _), Matrix.mul_assoc]
  have h2 : diagPow (𝕜 := 𝕜) d.w 0.5 * diagPow (𝕜 := 𝕜) d.w (-0.5) = 1 := by
    rw [diagPow_mul _ h.pos, show (0.5 + -0.5 : ℝ) = 0 by norm_num, diagPow_zero]
  rw [h1]
  unfold DmdDecomp.buildProj DmdDecomp.buildAdjoint
  simp only [conjTranspose_mul, diagPow_conjTranspose]
  rw [show d.Rᴴ * (diagPow (𝕜 := 𝕜) d.w 0.5 * d.Vᴴ) * (d.V * (diagPow (𝕜 := 𝕜) d.w (-0.5) * d.R)) *
      (d.Lᴴ * diagPow (𝕜 := 𝕜) d.w (-0.5) * d.Vᴴ) = d.Rᴴ * (diagPow (𝕜 := 𝕜) d.w 0.5 * (d.Vᴴ * d.V) *
      diagPow (𝕜 := 𝕜) d.w (-0.5)) * (d.R * d.Lᴴ) * diagPow (𝕜 := 𝕜) d.w (-0.5) * d.Vᴴ by
    simp only [Matrix.mul_assoc], h.orth, Matrix.mul_one, h2, hRL, Matrix.mul_one, Matrix.mul_one]

section Handles

variable {E : Type*} [AddCommGroup E] [Module 𝕜 E] {ip : E →ₗ⋆[𝕜] E →ₗ[𝕜] 𝕜} {X Y : Fin m → E}

theorem DmdCore.nearestVecs (hsymm : ∀ x y, ip y x = star (ip x y)) (hnn : ∀ x, 0 ≤ RCLike.re (ip x x))
    (h : DmdCore (gram ip X X) K d) (hLR : d.Lᴴ * d.R = 1) {p : Nat} (Z : Fin p → E) :
    NearestVecs ip Z (combine X d.buildProj) (d.buildAdjointᴴ * gram ip X Z) := by
  refine nearestVecs_of_orthogonal (A := d.buildAdjoint) hsymm hnn (h.adjoint_proj hLR) fun i j => ?_
  have h1 : gram ip (combine X d.buildProj) (combine (combine X d.buildProj) (d.buildAdjointᴴ * gram ip X Z)) =
      gram ip (combine X d.buildProj) Z := by
    rw [gram_combine_right, gram_combine, gram_combine_left, ← Matrix.mul_assoc, h.proj_orthogonal hLR]
  rw [map_sub, sub_eq_zero]
  exact (congrFun (congrFun h1 i) j).symm

end Handles

section Arrays

variable {n : Nat} {W : Matrix (Fin n) (Fin n) 𝕜} {X : Matrix (Fin n) (Fin m) 𝕜}

theorem DmdCore.nearestCoeffs (hW : W.PosSemidef) (h : DmdCore (Xᴴ * W * X) K d) (hLR : d.Lᴴ * d.R = 1) {p : Nat}
    (Z : Matrix (Fin n) (Fin p) 𝕜) : NearestCoeffs W Z (X * d.buildProj) (d.buildAdjointᴴ * (Xᴴ * W * Z)) := by
  set ip : (Fin n → 𝕜) →ₗ⋆[𝕜] (Fin n → 𝕜) →ₗ[𝕜] 𝕜 := LinearMap.mk₂'ₛₗ (starRingEnd 𝕜) (RingHom.id 𝕜)
    (fun x y => star x ⬝ᵥ W *ᵥ y) (fun x y z => by rw [star_add, add_dotProduct])
    (fun c x y => by rw [star_smul, smul_dotProduct]; rfl) (fun x y z => by rw [mulVec_add, dotProduct_add])
    (fun c x y => by rw [mulVec_smul, dotProduct_smul]; rfl) with hip
  have hip' : ∀ x y, ip x y = star x ⬝ᵥ W *ᵥ y := fun x y => rfl
  have hg : ∀ {q s : Nat} (A : Matrix (Fin n) (Fin q) 𝕜) (B : Matrix (Fin n) (Fin s) 𝕜),
      gram ip A.col B.col = Aᴴ * W * B := by
    intro q s A B
    ext i j
    rw [Matrix.mul_assoc, Matrix.mul_apply]
    rfl
  have hc : combine X.col d.buildProj = (X * d.buildProj).col := by
    ext j i
    simp [combine, Matrix.mul_apply, Matrix.col_apply, mul_comm]
  have h' : DmdCore (gram ip X.col X.col) K d := by rw [hg]; exact h
  have := h'.nearestVecs (ip := ip) (fun x y => by
    rw [hip', hip', star_dotProduct, star_mulVec, hW.isHermitian.eq, dotProduct_mulVec]) (fun x => (RCLike.nonneg_iff.mp (hW.dotProduct_mulVec_nonneg x)).1) hLR Z.col
  rw [hg, hc] at this
  intro j c hcj
  have h2 := this j c hcj
  have hs : ∀ v : Fin d.r → 𝕜, ∑ i, v i • (X * d.buildProj).col i = (X * d.buildProj) *ᵥ v := by
    intro v
    ext i
    simp [mulVec, dotProduct, mul_comm, Matrix.col_apply]
  simp only [hs] at h2
  exact h2

end Arrays

end Modred
