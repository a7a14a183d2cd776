import Verif.Spec.Pod
import Verif.Lemmas.Linalg
import Mathlib.Analysis.Matrix.PosDef

/-!
# Algebra of proper orthogonal decomposition
-/

namespace Modred

open Matrix
open scoped ComplexOrder

variable {𝕜 : Type*} [RCLike 𝕜]

theorem diagPow_conjTranspose {r : Nat} (x : Fin r → ℝ) (e : ℝ) :
    (diagPow x e : Matrix (Fin r) (Fin r) 𝕜)ᴴ = diagPow x e := by
  unfold diagPow
  rw [diagonal_conjTranspose]
  congr 1
  ext i
  simp

theorem diagPow_mul {r : Nat} (x : Fin r → ℝ) (hx : ∀ i, 0 < x i) (a b : ℝ) :
    (diagPow x a : Matrix (Fin r) (Fin r) 𝕜) * diagPow x b = diagPow x (a + b) := by
  unfold diagPow
  rw [diagonal_mul_diagonal]
  congr 1
  ext i
  rw [Real.rpow_add (hx i)]
  push_cast
  rfl

theorem diagPow_zero {r : Nat} (x : Fin r → ℝ) : (diagPow x 0 : Matrix (Fin r) (Fin r) 𝕜) = 1 := by
  unfold diagPow
  simp

theorem diagPow_one {r : Nat} (x : Fin r → ℝ) :
    (diagPow x 1 : Matrix (Fin r) (Fin r) 𝕜) = diagonal fun i => ((x i : ℝ) : 𝕜) := by
  unfold diagPow
  simp

theorem weightedSq_eq_trace {n m : Nat} (W : Matrix (Fin n) (Fin n) 𝕜) (E : Matrix (Fin n) (Fin m) 𝕜) :
    weightedSq W E = (Eᴴ * W * E).trace := by
  unfold weightedSq
  rw [Matrix.trace]
  refine Finset.sum_congr rfl fun j _ => ?_
  rw [diag_apply, Matrix.mul_assoc, Matrix.mul_apply]
  rfl

section Snapshots

variable {m r : Nat} {C : Matrix (Fin m) (Fin m) 𝕜} {V : Matrix (Fin m) (Fin r) 𝕜} {w : Fin r → ℝ}

/-- `V^* C = diag(w) V^*` for a Hermitian array. -/
theorem eigen_adjoint (hC : Cᴴ = C) (hCV : C * V = V * (diagPow (𝕜 := 𝕜) w 1)) : Vᴴ * C = (diagPow (𝕜 := 𝕜) w 1) * Vᴴ := by
  have := congrArg conjTranspose hCV
  rwa [conjTranspose_mul, conjTranspose_mul, hC, diagPow_conjTranspose] at this

/-- Coefficients of the modes: `T^* C T = 1`. -/
theorem build_orthonormal (hw : ∀ i, 0 < w i) (hV : Vᴴ * V = 1) (hCV : C * V = V * (diagPow (𝕜 := 𝕜) w 1)) :
    (V * (diagPow (𝕜 := 𝕜) w (-0.5)))ᴴ * C * (V * (diagPow (𝕜 := 𝕜) w (-0.5))) = 1 := by
  rw [conjTranspose_mul, diagPow_conjTranspose]
  rw [show (diagPow (𝕜 := 𝕜) w (-0.5)) * Vᴴ * C * (V * (diagPow (𝕜 := 𝕜) w (-0.5))) =
    (diagPow (𝕜 := 𝕜) w (-0.5)) * (Vᴴ * (C * V)) * (diagPow (𝕜 := 𝕜) w (-0.5)) by simp only [Matrix.mul_assoc]]
  rw [hCV, ← Matrix.mul_assoc Vᴴ, hV, Matrix.one_mul, diagPow_mul _ hw, diagPow_mul _ hw]
  rw [show (-0.5 + 1 + -0.5 : ℝ) = 0 by norm_num, diagPow_zero]

theorem build_proj (hw : ∀ i, 0 < w i) (hC : Cᴴ = C) (hCV : C * V = V * (diagPow (𝕜 := 𝕜) w 1)) :
    (V * (diagPow (𝕜 := 𝕜) w (-0.5)))ᴴ * C = (diagPow (𝕜 := 𝕜) w 0.5) * Vᴴ := by
  rw [conjTranspose_mul, diagPow_conjTranspose, Matrix.mul_assoc, eigen_adjoint hC hCV,
    ← Matrix.mul_assoc, diagPow_mul _ hw]
  rw [show (-0.5 + 1 : ℝ) = 0.5 by norm_num]

theorem proj_energy (hw : ∀ i, 0 < w i) (hV : Vᴴ * V = 1) :
    ((diagPow (𝕜 := 𝕜) w 0.5) * Vᴴ) * ((diagPow (𝕜 := 𝕜) w 0.5) * Vᴴ)ᴴ = (diagPow (𝕜 := 𝕜) w 1) := by
  rw [conjTranspose_mul, conjTranspose_conjTranspose, diagPow_conjTranspose]
  rw [show (diagPow (𝕜 := 𝕜) w 0.5) * Vᴴ * (V * (diagPow (𝕜 := 𝕜) w 0.5)) = (diagPow (𝕜 := 𝕜) w 0.5) * (Vᴴ * V) * (diagPow (𝕜 := 𝕜) w 0.5) by
    simp only [Matrix.mul_assoc]]
  rw [hV, Matrix.mul_one, diagPow_mul _ hw]
  rw [show (0.5 + 0.5 : ℝ) = 1 by norm_num]

theorem build_mul_proj (hw : ∀ i, 0 < w i) :
    (V * (diagPow (𝕜 := 𝕜) w (-0.5))) * ((diagPow (𝕜 := 𝕜) w 0.5) * Vᴴ) = V * Vᴴ := by
  rw [show V * (diagPow (𝕜 := 𝕜) w (-0.5)) * ((diagPow (𝕜 := 𝕜) w 0.5) * Vᴴ) =
    V * ((diagPow (𝕜 := 𝕜) w (-0.5)) * (diagPow (𝕜 := 𝕜) w 0.5)) * Vᴴ by simp only [Matrix.mul_assoc]]
  rw [diagPow_mul _ hw, show (-0.5 + 0.5 : ℝ) = 0 by norm_num, diagPow_zero, Matrix.mul_one]

/-- Part of the trace that is not captured. -/
theorem residual_trace (hV : Vᴴ * V = 1) (hC : Cᴴ = C) (hCV : C * V = V * (diagPow (𝕜 := 𝕜) w 1)) :
    ((1 - V * Vᴴ)ᴴ * C * (1 - V * Vᴴ)).trace = C.trace - ∑ i, (w i : 𝕜) := by
  have hP : (1 - V * Vᴴ)ᴴ = 1 - V * Vᴴ := by
    rw [conjTranspose_sub, conjTranspose_mul, conjTranspose_conjTranspose, conjTranspose_one]
  have h1 : V * Vᴴ * C = V * (diagPow (𝕜 := 𝕜) w 1) * Vᴴ := by
    rw [Matrix.mul_assoc, eigen_adjoint hC hCV, Matrix.mul_assoc]
  have h2 : C * (V * Vᴴ) = V * (diagPow (𝕜 := 𝕜) w 1) * Vᴴ := by
    rw [← Matrix.mul_assoc, hCV]
  have h3 : V * (diagPow (𝕜 := 𝕜) w 1) * Vᴴ * (V * Vᴴ) = V * (diagPow (𝕜 := 𝕜) w 1) * Vᴴ := by
    rw [show V * (diagPow (𝕜 := 𝕜) w 1) * Vᴴ * (V * Vᴴ) = V * (diagPow (𝕜 := 𝕜) w 1) * (Vᴴ * V) * Vᴴ by
      simp only [Matrix.mul_assoc], hV, Matrix.mul_one]
  rw [hP, Matrix.sub_mul, Matrix.one_mul, h1, Matrix.mul_sub, Matrix.mul_one, Matrix.sub_mul, h2, h3,
    sub_self, sub_zero, trace_sub]
  congr 1
  rw [Matrix.mul_assoc, trace_mul_comm, Matrix.mul_assoc, hV, Matrix.mul_one]
  unfold diagPow
  rw [trace_diagonal]
  simp

end Snapshots

theorem trace_of_isEigh {m : Nat} {C : Matrix (Fin m) (Fin m) 𝕜} {o : EighOut 𝕜 m} (h : IsEigh C o) :
    C.trace = ∑ i, (o.w i : 𝕜) := by
  have hu : o.V * o.Vᴴ = 1 := mul_eq_one_comm.mp h.orthonormal
  have : C = o.V * diagonal (fun i => (o.w i : 𝕜)) * o.Vᴴ := by
    rw [← h.eigen, Matrix.mul_assoc, hu, Matrix.mul_one]
  rw [this, trace_mul_comm, ← Matrix.mul_assoc, h.orthonormal, Matrix.one_mul, trace_diagonal]

/-- Vectors whose lengths sum up to zero are zero. -/
theorem eq_zero_of_weightedSq {n m : Nat} {W : Matrix (Fin n) (Fin n) 𝕜} (hW : W.PosDef)
    {E : Matrix (Fin n) (Fin m) 𝕜} (h : weightedSq W E = 0) : E = 0 := by
  unfold weightedSq at h
  have hnn : ∀ j ∈ Finset.univ, 0 ≤ star (fun i => E i j) ⬝ᵥ (W *ᵥ fun i => E i j) :=
    fun j _ => hW.posSemidef.dotProduct_mulVec_nonneg _
  rw [Finset.sum_eq_zero_iff_of_nonneg hnn] at h
  ext i j
  by_contra hne
  have hx : (fun i => E i j) ≠ 0 := fun h0 => hne (congrFun h0 i)
  exact (hW.dotProduct_mulVec_pos hx).ne' (h j (Finset.mem_univ _))

end Modred
