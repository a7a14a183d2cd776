import Verif.Props.Balanced

/-!
# Balanced truncation of a stable system can be unstable (C42)
-/

namespace Modred

open Matrix
open scoped ComplexOrder

/-- A stable system with two states, one input and one output. -/
noncomputable def spiralA : Matrix (Fin 2) (Fin 2) ℝ := !![6 / 5, -3 / 5; 3 / 5, 1 / 10]

/-- Input. -/
def spiralB : Matrix (Fin 2) (Fin 1) ℝ := !![6; 1]

/-- Output. -/
def spiralC : Matrix (Fin 1) (Fin 2) ℝ := !![6, -1]

theorem spiral_lyapunov (X : Matrix (Fin 2) (Fin 2) ℝ) :
    IsLyapunov spiralA (spiralB * spiralBᴴ) X ↔ X = diagonal ![15, 5] := by
  unfold IsLyapunov spiralA spiralB
  constructor
  · intro h
    have h00 := congrFun (congrFun h 0) 0
    have h01 := congrFun (congrFun h 0) 1
    have h10 := congrFun (congrFun h 1) 0
    have h11 := congrFun (congrFun h 1) 1
    simp [Matrix.mul_apply, vecMul, dotProduct, Fin.sum_univ_two, conjTranspose_apply] at h00 h01 h10 h11
    ext i j
    fin_cases i <;> fin_cases j <;> simp <;> linarith
  · rintro rfl
    ext i j
    fin_cases i <;> fin_cases j <;>
      simp [Matrix.mul_apply, vecMul, dotProduct, Fin.sum_univ_two, conjTranspose_apply] <;> norm_num

theorem spiral_lyapunov_adjoint (X : Matrix (Fin 2) (Fin 2) ℝ) :
    IsLyapunov spiralAᴴ (spiralCᴴ * spiralC) X ↔ X = diagonal ![15, 5] := by
  unfold IsLyapunov spiralA spiralC
  constructor
  · intro h
    have h00 := congrFun (congrFun h 0) 0
    have h01 := congrFun (congrFun h 0) 1
    have h10 := congrFun (congrFun h 1) 0
    have h11 := congrFun (congrFun h 1) 1
    simp [Matrix.mul_apply, vecMul, dotProduct, Fin.sum_univ_two, conjTranspose_apply] at h00 h01 h10 h11
    ext i j
    fin_cases i <;> fin_cases j <;> simp <;> linarith
  · rintro rfl
    ext i j
    fin_cases i <;> fin_cases j <;>
      simp [Matrix.mul_apply, vecMul, dotProduct, Fin.sum_univ_two, conjTranspose_apply] <;> norm_num

/-- The system is stable: its eigenvalues are less than one in modulus. -/
theorem spiral_stable (z : ℂ) (v : Fin 2 → ℂ) (hv : v ≠ 0)
    (h : spiralA.map Complex.ofReal *ᵥ v = z • v) : ‖z‖ < 1 := by
  have h0 := congrFun h 0
  have h1 := congrFun h 1
  simp [spiralA, mulVec, dotProduct, Fin.sum_univ_two] at h0 h1
  have hne : v 0 ≠ 0 ∨ v 1 ≠ 0 := by
    by_contra hc
    push Not at hc
    apply hv
    funext i
    fin_cases i
    · exact hc.1
    · exact hc.2
  have hq : z ^ 2 - 13 / 10 * z + 12 / 25 = 0 := by
    rcases hne with hn | hn
    · apply mul_right_cancel₀ hn
      linear_combination (z - 1 / 10) * (-h0) + 3 / 5 * h1
    · apply mul_right_cancel₀ hn
      linear_combination (6 / 5 - z) * h1 - 3 / 5 * h0
  have hre := congrArg Complex.re hq
  have him := congrArg Complex.im hq
  simp [sq] at hre him
  norm_num at hre him
  have hsq : ‖z‖ ^ 2 = z.re * z.re + z.im * z.im := by
    rw [← Complex.normSq_eq_norm_sq, Complex.normSq_apply]
  have him' : z.im * (2 * z.re - 13 / 10) = 0 := by linarith
  rcases mul_eq_zero.mp him' with h2 | h2
  · rw [h2] at hre
    nlinarith [sq_nonneg (z.re - 13 / 20)]
  · have h3 : z.re = 13 / 20 := by linarith
    rw [h3] at hre hsq
    nlinarith [norm_nonneg z]

/-- **C42, violation.** For a stable system with two states, truncation to one state returns an unstable model, for all
libraries: the eigenvalues of the system are less than one in modulus, that of the model is 6/5. -/
theorem C42_unstable_violation
    (lyapunov : ∀ {n : Nat}, Matrix (Fin n) (Fin n) ℝ → Matrix (Fin n) (Fin n) ℝ → Matrix (Fin n) (Fin n) ℝ)
    (svd : ∀ {m n : Nat}, Matrix (Fin m) (Fin n) ℝ → SvdOut ℝ m n) (hly : IsLyapunovSolver lyapunov)
    (hlib : ∀ {m n : Nat} (a : Matrix (Fin m) (Fin n) ℝ), IsSvd a (svd a)) :
    (∀ (z : ℂ) (v : Fin 2 → ℂ), v ≠ 0 → spiralA.map Complex.ofReal *ᵥ v = z • v → ‖z‖ < 1) ∧
    ∃ (Br : Matrix (Fin 1) (Fin 1) ℝ) (Cr : Matrix (Fin 1) (Fin 1) ℝ) (num : Nat) (singVals : Fin num → ℝ),
      balancedTruncation lyapunov svd spiralA spiralB spiralC (some 1) =
        .ok ⟨⟨1, 1, 1, !![6 / 5], Br, Cr⟩, num, singVals⟩ := by
  refine ⟨spiral_stable, ?_⟩
  have hP : lyapunov spiralA (spiralB * spiralBᴴ) = diagonal ![15, 5] :=
    (spiral_lyapunov _).mp (hly _ _ ⟨_, (spiral_lyapunov _).mpr rfl⟩)
  have hQ : lyapunov spiralAᴴ (spiralCᴴ * spiralC) = diagonal ![15, 5] :=
    (spiral_lyapunov_adjoint _).mp (hly _ _ ⟨_, (spiral_lyapunov_adjoint _).mpr rfl⟩)
  have hpos : (diagonal ![15, 5] : Matrix (Fin 2) (Fin 2) ℝ).PosSemidef := by
    refine posSemidef_diagonal_iff.mpr fun i => ?_
    fin_cases i <;> norm_num
  have hbig : ∀ i, (svd (diagonal ![15, 5] : Matrix (Fin 2) (Fin 2) ℝ)).S i ≠ 0 →
      svdAtol < (svd (diagonal ![15, 5] : Matrix (Fin 2) (Fin 2) ℝ)).S i := by
    intro i _
    obtain ⟨s, hs⟩ : ∃ s, utilSvd svd (diagonal ![15, 5] : Matrix (Fin 2) (Fin 2) ℝ) (some svdAtol) none = .ok s := by
      cases h : utilSvd svd (diagonal ![15, 5] : Matrix (Fin 2) (Fin 2) ℝ) (some svdAtol) none with
      | ok s => exact ⟨s, rfl⟩
      | error e => exact absurd rfl ((C19_error_iff svd _ _ _ e).mp h).2.1
    have hr := (svd_posDef svd _ svdAtol svdAtol_pos.le le_rfl (by
      rw [conjTranspose_eq_transpose_of_trivial, diagonal_transpose, diagonal_mul_diagonal, ← diagonal_one, ← diagonal_smul,
        diagonal_sub]
      refine posDef_diagonal_iff.mpr fun i => ?_
      fin_cases i <;> norm_num [svdAtol]) (hlib _) s hs).1
    have := (((C19_kept_iff svd _ _ _ (hlib _) (by simp) s hs).2.1 i).mp (by have := i.isLt; omega)).1 _ rfl
    rwa [abs_of_nonneg ((hlib _).nonneg i)] at this
  obtain ⟨res, hres⟩ := C42_no_error lyapunov svd spiralA spiralB spiralC (some 1)
  have htr := balanced_trace lyapunov svd _ _ _ _ hlib res hres
  obtain ⟨r, hr, T, T', h1, h2, h3, h4, h5⟩ := balancedTruncation_spec lyapunov svd _ _ _ _ hlib res hres
  rw [hP, hQ] at htr h5
  obtain ⟨h7, h8, h6⟩ := h5 hpos hpos hbig hbig
  replace htr := htr hpos hpos hbig hbig
  have hsum : (diagonal ![15, 5] * diagonal ![15, 5] : Matrix (Fin 2) (Fin 2) ℝ).trace = 250 := by
    rw [diagonal_mul_diagonal, trace_diagonal, Fin.sum_univ_two]
    norm_num
  rw [hsum] at htr
  obtain ⟨model, num, σ⟩ := res
  dsimp only at hr h2 h3 h4 h6 h7 h8 htr
  have hnum : 0 < num := by
    by_contra h0
    have := htr svdAtol le_rfl fun i hi => absurd i.isLt (by omega)
    norm_num [svdAtol] at this
  have hr1 : r = 1 := by
    rw [hr, Option.getD_some]
    omega
  subst hr1
  have hx : T 0 0 * T' 0 0 + T 0 1 * T' 1 0 = 1 := by
    have := congrFun (congrFun h1 0) 0
    simpa [Matrix.mul_apply, Fin.sum_univ_two] using this
  have e0 : 225 * T' 0 0 = T' 0 0 * σ ⟨0, hnum⟩ ^ 2 := by
    have := congrFun (congrFun h6 0) 0
    rw [diagonal_mul_diagonal, diagonal_mul, mul_diagonal] at this
    norm_num at this
    exact this
  have e1 : 25 * T' 1 0 = T' 1 0 * σ ⟨0, hnum⟩ ^ 2 := by
    have := congrFun (congrFun h6 1) 0
    rw [diagonal_mul_diagonal, diagonal_mul, mul_diagonal] at this
    norm_num at this
    exact this
  have hσ : 0 < σ ⟨0, hnum⟩ := svdAtol_pos.trans (h3 _)
  have hle := htr (σ ⟨0, hnum⟩) (h3 _).le fun i hi => le_of_eq (congrArg σ (Fin.ext hi))
  have hy : T' 1 0 = 0 := by
    by_contra hne
    have := mul_right_cancel₀ hne (e1.trans (mul_comm _ _))
    norm_num at hle
    linarith
  have hne : T' 0 0 ≠ 0 := by
    rintro h0
    rw [h0, hy] at hx
    norm_num at hx
  have hsq : σ ⟨0, hnum⟩ ^ 2 = 225 := (mul_right_cancel₀ hne (e0.trans (mul_comm _ _))).symm
  have hs : σ ⟨0, hnum⟩ = 15 := by nlinarith
  have e7 : 15 * T 0 0 ^ 2 + 5 * T 0 1 ^ 2 = 15 := by
    have := congrFun (congrFun h7 0) 0
    rw [diagonal_apply_eq, Matrix.mul_apply, Fin.sum_univ_two, mul_diagonal, mul_diagonal, transpose_apply,
      transpose_apply] at this
    norm_num at this
    have t : T 0 0 * 15 * T 0 0 + T 0 1 * 5 * T 0 1 = σ ⟨0, hnum⟩ := this
    rw [hs] at t
    linarith
  have e8 : 15 * T' 0 0 ^ 2 = 15 := by
    have := congrFun (congrFun h8 0) 0
    rw [diagonal_apply_eq, Matrix.mul_apply, Fin.sum_univ_two, mul_diagonal, mul_diagonal, transpose_apply,
      transpose_apply, hy] at this
    norm_num at this
    have t : T' 0 0 * 15 * T' 0 0 = σ ⟨0, hnum⟩ := this
    rw [hs] at t
    linarith
  rw [hy, mul_zero, add_zero] at hx
  have hz : T 0 1 = 0 := by
    have h9 : T 0 0 ^ 2 * T' 0 0 ^ 2 = 1 := by rw [← mul_pow, hx, one_pow]
    have h10 : T 0 1 ^ 2 = 0 := by nlinarith
    exact pow_eq_zero_iff (two_ne_zero) |>.mp h10
  refine ⟨T * spiralB, spiralC * T', num, σ, ?_⟩
  rw [hres, h2]
  congr 3
  ext i j
  fin_cases i
  fin_cases j
  rw [Matrix.mul_apply]
  simp [Matrix.mul_apply, Fin.sum_univ_two, hy, hz, spiralA]
  linear_combination (6 / 5) * hx

end Modred
