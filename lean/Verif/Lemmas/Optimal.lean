import Verif.Lemmas.Pod
import Mathlib.Analysis.InnerProductSpace.PiL2
import Mathlib.Analysis.Matrix.PosDef
import Mathlib.LinearAlgebra.Matrix.PosDef

/-!
# Best approximation by few vectors

The inequality of Ky Fan and the theorem of Eckart, Schmidt and Young, in terms of arrays of inner products.
-/

namespace Modred

open Matrix
open scoped ComplexOrder

variable {𝕜 : Type*} [RCLike 𝕜]

/-- A weighted sum with weights between zero and one that sum up to at most `k` is at most the sum of the first
`k` values. -/
theorem sum_weights_le {s : Nat} (a p : Fin s → ℝ) (k : Nat) (ha : Antitone a) (h0 : ∀ i, 0 ≤ a i)
    (hp0 : ∀ i, 0 ≤ p i) (hp1 : ∀ i, p i ≤ 1) (hp : ∑ i, p i ≤ k) :
    ∑ i, a i * p i ≤ ∑ i ∈ Finset.univ.filter (fun i : Fin s => i.val < k), a i := by
  rw [Finset.sum_filter]
  by_cases hk : k < s
  · have h1 : ∀ i, a i * p i - (if i.val < k then a i else 0) ≤
        a ⟨k, hk⟩ * (p i - if i.val < k then 1 else 0) := by
      intro i
      split
      · rename_i hi
        have := ha (show i ≤ ⟨k, hk⟩ from hi.le)
        nlinarith [hp1 i]
      · rename_i hi
        have := ha (show (⟨k, hk⟩ : Fin s) ≤ i from Nat.le_of_not_lt hi)
        rw [sub_zero, sub_zero]
        exact mul_le_mul_of_nonneg_right this (hp0 i)
    have h2 := Finset.sum_le_sum fun i (_ : i ∈ Finset.univ) => h1 i
    rw [← Finset.mul_sum, Finset.sum_sub_distrib, Finset.sum_sub_distrib] at h2
    have h3 : (∑ i : Fin s, if i.val < k then (1 : ℝ) else 0) = k := by
      rw [← Finset.sum_filter, Finset.sum_const, nsmul_eq_mul, mul_one]
      have : Finset.univ.filter (fun i : Fin s => i.val < k) = Finset.Iio ⟨k, hk⟩ := by
        ext i
        simp [Fin.lt_def]
      rw [this, Fin.card_Iio]
    rw [h3] at h2
    have h4 : a ⟨k, hk⟩ * (∑ i, p i - k) ≤ 0 := mul_nonpos_of_nonneg_of_nonpos (h0 _) (by linarith)
    linarith
  · refine Finset.sum_le_sum fun i _ => ?_
    rw [if_pos (by have := i.isLt; omega)]
    exact mul_le_of_le_one_right (h0 i) (hp1 i)

/-- Complement of a projection. -/
theorem posSemidef_one_sub {m q : Nat} {Z : Matrix (Fin m) (Fin q) 𝕜} (hZ : Zᴴ * Z = 1) :
    (1 - Z * Zᴴ).PosSemidef := by
  have h : 1 - Z * Zᴴ = (1 - Z * Zᴴ)ᴴ * (1 - Z * Zᴴ) := by
    rw [conjTranspose_sub, conjTranspose_mul, conjTranspose_conjTranspose, conjTranspose_one]
    have hidem : (Z * Zᴴ) * (Z * Zᴴ) = Z * Zᴴ := by
      rw [show Z * Zᴴ * (Z * Zᴴ) = Z * (Zᴴ * Z) * Zᴴ by simp only [Matrix.mul_assoc], hZ, Matrix.mul_one]
    simp only [Matrix.sub_mul, Matrix.mul_sub, Matrix.one_mul, Matrix.mul_one, hidem, sub_self, sub_zero]
  rw [h]
  exact posSemidef_conjTranspose_mul_self _

theorem re_trace_nonneg {m : Nat} {A : Matrix (Fin m) (Fin m) 𝕜} (hA : A.PosSemidef) :
    0 ≤ RCLike.re A.trace :=
  (RCLike.nonneg_iff.mp hA.trace_nonneg).1

/-- The inequality of Ky Fan. -/
theorem ky_fan {m s q k : Nat} {C : Matrix (Fin m) (Fin m) 𝕜} {V : Matrix (Fin m) (Fin s) 𝕜} {a : Fin s → ℝ}
    (hV : Vᴴ * V = 1) (hC : C = V * diagonal (fun i => (a i : 𝕜)) * Vᴴ) (ha : Antitone a) (h0 : ∀ i, 0 ≤ a i)
    {Z : Matrix (Fin m) (Fin q) 𝕜} (hZ : Zᴴ * Z = 1) (hq : q ≤ k) :
    RCLike.re (Zᴴ * C * Z).trace ≤ ∑ i ∈ Finset.univ.filter (fun i : Fin s => i.val < k), a i := by
  let p : Fin s → ℝ := fun i => ∑ l, ‖(Vᴴ * Z) i l‖ ^ 2
  have hdiag : ∀ i, ((Vᴴ * Z) * (Vᴴ * Z)ᴴ) i i = ((p i : ℝ) : 𝕜) := by
    intro i
    rw [Matrix.mul_apply, RCLike.ofReal_sum]
    refine Finset.sum_congr rfl fun l _ => ?_
    rw [RCLike.ofReal_pow, conjTranspose_apply, RCLike.star_def, RCLike.mul_conj]
  have hp1 : ∀ i, p i ≤ 1 := by
    intro i
    have h1 : (Vᴴ * (1 - Z * Zᴴ) * V).PosSemidef := (posSemidef_one_sub hZ).conjTranspose_mul_mul_same V
    have h2 : Vᴴ * (1 - Z * Zᴴ) * V = 1 - (Vᴴ * Z) * (Vᴴ * Z)ᴴ := by
      rw [Matrix.mul_sub, Matrix.sub_mul, Matrix.mul_one, hV, conjTranspose_mul, conjTranspose_conjTranspose]
      simp only [Matrix.mul_assoc]
    have h3 := (RCLike.nonneg_iff.mp (h1.diag_nonneg (i := i))).1
    rw [h2, Matrix.sub_apply, Matrix.one_apply_eq, hdiag, map_sub, RCLike.one_re, RCLike.ofReal_re] at h3
    linarith
  have htr : RCLike.re (Zᴴ * (V * Vᴴ) * Z).trace = ∑ i, p i := by
    rw [show Zᴴ * (V * Vᴴ) * Z = (Vᴴ * Z)ᴴ * (Vᴴ * Z) by
      rw [conjTranspose_mul, conjTranspose_conjTranspose]; simp only [Matrix.mul_assoc], trace_mul_comm, trace,
      map_sum]
    refine Finset.sum_congr rfl fun i _ => ?_
    rw [diag_apply, hdiag, RCLike.ofReal_re]
  have hp : ∑ i, p i ≤ k := by
    have h1 : (Zᴴ * (1 - V * Vᴴ) * Z).PosSemidef := (posSemidef_one_sub hV).conjTranspose_mul_mul_same Z
    have h3 := re_trace_nonneg h1
    rw [Matrix.mul_sub, Matrix.sub_mul, Matrix.mul_one, hZ, trace_sub, map_sub, htr, trace_one, Fintype.card_fin,
      RCLike.natCast_re] at h3
    have : (q : ℝ) ≤ k := by exact_mod_cast hq
    linarith
  have hval : RCLike.re (Zᴴ * C * Z).trace = ∑ i, a i * p i := by
    rw [hC, show Zᴴ * (V * diagonal (fun i => (a i : 𝕜)) * Vᴴ) * Z =
      (Vᴴ * Z)ᴴ * (diagonal (fun i => (a i : 𝕜)) * (Vᴴ * Z)) by
      rw [conjTranspose_mul, conjTranspose_conjTranspose]; simp only [Matrix.mul_assoc], trace_mul_comm, trace,
      map_sum]
    refine Finset.sum_congr rfl fun i _ => ?_
    rw [diag_apply, Matrix.mul_assoc, diagonal_mul, hdiag, ← RCLike.ofReal_mul, RCLike.ofReal_re]
  rw [hval]
  exact sum_weights_le a p k ha h0 (fun i => Finset.sum_nonneg fun _ _ => by positivity) hp1 hp

/-- An orthonormal basis of the space spanned by the rows. -/
theorem exists_row_basis {k m : Nat} (c : Matrix (Fin k) (Fin m) 𝕜) :
    ∃ (q : Nat) (Z : Matrix (Fin m) (Fin q) 𝕜), q ≤ k ∧ Zᴴ * Z = 1 ∧ c * (Z * Zᴴ) = c := by
  let row : Fin k → EuclideanSpace 𝕜 (Fin m) := fun a => WithLp.toLp 2 fun j => star (c a j)
  let S : Submodule 𝕜 (EuclideanSpace 𝕜 (Fin m)) := Submodule.span 𝕜 (Set.range row)
  let b := stdOrthonormalBasis 𝕜 S
  let Z : Matrix (Fin m) (Fin (Module.finrank 𝕜 S)) 𝕜 := Matrix.of fun i j => (b j : EuclideanSpace 𝕜 (Fin m)) i
  refine ⟨_, Z, ?_, ?_, ?_⟩
  · have := finrank_range_le_card (R := 𝕜) row
    rwa [Fintype.card_fin] at this
  · ext i j
    have h := (orthonormal_iff_ite.mp b.orthonormal) i j
    rw [Matrix.one_apply, ← h, Matrix.mul_apply, Submodule.coe_inner, PiLp.inner_apply]
    refine Finset.sum_congr rfl fun l _ => ?_
    rw [conjTranspose_apply, RCLike.inner_apply, mul_comm]
    rfl
  · have key : ∀ a, ∀ i, ∑ j, (Z i j) * ∑ l, star (Z l j) * star (c a l) = star (c a i) := by
      intro a i
      have hmem : row a ∈ S := Submodule.subset_span ⟨a, rfl⟩
      have h := b.sum_repr' ⟨row a, hmem⟩
      have h2 := congrArg (fun v : S => (v : EuclideanSpace 𝕜 (Fin m)) i) h
      simp only [Submodule.coe_sum, Submodule.coe_smul] at h2
      have h3 : (row a) i = star (c a i) := rfl
      rw [← h3, ← h2, WithLp.ofLp_sum, Finset.sum_apply]
      refine Finset.sum_congr rfl fun j _ => ?_
      rw [WithLp.ofLp_smul, Pi.smul_apply, smul_eq_mul, mul_comm]
      congr 1
      rw [Submodule.coe_inner, PiLp.inner_apply]
      refine Finset.sum_congr rfl fun l _ => ?_
      rw [RCLike.inner_apply, mul_comm]
      rfl
    ext a i
    have h := congrArg star (key a i)
    rw [star_star, star_sum] at h
    rw [← h, ← Matrix.mul_assoc, Matrix.mul_apply]
    refine Finset.sum_congr rfl fun j _ => ?_
    rw [Matrix.mul_apply, conjTranspose_apply, star_mul', star_sum, mul_comm]
    congr 1
    refine Finset.sum_congr rfl fun l _ => ?_
    rw [star_mul', star_star, star_star, mul_comm]

/-- Approximation by `k` vectors: `C` holds the inner products of the data, `D` those of the `k` vectors with
the data, `F` those among the `k` vectors, and `c` the coefficients.  The squared error is at least the sum of the
dropped eigenvalues. -/
theorem approximation_bound {m s k : Nat} {C : Matrix (Fin m) (Fin m) 𝕜} {V : Matrix (Fin m) (Fin s) 𝕜}
    {a : Fin s → ℝ} (hV : Vᴴ * V = 1) (hC : C = V * diagonal (fun i => (a i : 𝕜)) * Vᴴ) (ha : Antitone a)
    (h0 : ∀ i, 0 ≤ a i) (c D : Matrix (Fin k) (Fin m) 𝕜) (F : Matrix (Fin k) (Fin k) 𝕜)
    (hG : (C - cᴴ * D - Dᴴ * c + cᴴ * F * c).PosSemidef) :
    RCLike.re C.trace - ∑ i ∈ Finset.univ.filter (fun i : Fin s => i.val < k), a i ≤
      RCLike.re (C - cᴴ * D - Dᴴ * c + cᴴ * F * c).trace := by
  obtain ⟨q, Z, hq, hZ, hc⟩ := exists_row_basis c
  set G := C - cᴴ * D - Dᴴ * c + cᴴ * F * c with hGdef
  have hself : (1 - Z * Zᴴ)ᴴ = 1 - Z * Zᴴ := by
    rw [conjTranspose_sub, conjTranspose_mul, conjTranspose_conjTranspose, conjTranspose_one]
  have hidem : (Z * Zᴴ) * (Z * Zᴴ) = Z * Zᴴ := by
    rw [show Z * Zᴴ * (Z * Zᴴ) = Z * (Zᴴ * Z) * Zᴴ by simp only [Matrix.mul_assoc], hZ, Matrix.mul_one]
  have hidem' : (1 - Z * Zᴴ) * (1 - Z * Zᴴ) = 1 - Z * Zᴴ := by
    simp only [Matrix.sub_mul, Matrix.mul_sub, Matrix.one_mul, Matrix.mul_one, hidem, sub_self, sub_zero]
  have hc0 : c * (1 - Z * Zᴴ) = 0 := by rw [Matrix.mul_sub, Matrix.mul_one, hc, sub_self]
  have hc0' : (1 - Z * Zᴴ) * cᴴ = 0 := by
    have := congrArg conjTranspose hc0
    rwa [conjTranspose_mul, hself, conjTranspose_zero] at this
  have hsplit : ∀ A : Matrix (Fin m) (Fin m) 𝕜,
      A.trace = ((1 - Z * Zᴴ) * A * (1 - Z * Zᴴ)).trace + (Zᴴ * A * Z).trace := by
    intro A
    rw [trace_mul_comm ((1 - Z * Zᴴ) * A), ← Matrix.mul_assoc, hidem', Matrix.sub_mul, trace_sub, Matrix.one_mul,
      Matrix.mul_assoc, Matrix.mul_assoc, trace_mul_comm Z, Matrix.mul_assoc, sub_add_cancel]
  have hres : (1 - Z * Zᴴ) * G * (1 - Z * Zᴴ) = (1 - Z * Zᴴ) * C * (1 - Z * Zᴴ) := by
    have e1 : (1 - Z * Zᴴ) * (cᴴ * D) = 0 := by rw [← Matrix.mul_assoc, hc0', Matrix.zero_mul]
    have e2 : (1 - Z * Zᴴ) * (Dᴴ * c) * (1 - Z * Zᴴ) = 0 := by
      rw [Matrix.mul_assoc, Matrix.mul_assoc, hc0, Matrix.mul_zero, Matrix.mul_zero]
    have e3 : (1 - Z * Zᴴ) * (cᴴ * F * c) = 0 := by
      rw [Matrix.mul_assoc, ← Matrix.mul_assoc, hc0', Matrix.zero_mul]
    rw [hGdef]
    generalize 1 - Z * Zᴴ = P at e1 e2 e3
    rw [Matrix.mul_add, Matrix.mul_sub, Matrix.mul_sub, e1, e3, add_zero, sub_zero, Matrix.sub_mul, e2, sub_zero]
  have h1 := re_trace_nonneg (hG.conjTranspose_mul_mul_same Z)
  have h2 := ky_fan hV hC ha h0 hZ hq
  have h3 := congrArg RCLike.re (hsplit G)
  have h4 := congrArg RCLike.re (hsplit C)
  rw [hres] at h3
  rw [map_add] at h3 h4
  linarith

end Modred
