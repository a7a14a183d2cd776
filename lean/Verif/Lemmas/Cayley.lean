import Mathlib.LinearAlgebra.Matrix.Charpoly.Coeff
import Mathlib.LinearAlgebra.Matrix.NonsingularInverse

/-!
# Polynomials of arrays, and models from projections
-/

namespace Modred

open Matrix Polynomial

variable {𝕜 : Type*} [Field 𝕜]

/-- A polynomial of an array is a combination of the first powers. -/
theorem poly_powers {n nt : Nat} (hn : 1 ≤ n) (hnt : n ≤ nt) (T : Matrix (Fin n) (Fin n) 𝕜) (g : 𝕜[X]) :
    ∃ a : Fin nt → 𝕜, aeval T g = ∑ j, a j • T ^ j.val := by
  have hd : (g %ₘ T.charpoly).natDegree < nt := by
    have h1 := natDegree_modByMonic_lt g T.charpoly_monic (by
      intro h
      have h2 := T.charpoly_natDegree_eq_dim
      rw [h, natDegree_one, Fintype.card_fin] at h2
      omega)
    rw [T.charpoly_natDegree_eq_dim, Fintype.card_fin] at h1
    omega
  refine ⟨fun j => (g %ₘ T.charpoly).coeff j, ?_⟩
  rw [T.aeval_eq_aeval_mod_charpoly, aeval_eq_sum_range' hd, Finset.sum_range]

theorem poly_rows {n nt : Nat} (hn : 1 ≤ n) (hnt : n ≤ nt) (T : Matrix (Fin n) (Fin n) 𝕜) (c : Fin n → 𝕜)
    (O : Matrix (Fin nt) (Fin n) 𝕜) (hO : ∀ i, O i = c ᵥ* T ^ i.val) (g : 𝕜[X]) : ∃ K, O * aeval T g = K * O := by
  choose a ha using fun i : Fin nt => poly_powers hn hnt T (X ^ i.val * g)
  refine ⟨Matrix.of a, ?_⟩
  ext i k
  have h1 : (O * aeval T g) i = c ᵥ* (∑ j, a i j • T ^ j.val) := by
    rw [← ha i, map_mul, map_pow, aeval_X, ← vecMul_vecMul, ← hO i]
    rfl
  rw [h1, Matrix.mul_apply, vecMul_sum, Finset.sum_apply]
  refine Finset.sum_congr rfl fun j _ => ?_
  rw [vecMul_smul, ← hO j]
  rfl

theorem poly_cols {n nt : Nat} (hn : 1 ≤ n) (hnt : n ≤ nt) (T : Matrix (Fin n) (Fin n) 𝕜) (b : Fin n → 𝕜)
    (X' : Matrix (Fin n) (Fin nt) 𝕜) (hX : ∀ i j, X' i j = (T ^ j.val *ᵥ b) i) (g : 𝕜[X]) : ∃ G, aeval T g * X' = X' * G := by
  choose a ha using fun i : Fin nt => poly_powers hn hnt T (g * X ^ i.val)
  refine ⟨Matrix.of fun j i => a i j, ?_⟩
  ext k i
  have h1 : (aeval T g * X') k i = ((∑ j, a i j • T ^ j.val) *ᵥ b) k := by
    rw [← ha i, map_mul, map_pow, aeval_X, ← mulVec_mulVec, Matrix.mul_apply, mulVec, dotProduct]
    exact Finset.sum_congr rfl fun l _ => by rw [hX]
  rw [h1, Matrix.mul_apply, sum_mulVec, Finset.sum_apply]
  refine Finset.sum_congr rfl fun j _ => ?_
  rw [smul_mulVec, hX]
  exact mul_comm _ _

/-- The inverse is a polynomial. -/
theorem inverse_poly {n : Nat} (Q L : Matrix (Fin n) (Fin n) 𝕜) (h : L * Q = 1) : ∃ g : 𝕜[X], L = aeval Q g := by
  have hu : Q.det ≠ 0 := by
    intro h0
    have := congrArg Matrix.det h
    rw [det_mul, h0, mul_zero, det_one] at this
    exact zero_ne_one this
  have hc : Q.charpoly.coeff 0 ≠ 0 := by
    intro h0
    rw [det_eq_sign_charpoly_coeff, h0, mul_zero] at hu
    exact hu rfl
  refine ⟨C (-(Q.charpoly.coeff 0)⁻¹) * Q.charpoly.divX, ?_⟩
  have h1 := Q.aeval_self_charpoly
  rw [← divX_mul_X_add Q.charpoly, map_add, map_mul, aeval_X, aeval_C] at h1
  have h2 : aeval Q Q.charpoly.divX * Q = -algebraMap 𝕜 _ (Q.charpoly.coeff 0) := eq_neg_of_add_eq_zero_left h1
  have h3 := mul_eq_one_comm.mp h
  have h4 : aeval Q Q.charpoly.divX = -(Q.charpoly.coeff 0) • L := by
    calc aeval Q Q.charpoly.divX = aeval Q Q.charpoly.divX * Q * L := by rw [Matrix.mul_assoc, h3, Matrix.mul_one]
      _ = -(Q.charpoly.coeff 0) • L := by rw [h2, Algebra.algebraMap_eq_smul_one, neg_smul, Matrix.neg_mul, Matrix.smul_mul, Matrix.one_mul]
  rw [map_mul, aeval_C, h4, Algebra.algebraMap_eq_smul_one, Matrix.smul_mul, Matrix.one_mul, smul_smul, neg_mul_neg,
    inv_mul_cancel₀ hc, one_smul]

section

variable {n nt r : Nat} (O : Matrix (Fin nt) (Fin n) 𝕜) (X' : Matrix (Fin n) (Fin nt) 𝕜) (E : Matrix (Fin nt) (Fin r) 𝕜)
  (F : Matrix (Fin r) (Fin nt) 𝕜)

/-- Between arrays that map the rows and the columns into their spans, the projection can be left out. -/
theorem projection_between (hH : O * X' * E * (F * (O * X')) = O * X') (M M' : Matrix (Fin n) (Fin n) 𝕜)
    (hM : ∃ K, O * M = K * O) (hM' : ∃ G, M' * X' = X' * G) :
    O * (M * (X' * E) * (F * (O * (M' * X')))) = O * (M * (M' * X')) := by
  obtain ⟨K, hK⟩ := hM
  obtain ⟨G, hG⟩ := hM'
  rw [hG]
  calc O * (M * (X' * E) * (F * (O * (X' * G)))) = (O * M) * X' * E * (F * (O * X')) * G := by simp only [Matrix.mul_assoc]
    _ = K * (O * X' * E * (F * (O * X'))) * G := by rw [hK]; simp only [Matrix.mul_assoc]
    _ = (K * O) * X' * G := by rw [hH]; simp only [Matrix.mul_assoc]
    _ = O * (M * (X' * G)) := by rw [← hK]; simp only [Matrix.mul_assoc]

/-- The reduced model takes Crank-Nicolson steps without error and has the same outputs. -/
theorem projection_exact (hn : 1 ≤ n) (hnt : n ≤ nt) (A L R : Matrix (Fin n) (Fin n) 𝕜) (c : 𝕜) (two : (2 : 𝕜) ≠ 0)
    (hL : L = 1 - c • A) (hR : R = 1 + c • A) (hu : IsUnit L.det) (co b : Fin n → 𝕜)
    (hO : ∀ i, O i = co ᵥ* (L⁻¹ * R) ^ i.val) (hX : ∀ i j, X' i j = ((L⁻¹ * R) ^ j.val *ᵥ b) i)
    (hH : O * X' * E * (F * (O * X')) = O * X') (hone : F * O * (X' * E) = 1) :
    let Ar := F * O * (A * (X' * E))
    IsUnit (1 - c • Ar).det ∧ ∀ k : Nat, (co ᵥ* (X' * E)) ⬝ᵥ ((((1 - c • Ar)⁻¹ * (1 + c • Ar)) ^ k) *ᵥ ((F * O) *ᵥ b)) =
      co ⬝ᵥ ((L⁻¹ * R) ^ k *ᵥ b) := by
  intro Ar
  have hLQ : L * L⁻¹ = 1 := mul_nonsing_inv L hu
  have hQL : L⁻¹ * L = 1 := nonsing_inv_mul L hu
  have hRL : R = (2 : 𝕜) • 1 - L := by rw [hR, hL, two_smul]; abel
  have hT : L⁻¹ * R = (2 : 𝕜) • L⁻¹ - 1 := by rw [hRL, Matrix.mul_sub, Matrix.mul_smul, Matrix.mul_one, hQL]
  generalize hTT : L⁻¹ * R = T at hO hX hT ⊢
  have hQ : L⁻¹ = aeval T (C (2 : 𝕜)⁻¹ * (X + 1)) := by
    rw [map_mul, aeval_C, map_add, aeval_X, map_one, hT, sub_add_cancel, Algebra.algebraMap_eq_smul_one, Matrix.smul_mul,
      Matrix.one_mul, smul_smul, inv_mul_cancel₀ two, one_smul]
  obtain ⟨g, hg⟩ := inverse_poly L⁻¹ L hLQ
  have hLp : ∃ g : 𝕜[X], L = aeval T g := ⟨g.comp (C (2 : 𝕜)⁻¹ * (X + 1)), by rw [aeval_comp, ← hQ]; exact hg⟩
  have hRp : ∃ g : 𝕜[X], R = aeval T g := by
    obtain ⟨g', h'⟩ := hLp
    refine ⟨C 2 - g', ?_⟩
    rw [map_sub, aeval_C, ← h', hRL, Algebra.algebraMap_eq_smul_one]
  have hTp : ∀ k : Nat, ∃ g : 𝕜[X], T ^ k = aeval T g := fun k => ⟨X ^ k, by rw [map_pow, aeval_X]⟩
  have key : ∀ M M' : Matrix (Fin n) (Fin n) 𝕜, (∃ g : 𝕜[X], M = aeval T g) → (∃ g : 𝕜[X], M' = aeval T g) →
      O * (M * (X' * E) * (F * (O * (M' * X')))) = O * (M * (M' * X')) := by
    rintro M M' ⟨g, rfl⟩ ⟨g', rfl⟩
    exact projection_between O X' E F hH _ _ (poly_rows hn hnt T co O hO g) (poly_cols hn hnt T b X' hX g')
  have hred : ∀ M M' : Matrix (Fin n) (Fin n) 𝕜, (∃ g : 𝕜[X], M = aeval T g) → (∃ g : 𝕜[X], M' = aeval T g) →
      (F * O * (M * (X' * E))) * (F * O * (M' * (X' * E))) = F * O * (M * M' * (X' * E)) := by
    intro M M' h h'
    calc (F * O * (M * (X' * E))) * (F * O * (M' * (X' * E)))
        = F * (O * (M * (X' * E) * (F * (O * (M' * X'))))) * E := by simp only [Matrix.mul_assoc]
      _ = F * O * (M * M' * (X' * E)) := by rw [key M M' h h']; simp only [Matrix.mul_assoc]
  have hLr : 1 - c • Ar = F * O * (L * (X' * E)) := by
    rw [hL, Matrix.sub_mul, Matrix.mul_sub, Matrix.one_mul, hone, Matrix.smul_mul, Matrix.mul_smul]
  have hRr : 1 + c • Ar = F * O * (R * (X' * E)) := by
    rw [hR, Matrix.add_mul, Matrix.mul_add, Matrix.one_mul, hone, Matrix.smul_mul, Matrix.mul_smul]
  have hQr : (F * O * (L⁻¹ * (X' * E))) * (1 - c • Ar) = 1 := by
    rw [hLr, hred _ _ ⟨_, hQ⟩ hLp, hQL, Matrix.one_mul, hone]
  have hinv : (1 - c • Ar)⁻¹ = F * O * (L⁻¹ * (X' * E)) := inv_eq_left_inv hQr
  refine ⟨(isUnit_iff_isUnit_det _).mp (IsUnit.of_mul_eq_one_right _ hQr), ?_⟩
  have hTr : (1 - c • Ar)⁻¹ * (1 + c • Ar) = F * O * (T * (X' * E)) := by
    rw [hinv, hRr, hred _ _ ⟨_, hQ⟩ hRp, hTT]
  rw [hTr]
  intro k
  have hnt0 : 0 < nt := by omega
  have hb : ∀ M : Matrix (Fin n) (Fin n) 𝕜, (M * X') *ᵥ Pi.single ⟨0, hnt0⟩ 1 = M *ᵥ b := by
    intro M
    rw [← mulVec_mulVec]
    congr 1
    rw [mulVec_single_one]
    ext i
    rw [col_apply, hX, pow_zero, one_mulVec]
  have hc0 : ∀ v, co ⬝ᵥ v = (O *ᵥ v) ⟨0, hnt0⟩ := by
    intro v
    rw [mulVec, hO, pow_zero, vecMul_one]
  have hstep : ∀ k : Nat, ((F * O * (T * (X' * E))) ^ k) *ᵥ ((F * O) *ᵥ b) = (F * O) *ᵥ (T ^ k *ᵥ b) := by
    intro k
    induction k with
    | zero => rw [pow_zero, one_mulVec, pow_zero, one_mulVec]
    | succ k ih =>
      rw [pow_succ', ← mulVec_mulVec, ih, ← hb (T ^ k), mulVec_mulVec, mulVec_mulVec]
      have := congrArg (F * ·) (key T (T ^ k) (by simpa using hTp 1) (hTp k))
      calc (F * O * (T * (X' * E)) * (F * O) * (T ^ k * X')) *ᵥ Pi.single ⟨0, hnt0⟩ 1
          = (F * (O * (T * (X' * E) * (F * (O * (T ^ k * X')))))) *ᵥ Pi.single ⟨0, hnt0⟩ 1 := by
            simp only [Matrix.mul_assoc]
        _ = ((F * O) * (T ^ (k + 1) * X')) *ᵥ Pi.single ⟨0, hnt0⟩ 1 := by
            rw [this, pow_succ']
            simp only [Matrix.mul_assoc]
        _ = (F * O) *ᵥ (T ^ (k + 1) *ᵥ b) := by rw [← mulVec_mulVec, hb]
  rw [hstep, ← dotProduct_mulVec, hc0, hc0]
  refine congrFun ?_ _
  rw [← hb (T ^ k)]
  have h1 := congrArg (· *ᵥ Pi.single ⟨0, hnt0⟩ 1) (key 1 (T ^ k) ⟨1, by rw [map_one]⟩ (hTp k))
  rw [Matrix.one_mul, Matrix.one_mul] at h1
  simp only [mulVec_mulVec, Matrix.mul_assoc] at h1 ⊢
  exact h1

end

end Modred
