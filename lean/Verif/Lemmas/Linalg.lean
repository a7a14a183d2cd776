import Verif.Spec.Linalg
import Mathlib.Order.Interval.Finset.Fin
import Mathlib.LinearAlgebra.Matrix.Trace
import Mathlib.LinearAlgebra.Eigenspace.Basic
import Mathlib.LinearAlgebra.Matrix.ToLin
import Mathlib.LinearAlgebra.Matrix.NonsingularInverse
import Mathlib.Algebra.Order.BigOperators.Group.Finset
import Mathlib.Tactic.Ring
import Mathlib.Tactic.Linarith
import Mathlib.Tactic.FieldSimp
import Mathlib.Tactic.NoncommRing

/-!
# Lemmas on truncation and on products with diagonal matrices
-/

namespace Modred

open Matrix

variable {𝕜 : Type*} [RCLike 𝕜]

/-! ### Counting -/

/-- A property of indices that is inherited by smaller indices holds for exactly the first ones. -/
theorem lt_card_filter_iff {n : Nat} (p : Fin n → Prop) [DecidablePred p]
    (hp : ∀ i j, i ≤ j → p j → p i) (i : Fin n) : i.val < (Finset.univ.filter p).card ↔ p i := by
  constructor
  · intro h
    by_contra hi
    have hsub : Finset.univ.filter p ⊆ Finset.Iio i := by
      intro j hj
      rw [Finset.mem_Iio]
      by_contra hc
      exact hi (hp i j (not_lt.mp hc) (Finset.mem_filter.mp hj).2)
    have := Finset.card_le_card hsub
    rw [Fin.card_Iio] at this
    omega
  · intro h
    have hsub : Finset.Iic i ⊆ Finset.univ.filter p := by
      intro j hj
      exact Finset.mem_filter.mpr ⟨Finset.mem_univ _, hp j i (Finset.mem_Iic.mp hj) h⟩
    have := Finset.card_le_card hsub
    rw [Fin.card_Iic] at this
    omega

theorem card_filter_le' {n : Nat} (p : Fin n → Prop) [DecidablePred p] :
    (Finset.univ.filter p).card ≤ n := by
  simpa using Finset.card_filter_le (Finset.univ : Finset (Fin n)) p

theorem numAbove_spec {n : Nat} (x : Fin n → ℝ) (atol : Option ℝ)
    (hx : ∀ i j, i ≤ j → |x j| ≤ |x i|) :
    numAbove x atol ≤ n ∧ ∀ i : Fin n, i.val < numAbove x atol ↔ ∀ t ∈ atol, t < |x i| := by
  cases atol with
  | none => exact ⟨le_rfl, fun i => by simp [numAbove]⟩
  | some t =>
    refine ⟨card_filter_le' _, fun i => ?_⟩
    unfold numAbove
    rw [lt_card_filter_iff _ (fun i j hij hj => lt_of_lt_of_le hj (hx i j hij))]
    simp

/-- Exactly the values that obey the tolerances are retained. -/
theorem numRetained_spec {n : Nat} (x : Fin n → ℝ) (atol rtol : Option ℝ) (num : Nat)
    (hx : ∀ i j, i ≤ j → |x j| ≤ |x i|) (hr : ∀ t ∈ rtol, 0 ≤ t)
    (h : numRetained x atol rtol = .ok num) :
    num ≤ n ∧ ∀ i : Fin n, i.val < num ↔ Obeys x atol rtol i := by
  obtain ⟨h1, h2⟩ := numAbove_spec x atol hx
  unfold numRetained at h
  cases rtol with
  | none =>
    cases h
    refine ⟨h1, fun i => ?_⟩
    unfold Obeys
    rw [h2 i]
    simp
  | some t =>
    simp only at h
    split at h
    · rename_i hn
      cases h
      have ht : 0 ≤ t := hr t rfl
      have hq : ∀ i : Fin n, (x ⟨0, hn⟩ ≠ 0 ∧ t < |x i| / |x ⟨0, hn⟩|) ↔ t * |x ⟨0, hn⟩| < |x i| := by
        intro i
        by_cases h0 : x ⟨0, hn⟩ = 0
        · have : |x i| ≤ 0 := by
            have := hx ⟨0, hn⟩ i (Fin.mk_le_of_le_val (Nat.zero_le _))
            rwa [h0, abs_zero] at this
          simp only [h0, ne_eq, not_true_eq_false, abs_zero, mul_zero, false_and, false_iff, not_lt]
          exact this
        · rw [lt_div_iff₀ (abs_pos.mpr h0)]
          simp [h0]
      refine ⟨le_trans (Nat.min_le_left _ _) h1, fun i => ?_⟩
      rw [Nat.lt_min, lt_card_filter_iff]
      · rw [hq]
        unfold Obeys
        rw [h2 i]
        simp only [Option.mem_def, Option.some.injEq, forall_eq']
        exact ⟨fun h => ⟨h.1, h.2.2⟩, fun h => ⟨h.1, h.1, h.2⟩⟩
      · rintro i j hij ⟨h3, h4⟩
        refine ⟨lt_of_le_of_lt hij h3, (hq i).mpr (lt_of_lt_of_le ((hq j).mp h4) (hx i j hij))⟩
    · cases h

/-- Truncation raises only if a relative tolerance is given and there are no values. -/
theorem numRetained_error {n : Nat} (x : Fin n → ℝ) (atol rtol : Option ℝ) (e : Err) :
    numRetained x atol rtol = .error e ↔ e = .indexError ∧ rtol ≠ none ∧ n = 0 := by
  unfold numRetained
  cases rtol with
  | none => simp
  | some t =>
    simp only
    split
    · rename_i h
      simp; omega
    · rename_i h
      simp only [Except.error.injEq, ne_eq, reduceCtorEq, not_false_eq_true, true_and]
      exact ⟨fun h' => ⟨h'.symm, by omega⟩, fun h' => h'.1.symm⟩

/-! ### Matrices of some of the columns -/

theorem sum_comp_injective {r n : Type*} [Fintype r] [Fintype n] [DecidableEq n] {M : Type*}
    [AddCommMonoid M] (e : r → n) (he : Function.Injective e) (f : n → M) [DecidablePred (∃ j, e j = ·)] :
    ∑ j, f (e j) = ∑ i, if ∃ j, e j = i then f i else 0 := by
  classical
  rw [← Finset.sum_filter]
  rw [← Finset.sum_image (s := Finset.univ) (g := e) (f := f) (fun a _ b _ h => he h)]
  congr 1
  ext i
  simp

/-- Orthonormal columns stay so when some are selected. -/
theorem orthonormal_submatrix {m n r : Type*} [Fintype m] [Fintype n] [DecidableEq n] [DecidableEq r]
    (U : Matrix m n 𝕜) (h : Uᴴ * U = 1) (e : r → n) (he : Function.Injective e) :
    (U.submatrix id e)ᴴ * U.submatrix id e = 1 := by
  have : (U.submatrix id e)ᴴ * U.submatrix id e = (Uᴴ * U).submatrix e e := by
    ext i j
    simp [Matrix.mul_apply]
  rw [this, h, submatrix_one e he]

theorem mul_submatrix_cols {l m n r : Type*} [Fintype m]
    (A : Matrix l m 𝕜) (U : Matrix m n 𝕜) (e : r → n) :
    A * U.submatrix id e = (A * U).submatrix id e := by
  ext i j
  simp [Matrix.mul_apply]

theorem mul_diagonal_submatrix {m n r : Type*} [Fintype n] [Fintype r] [DecidableEq n] [DecidableEq r]
    (U : Matrix m n 𝕜) (d : n → 𝕜) (e : r → n) :
    (U * diagonal d).submatrix id e = U.submatrix id e * diagonal (fun i => d (e i)) := by
  ext i j
  simp [Matrix.mul_diagonal]

/-- The product of selected columns, values and rows is the whole product with the other values set to
zero. -/
theorem selected_product {m n k r : Type*} [Fintype k] [Fintype r] [DecidableEq k] [DecidableEq r]
    (U : Matrix m k 𝕜) (d : k → 𝕜) (V : Matrix n k 𝕜) (e : r → k) (he : Function.Injective e)
    [DecidablePred (∃ j, e j = ·)] :
    U.submatrix id e * diagonal (fun i => d (e i)) * (V.submatrix id e)ᴴ =
      U * diagonal (fun i => if ∃ j, e j = i then d i else 0) * Vᴴ := by
  ext a b
  rw [Matrix.mul_apply, Matrix.mul_apply]
  simp only [Matrix.mul_diagonal, submatrix_apply, id_eq, conjTranspose_apply]
  rw [sum_comp_injective e he fun i => U a i * d i * star (V b i)]
  refine Finset.sum_congr rfl fun i _ => ?_
  split <;> simp

theorem exists_castLE_iff {r n : Nat} (h : r ≤ n) (i : Fin n) :
    (∃ j : Fin r, Fin.castLE h j = i) ↔ i.val < r := by
  constructor
  · rintro ⟨j, rfl⟩
    simp
  · intro hi
    exact ⟨⟨i, hi⟩, by ext; rfl⟩

/-- Squared Frobenius norm. -/
noncomputable def frobSq {m n : Type*} [Fintype m] [Fintype n] (a : Matrix m n 𝕜) : ℝ :=
  ∑ i, ∑ j, ‖a i j‖ ^ 2

theorem frobSq_eq_trace {m n : Type*} [Fintype m] [Fintype n] (a : Matrix m n 𝕜) :
    ((frobSq a : ℝ) : 𝕜) = (aᴴ * a).trace := by
  unfold frobSq
  rw [Matrix.trace]
  simp only [diag_apply, Matrix.mul_apply, conjTranspose_apply]
  push_cast
  rw [Finset.sum_comm]
  refine Finset.sum_congr rfl fun i _ => Finset.sum_congr rfl fun j _ => ?_
  rw [← RCLike.conj_mul]
  rfl

theorem frobSq_isometry {m n k : Nat} (U : Matrix (Fin m) (Fin k) 𝕜) (V : Matrix (Fin n) (Fin k) 𝕜)
    (hU : Uᴴ * U = 1) (hV : Vᴴ * V = 1) (d : Fin k → ℝ) :
    frobSq (U * diagonal (fun i => (d i : 𝕜)) * Vᴴ) = ∑ i, d i ^ 2 := by
  have h : ((frobSq (U * diagonal (fun i => (d i : 𝕜)) * Vᴴ) : ℝ) : 𝕜) = ((∑ i, d i ^ 2 : ℝ) : 𝕜) := by
    rw [frobSq_eq_trace]
    rw [conjTranspose_mul, conjTranspose_mul, conjTranspose_conjTranspose, diagonal_conjTranspose]
    rw [show V * ((diagonal (star fun i => (d i : 𝕜))) * Uᴴ) * (U * diagonal (fun i => (d i : 𝕜)) * Vᴴ) =
      V * (diagonal (star fun i => (d i : 𝕜)) * (Uᴴ * U) * diagonal (fun i => (d i : 𝕜)) * Vᴴ) by
        simp only [Matrix.mul_assoc]]
    rw [trace_mul_comm, Matrix.mul_assoc _ Vᴴ V, hV, hU, Matrix.mul_one, Matrix.mul_one,
      diagonal_mul_diagonal, trace_diagonal]
    push_cast
    refine Finset.sum_congr rfl fun i _ => ?_
    simp [pow_two]
  exact_mod_cast h

end Modred
