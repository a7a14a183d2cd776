import Verif.Lemmas.Okid
import Mathlib.LinearAlgebra.Matrix.Kronecker

/-!
# The regressors of OKID in other coordinates
-/

namespace Modred

open Matrix Finset

section Units

variable {m q p N : Nat}

/-- What a change of coordinates of inputs and outputs does with the regressors. -/
def changeRegressors (p : Nat) (S : Matrix (Fin m) (Fin m) ℝ) (T : Matrix (Fin q) (Fin q) ℝ) :
    Matrix (Fin m ⊕ Fin p × (Fin m ⊕ Fin q)) (Fin m ⊕ Fin p × (Fin m ⊕ Fin q)) ℝ :=
  fromBlocks S 0 0 (kronecker (1 : Matrix (Fin p) (Fin p) ℝ) (fromBlocks S 0 0 T))

theorem changeRegressors_mul (S S' : Matrix (Fin m) (Fin m) ℝ) (T T' : Matrix (Fin q) (Fin q) ℝ) :
    changeRegressors p S T * changeRegressors p S' T' = changeRegressors p (S * S') (T * T') := by
  unfold changeRegressors
  rw [fromBlocks_multiply]
  simp only [Matrix.mul_zero, Matrix.zero_mul, add_zero, zero_add]
  congr 1
  refine (mul_kronecker_mul _ _ _ _).symm.trans ?_
  rw [fromBlocks_multiply]
  simp

theorem changeRegressors_one : changeRegressors p (1 : Matrix (Fin m) (Fin m) ℝ) (1 : Matrix (Fin q) (Fin q) ℝ) = 1 := by
  unfold changeRegressors
  rw [fromBlocks_one, show kronecker (1 : Matrix (Fin p) (Fin p) ℝ) (1 : Matrix (Fin m ⊕ Fin q) (Fin m ⊕ Fin q) ℝ) = 1 from
    one_kronecker_one, fromBlocks_one]

theorem changeRegressors_conjTranspose (S : Matrix (Fin m) (Fin m) ℝ) (T : Matrix (Fin q) (Fin q) ℝ) :
    (changeRegressors p S T)ᴴ = changeRegressors p Sᴴ Tᴴ := by
  unfold changeRegressors
  rw [fromBlocks_conjTranspose, conjTranspose_zero, conjTranspose_zero]
  congr 1
  refine (conjTranspose_kronecker _ _).trans ?_
  rw [conjTranspose_one, fromBlocks_conjTranspose, conjTranspose_zero, conjTranspose_zero]
  rfl

theorem delay_mulVec {a b : Nat} (S : Matrix (Fin a) (Fin b) ℝ) (u : Nat → Fin b → ℝ) (i k : Nat) :
    delay i (fun k => S *ᵥ u k) k = S *ᵥ delay i u k := by
  unfold delay
  split <;> simp

theorem regressors_change (S : Matrix (Fin m) (Fin m) ℝ) (T : Matrix (Fin q) (Fin q) ℝ) (u : Nat → Fin m → ℝ)
    (y : Nat → Fin q → ℝ) : regressors (fun k => S *ᵥ u k) (fun k => T *ᵥ y k) p N =
    changeRegressors p S T * regressors u y p N := by
  ext r k
  rw [Matrix.mul_apply, Fintype.sum_sum_type, Fintype.sum_prod_type]
  obtain j | ⟨i, j | j⟩ := r
  · have h : ∑ a : Fin p, ∑ b : Fin m ⊕ Fin q, changeRegressors p S T (.inl j) (.inr (a, b)) * regressors u y p N (.inr (a, b)) k = 0 :=
      sum_eq_zero fun a _ => sum_eq_zero fun b _ => zero_mul _
    rw [h, add_zero]
    rfl
  · have h : ∑ a : Fin m, changeRegressors p S T (.inr (i, .inl j)) (.inl a) * regressors u y p N (.inl a) k = 0 :=
      sum_eq_zero fun a _ => zero_mul _
    rw [h, zero_add, sum_eq_single i]
    · rw [Fintype.sum_sum_type]
      have h1 : ∀ b, changeRegressors p S T (.inr (i, .inl j)) (.inr (i, .inl b)) = S j b := by
        intro b
        change (1 : Matrix (Fin p) (Fin p) ℝ) i i * S j b = _
        rw [one_apply_eq, one_mul]
      have h2 : ∀ b, changeRegressors p S T (.inr (i, .inl j)) (.inr (i, .inr b)) = 0 := by
        intro b
        exact mul_zero _
      simp only [h1, h2, zero_mul, sum_const_zero, add_zero]
      exact congrFun (delay_mulVec S u (i + 1) k) j
    · intro a _ ha
      refine sum_eq_zero fun b _ => ?_
      have : changeRegressors p S T (.inr (i, .inl j)) (.inr (a, b)) = 0 := by
        change (1 : Matrix (Fin p) (Fin p) ℝ) i a * _ = _
        rw [one_apply_ne ha.symm, zero_mul]
      rw [this, zero_mul]
    · intro h
      exact absurd (mem_univ i) h
  · have h : ∑ a : Fin m, changeRegressors p S T (.inr (i, .inr j)) (.inl a) * regressors u y p N (.inl a) k = 0 :=
      sum_eq_zero fun a _ => zero_mul _
    rw [h, zero_add, sum_eq_single i]
    · rw [Fintype.sum_sum_type]
      have h1 : ∀ b, changeRegressors p S T (.inr (i, .inr j)) (.inr (i, .inr b)) = T j b := by
        intro b
        change (1 : Matrix (Fin p) (Fin p) ℝ) i i * T j b = _
        rw [one_apply_eq, one_mul]
      have h2 : ∀ b, changeRegressors p S T (.inr (i, .inr j)) (.inr (i, .inl b)) = 0 := by
        intro b
        exact mul_zero _
      simp only [h1, h2, zero_mul, sum_const_zero, zero_add]
      exact congrFun (delay_mulVec T y (i + 1) k) j
    · intro a _ ha
      refine sum_eq_zero fun b _ => ?_
      have : changeRegressors p S T (.inr (i, .inr j)) (.inr (a, b)) = 0 := by
        change (1 : Matrix (Fin p) (Fin p) ℝ) i a * _ = _
        rw [one_apply_ne ha.symm, zero_mul]
      rw [this, zero_mul]
    · intro h
      exact absurd (mem_univ i) h

theorem augInput_change (T : Matrix (Fin q) (Fin q) ℝ) (M : Matrix (Fin q) (Fin m ⊕ Fin p × (Fin m ⊕ Fin q)) ℝ)
    (Si : Matrix (Fin m) (Fin m) ℝ) (Ti : Matrix (Fin q) (Fin q) ℝ) (i : Nat) (hi : i ≤ p) :
    augInput (T * M * changeRegressors p Si Ti) i = T * augInput M i * Si := by
  ext a j
  rw [Matrix.mul_apply]
  cases i with
  | zero =>
    change (T * M * changeRegressors p Si Ti) a (.inl j) = _
    rw [Matrix.mul_apply, Fintype.sum_sum_type]
    have h : ∑ b, (T * M) a (.inr b) * changeRegressors p Si Ti (.inr b) (.inl j) = 0 := sum_eq_zero fun b _ => mul_zero _
    rw [h, add_zero]
    rfl
  | succ i =>
    change dite _ _ _ = _
    rw [dif_pos (show i < p from hi), Matrix.mul_apply, Fintype.sum_sum_type, Fintype.sum_prod_type]
    have h : ∑ b, (T * M) a (.inl b) * changeRegressors p Si Ti (.inl b) (.inr (⟨i, hi⟩, .inl j)) = 0 :=
      sum_eq_zero fun b _ => mul_zero _
    rw [h, zero_add, sum_eq_single (⟨i, hi⟩ : Fin p)]
    · rw [Fintype.sum_sum_type]
      have h1 : ∀ b, changeRegressors p Si Ti (.inr (⟨i, hi⟩, .inl b)) (.inr (⟨i, hi⟩, .inl j)) = Si b j := by
        intro b
        change (1 : Matrix (Fin p) (Fin p) ℝ) _ _ * Si b j = _
        rw [one_apply_eq, one_mul]
      have h2 : ∀ b, changeRegressors p Si Ti (.inr (⟨i, hi⟩, .inr b)) (.inr (⟨i, hi⟩, .inl j)) = 0 := fun b => mul_zero _
      simp only [h1, h2, mul_zero, sum_const_zero, add_zero]
      refine sum_congr rfl fun b _ => ?_
      congr 1
      rw [Matrix.mul_apply, Matrix.mul_apply]
      refine sum_congr rfl fun c _ => ?_
      congr 1
      change _ = dite _ _ _
      rw [dif_pos (show i < p from hi)]
    · intro c _ hc
      refine sum_eq_zero fun b _ => ?_
      have : changeRegressors p Si Ti (.inr (c, b)) (.inr (⟨i, hi⟩, .inl j)) = 0 := by
        change (1 : Matrix (Fin p) (Fin p) ℝ) c _ * _ = _
        rw [one_apply_ne hc, zero_mul]
      rw [this, mul_zero]
    · intro h
      exact absurd (mem_univ _) h

theorem augOutput_change (T : Matrix (Fin q) (Fin q) ℝ) (M : Matrix (Fin q) (Fin m ⊕ Fin p × (Fin m ⊕ Fin q)) ℝ)
    (Si : Matrix (Fin m) (Fin m) ℝ) (Ti : Matrix (Fin q) (Fin q) ℝ) (i : Nat) (h1 : 1 ≤ i) (hi : i ≤ p) :
    augOutput (T * M * changeRegressors p Si Ti) i = T * augOutput M i * Ti := by
  obtain ⟨i, rfl⟩ : ∃ l, i = l + 1 := ⟨i - 1, by omega⟩
  ext a j
  rw [Matrix.mul_apply]
  change dite _ _ _ = _
  rw [dif_pos (show i < p from hi), Matrix.mul_apply, Fintype.sum_sum_type, Fintype.sum_prod_type]
  have h : ∑ b, (T * M) a (.inl b) * changeRegressors p Si Ti (.inl b) (.inr (⟨i, hi⟩, .inr j)) = 0 :=
    sum_eq_zero fun b _ => mul_zero _
  rw [h, zero_add, sum_eq_single (⟨i, hi⟩ : Fin p)]
  · rw [Fintype.sum_sum_type]
    have h1 : ∀ b, changeRegressors p Si Ti (.inr (⟨i, hi⟩, .inr b)) (.inr (⟨i, hi⟩, .inr j)) = Ti b j := by
      intro b
      change (1 : Matrix (Fin p) (Fin p) ℝ) _ _ * Ti b j = _
      rw [one_apply_eq, one_mul]
    have h2 : ∀ b, changeRegressors p Si Ti (.inr (⟨i, hi⟩, .inl b)) (.inr (⟨i, hi⟩, .inr j)) = 0 := fun b => mul_zero _
    simp only [h1, h2, mul_zero, sum_const_zero, zero_add]
    refine sum_congr rfl fun b _ => ?_
    congr 1
    rw [Matrix.mul_apply, Matrix.mul_apply]
    refine sum_congr rfl fun c _ => ?_
    congr 1
    change _ = dite _ _ _
    rw [dif_pos (show i < p from hi)]
  · intro c _ hc
    refine sum_eq_zero fun b _ => ?_
    have : changeRegressors p Si Ti (.inr (c, b)) (.inr (⟨i, hi⟩, .inr j)) = 0 := by
      change (1 : Matrix (Fin p) (Fin p) ℝ) c _ * _ = _
      rw [one_apply_ne hc, zero_mul]
    rw [this, mul_zero]
  · intro h
    exact absurd (mem_univ _) h

/-- Least-squares fits of least norm are determined. -/
theorem lstsq_rows_unique {ι : Type*} [Fintype ι] {a : Nat} (R : Matrix ι (Fin N) ℝ) (Y : Matrix (Fin a) (Fin N) ℝ)
    (M M' Z Z' : Matrix (Fin a) _ ℝ) (h : M * R * Rᴴ = Y * Rᴴ) (h' : M' * R * Rᴴ = Y * Rᴴ) (hZ : M = Z * Rᴴ) (hZ' : M' = Z' * Rᴴ) :
    M = M' := by
  have h0 : (M - M') * R * Rᴴ = 0 := by
    rw [Matrix.sub_mul, Matrix.sub_mul, h, h', sub_self]
  have h1 : (M - M') * R = 0 := (mul_self_mul_conjTranspose_eq_zero R (M - M')).1 (by rw [← Matrix.mul_assoc]; exact h0)
  have h2 : M - M' = (Z - Z') * Rᴴ := by
    rw [hZ, hZ', Matrix.sub_mul]
  rw [h2] at h1
  have h3 : (Z - Z') * Rᴴ = 0 := (mul_conjTranspose_mul_self_eq_zero R (Z - Z')).1 (by rw [← Matrix.mul_assoc]; exact h1)
  rw [h3] at h2
  exact sub_eq_zero.1 h2

/-- The recursion of the Markov parameters. -/
noncomputable def markovRec (X : Nat → Matrix (Fin q) (Fin m) ℝ) (P : Nat → Matrix (Fin q) (Fin q) ℝ) : Nat → Matrix (Fin q) (Fin m) ℝ
  | j => X j + ∑ i : Fin j, P (i + 1) * markovRec X P (j - (i + 1))
decreasing_by omega

theorem markovRec_eq (X : Nat → Matrix (Fin q) (Fin m) ℝ) (P : Nat → Matrix (Fin q) (Fin q) ℝ) (j : Nat) :
    markovRec X P j = X j + ∑ i ∈ Ico 1 (j + 1), P i * markovRec X P (j - i) := by
  rw [markovRec]
  congr 1
  rw [sum_Ico_eq_sum_range, Nat.add_sub_cancel, sum_range]
  refine sum_congr rfl fun i _ => ?_
  rw [Nat.add_comm 1]

end Units

end Modred
