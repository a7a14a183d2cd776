import Verif.Spec.Arrays
import Mathlib.Data.Rat.Star
import Mathlib.LinearAlgebra.Matrix.Notation
import Mathlib.Tactic.FinCases
import Mathlib.Tactic.NormNum

/-!
# Vector space on arrays (C45)
-/

namespace Modred

open Matrix

variable {𝕜 : Type*}

section

variable [Semiring 𝕜] [StarRing 𝕜]

/-- Inner product arrays are `v1^* W v2`, whatever the format of the weights. -/
theorem C45_formula {n p q : Nat} (ws : Weights 𝕜) (h : ws.Fits n) (v1 : Matrix (Fin n) (Fin p) 𝕜)
    (v2 : Matrix (Fin n) (Fin q) 𝕜) : ipArray ws v1 v2 = .ok (v1ᴴ * ws.matrix n * v2) := by
  cases ws with
  | none => simp [ipArray, Weights.matrix]
  | d1 k w =>
    simp only [Weights.Fits] at h
    simp only [ipArray, Weights.matrix, if_pos h]
    congr 2
    ext i j
    simp [Matrix.mul_diagonal]
  | d2 r c w =>
    simp only [Weights.Fits] at h
    simp only [ipArray, Weights.matrix]
    rw [if_pos ⟨h.2, h.1⟩, Matrix.mul_assoc]

/-- Weights of another size raise `ValueError`. -/
theorem C45_wrong_size {n p q : Nat} (ws : Weights 𝕜) (h : ¬ ws.Fits n) (v1 : Matrix (Fin n) (Fin p) 𝕜)
    (v2 : Matrix (Fin n) (Fin q) 𝕜) : ipArray ws v1 v2 = .error .valueError := by
  cases ws with
  | none => exact absurd trivial h
  | d1 k w => simp only [Weights.Fits] at h; simp [ipArray, h]
  | d2 r c w =>
    simp only [Weights.Fits] at h
    unfold ipArray
    dsimp only
    rw [if_neg fun h' => h h'.symm]

/-- The entry of the array of inner products for column `i` and column `j`, for a vector of weights. -/
theorem C45_entries {n p q : Nat} (w : Nat → 𝕜) (v1 : Matrix (Fin n) (Fin p) 𝕜)
    (v2 : Matrix (Fin n) (Fin q) 𝕜) :
    ∃ a, ipArray (.d1 n w) v1 v2 = .ok a ∧
      ∀ i j, a i j = ∑ k : Fin n, star (v1 k i) * w k * v2 k j := by
  refine ⟨_, by rw [ipArray, if_pos rfl], fun i j => ?_⟩
  simp [Matrix.mul_apply]

/-- A vector of weights gives the same inner products as the diagonal array of these weights. -/
theorem C45_vector_as_diagonal {n p q : Nat} (w : Nat → 𝕜) (v1 : Matrix (Fin n) (Fin p) 𝕜)
    (v2 : Matrix (Fin n) (Fin q) 𝕜) :
    ipArray (.d1 n w) v1 v2 = ipArray (.d2 n n fun i j => if i = j then w i else 0) v1 v2 := by
  rw [C45_formula _ (by simp [Weights.Fits]), C45_formula _ (by simp [Weights.Fits])]
  congr 3
  ext i j
  simp [Weights.matrix, diagonal, Fin.ext_iff]

/-- No weights give the same inner products as weights one. -/
theorem C45_no_weights_as_ones {n p q : Nat} (v1 : Matrix (Fin n) (Fin p) 𝕜)
    (v2 : Matrix (Fin n) (Fin q) 𝕜) : ipArray .none v1 v2 = ipArray (.d1 n fun _ => 1) v1 v2 := by
  rw [C45_formula _ (by simp [Weights.Fits]), C45_formula _ (by simp [Weights.Fits])]
  simp [Weights.matrix]

example : ipArray (.d1 2 fun i => (i + 1 : ℚ)) !![1, 2; 3, 4] !![1; 1] = .ok !![7; 10] := by
  rw [C45_formula _ (by simp [Weights.Fits])]
  congr 1
  ext i j
  fin_cases i <;> fin_cases j <;>
    simp [Weights.matrix, Matrix.mul_apply, Fin.sum_univ_two, Matrix.diagonal] <;> norm_num

omit [Semiring 𝕜] [StarRing 𝕜] in
/-- What a selection of columns returns. -/
theorem pickCols_ok {m n : Nat} (a : Matrix (Fin m) (Fin n) 𝕜) (idx : Option (List Int)) (c : Cols 𝕜 m)
    (h : pickCols a idx = .ok c) :
    ∃ sel : Fin c.k → Fin n, c.a = a.submatrix id sel ∧
      (∀ l, idx = some l → c.k = l.length ∧
        ∀ (i : Fin c.k) (j : Int), l[i.val]? = some j → npAxisIndex n j = .ok (sel i)) ∧
      (idx = none → c.k = n ∧ ∀ i : Fin c.k, (sel i).val = i.val) := by
  cases idx with
  | none =>
    cases h
    exact ⟨id, rfl, ⟨(fun l hl => nomatch hl), fun _ => ⟨rfl, fun _ => rfl⟩⟩⟩
  | some idx =>
    unfold pickCols at h
    dsimp only at h
    split at h
    · cases h
    · rename_i l hl
      cases h
      refine ⟨fun i => l[i], rfl, fun l' hl' => ?_, fun h => by cases h⟩
      cases hl'
      have key : ∀ (idx : List Int) (l : List (Fin n)), npAxisIndices n idx = .ok l →
          l.length = idx.length ∧ ∀ (i : Nat) (hi : i < l.length) (j : Int), idx[i]? = some j →
            npAxisIndex n j = .ok l[i] := by
        intro idx
        induction idx with
        | nil =>
          intro l h
          cases h
          exact ⟨rfl, fun i hi => by simp at hi⟩
        | cons a idx ih =>
          intro l h
          unfold npAxisIndices at h
          split at h
          · cases h
          · rename_i b hb
            split at h
            · cases h
            · rename_i bs hbs
              cases h
              obtain ⟨h1, h2⟩ := ih bs hbs
              refine ⟨by simp [h1], fun i hi j hj => ?_⟩
              cases i with
              | zero => simp at hj; subst hj; simpa using hb
              | succ i => simpa using h2 i (by simpa using hi) j (by simpa using hj)
      obtain ⟨h1, h2⟩ := key idx l hl
      exact ⟨h1, fun i j hj => h2 i i.isLt j hj⟩

/-- Linear combinations: column `j` of the result is the data array times the column of coefficients
selected by index `j`. -/
theorem C45_lin_combine {n p q : Nat} (basis : Matrix (Fin n) (Fin p) 𝕜)
    (coeff : Matrix (Fin p) (Fin q) 𝕜) (l : List (Fin q)) :
    ∃ c, linCombineArrays basis coeff (some (l.map fun i => (i.val : Int))) = .ok c ∧
      c.k = l.length ∧
      ∀ (i : Fin n) (j : Fin c.k) (hj : j.val < l.length),
        c.a i j = ∑ k, basis i k * coeff k l[j.val] := by
  have h : npAxisIndices q (l.map fun i => (i.val : Int)) = .ok l := by
    induction l with
    | nil => rfl
    | cons a l ih =>
      simp only [List.map_cons, npAxisIndices, npAxisIndex]
      rw [dif_pos (by omega), ih]
      simp
  unfold linCombineArrays pickCols
  dsimp only
  rw [h]
  exact ⟨_, rfl, rfl, fun i j hj => by simp [Matrix.mul_apply]⟩

/-- Without indices all columns are used. -/
theorem C45_lin_combine_all {n p q : Nat} (basis : Matrix (Fin n) (Fin p) 𝕜)
    (coeff : Matrix (Fin p) (Fin q) 𝕜) :
    linCombineArrays basis coeff none = .ok ⟨q, basis * coeff⟩ := rfl

/-- An index that is out of range raises `IndexError`. -/
theorem C45_index_error {n p q : Nat} (basis : Matrix (Fin n) (Fin p) 𝕜)
    (coeff : Matrix (Fin p) (Fin q) 𝕜) (idx : List Int) (i : Int) (hi : i ∈ idx)
    (hr : (q : Int) ≤ i ∨ i < -(q : Int)) :
    linCombineArrays basis coeff (some idx) = .error .indexError := by
  have he : ∀ j : Int, (q : Int) ≤ j ∨ j < -(q : Int) → npAxisIndex q j = .error .indexError := by
    intro j hj
    unfold npAxisIndex
    rw [dif_neg (by omega), dif_neg (by omega)]
  have hd : ∀ (j : Int) (e : Err), npAxisIndex q j = .error e → e = .indexError := by
    intro j e h
    unfold npAxisIndex at h
    split at h
    · cases h
    · split at h
      · cases h
      · cases h; rfl
  have h : npAxisIndices q idx = .error .indexError := by
    induction idx with
    | nil => simp at hi
    | cons a l ih =>
      unfold npAxisIndices
      rcases List.mem_cons.mp hi with rfl | hi
      · rw [he _ hr]
      · cases ha : npAxisIndex q a with
        | error e => rw [hd a e ha]
        | ok b =>
          dsimp only
          rw [ih hi]
  unfold linCombineArrays pickCols
  dsimp only
  rw [h]

example : (linCombineArrays (!![1, 0; 0, 2] : Matrix (Fin 2) (Fin 2) ℚ) !![1, 2; 3, 4]
    (some [3])) = .error .indexError :=
  C45_index_error _ _ _ 3 (by decide) (by decide)

/-- Column vectors and row vectors of weights are used as vectors, once `squeeze` is applied. -/
theorem C45_row_and_column_weights (n : Nat) (hn : n ≠ 1) (w : Nat → 𝕜) :
    arraysInit (some ⟨[n], w⟩) = .ok (.d1 n w) ∧
    arraysInit (some ⟨[1, n], w⟩) = .ok (.d1 n w) ∧
    arraysInit (some ⟨[n, 1], w⟩) = .ok (.d1 n w) := by
  simp [arraysInit, NdArray.squeeze, hn]

example : arraysInit (some ⟨[3, 1], fun i => (i : ℚ)⟩) = .ok (.d1 3 fun i => (i : ℚ)) :=
  (C45_row_and_column_weights 3 (by decide) _).2.2

/-- Two-dimensional weights of any size other than one are used as they are. -/
theorem C45_array_weights (p q : Nat) (hp : p ≠ 1) (hq : q ≠ 1) (w : Nat → 𝕜) :
    arraysInit (some ⟨[p, q], w⟩) = .ok (.d2 p q fun i j => w (i * q + j)) := by
  simp [arraysInit, NdArray.squeeze, hp, hq]

/-- Exactly the weights with one or two axes of a length other than one are accepted. -/
theorem C45_dimensions (a : NdArray 𝕜) :
    arraysInit (some a) = .error .valueError ↔
      (a.shape.filter (· ≠ 1)).length ≠ 1 ∧ (a.shape.filter (· ≠ 1)).length ≠ 2 := by
  unfold arraysInit
  simp only [NdArray.squeeze]
  generalize a.shape.filter (· ≠ 1) = s
  match s with
  | [] => simp
  | [_] => simp
  | [_, _] => simp
  | _ :: _ :: _ :: _ => simp

example : arraysInit (some ⟨[2, 2, 2], fun i => (i : ℚ)⟩) = .error .valueError :=
  (C45_dimensions _).mpr (by decide)

/-- Weights for vectors with a single entry are refused in every format, although they are one- or
two-dimensional. -/
theorem C45_single_weight_refused_violation (w : Nat → 𝕜) :
    arraysInit (some ⟨[1], w⟩) = .error .valueError ∧
    arraysInit (some ⟨[1, 1], w⟩) = .error .valueError :=
  ⟨(C45_dimensions _).mpr (by simp), (C45_dimensions _).mpr (by simp)⟩

example : arraysInit (some ⟨[1], fun _ => (2 : ℚ)⟩) = .error .valueError :=
  (C45_single_weight_refused_violation _).1

end

end Modred
