import Verif.Model.Uniform
import Verif.Model.Trapz
import Mathlib.Algebra.BigOperators.Field

/-!
# C113: the inner product of arrays without weights is an inner product
-/

namespace Modred

open Matrix

variable {𝕜 : Type*} [RCLike 𝕜]

/-- **C113.** Arrays with equally many entries have an inner product, others raise `ValueError`. -/
theorem C113_when_it_raises (v w : NdArray 𝕜) :
    (v.shape.prod = w.shape.prod → ∃ x, innerProductArrayUniform v w = .ok x) ∧
    (v.shape.prod ≠ w.shape.prod → innerProductArrayUniform v w = .error .valueError) :=
  ⟨fun h => ⟨_, by rw [innerProductArrayUniform, if_pos h]⟩, fun h => by rw [innerProductArrayUniform, if_neg h]⟩

/-- **C113.** The entries of the first array are conjugated. -/
theorem C113_value (v w : NdArray 𝕜) (n : Nat) (hv : v.shape = [n]) (hw : w.shape = [n]) :
    innerProductArrayUniform v w =
      .ok ((fun i : Fin n => star (v.data i)) ⬝ᵥ fun i : Fin n => w.data i) := by
  rw [innerProductArrayUniform, if_pos (by rw [hv, hw]), hv]
  simp [dotProduct, Finset.sum_range]

/-- **C113.** Exchanging the arrays gives the conjugate. -/
theorem C113_conjugate_symmetric (v w : NdArray 𝕜) (x : 𝕜) (h : innerProductArrayUniform v w = .ok x) :
    innerProductArrayUniform w v = .ok (star x) := by
  rw [innerProductArrayUniform] at h
  split_ifs at h with hs
  rw [Except.ok.injEq] at h
  rw [innerProductArrayUniform, if_pos hs.symm, ← h, star_sum, hs]
  simp [mul_comm]

/-- **C113.** The inner product is linear in the second argument. -/
theorem C113_linear (v w w' : NdArray 𝕜) (c x y : 𝕜) (hs : w.shape = w'.shape)
    (h : innerProductArrayUniform v w = .ok x) (h' : innerProductArrayUniform v w' = .ok y) :
    innerProductArrayUniform v ⟨w.shape, fun i => w.data i + c * w'.data i⟩ = .ok (x + c * y) := by
  rw [innerProductArrayUniform] at h h'
  split_ifs at h h' with h1 h2
  rw [Except.ok.injEq] at h h'
  rw [innerProductArrayUniform, if_pos h1, ← h, ← h', Finset.mul_sum, ← Finset.sum_add_distrib]
  congr 1
  refine Finset.sum_congr rfl fun i _ => ?_
  ring

/-- **C113.** The inner product of an array with itself is real and not negative, and zero only if all entries are. -/
theorem C113_positive (v : NdArray 𝕜) : ∃ x : ℝ, 0 ≤ x ∧ innerProductArrayUniform v v = .ok (x : 𝕜) ∧
    (x = 0 ↔ ∀ i < v.shape.prod, v.data i = 0) := by
  refine ⟨∑ i ∈ Finset.range v.shape.prod, ‖v.data i‖ ^ 2, Finset.sum_nonneg fun i _ => by positivity, ?_, ?_⟩
  · rw [innerProductArrayUniform, if_pos rfl]
    congr 1
    push_cast
    refine Finset.sum_congr rfl fun i _ => ?_
    rw [← RCLike.conj_mul]
    rfl
  · rw [Finset.sum_eq_zero_iff_of_nonneg fun i _ => by positivity]
    simp

/-- **C113.** Shapes do not matter: a row and a column with the same entries have the inner product of arrays with one
dimension, while `InnerProductTrapz` raises `TypeError` for arrays of other shapes. -/
theorem C113_shapes_ignored (v w : NdArray 𝕜) (s t : List Nat) (hs : s.prod = v.shape.prod) (ht : t.prod = w.shape.prod) :
    innerProductArrayUniform ⟨s, v.data⟩ ⟨t, w.data⟩ = innerProductArrayUniform v w := by
  rw [innerProductArrayUniform, innerProductArrayUniform, hs, ht]

/-- **C113.** The arrays of inner products that `VectorSpaceArrays` computes without weights consist of the inner
products of columns. -/
theorem C113_arrays_agree {n p q : Nat} (V : Matrix (Fin n) (Fin p) 𝕜) (W : Matrix (Fin n) (Fin q) 𝕜) :
    ∃ G, ipArray .none V W = .ok G ∧ ∀ i j (v w : NdArray 𝕜), v.shape = [n] → w.shape = [n] →
      (∀ k : Fin n, v.data k = V k i) → (∀ k : Fin n, w.data k = W k j) →
      innerProductArrayUniform v w = .ok (G i j) := by
  refine ⟨_, rfl, fun i j v w hv hw h1 h2 => ?_⟩
  rw [C113_value v w n hv hw]
  simp [Matrix.mul_apply, dotProduct, h1, h2]

/-- **C113.** On a grid of points at distance one the trapezoidal rule counts half of the first and of the last
point. -/
theorem C113_trapz (n : Nat) (f g : Nat → 𝕜) :
    ∃ x, innerProductArrayUniform ⟨[n + 2], f⟩ ⟨[n + 2], g⟩ = .ok x ∧
      innerProductTrapz [(List.range (n + 2)).map fun k : Nat => (k : ℝ)] ⟨[n + 2], fun i => f (i.getD 0 0)⟩
        ⟨[n + 2], fun i => g (i.getD 0 0)⟩ =
        .ok (x - (star (f 0) * g 0 + star (f (n + 1)) * g (n + 1)) / 2) := by
  refine ⟨_, by rw [innerProductArrayUniform, if_pos rfl], ?_⟩
  rw [innerProductTrapz]
  simp only [List.map_cons, List.map_nil, List.length_map, List.length_range, ne_eq, not_true_eq_false, if_false,
    List.reverse_cons, List.reverse_nil, List.nil_append, List.foldl_cons, List.foldl_nil, trapzLast]
  congr 1
  have h1 : ∀ i ∈ Finset.range (n + 2 - 1),
      ((((List.range (n + 2)).map fun k : Nat => (k : ℝ)).getD (i + 1) 0 -
        ((List.range (n + 2)).map fun k : Nat => (k : ℝ)).getD i 0 : ℝ) : 𝕜) *
        (star (f (([i + 1] : List Nat).getD 0 0)) * g (([i + 1] : List Nat).getD 0 0) +
          star (f (([i] : List Nat).getD 0 0)) * g (([i] : List Nat).getD 0 0)) / 2 =
      (star (f (i + 1)) * g (i + 1) + star (f i) * g i) / 2 := by
    intro i hi
    rw [Finset.mem_range] at hi
    have e1 : ((List.range (n + 2)).map fun k : Nat => (k : ℝ)).getD (i + 1) 0 = (i : ℝ) + 1 := by
      rw [List.getD_eq_getElem?_getD, List.getElem?_map, List.getElem?_range (by omega)]
      simp
    have e2 : ((List.range (n + 2)).map fun k : Nat => (k : ℝ)).getD i 0 = (i : ℝ) := by
      rw [List.getD_eq_getElem?_getD, List.getElem?_map, List.getElem?_range (by omega)]
      simp
    rw [e1, e2]
    simp
  rw [Finset.sum_congr rfl h1, show n + 2 - 1 = n + 1 by omega]
  simp only [List.prod_cons, List.prod_nil, mul_one]
  generalize hh : (fun i => star (f i) * g i) = h
  have h2 : ∀ i, star (f i) * g i = h i := fun i => by rw [← hh]
  simp only [h2]
  rw [← Finset.sum_div, Finset.sum_add_distrib, Finset.sum_range_succ h (n + 1)]
  have h3 : ∑ i ∈ Finset.range (n + 1), h (i + 1) = ∑ i ∈ Finset.range (n + 1), h i + h (n + 1) - h 0 := by
    have := Finset.sum_range_succ' h (n + 1)
    rw [Finset.sum_range_succ] at this
    rw [this]
    ring
  rw [h3]
  ring

/-- A row of three numbers and a column of three numbers. -/
example : innerProductArrayUniform (⟨[1, 3], fun i => i⟩ : NdArray ℝ) ⟨[3, 1], fun i => 2 * i⟩ = .ok 10 := by
  rw [innerProductArrayUniform, if_pos (by decide)]
  norm_num [Finset.sum_range_succ]

/-- Arrays of two and three numbers. -/
example : innerProductArrayUniform (⟨[2], fun i => i⟩ : NdArray ℝ) ⟨[3], fun i => i⟩ = .error .valueError := by
  rw [innerProductArrayUniform, if_neg (by decide)]

end Modred
