import Verif.Spec.Trapz
import Mathlib.Tactic.Ring
import Mathlib.Tactic.Linarith
import Mathlib.Tactic.Positivity
import Mathlib.Algebra.BigOperators.Ring.Finset
import Mathlib.Algebra.Star.BigOperators
import Mathlib.Algebra.Order.BigOperators.Group.Finset

/-!
# Properties of the trapezoidal inner product (C40)
-/

namespace Modred

variable {𝕜 : Type*} [RCLike 𝕜]

theorem trapz_eq_weights (g : List ℝ) (f : Nat → 𝕜) :
    ∑ i ∈ Finset.range (g.length - 1),
      ((g.getD (i + 1) 0 - g.getD i 0 : ℝ) : 𝕜) * (f (i + 1) + f i) / 2 =
    ∑ i ∈ Finset.range g.length, (trapzWeight g i : 𝕜) * f i := by
  rcases Nat.eq_zero_or_pos g.length with h | h
  · simp [h]
  obtain ⟨n, hn⟩ : ∃ n, g.length = n + 1 := ⟨g.length - 1, by omega⟩
  rw [hn, Nat.add_sub_cancel]
  have hw : ∀ i ∈ Finset.range (n + 1), (trapzWeight g i : 𝕜) * f i =
      (if i < n then ((g.getD (i + 1) 0 - g.getD i 0 : ℝ) : 𝕜) * f i / 2 else 0) +
      (if 0 < i then ((g.getD i 0 - g.getD (i - 1) 0 : ℝ) : 𝕜) * f i / 2 else 0) := by
    intro i _
    unfold trapzWeight
    rw [hn]
    have h2' : ((2 : ℝ) : 𝕜) = 2 := RCLike.ofReal_ofNat 2
    by_cases h1 : i < n <;> by_cases h2 : 0 < i <;> simp [h1, h2, h2'] <;> ring
  rw [Finset.sum_congr rfl hw, Finset.sum_add_distrib, Finset.sum_range_succ, if_neg (lt_irrefl n),
    add_zero, Finset.sum_range_succ' _ n]
  simp only [lt_irrefl, if_false, add_zero, Nat.succ_pos, if_true, Nat.add_sub_cancel]
  rw [← Finset.sum_add_distrib]
  refine Finset.sum_congr rfl fun i hi => ?_
  rw [if_pos (Finset.mem_range.mp hi)]
  ring

theorem fold_trapz (grids : List (List ℝ)) : ∀ (a : NArr 𝕜) (idx : List Nat),
    (grids.reverse.foldl (fun ip grid => trapzLast grid ip) a).at_ idx =
      weightedSum grids fun rest => a.at_ (idx ++ rest) := by
  induction grids with
  | nil => intro a idx; simp [weightedSum]
  | cons g grids ih =>
    intro a idx
    rw [List.reverse_cons, List.foldl_append, List.foldl_cons, List.foldl_nil]
    unfold trapzLast weightedSum
    dsimp only
    have := trapz_eq_weights g fun i =>
      (grids.reverse.foldl (fun ip grid => trapzLast grid ip) a).at_ (idx ++ [i])
    unfold trapzLast at this
    rw [this]
    refine Finset.sum_congr rfl fun i _ => ?_
    have ih := ih a (idx ++ [i])
    unfold trapzLast at ih
    rw [ih]
    simp

/-- **C40.** For vectors of the shape of the grids, the result is the sum over all grid points of
`conj(v1) * v2` times the product of the one-dimensional trapezoid weights. -/
theorem C40_trapz_is_weighted_sum (grids : List (List ℝ)) (v w : NArr 𝕜)
    (hv : v.shape = grids.map List.length) (hw : w.shape = grids.map List.length) :
    innerProductTrapz grids v w =
      .ok (weightedSum grids fun idx => star (v.at_ idx) * w.at_ idx) := by
  unfold innerProductTrapz
  dsimp only
  rw [if_neg (not_not.mpr hv), if_neg (not_not.mpr hw), fold_trapz]
  simp

/-- For instance: in two dimensions on a 2 x 3 grid. -/
example : weightedSum [[0, 1], [0, 1, 3]] (fun idx => ((idx.sum : ℝ))) =
    (1 / 2) * ((1 / 2) * 0 + (3 / 2) * 1 + 1 * 2) + (1 / 2) * ((1 / 2) * 1 + (3 / 2) * 2 + 1 * 3) := by
  simp [weightedSum, trapzWeight, Finset.sum_range_succ]
  norm_num

/-- **C40.** Vectors of another shape raise `TypeError`. -/
theorem C40_wrong_shape_raises (grids : List (List ℝ)) (v w : NArr 𝕜)
    (h : v.shape ≠ grids.map List.length ∨ w.shape ≠ grids.map List.length) :
    innerProductTrapz grids v w = .error .typeError := by
  unfold innerProductTrapz
  dsimp only
  by_cases hv : v.shape = grids.map List.length
  · rw [if_neg (not_not.mpr hv), if_pos (h.resolve_left (not_not.mpr hv))]
  · rw [if_pos hv]

/-- **C40.** At least one grid is needed. -/
theorem C40_no_grids_raise (grids : List (List ℝ)) :
    innerProductTrapzInit grids = .error .valueError ↔ grids = [] := by
  unfold innerProductTrapzInit
  cases grids <;> simp

/-- **C40.** The grids are kept as they are given. -/
theorem C40_grids_kept (grids kept : List (List ℝ)) :
    innerProductTrapzInit grids = .ok kept ↔ grids ≠ [] ∧ kept = grids := by
  unfold innerProductTrapzInit
  cases grids <;> simp [eq_comm]

/-- One grid is kept. -/
example : innerProductTrapzInit [[0, 1, 3]] = .ok [[0, 1, 3]] := by simp [innerProductTrapzInit]

theorem weightedSum_star (grids : List (List ℝ)) : ∀ f : List Nat → 𝕜,
    star (weightedSum grids f) = weightedSum grids fun idx => star (f idx) := by
  induction grids with
  | nil => intro f; rfl
  | cons g grids ih =>
    intro f
    unfold weightedSum
    rw [star_sum]
    refine Finset.sum_congr rfl fun i _ => ?_
    rw [star_mul', ih]
    congr 1
    exact RCLike.conj_ofReal _

theorem weightedSum_add (grids : List (List ℝ)) : ∀ f g : List Nat → 𝕜,
    weightedSum grids (fun idx => f idx + g idx) = weightedSum grids f + weightedSum grids g := by
  induction grids with
  | nil => intro f g; rfl
  | cons x grids ih =>
    intro f g
    unfold weightedSum
    rw [← Finset.sum_add_distrib]
    refine Finset.sum_congr rfl fun i _ => ?_
    rw [ih]
    ring

theorem weightedSum_mul (grids : List (List ℝ)) (c : 𝕜) : ∀ f : List Nat → 𝕜,
    weightedSum grids (fun idx => c * f idx) = c * weightedSum grids f := by
  induction grids with
  | nil => intro f; rfl
  | cons x grids ih =>
    intro f
    unfold weightedSum
    rw [Finset.mul_sum]
    refine Finset.sum_congr rfl fun i _ => ?_
    rw [ih]
    ring

theorem trapzWeight_nonneg (g : List ℝ) (h : Increasing g) (i : Nat) (hi : i < g.length) :
    0 ≤ trapzWeight g i := by
  have hle : ∀ a b, a < b → b < g.length → g.getD a 0 ≤ g.getD b 0 := by
    intro a b hab hb
    have h1 : a < g.length := by omega
    rw [List.getD, List.getD, List.getElem?_eq_getElem h1, List.getElem?_eq_getElem hb,
      Option.getD_some, Option.getD_some]
    exact List.pairwise_iff_getElem.mp h a b h1 hb hab
  unfold trapzWeight
  have h1 : 0 ≤ (if i + 1 < g.length then g.getD (i + 1) 0 - g.getD i 0 else 0) := by
    split
    · rename_i h2
      exact sub_nonneg.mpr (hle _ _ (by omega) h2)
    · exact le_refl 0
  have h2 : 0 ≤ (if 0 < i then g.getD i 0 - g.getD (i - 1) 0 else 0) := by
    split
    · exact sub_nonneg.mpr (hle _ _ (by omega) hi)
    · exact le_refl 0
  positivity

theorem weightedSum_nonneg (grids : List (List ℝ)) (hinc : ∀ g ∈ grids, Increasing g) :
    ∀ f : List Nat → ℝ, (∀ idx, 0 ≤ f idx) → ∃ x : ℝ, 0 ≤ x ∧
      weightedSum grids (fun idx => ((f idx : ℝ) : 𝕜)) = (x : 𝕜) := by
  induction grids with
  | nil => intro f hf; exact ⟨f [], hf [], rfl⟩
  | cons g grids ih =>
    intro f hf
    have ih := ih fun g hg => hinc g (by simp [hg])
    choose x hx hx' using fun i => ih (fun idx => f (i :: idx)) fun idx => hf _
    refine ⟨∑ i ∈ Finset.range g.length, trapzWeight g i * x i,
      Finset.sum_nonneg fun i hi => mul_nonneg
        (trapzWeight_nonneg g (hinc g (by simp)) i (Finset.mem_range.mp hi)) (hx i), ?_⟩
    unfold weightedSum
    push_cast
    exact Finset.sum_congr rfl fun i _ => by rw [hx' i]

/-- **C40.** The inner product is conjugate-symmetric. -/
theorem C40_conjugate_symmetric (grids : List (List ℝ)) (v w : NArr 𝕜)
    (hv : v.shape = grids.map List.length) (hw : w.shape = grids.map List.length) :
    ∃ x, innerProductTrapz grids v w = .ok x ∧ innerProductTrapz grids w v = .ok (star x) := by
  refine ⟨_, C40_trapz_is_weighted_sum grids v w hv hw, ?_⟩
  rw [C40_trapz_is_weighted_sum grids w v hw hv, weightedSum_star]
  simp [mul_comm]

/-- **C40.** The inner product is linear in the second argument. -/
theorem C40_linear_in_second_argument (grids : List (List ℝ)) (v w w' : NArr 𝕜) (c : 𝕜)
    (hv : v.shape = grids.map List.length) (hw : w.shape = grids.map List.length)
    (hw' : w'.shape = grids.map List.length) :
    ∃ x y, innerProductTrapz grids v w = .ok x ∧ innerProductTrapz grids v w' = .ok y ∧
      innerProductTrapz grids v ⟨w.shape, fun idx => w.at_ idx + c * w'.at_ idx⟩ =
        .ok (x + c * y) := by
  refine ⟨_, _, C40_trapz_is_weighted_sum grids v w hv hw,
    C40_trapz_is_weighted_sum grids v w' hv hw', ?_⟩
  rw [C40_trapz_is_weighted_sum grids v ⟨w.shape, fun idx => w.at_ idx + c * w'.at_ idx⟩ hv hw, ← weightedSum_mul, ← weightedSum_add]
  congr 2
  funext idx
  ring

/-- **C40.** On increasing grids the inner product of a vector with itself is real and not
negative. -/
theorem C40_nonnegative (grids : List (List ℝ)) (hinc : ∀ g ∈ grids, Increasing g) (v : NArr 𝕜)
    (hv : v.shape = grids.map List.length) :
    ∃ x : ℝ, 0 ≤ x ∧ innerProductTrapz grids v v = .ok (x : 𝕜) := by
  obtain ⟨x, h1, h2⟩ := weightedSum_nonneg (𝕜 := 𝕜) grids hinc (fun idx => ‖v.at_ idx‖ ^ 2)
    fun idx => by positivity
  refine ⟨x, h1, ?_⟩
  rw [C40_trapz_is_weighted_sum grids v v hv hv, ← h2]
  congr 2
  funext idx
  have := RCLike.conj_mul (v.at_ idx)
  rw [RCLike.star_def, this]
  push_cast
  rfl

example : ∀ g ∈ [[0, 1], [0, (1 : ℝ), 3]], Increasing g := by
  intro g hg
  simp at hg
  rcases hg with rfl | rfl
  · simp [Increasing]
  · simp [Increasing]

end Modred
