import Verif.Model.Tutorials
import Verif.Props.Trapz
import Verif.Props.Pod
import Verif.Props.Sanity
import Verif.Props.Optimal
import Verif.Props.Bpod
import Verif.Props.WorstCase
import Verif.Lemmas.Assign
import Mathlib.Tactic.NormNum
import Mathlib.Tactic.Positivity

/-!
# The tutorials (C82, C83)
-/

namespace Modred

open Matrix

/-! ### Weights of the trapezoidal rule -/

theorem npDiff_length (l : List ℝ) : (npDiff l).length = l.length - 1 := by
  unfold npDiff
  simp

theorem npDiff_getD (l : List ℝ) (i : Nat) (h : i + 1 < l.length) (h' : i < (npDiff l).length) :
    (npDiff l)[i] = l.getD (i + 1) 0 - l.getD i 0 := by
  have h0 : i < l.length := by omega
  simp only [npDiff]
  rw [List.getElem_zipWith, List.getElem_drop, List.getD, List.getD, List.getElem?_eq_getElem h, List.getElem?_eq_getElem h0]
  simp [Nat.add_comm]

/-- **C82.** The weights of the tutorial are the weights of the trapezoidal rule.  With fewer than two points it is
IndexError. -/
theorem C82_weights (x : List ℝ) : tutorialWeights x =
    if x.length < 2 then .error .indexError else .ok ((List.range x.length).map (trapzWeight x)) := by
  have hl := npDiff_length x
  unfold tutorialWeights
  dsimp only
  by_cases h : x.length < 2
  · rw [if_pos h]
    have : npDiff x = [] := List.eq_nil_of_length_eq_zero (by omega)
    rw [this]
    rfl
  rw [if_neg h]
  have hd : npDiff x ≠ [] := by
    intro h0
    rw [h0] at hl
    simp at hl
    omega
  rw [List.head?_eq_some_head hd, List.getLast?_eq_some_getLast hd]
  dsimp only
  congr 1
  apply List.ext_getElem
  · simp [hl]
    omega
  intro i h1 h2
  have hi : i < x.length := by simpa using h2
  rw [List.getElem_map, List.getElem_map, List.getElem_range]
  unfold trapzWeight
  rcases Nat.eq_zero_or_pos i with rfl | hpos
  · rw [if_pos (by omega), if_neg (by omega)]
    simp only [List.cons_append, List.getElem_cons_zero]
    rw [← List.getElem_zero_eq_head (by omega), npDiff_getD x 0 (by omega)]
    ring
  · obtain ⟨k, rfl⟩ : ∃ k, i = k + 1 := ⟨i - 1, by omega⟩
    simp only [List.cons_append, List.getElem_cons_succ]
    rw [if_pos (by omega : 0 < k + 1)]
    by_cases hk : k + 1 + 1 < x.length
    · rw [if_pos hk, List.getElem_append_left (by simp [hl]; omega), List.getElem_zipWith, List.getElem_dropLast,
        List.getElem_drop, npDiff_getD x k (by omega)]
      have e := npDiff_getD x (1 + k) (by omega) (by omega)
      rw [e, Nat.add_comm 1 k, Nat.add_sub_cancel]
      ring
    · rw [if_neg hk, List.getElem_append_right (by simp [hl]; omega)]
      simp only [List.getElem_singleton]
      rw [List.getLast_eq_getElem, npDiff_getD x _ (by omega)]
      rw [show (npDiff x).length - 1 + 1 = k + 1 by omega, show (npDiff x).length - 1 = k by omega, Nat.add_sub_cancel]
      ring

/-- **C82.** The grid of the tutorials increases from 0 to 2. -/
theorem C82_grid (nx : Nat) (h : 2 ≤ nx) : (tutorialGrid nx).length = nx ∧ (tutorialGrid nx).Pairwise (· < ·) ∧
    (tutorialGrid nx).getD 0 3 = 0 ∧ (tutorialGrid nx).getD (nx - 1) 3 = 2 := by
  have hn : (0 : ℝ) < nx - 1 := by
    have : (2 : ℝ) ≤ nx := by exact_mod_cast h
    linarith
  have hp := Real.pi_pos
  have hl : (tutorialGrid nx).length = nx := by simp [tutorialGrid, npLinspace]
  have hg : ∀ i (h : i < (tutorialGrid nx).length), (tutorialGrid nx)[i] = 1 - Real.cos (i * (Real.pi / (nx - 1))) := by
    intro i h
    simp [tutorialGrid, npLinspace]
  refine ⟨hl, ?_, ?_, ?_⟩
  · rw [List.pairwise_iff_getElem]
    intro i j hi hj hij
    rw [hg, hg]
    have hj' : (j : ℝ) ≤ nx - 1 := by
      have : j + 1 ≤ nx := by omega
      have : (j : ℝ) + 1 ≤ nx := by exact_mod_cast this
      linarith
    have hij' : (i : ℝ) < j := by exact_mod_cast hij
    have hd : 0 < Real.pi / (nx - 1) := by positivity
    have := Real.cos_lt_cos_of_nonneg_of_le_pi (x := i * (Real.pi / (nx - 1))) (y := j * (Real.pi / (nx - 1)))
      (by positivity) (by
        calc (j : ℝ) * (Real.pi / (nx - 1)) ≤ (nx - 1) * (Real.pi / (nx - 1)) := by gcongr
          _ = Real.pi := by field_simp) (by gcongr)
    linarith
  · rw [List.getD, List.getElem?_eq_getElem (by omega), Option.getD_some, hg]
    simp
  · rw [List.getD, List.getElem?_eq_getElem (by omega), Option.getD_some, hg, Nat.cast_sub (by omega), Nat.cast_one,
      show ((nx : ℝ) - 1) * (Real.pi / (nx - 1)) = Real.pi by field_simp, Real.cos_pi]
    norm_num

theorem trapzWeight_pos (g : List ℝ) (h : g.Pairwise (· < ·)) (h2 : 2 ≤ g.length) (i : Nat) (hi : i < g.length) :
    0 < trapzWeight g i := by
  have hlt : ∀ a b, a < b → b < g.length → g.getD a 0 < g.getD b 0 := by
    intro a b hab hb
    have h1 : a < g.length := by omega
    rw [List.getD, List.getD, List.getElem?_eq_getElem h1, List.getElem?_eq_getElem hb,
      Option.getD_some, Option.getD_some]
    exact List.pairwise_iff_getElem.mp h a b h1 hb hab
  unfold trapzWeight
  by_cases h3 : i + 1 < g.length
  · rw [if_pos h3]
    have := hlt i (i + 1) (by omega) h3
    by_cases h4 : 0 < i
    · rw [if_pos h4]
      have := hlt (i - 1) i (by omega) hi
      linarith
    · rw [if_neg h4]
      linarith
  · rw [if_neg h3, if_pos (by omega)]
    have := hlt (i - 1) i (by omega) hi
    linarith

variable {𝕜 : Type*} [RCLike 𝕜]

/-- A column as an array with one dimension. -/
def columnArray {n k : Nat} (A : Matrix (Fin n) (Fin k) 𝕜) (j : Fin k) : NArr 𝕜 :=
  ⟨[n], fun idx => if h : idx.headD n < n then A ⟨idx.headD n, h⟩ j else 0⟩

/-- **C82.** With the weights of the tutorial for an increasing grid, POD modes are orthonormal in the inner product of the
trapezoidal rule on the grid: those of the same number have inner product one, others zero. -/
theorem C82_pod {n m : Nat} (lib : PodLib 𝕜 n m) (vecs : Matrix (Fin n) (Fin m) 𝕜) (modeIndices : Option (List Int))
    (atol rtol : Option ℝ) (x w : List ℝ) (hx : x.Pairwise (· < ·)) (hn : x.length = n) (hw : tutorialWeights x = .ok w)
    (hlib : ∀ a, IsSvd a (lib.svd a)) (res : PodResult 𝕜 n m)
    (hres : podDirect lib vecs modeIndices (.d1 w.length fun i => w.getD i 0) atol rtol = .ok res) :
    ∃ sel : Fin res.modes.k → Fin res.r,
      (∀ a b, innerProductTrapz [x] (columnArray res.modes.a a) (columnArray res.modes.a b) =
        .ok (if sel a = sel b then 1 else 0)) ∧
      (∀ l, modeIndices = some l → res.modes.k = l.length ∧
        ∀ (i : Fin res.modes.k) (j : Int), l[i.val]? = some j → npAxisIndex res.r j = .ok (sel i)) ∧
      (modeIndices = none → res.modes.k = res.r ∧ ∀ i, (sel i).val = i.val) := by
  rw [C82_weights] at hw
  by_cases h2 : x.length < 2
  · rw [if_pos h2] at hw
    cases hw
  rw [if_neg h2] at hw
  cases hw
  have hwi : ∀ i : Fin n, ((List.range x.length).map (trapzWeight x)).getD i 0 = trapzWeight x i := by
    intro i
    rw [List.getD, List.getElem?_eq_getElem (by simp [hn]), Option.getD_some, List.getElem_map, List.getElem_range]
  have hfit : (DirectWeights.d1 ((List.range x.length).map (trapzWeight x)).length (fun i =>
      ((List.range x.length).map (trapzWeight x)).getD i 0) : DirectWeights 𝕜).Fits n :=
    ⟨by simp [hn], fun i => by dsimp only; rw [hwi]; exact trapzWeight_pos x hx (by omega) i (by omega)⟩
  obtain ⟨sel, h3, h4⟩ := C22_direct lib vecs modeIndices _ atol rtol hfit (fun _ _ _ h => by cases h) hlib res hres
  refine ⟨sel, fun a b => ?_, h4⟩
  rw [C40_trapz_is_weighted_sum [x] _ _ (by simp [columnArray, hn]) (by simp [columnArray, hn]), ← h3 a b]
  congr 1
  unfold weightedSum weightedSum
  have e : DirectWeights.matrix n (.d1 ((List.range x.length).map (trapzWeight x)).length fun i =>
      ((List.range x.length).map (trapzWeight x)).getD i 0) = diagonal fun i : Fin n => ((trapzWeight x i : ℝ) : 𝕜) := by
    unfold DirectWeights.matrix
    simp only [hwi]
  have hcol : ∀ (i : Fin n) (j : Fin res.modes.k), (columnArray res.modes.a j).at_ [i.val] = res.modes.a i j := fun i j => by
    simp [columnArray]
  rw [e, hn, Finset.sum_range, Matrix.mul_assoc, Matrix.mul_apply]
  refine Finset.sum_congr rfl fun i _ => ?_
  beta_reduce
  rw [conjTranspose_apply, Matrix.diagonal_mul, hcol, hcol]
  ring

/-- Three points and two vectors. -/
example : ∃ (lib : PodLib ℝ 3 2) (w : List ℝ) (res : PodResult ℝ 3 2), tutorialWeights [0, 1, 3] = .ok w ∧
    podDirect lib (Matrix.of fun i j => (i.val + 2 * j.val : ℝ)) none (.d1 w.length fun i => w.getD i 0) none none = .ok res ∧
    ∃ sel : Fin res.modes.k → Fin res.r,
      ∀ a b, innerProductTrapz [[0, 1, 3]] (columnArray res.modes.a a) (columnArray res.modes.a b) =
        .ok (if sel a = sel b then 1 else 0) := by
  obtain ⟨lib, hsvd, -⟩ := exists_podLib (𝕜 := ℝ) 3 2
  have hw : tutorialWeights [0, 1, 3] = .ok [1 / 2, 3 / 2, 1] := by
    rw [C82_weights]
    norm_num [trapzWeight, List.range_succ]
  have hfit : (DirectWeights.d1 ([1 / 2, 3 / 2, 1] : List ℝ).length (fun i => ([1 / 2, 3 / 2, 1] : List ℝ).getD i 0) :
      DirectWeights ℝ).Fits 3 := by
    refine ⟨rfl, fun i => ?_⟩
    fin_cases i <;> norm_num
  obtain ⟨res, hres⟩ := C22_direct_no_error lib (Matrix.of fun i j => (i.val + 2 * j.val : ℝ)) _ none none hfit (by simp)
    (Or.inl rfl)
  obtain ⟨sel, h, -⟩ := C82_pod lib _ none none none [0, 1, 3] _ (by norm_num) rfl hw hsvd res hres
  exact ⟨lib, _, res, hw, hres, sel, h⟩

/-! ### Custom vectors -/

/-- A custom vector on given grids. -/
def onGrids (grids : List (List ℝ)) (f : List Nat → 𝕜) : CustomVector 𝕜 := ⟨grids, ⟨grids.map List.length, f⟩⟩

/-- **C82.** Custom vectors on the same grids are added, scaled and subtracted entry by entry. -/
theorem C82_custom_operations (grids : List (List ℝ)) (f h : List Nat → 𝕜) (c : 𝕜) :
    (onGrids grids f).add (onGrids grids h) = .ok (onGrids grids (f + h)) ∧
    (onGrids grids f).mul c = onGrids grids (c • f) ∧
    (onGrids grids f).sub (onGrids grids h) = .ok (onGrids grids (f - h)) := by
  refine ⟨?_, ?_, ?_⟩
  · unfold CustomVector.add
    exact if_pos rfl
  · unfold CustomVector.mul onGrids
    congr 2
    funext idx
    exact mul_comm _ _
  · unfold CustomVector.sub CustomVector.add vectorRmul CustomVector.mul onGrids
    rw [if_pos rfl]
    congr 3
    funext idx
    simp [sub_eq_add_neg]

/-- A sum with positive weights of values that are not negative is zero only if all values are. -/
theorem weightedSum_definite (grids : List (List ℝ)) (hinc : ∀ g ∈ grids, g.Pairwise (· < ·) ∧ 2 ≤ g.length) :
    ∀ f : List Nat → ℝ, (∀ idx, 0 ≤ f idx) → weightedSum grids (fun idx => ((f idx : ℝ) : 𝕜)) = 0 →
      ∀ idx, List.Forall₂ (fun (i : Nat) (g : List ℝ) => i < g.length) idx grids → f idx = 0 := by
  induction grids with
  | nil =>
    intro f _ h0 idx hidx
    cases hidx
    unfold weightedSum at h0
    beta_reduce at h0
    exact_mod_cast h0
  | cons g grids ih =>
    intro f hf h0 idx hidx
    cases hidx with
    | @cons i _ rest _ hi hrest =>
      have hle : ∀ g ∈ grids, Increasing g := fun g hg => (hinc g (by simp [hg])).1.imp le_of_lt
      have hx : ∀ i, ∃ x : ℝ, 0 ≤ x ∧ weightedSum grids (fun idx => ((f (i :: idx) : ℝ) : 𝕜)) = (x : 𝕜) := fun i =>
        weightedSum_nonneg (𝕜 := 𝕜) grids hle (fun idx => f (i :: idx)) fun idx => hf _
      choose x hx1 hx2 using hx
      have hw : ∀ j ∈ Finset.range g.length, 0 ≤ trapzWeight g j * x j := fun j hj =>
        mul_nonneg (trapzWeight_pos g (hinc g (by simp)).1 (hinc g (by simp)).2 j (Finset.mem_range.mp hj)).le (hx1 j)
      have hs : ∑ j ∈ Finset.range g.length, trapzWeight g j * x j = 0 := by
        unfold weightedSum at h0
        simp only [hx2] at h0
        exact_mod_cast h0
      have hz := (Finset.sum_eq_zero_iff_of_nonneg hw).mp hs i (Finset.mem_range.mpr hi)
      have hxi : x i = 0 := by
        rcases mul_eq_zero.mp hz with h | h
        · exact absurd h (trapzWeight_pos g (hinc g (by simp)).1 (hinc g (by simp)).2 i hi).ne'
        · exact h
      refine ih (fun g hg => hinc g (by simp [hg])) (fun idx => f (i :: idx)) (fun idx => hf _) ?_ rest hrest
      rw [hx2, hxi, RCLike.ofReal_zero]

/-- **C82.** The inner product of custom vectors on the same grids is linear in the second vector, Hermitian, not negative
on increasing grids, and zero only for the zero vector on strictly increasing grids with at least two points each. -/
theorem C82_custom_inner_product (grids : List (List ℝ)) : ∃ ip : (List Nat → 𝕜) →ₗ⋆[𝕜] (List Nat → 𝕜) →ₗ[𝕜] 𝕜,
    (∀ f h, (onGrids grids f).innerProduct (onGrids grids h) = .ok (ip f h)) ∧
    (∀ f h, ip h f = star (ip f h)) ∧
    ((∀ g ∈ grids, Increasing g) → ∀ f, 0 ≤ RCLike.re (ip f f)) ∧
    ((∀ g ∈ grids, g.Pairwise (· < ·) ∧ 2 ≤ g.length) → ∀ f, ip f f = 0 →
      ∀ idx, List.Forall₂ (fun (i : Nat) (g : List ℝ) => i < g.length) idx grids → f idx = 0) := by
  refine ⟨LinearMap.mk₂'ₛₗ (starRingEnd 𝕜) (RingHom.id 𝕜) (fun f h => weightedSum grids fun idx => star (f idx) * h idx)
    ?_ ?_ ?_ ?_, ?_, ?_, ?_, ?_⟩
  · intro f f' h
    rw [← weightedSum_add]
    simp [add_mul]
  · intro c f h
    rw [smul_eq_mul, ← weightedSum_mul]
    simp [mul_assoc]
  · intro f h h'
    rw [← weightedSum_add]
    simp [mul_add]
  · intro c f h
    rw [RingHom.id_apply, smul_eq_mul, ← weightedSum_mul]
    simp [mul_left_comm]
  · intro f h
    exact C40_trapz_is_weighted_sum grids _ _ rfl rfl
  · intro f h
    rw [LinearMap.mk₂'ₛₗ_apply, LinearMap.mk₂'ₛₗ_apply, weightedSum_star]
    simp [mul_comm]
  · intro hinc f
    obtain ⟨x, h1, h2⟩ := C40_nonnegative (𝕜 := 𝕜) grids hinc (onGrids grids f).data rfl
    rw [C40_trapz_is_weighted_sum grids _ _ rfl rfl] at h2
    rw [LinearMap.mk₂'ₛₗ_apply]
    have h3 : weightedSum grids (fun idx => star (f idx) * f idx) = (x : 𝕜) := Except.ok.inj h2
    rw [h3, RCLike.ofReal_re]
    exact h1
  · intro hinc f h0 idx hidx
    rw [LinearMap.mk₂'ₛₗ_apply] at h0
    have e : (fun idx => star (f idx) * f idx) = fun idx => (((‖f idx‖ ^ 2 : ℝ)) : 𝕜) := by
      funext idx
      rw [RCLike.star_def, RCLike.conj_mul]
      push_cast
      rfl
    rw [e] at h0
    have := weightedSum_definite grids hinc (fun idx => ‖f idx‖ ^ 2) (fun idx => by positivity) h0 idx hidx
    simpa using this

theorem customOps_mul (o : Objects (CustomVector 𝕜)) (v : Nat) (c : 𝕜) :
    (customOps.mul o v c).1.content (customOps.mul o v c).2 = (o.content v).mul c ∧
    ∀ w, w < o.next → (customOps.mul o v c).1.content w = o.content w ∧ w < (customOps.mul o v c).1.next := by
  refine ⟨by simp [customOps, Objects.deepcopy], fun w hw => ⟨?_, ?_⟩⟩
  · have : w ≠ o.next := by omega
    simp [customOps, Objects.deepcopy, this]
  · simp only [customOps, Objects.deepcopy]
    omega

theorem customOps_add (o : Objects (CustomVector 𝕜)) (v w : Nat) (hw : w < o.next) :
    (customOps.add o v w).1.content (customOps.add o v w).2 = ⟨(o.content v).grids, ⟨(o.content v).data.shape, fun idx =>
      (o.content v).data.at_ idx + (o.content w).data.at_ idx⟩⟩ ∧
    ∀ z, z < o.next → (customOps.add o v w).1.content z = o.content z ∧ z < (customOps.add o v w).1.next := by
  have h2 : w ≠ o.next := by omega
  refine ⟨by simp [customOps, Objects.deepcopy, h2], fun z hz => ⟨?_, ?_⟩⟩
  · have : z ≠ o.next := by omega
    simp [customOps, Objects.deepcopy, this]
  · simp only [customOps, Objects.deepcopy]
    omega

/-- **C82.** `sanity_check` accepts a custom vector whose data fit its grids. -/
theorem C82_custom_sanity (ip : CustomVector 𝕜 → CustomVector 𝕜 → 𝕜)
    (hip : ∀ x y c, x.innerProduct y = .ok c → ip x y = c) (o : Objects (CustomVector 𝕜)) (v : Nat) (hv : v < o.next)
    (grids : List (List ℝ)) (f : List Nat → 𝕜) (hc : o.content v = onGrids grids f) :
    sanityCheck customOps (some ip) o v = .ok () := by
  obtain ⟨F, hF, -⟩ := C82_custom_inner_product (𝕜 := 𝕜) grids
  have hip' : ∀ f h, ip (onGrids grids f) (onGrids grids h) = F f h := fun f h => hip _ _ _ (hF f h)
  have hsq : ∀ (c : 𝕜) (x : List Nat → 𝕜), F (c • x) (c • x) = star c * c * F x x := by
    intro c x
    simp [mul_assoc, mul_left_comm]
  have hmul := fun f c => (C82_custom_operations grids f f (c : 𝕜)).2.1
  have hadd : ∀ f h : List Nat → 𝕜, (⟨(onGrids grids f).grids, ⟨(onGrids grids f).data.shape, fun idx =>
      (onGrids grids f).data.at_ idx + (onGrids grids h).data.at_ idx⟩⟩ : CustomVector 𝕜) = onGrids grids (f + h) :=
    fun f h => rfl
  obtain ⟨o1, ho1⟩ : ∃ o1 : Objects (CustomVector 𝕜),
    o1 = ⟨o.next + 1, fun i => if i = o.next then o.content v else o.content i⟩ := ⟨_, rfl⟩
  obtain ⟨⟨o2, w2⟩, h2⟩ : ∃ x, customOps.mul o1 v (2 : 𝕜) = x := ⟨_, rfl⟩
  obtain ⟨⟨o3, w3⟩, h3⟩ : ∃ x, (customOps (𝕜 := 𝕜)).add o2 v v = x := ⟨_, rfl⟩
  obtain ⟨⟨o4, w4⟩, h4⟩ : ∃ x, customOps.mul o3 v (2 : 𝕜) = x := ⟨_, rfl⟩
  obtain ⟨⟨o5, w5⟩, h5⟩ : ∃ x, (customOps (𝕜 := 𝕜)).add o4 w4 v = x := ⟨_, rfl⟩
  refine (C46_checks customOps ip o o1 o2 o3 o4 o5 v w2 w3 w4 w5 (by rw [ho1]) (by rw [ho1]) h2 h3 h4 h5 _ rfl).1.mpr ?_
  have e1 : o1.content v = onGrids grids f := by simp [ho1, hc]
  have v1 : v < o1.next := by simp [ho1]; omega
  obtain ⟨a2, b2⟩ := customOps_mul o1 v (2 : 𝕜)
  rw [h2] at a2 b2
  obtain ⟨e2, v2⟩ := b2 v v1
  dsimp only at a2 e2 v2
  obtain ⟨a3, b3⟩ := customOps_add o2 v v v2
  rw [h3] at a3 b3
  obtain ⟨e3, v3⟩ := b3 v v2
  dsimp only at a3 e3 v3
  obtain ⟨a4, b4⟩ := customOps_mul o3 v (2 : 𝕜)
  rw [h4] at a4 b4
  obtain ⟨e4, v4⟩ := b4 v v3
  dsimp only at a4 e4 v4
  obtain ⟨a5, b5⟩ := customOps_add o4 w4 v v4
  rw [h5] at a5 b5
  obtain ⟨e5, -⟩ := b5 v v4
  dsimp only at a5 e5
  rw [e1] at e2
  rw [e2] at e3
  rw [e3] at e4
  rw [e4] at e5
  rw [e1, hmul] at a2
  rw [e2, hadd, ← two_smul 𝕜 f] at a3
  rw [e3, hmul] at a4
  rw [a4, e4, hadd, show (2 : 𝕜) • f + f = (3 : 𝕜) • f by rw [← two_add_one_eq_three, add_smul, one_smul]] at a5
  rw [a2, a3, a5, e2, e3, e5, hc, hip', hip', hip', hsq, hsq]
  have t1 : star (2 : 𝕜) * 2 * F f f - F f f * 4 = 0 := by simp; ring
  have t2 : star (3 : 𝕜) * 3 * F f f - F f f * 9 = 0 := by simp; ring
  rw [t1, t2, sub_self, norm_zero]
  norm_num

omit [RCLike 𝕜] in
/-- **C82.** A custom vector is read back from its file as it was written. -/
theorem C82_custom_round_trip (grids : List (List ℝ)) (data : NArr 𝕜) (v : CustomVector 𝕜)
    (h : CustomVector.new grids data = .ok v) : v = ⟨grids, data⟩ ∧ customGet (customPut v) = .ok v := by
  unfold CustomVector.new innerProductTrapzInit at h
  by_cases h0 : grids.length = 0
  · rw [if_pos h0] at h
    cases h
  · rw [if_neg h0] at h
    cases h
    refine ⟨rfl, ?_⟩
    unfold customGet customPut CustomVector.new innerProductTrapzInit
    dsimp only
    rw [if_neg h0]

/-- **C82, the limits.** The sum has the grids of the first vector, so that sums and inner products of vectors on different grids
depend on the order. -/
theorem C82_custom_different_grids : ∃ v w a b : CustomVector ℝ, CustomVector.new [[0, 1]] ⟨[2], fun _ => 1⟩ = .ok v ∧
    CustomVector.new [[0, 2]] ⟨[2], fun _ => 1⟩ = .ok w ∧ v.add w = .ok a ∧ w.add v = .ok b ∧ a.grids ≠ b.grids ∧
    v.innerProduct w = .ok 1 ∧ w.innerProduct v = .ok 2 := by
  refine ⟨_, _, _, _, rfl, rfl, rfl, rfl, ?_, ?_, ?_⟩
  · intro h
    simp at h
  · rw [CustomVector.innerProduct, C40_trapz_is_weighted_sum _ _ _ rfl rfl]
    norm_num [weightedSum, trapzWeight, Finset.sum_range_succ]
  · rw [CustomVector.innerProduct, C40_trapz_is_weighted_sum _ _ _ rfl rfl]
    norm_num [weightedSum, trapzWeight, Finset.sum_range_succ]

/-- A vector on two grids. -/
example : CustomVector.new [[0, 1, 3], [0, 2]] (⟨[3, 2], fun idx => idx.sum⟩ : NArr ℝ) =
    .ok (onGrids [[0, 1, 3], [0, 2]] fun idx => idx.sum) ∧
    (onGrids [[0, 1, 3], [0, 2]] fun idx => (idx.sum : ℝ)).innerProduct
      (onGrids [[0, 1, 3], [0, 2]] fun idx => (idx.sum : ℝ)) = .ok 21 := by
  refine ⟨rfl, ?_⟩
  rw [CustomVector.innerProduct, C40_trapz_is_weighted_sum _ _ _ rfl rfl]
  norm_num [weightedSum, trapzWeight, Finset.sum_range_succ, onGrids]

/-! ### Scaled vectors -/

/-- **C82.** With the handles of the fifth tutorial, the first POD modes give the best approximation of the vectors less the
base vector when the squared error of vector `j` counts with the *square* of its scale. -/
theorem C82_scaled {E : Type*} [AddCommGroup E] [Module 𝕜 E] {m : Nat} (eigh : Matrix (Fin m) (Fin m) 𝕜 → EighOut 𝕜 m)
    (argsort : (Fin m → ℝ) → Equiv.Perm (Fin m)) (ip : E →ₗ⋆[𝕜] E →ₗ[𝕜] 𝕜) (vecs : Fin m → E) (base : E)
    (w : Fin m → ℝ) (hw : ∀ j, w j ≠ 0) (rtol : Option ℝ) (t : ℝ) (ht : 0 ≤ t) (hr : ∀ t ∈ rtol, 0 ≤ t)
    (hs : IsArgsort argsort) (hsymm : ∀ x y, ip y x = star (ip x y)) (hnn : ∀ x, 0 ≤ RCLike.re (ip x x))
    (hlib : IsEigh (handlesSymmIp (fun x y => ip x y) (tutorialScaled 𝕜 vecs base w))
      (eigh (handlesSymmIp (fun x y => ip x y) (tutorialScaled 𝕜 vecs base w)))) (pod : PodHandles 𝕜 E m)
    (hpod : podHandlesDecomp eigh argsort (fun x y => ip x y) (tutorialScaled 𝕜 vecs base w) (some t) rtol = .ok pod) :
    ∃ modes : Fin pod.r → E,
      (∀ l k out, podHandlesModes pod l k = .ok out → ∀ (i : Fin out.k) (j : Fin pod.r),
        l[i.val]? = some (j : Int) → out.v i = modes j) ∧
      ∀ (k : Nat) (hk : k ≤ pod.r), ∃ c : Fin k → Fin m → 𝕜, ∀ (q : Fin k → E) (d : Fin k → Fin m → 𝕜),
        ∑ j, w j ^ 2 * RCLike.re (ip (vecs j - base - ∑ i, c i j • modes (Fin.castLE hk i))
          (vecs j - base - ∑ i, c i j • modes (Fin.castLE hk i))) ≤
        ∑ j, w j ^ 2 * RCLike.re (ip (vecs j - base - ∑ i, d i j • q i) (vecs j - base - ∑ i, d i j • q i)) := by
  obtain ⟨modes, h1, h2⟩ := C70_handles eigh argsort ip _ rtol t ht hr hs hsymm hnn hlib pod hpod
  refine ⟨modes, h1, fun k hk => ⟨fun i j => ((w j)⁻¹ : 𝕜) * podHandlesProjCoeffs pod (Fin.castLE hk i) j, fun q d => ?_⟩⟩
  have hsq : ∀ (j : Fin m) (e : Fin k → 𝕜) (q : Fin k → E),
      RCLike.re (ip (tutorialScaled 𝕜 vecs base w j - ∑ i, ((w j : 𝕜) * e i) • q i)
        (tutorialScaled 𝕜 vecs base w j - ∑ i, ((w j : 𝕜) * e i) • q i)) =
      w j ^ 2 * RCLike.re (ip (vecs j - base - ∑ i, e i • q i) (vecs j - base - ∑ i, e i • q i)) := by
    intro j e q
    have h3 : tutorialScaled 𝕜 vecs base w j - ∑ i, ((w j : 𝕜) * e i) • q i =
        (w j : 𝕜) • (vecs j - base - ∑ i, e i • q i) := by
      unfold tutorialScaled
      rw [smul_sub _ (vecs j - base), Finset.smul_sum]
      simp only [smul_smul]
    rw [h3]
    simp only [map_smulₛₗ, LinearMap.smul_apply, smul_eq_mul, RCLike.conj_ofReal, RingHom.id_apply]
    rw [RCLike.re_ofReal_mul, RCLike.re_ofReal_mul]
    ring
  have h4 := h2 k hk q fun i j => (w j : 𝕜) * d i j
  simp only [hsq] at h4
  refine le_trans (le_of_eq (Finset.sum_congr rfl fun j _ => ?_)) h4
  rw [← hsq]
  have h5 : ∀ i, (w j : 𝕜) * ((w j : 𝕜)⁻¹ * podHandlesProjCoeffs pod (Fin.castLE hk i) j) =
      podHandlesProjCoeffs pod (Fin.castLE hk i) j := fun i => by
    rw [← mul_assoc, mul_inv_cancel₀ (by exact_mod_cast hw j), one_mul]
  simp only [h5]

/-- The vectors 2 and 3 less 1, with scales 3 and 2. -/
example : ∃ pod : PodHandles ℝ ℝ 2,
    podHandlesDecomp (fun _ => exampleCorrEigh) (fun x => Tuple.sort x) (fun x y => LinearMap.mul ℝ ℝ x y)
      (tutorialScaled ℝ ![2, 3] 1 ![3, 2]) (some (1 / 10)) none = .ok pod ∧
    ∃ modes : Fin pod.r → ℝ, ∀ (k : Nat) (hk : k ≤ pod.r), ∃ c : Fin k → Fin 2 → ℝ, ∀ (q : Fin k → ℝ) (d : Fin k → Fin 2 → ℝ),
      ∑ j, ![3, 2] j ^ 2 * (![2, 3] j - 1 - ∑ i, c i j * modes (Fin.castLE hk i)) ^ 2 ≤
      ∑ j, ![3, 2] j ^ 2 * (![2, 3] j - 1 - ∑ i, d i j * q i) ^ 2 := by
  have hv : tutorialScaled ℝ ![2, 3] 1 ![3, 2] = ![3, (4 : ℝ)] := by
    funext j
    fin_cases j <;> norm_num [tutorialScaled]
  obtain ⟨e, he⟩ := C20_no_error (fun _ => exampleCorrEigh) (fun x => Tuple.sort x)
    (handlesSymmIp (fun x y : ℝ => LinearMap.mul ℝ ℝ x y) ![3, 4]) none true (1 / 10) (by norm_num)
  have h2 : podHandlesDecomp (fun _ => exampleCorrEigh) (fun x => Tuple.sort x)
      (fun x y => LinearMap.mul ℝ ℝ x y) (tutorialScaled ℝ ![2, 3] 1 ![3, 2]) (some (1 / 10)) none =
      .ok ⟨![3, 4], handlesSymmIp (fun x y : ℝ => LinearMap.mul ℝ ℝ x y) ![3, 4], e.r, e.w, e.V⟩ := by
    rw [hv]
    unfold podHandlesDecomp
    rw [if_neg (by norm_num)]
    dsimp only
    rw [he]
  refine ⟨_, h2, ?_⟩
  let ip : ℝ →ₗ⋆[ℝ] ℝ →ₗ[ℝ] ℝ := LinearMap.mul ℝ ℝ
  obtain ⟨modes, -, h⟩ := C82_scaled (fun _ => exampleCorrEigh) (fun x => Tuple.sort x) ip ![2, 3] 1 ![3, 2]
    (fun j => by fin_cases j <;> norm_num) none (1 / 10)
    (by norm_num) (by simp) (sort_isArgsort 2) (fun x y => mul_comm y x) (fun x => mul_self_nonneg (x : ℝ))
    (by rw [hv, show handlesSymmIp (fun x y => ip x y) ![3, 4] = _ from exampleCorr]; exact exampleCorrEigh_isEigh) _ h2
  refine ⟨modes, fun k hk => ?_⟩
  obtain ⟨c, h3⟩ := h k hk
  refine ⟨c, fun q d => ?_⟩
  simp only [sq (_ - _)]
  exact h3 q d

/-- The sum, with weights 1 and 3, of the squared errors of approximating (2, 0) and (0, 1) by multiples of a vector. -/
def quadratureError (v : Fin 2 → ℝ) (c d : ℝ) : ℝ :=
  1 * ((2 - c * v 0) ^ 2 + (0 - c * v 1) ^ 2) + 3 * ((0 - d * v 0) ^ 2 + (1 - d * v 1) ^ 2)

/-- **C83, violation.** Scales that are quadrature weights, as in the fifth tutorial, do not give the modes that are best for the
quadrature.  For the vectors (2, 0) with weight 1 and (0, 1) with weight 3 the sum with these weights of the squared errors
is at least 4 with the first mode, whatever the coefficients, but 3 with the vector (1, 0). -/
theorem C83_quadrature_violation (eigh : Matrix (Fin 2) (Fin 2) ℝ → EighOut ℝ 2)
    (argsort : (Fin 2 → ℝ) → Equiv.Perm (Fin 2)) (hs : IsArgsort argsort)
    (hlib : ∀ a, a.IsHermitian → IsEigh a (eigh a)) :
    ∃ pod, podHandlesDecomp eigh argsort (fun x y : Fin 2 → ℝ => x ⬝ᵥ y)
        (tutorialScaled ℝ ![![2, 0], ![0, 1]] 0 ![1, 3]) (some 1e-13) none = .ok pod ∧
      0 < pod.r ∧ ∃ mode : Fin 2 → ℝ, (∀ l k out, podHandlesModes pod l k = .ok out → ∀ i : Fin out.k,
          l[i.val]? = some 0 → out.v i = mode) ∧
        (∀ c d : ℝ, 4 ≤ quadratureError mode c d) ∧ quadratureError ![1, 0] 2 0 = 3 := by
  let ip : (Fin 2 → ℝ) →ₗ⋆[ℝ] (Fin 2 → ℝ) →ₗ[ℝ] ℝ := LinearMap.mk₂'ₛₗ (starRingEnd ℝ) (RingHom.id ℝ) (fun x y => x ⬝ᵥ y)
    (fun x y z => add_dotProduct x y z) (fun c x y => by simp) (fun x y z => dotProduct_add x y z) (fun c x y => by simp)
  have hsymm : ∀ x y, ip y x = star (ip x y) := fun x y => dotProduct_comm y x
  have hnn : ∀ x, 0 ≤ RCLike.re (ip x x) := fun x => by
    change 0 ≤ x ⬝ᵥ x
    exact Finset.sum_nonneg fun i _ => mul_self_nonneg (x i)
  obtain ⟨e, he⟩ := C20_no_error eigh argsort (handlesSymmIp (fun x y => ip x y)
    (tutorialScaled ℝ ![![2, 0], ![0, 1]] 0 ![1, 3])) none true 1e-13 (by norm_num)
  have hpod : podHandlesDecomp eigh argsort (fun x y => ip x y)
        (tutorialScaled ℝ ![![2, 0], ![0, 1]] 0 ![1, 3]) (some 1e-13) none = .ok ⟨tutorialScaled ℝ ![![2, 0], ![0, 1]] 0 ![1, 3],
          handlesSymmIp (fun x y => ip x y) (tutorialScaled ℝ ![![2, 0], ![0, 1]] 0 ![1, 3]), e.r, e.w, e.V⟩ := by
    unfold podHandlesDecomp
    rw [if_neg (by norm_num)]
    dsimp only
    rw [he]
  have hE := hlib (handlesSymmIp (fun x y => ip x y) (tutorialScaled ℝ ![![2, 0], ![0, 1]] 0 ![1, 3])) (by
    have := handlesIp_posSemidef ip hsymm hnn (tutorialScaled ℝ ![![2, 0], ![0, 1]] 0 ![1, 3])
    exact this.isHermitian)
  refine ⟨_, hpod, ?_⟩
  have hr : 0 < e.r := by
    obtain ⟨modes, -, -, h⟩ := C81_handles eigh argsort ip _ none 1e-13 (by norm_num) (by simp) hs hsymm hnn hE _ hpod
    by_contra h0
    have h1 := (h 1e-13 ⟨by norm_num, by simp, by simp⟩).each 0
    have h2 : IsEmpty (Fin e.r) := ⟨fun i => h0 i.pos⟩
    rw [Fintype.sum_empty, sub_zero] at h1
    have h3 : (tutorialScaled ℝ ![![2, 0], ![0, 1]] 0 ![1, 3] : Fin 2 → Fin 2 → ℝ) 0 ⬝ᵥ
      (tutorialScaled ℝ ![![2, 0], ![0, 1]] 0 ![1, 3] : Fin 2 → Fin 2 → ℝ) 0 ≤ 1e-13 := h1
    norm_num [tutorialScaled, dotProduct, Fin.sum_univ_two] at h3
  obtain ⟨modes, h1, h2⟩ := C82_scaled eigh argsort ip ![![2, 0], ![0, 1]] 0 ![1, 3] (fun j => by fin_cases j <;> norm_num) none
    1e-13 (by norm_num) (by simp) hs hsymm hnn hE _ hpod
  refine ⟨hr, modes ⟨0, hr⟩, fun l k out hout i hi => h1 l k out hout i ⟨0, hr⟩ hi, ?_, ?_⟩
  · obtain ⟨c, h3⟩ := h2 1 hr
    have h4 := h3 (fun _ => ![0, 1]) (fun _ j => if j = 0 then 0 else 1)
    have h5 : Fin.castLE hr (0 : Fin 1) = (⟨0, hr⟩ : Fin e.r) := rfl
    change ∑ j, ![1, 3] j ^ 2 * ((![![2, 0], ![0, 1]] j - 0 - ∑ i : Fin 1, c i j • modes (Fin.castLE hr i)) ⬝ᵥ
      (![![2, 0], ![0, 1]] j - 0 - ∑ i : Fin 1, c i j • modes (Fin.castLE hr i))) ≤
      ∑ j, ![1, 3] j ^ 2 * ((![![2, 0], ![0, 1]] j - 0 - ∑ i : Fin 1, (if j = 0 then (0 : ℝ) else 1) • ![0, 1]) ⬝ᵥ
        (![![2, 0], ![0, 1]] j - 0 - ∑ i : Fin 1, (if j = 0 then (0 : ℝ) else 1) • ![0, 1])) at h4
    obtain ⟨m, hm⟩ : ∃ m, modes ⟨0, hr⟩ = m := ⟨_, rfl⟩
    simp only [Fin.sum_univ_one, h5, hm, Fin.sum_univ_two, dotProduct, cons_val_zero, cons_val_one, Pi.sub_apply,
      Pi.smul_apply, smul_eq_mul, Pi.zero_apply] at h4
    rw [hm]
    norm_num at h4
    generalize c 0 0 = x at h4
    generalize c 0 1 = y at h4
    have ha : m 0 = 0 := by
      have e1 : (m 0 ^ 2 + m 1 ^ 2) * ((2 - x * m 0) * (2 - x * m 0) + x * m 1 * (x * m 1)) - 4 * m 1 ^ 2 =
        (x * (m 0 ^ 2 + m 1 ^ 2) - 2 * m 0) ^ 2 := by ring
      have e2 : (m 0 ^ 2 + m 1 ^ 2) * (y * m 0 * (y * m 0) + (1 - y * m 1) * (1 - y * m 1)) - m 0 ^ 2 =
        (y * (m 0 ^ 2 + m 1 ^ 2) - m 1) ^ 2 := by ring
      have e3 : (m 0 ^ 2 + m 1 ^ 2) * ((2 - x * m 0) * (2 - x * m 0) + x * m 1 * (x * m 1) +
        9 * (y * m 0 * (y * m 0) + (1 - y * m 1) * (1 - y * m 1))) ≤ (m 0 ^ 2 + m 1 ^ 2) * 4 :=
        mul_le_mul_of_nonneg_left h4 (by positivity)
      have e4 : m 0 ^ 2 ≤ 0 := by
        nlinarith [sq_nonneg (x * (m 0 ^ 2 + m 1 ^ 2) - 2 * m 0), sq_nonneg (y * (m 0 ^ 2 + m 1 ^ 2) - m 1)]
      exact pow_eq_zero_iff (two_ne_zero) |>.mp (le_antisymm e4 (sq_nonneg _))
    intro c d
    unfold quadratureError
    rw [ha]
    nlinarith [sq_nonneg (c * m 1), sq_nonneg (1 - d * m 1)]
  · norm_num [quadratureError]

/-! ### The number of modes -/

theorem cumsum_normalised (s : List ℝ) (S : ℝ) (i : Nat) (h : i < (cumsum (s.map fun a => a / S)).length) :
    (cumsum (s.map fun a => a / S))[i] = (s.take (i + 1)).sum / S := by
  simp only [cumsum]
  rw [cumsumFrom_getElem, zero_add, ← List.map_take]
  generalize s.take (i + 1) = l
  induction l with
  | nil => simp
  | cons a l ih => rw [List.map_cons, List.sum_cons, List.sum_cons, ih, add_div]

/-- **C83, what holds.** For a positive sum of singular values, the number of modes of the sixth tutorial is the smallest number
whose singular values sum to more than nine tenths of the sum of all. -/
theorem C83_num_modes_partial (s : List ℝ) (hsum : 0 < s.sum) (k : Nat) : tutorialNumModes s = .ok k ↔
    1 ≤ k ∧ k ≤ s.length ∧ 0.9 * s.sum < (s.take k).sum ∧ ∀ j, 1 ≤ j → j < k → (s.take j).sum ≤ 0.9 * s.sum := by
  have hl : (cumsum (s.map fun a => a / s.sum)).length = s.length := by
    unfold cumsum
    rw [cumsumFrom_length, List.length_map]
  have hc : ∀ i (h : i < (cumsum (s.map fun a => a / s.sum)).length),
      0.9 < (cumsum (s.map fun a => a / s.sum))[i] ↔ 0.9 * s.sum < (s.take (i + 1)).sum := by
    intro i h
    rw [cumsum_normalised, lt_div_iff₀ hsum]
  unfold tutorialNumModes
  constructor
  · intro h
    split at h
    · rename_i i hi
      cases h
      obtain ⟨h1, h2, h3⟩ := List.findIdx?_eq_some_iff_getElem.mp hi
      refine ⟨by omega, by omega, (hc i h1).mp (of_decide_eq_true h2), fun j h4 h5 => ?_⟩
      have h6 := h3 (j - 1) (by omega)
      have h7 := (hc (j - 1) (by omega)).not.mp (by simpa using h6)
      rw [Nat.sub_add_cancel h4] at h7
      exact not_lt.mp h7
    · cases h
  · rintro ⟨h1, h2, h3, h4⟩
    have : (cumsum (s.map fun a => a / s.sum)).findIdx? (fun x => decide (0.9 < x)) = some (k - 1) := by
      refine List.findIdx?_eq_some_iff_getElem.mpr ⟨by omega, ?_, fun j hj => ?_⟩
      · refine decide_eq_true ((hc _ _).mpr ?_)
        rw [Nat.sub_add_cancel h1]
        exact h3
      · rw [Bool.not_eq_true, decide_eq_false_iff_not, hc]
        exact not_lt.mpr (h4 (j + 1) (by omega) (by omega))
    rw [this]
    dsimp only
    rw [Nat.sub_add_cancel h1]

/-- **C83, what holds.** For singular values with a positive sum there is such a number, and the singular values left out sum to
less than a tenth of the sum. -/
theorem C83_left_out_partial (s : List ℝ) (hsum : 0 < s.sum) :
    ∃ k, tutorialNumModes s = .ok k ∧ (s.drop k).sum < 0.1 * s.sum := by
  classical
  have hex : ∃ k, 1 ≤ k ∧ k ≤ s.length ∧ 0.9 * s.sum < (s.take k).sum := by
    refine ⟨s.length, ?_, le_rfl, ?_⟩
    · rcases Nat.eq_zero_or_pos s.length with h | h
      · rw [List.eq_nil_of_length_eq_zero h] at hsum
        simp at hsum
      · exact h
    · rw [List.take_length]
      norm_num
      linarith
  obtain ⟨h1, h2, h3⟩ := Nat.find_spec hex
  refine ⟨Nat.find hex, (C83_num_modes_partial s hsum _).mpr ⟨h1, h2, h3, fun j h4 h5 => ?_⟩, ?_⟩
  · have := Nat.find_min hex h5
    by_contra h6
    exact this ⟨h4, by omega, not_le.mp h6⟩
  · have := List.sum_take_add_sum_drop s (Nat.find hex)
    norm_num at h3 ⊢
    linarith

/-- **C83.** If all singular values are zero, or there are none, it is IndexError. -/
theorem C83_no_singular_values_partial (s : List ℝ) (h0 : ∀ x ∈ s, x = 0) : tutorialNumModes s = .error .indexError := by
  have hs : s.sum = 0 := List.sum_eq_zero h0
  unfold tutorialNumModes
  have : (cumsum (s.map fun a => a / s.sum)).findIdx? (fun x => decide (0.9 < x)) = none := by
    rw [List.findIdx?_eq_none_iff]
    intro x hx
    obtain ⟨i, hi, rfl⟩ := List.getElem_of_mem hx
    rw [cumsum_normalised, hs, div_zero]
    norm_num
  rw [this]

/-- **C83, violation.** The comment in the tutorial says that the error is less than 10%.  With nine singular values 10 and one 9
there are nine modes, and the singular value left out, which is the error in the worst case, is 90% of the largest one.  In
the mean the error is more than 28%. -/
theorem C83_error_violation : tutorialNumModes [10, 10, 10, 10, 10, 10, 10, 10, 10, 9] = .ok 9 ∧
    (9 : ℝ) = 0.9 * 10 ∧ 0.28 < Real.sqrt (9 ^ 2 / (([10, 10, 10, 10, 10, 10, 10, 10, 10, 9] : List ℝ).map (· ^ 2)).sum) := by
  refine ⟨?_, by norm_num, ?_⟩
  · refine (C83_num_modes_partial _ (by norm_num) _).mpr ⟨by norm_num, by simp, by norm_num, fun j h1 h2 => ?_⟩
    interval_cases j <;> norm_num
  · refine Real.lt_sqrt_of_sq_lt ?_
    norm_num

/-! ### Snapshots that are no impulse responses -/

/-- **C83, violation.** The snapshots of the third tutorial are no impulse responses of a system and its adjoint.  The first direct
one is zero, so that half of the array is zero, and is not the array of inner products. -/
theorem C83_hankel_violation (svd : Matrix (Fin (30 / 1 * 1)) (Fin (30 / 1 * 1)) ℝ → SvdOut ℝ (30 / 1 * 1) (30 / 1 * 1))
    (atol rtol : Option ℝ) :
    ∃ b, bpodHandlesDecomp (fun u v : Fin 200 → ℝ => ∑ k, u k * v k) (fun j : Fin 30 => tutorialDirect j)
      (fun j : Fin 30 => tutorialAdjoint j) 1 1 svd atol rtol = .ok b ∧
      (∀ i j, i.val + j.val < 30 → b.hankel i j = 0) ∧
      0 < ∑ k, tutorialAdjoint 0 k * tutorialDirect 1 k := by
  have hl : ∀ k : Fin 200, (npLinspace 0 Real.pi 200).getD k 0 = k * (Real.pi / 199) := by
    intro k
    unfold npLinspace
    rw [List.getD, List.getElem?_eq_getElem (by simp), Option.getD_some, List.getElem_map, List.getElem_range]
    norm_num
  have hp := Real.pi_pos
  obtain ⟨b, hb⟩ := C25_handles_no_error (fun j : Fin 30 => tutorialDirect j) (fun j : Fin 30 => tutorialAdjoint j) 1 1 svd
    atol rtol (fun u v : Fin 200 → ℝ => ∑ k, u k * v k) le_rfl le_rfl (by norm_num) (by norm_num)
  refine ⟨b, hb, ?_, ?_⟩
  · obtain ⟨rows, s, hrows, -, rfl⟩ := bpodHandlesDecomp_cases _ _ 1 1 svd atol rtol _ b hb
    intro i j hij
    obtain ⟨rows', h1, -, h2⟩ := bpodHankel_ok (ma := 30) (md := 30) (p := 1) (q := 1) le_rfl le_rfl (by norm_num)
      (by norm_num) rfl rfl
      (handlesIp (fun u v : Fin 200 → ℝ => ∑ k, u k * v k) (fun j : Fin 30 => tutorialAdjoint j)
        (firstEntries (fun j : Fin 30 => tutorialDirect j) 1))
      (handlesIp (fun u v : Fin 200 → ℝ => ∑ k, u k * v k) (lastVecs (fun j : Fin 30 => tutorialAdjoint j) 1)
        (fun j : Fin 30 => tutorialDirect j))
      (fun _ _ => 0) (fun _ j => ∑ k, tutorialAdjoint 29 k * tutorialDirect j k) (fun i j => by
        simp [handlesIp, firstEntries, tutorialDirect])
      (fun i j => by
        have : 30 - lastCount 1 30 = 29 := by decide
        simp [handlesIp, lastVecs, this])
    have e : rows = rows' := (Except.ok.inj (h1.symm.trans hrows)).symm
    rw [e]
    dsimp only
    rw [h2, if_pos (by omega)]
  · refine Finset.sum_pos' (fun k _ => ?_) ⟨1, Finset.mem_univ _, ?_⟩
    · simp only [tutorialAdjoint, tutorialDirect, Nat.cast_zero, mul_zero, Real.cos_zero, one_mul, Nat.cast_one, mul_one, hl]
      have hk : (k : ℝ) ≤ 199 := by
        have := k.isLt
        have : k.val ≤ 199 := by omega
        exact_mod_cast this
      refine Real.sin_nonneg_of_nonneg_of_le_pi (by positivity) ?_
      calc (k : ℝ) * (Real.pi / 199) ≤ 199 * (Real.pi / 199) := by gcongr
        _ = Real.pi := by field_simp
    · simp only [tutorialAdjoint, tutorialDirect, Nat.cast_zero, mul_zero, Real.cos_zero, one_mul, Nat.cast_one, mul_one, hl]
      have : ((1 : Fin 200) : ℕ) = 1 := rfl
      rw [this, Nat.cast_one, one_mul]
      exact Real.sin_pos_of_pos_of_lt_pi (by positivity) (by linarith)

/-- Three points. -/
example : tutorialWeights [0, 1, 3] = .ok [1 / 2, 3 / 2, 1] := by
  rw [C82_weights]
  norm_num [trapzWeight, List.range_succ]

/-- Of four singular values three are enough. -/
example : tutorialNumModes [5, 3, 2, 0.5] = .ok 3 := by
  refine (C83_num_modes_partial _ (by norm_num) _).mpr ⟨by norm_num, by simp, by norm_num, fun j h1 h2 => ?_⟩
  interval_cases j <;> norm_num

end Modred
