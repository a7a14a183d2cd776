import Verif.Model.Hermite
import Mathlib.Analysis.Calculus.IteratedDeriv.Lemmas
import Mathlib.Analysis.Calculus.ContDiff.Operations
import Mathlib.Analysis.Calculus.ContDiff.Polynomial
import Mathlib.LinearAlgebra.Lagrange

/-!
# Derivatives of cardinal functions
-/

namespace Modred

open Matrix

/-! ### Removing the diagonal -/

theorem filter_ne_finRange {N : Nat} (k : Fin (N + 1)) :
    ((List.finRange (N + 1)).filter fun j => j ≠ k) = (List.finRange N).map k.succAbove := by
  have h1 : (((List.finRange (N + 1)).filter fun j => j ≠ k)).Pairwise (· < ·) :=
    (List.pairwise_lt_finRange _).filter _
  have h2 : ((List.finRange N).map k.succAbove).Pairwise (· < ·) := by
    rw [List.pairwise_map]
    exact (List.pairwise_lt_finRange _).imp fun h => (Fin.strictMono_succAbove k) h
  refine List.Perm.eq_of_pairwise (le := (· < ·)) (fun a b _ _ hab hba => absurd (hab.trans hba) (lt_irrefl _)) h1 h2 ?_
  refine (List.perm_ext_iff_of_nodup ?_ ?_).mpr fun j => ?_
  · exact (List.nodup_finRange _).filter _
  · exact (List.nodup_map_iff Fin.succAbove_right_injective).mpr (List.nodup_finRange _)
  · simp only [List.mem_filter, List.mem_finRange, true_and, List.mem_map, decide_eq_true_eq]
    constructor
    · intro h
      exact Fin.exists_succAbove_eq h
    · rintro ⟨s, rfl⟩
      exact Fin.succAbove_ne k s

/-- Entry of a concatenation of lists of the same length. -/
theorem flatMap_getElem? {α β : Type*} (l : List α) (f : α → List β) (N : Nat) (hf : ∀ a, (f a).length = N)
    (k s : Nat) (hs : s < N) : (l.flatMap f)[k * N + s]? = (l[k]?).bind fun a => (f a)[s]? := by
  induction l generalizing k with
  | nil => simp
  | cons a rest ih =>
    rw [List.flatMap_cons]
    cases k with
    | zero =>
      rw [Nat.zero_mul, Nat.zero_add, List.getElem?_append_left (by rw [hf]; exact hs)]
      simp
    | succ k =>
      rw [List.getElem?_append_right (by rw [hf, Nat.succ_mul]; omega), hf]
      rw [show (k + 1) * N + s - N = k * N + s by rw [Nat.succ_mul]; omega, ih]
      simp

theorem poldifX_apply {K : Type*} [Field K] {N : Nat} (x : Fin (N + 1) → K) (s : Fin N) (k : Fin (N + 1)) :
    poldifX x s k = (x k - x (k.succAbove s))⁻¹ := by
  unfold poldifX offDiagonal
  rw [Matrix.of_apply, List.getD_eq_getElem?_getD]
  rw [flatMap_getElem? _ _ N (fun a => by rw [filter_ne_finRange]; simp) _ _ s.isLt]
  rw [List.getElem?_eq_getElem (by rw [List.length_finRange]; exact k.isLt)]
  simp only [List.getElem_finRange, Option.bind_some]
  rw [filter_ne_finRange, List.map_map, List.getElem?_map, List.getElem?_eq_getElem (by simp)]
  have h : k ≠ k.succAbove s := (Fin.succAbove_ne k s).symm
  simp [poldifZ, poldifDX, h]

/-! ### Derivatives -/

/-- Derivatives of a product with a linear factor. -/
theorem iteratedDeriv_linear_mul (a : ℝ) (g : ℝ → ℝ) (l : Nat) (hg : ContDiff ℝ l g) :
    iteratedDeriv l (fun t => (t - a) * g t) =
      fun y => (y - a) * iteratedDeriv l g y + (l : ℝ) * iteratedDeriv (l - 1) g y := by
  induction l with
  | zero => ext y; simp
  | succ l ih =>
    have hl : ContDiff ℝ l g := hg.of_le (by exact_mod_cast Nat.le_succ l)
    rw [iteratedDeriv_succ, ih hl]
    ext y
    have d0 : Differentiable ℝ (iteratedDeriv l g) :=
      hg.differentiable_iteratedDeriv l (by exact_mod_cast Nat.lt_succ_self l)
    have d1 : Differentiable ℝ (iteratedDeriv (l - 1) g) :=
      hg.differentiable_iteratedDeriv (l - 1) (by exact_mod_cast (by omega : l - 1 < l + 1))
    have e0 : HasDerivAt (fun t => (t - a) * iteratedDeriv l g t)
        (1 * iteratedDeriv l g y + (y - a) * deriv (iteratedDeriv l g) y) y :=
      ((hasDerivAt_id y).sub_const a).mul (d0 y).hasDerivAt
    have e1 := (d1 y).hasDerivAt.const_mul (l : ℝ)
    have e2 : HasDerivAt (fun t => (t - a) * iteratedDeriv l g t + (l : ℝ) * iteratedDeriv (l - 1) g t) _ y :=
      e0.add e1
    rw [e2.deriv, ← iteratedDeriv_succ, Nat.add_sub_cancel]
    cases l with
    | zero => simp; ring
    | succ l =>
      rw [Nat.add_sub_cancel, ← iteratedDeriv_succ]
      push_cast
      ring

section Cardinal

variable {N : Nat} (α : ℝ → ℝ) (x : Fin (N + 1) → ℝ)

/-- The first `r` factors of the cardinal function. -/
noncomputable def cardinalPart (j : Fin (N + 1)) (r : Nat) (t : ℝ) : ℝ :=
  α t / α (x j) * ∏ s ∈ Finset.univ.filter (fun s : Fin N => s.val < r),
    (t - x (j.succAbove s)) / (x j - x (j.succAbove s))

/-- The function of the form weight times polynomial that is one at node `j` and zero at all other nodes. -/
noncomputable def cardinal (j : Fin (N + 1)) (t : ℝ) : ℝ :=
  α t / α (x j) * ∏ s : Fin N, (t - x (j.succAbove s)) / (x j - x (j.succAbove s))

theorem cardinalPart_last (j : Fin (N + 1)) : cardinalPart α x j N = cardinal α x j := by
  ext t
  unfold cardinalPart cardinal
  rw [Finset.filter_true_of_mem fun s _ => s.isLt]

theorem cardinalPart_succ (j : Fin (N + 1)) (s : Fin N) (t : ℝ) :
    cardinalPart α x j (s.val + 1) t =
      (x j - x (j.succAbove s))⁻¹ * ((t - x (j.succAbove s)) * cardinalPart α x j s.val t) := by
  unfold cardinalPart
  have h : Finset.univ.filter (fun s' : Fin N => s'.val < s.val + 1) =
      insert s (Finset.univ.filter fun s' : Fin N => s'.val < s.val) := by
    ext s'
    simp only [Finset.mem_filter, Finset.mem_univ, true_and, Finset.mem_insert, Fin.ext_iff]
    omega
  rw [h, Finset.prod_insert (by simp)]
  ring

variable {α x} {m : Nat}

theorem cardinalPart_contDiff (hα : ContDiff ℝ m α) (j : Fin (N + 1)) (r : Nat) :
    ContDiff ℝ m (cardinalPart α x j r) := by
  unfold cardinalPart
  exact (hα.div_const _).mul (contDiff_prod fun s _ => ((contDiff_id.sub contDiff_const).div_const _))

theorem cardinal_contDiff (hα : ContDiff ℝ m α) (j : Fin (N + 1)) : ContDiff ℝ m (cardinal α x j) := by
  rw [← cardinalPart_last]
  exact cardinalPart_contDiff hα j N

theorem cardinalPart_node (hx : Function.Injective x) (h0 : ∀ k, α (x k) ≠ 0) (j : Fin (N + 1)) (r : Nat) :
    cardinalPart α x j r (x j) = 1 := by
  unfold cardinalPart
  rw [div_self (h0 j), one_mul]
  refine Finset.prod_eq_one fun s _ => div_self (sub_ne_zero.mpr fun h => ?_)
  exact Fin.succAbove_ne j s (hx h).symm

theorem cardinal_node (hx : Function.Injective x) (h0 : ∀ k, α (x k) ≠ 0) (j k : Fin (N + 1)) :
    cardinal α x j (x k) = if k = j then 1 else 0 := by
  split
  · rename_i h
    subst h
    rw [← cardinalPart_last]
    exact cardinalPart_node hx h0 k N
  · rename_i h
    obtain ⟨s, rfl⟩ := Fin.exists_succAbove_eq h
    unfold cardinal
    rw [Finset.prod_eq_zero (Finset.mem_univ s) (by simp), mul_zero]

/-- `c` of the code. -/
theorem prod_poldifDX (k : Fin (N + 1)) : ∏ j, poldifDX x k j = ∏ s : Fin N, (x k - x (k.succAbove s)) := by
  rw [Fin.prod_univ_succAbove _ k]
  simp [poldifDX, (Fin.succAbove_ne k _).symm]

/-- All cardinal functions have the same product with their node's factor, up to `c`. -/
theorem cardinal_factor (hx : Function.Injective x) (h0 : ∀ k, α (x k) ≠ 0) (j k : Fin (N + 1)) (t : ℝ) :
    (α (x j) * ∏ i, poldifDX x j i) * ((t - x j) * cardinal α x j t) =
      (α (x k) * ∏ i, poldifDX x k i) * ((t - x k) * cardinal α x k t) := by
  have key : ∀ j, (α (x j) * ∏ i, poldifDX x j i) * ((t - x j) * cardinal α x j t) = α t * ∏ i, (t - x i) := by
    intro j
    rw [prod_poldifDX, Fin.prod_univ_succAbove (fun i => t - x i) j]
    unfold cardinal
    rw [Finset.prod_div_distrib]
    have h1 : ∏ s : Fin N, (x j - x (j.succAbove s)) ≠ 0 :=
      Finset.prod_ne_zero_iff.mpr fun s _ => sub_ne_zero.mpr fun h => Fin.succAbove_ne j s (hx h).symm
    have h2 := h0 j
    field_simp
  rw [key, key]

theorem prod_poldifDX_ne (hx : Function.Injective x) (k : Fin (N + 1)) : ∏ j, poldifDX x k j ≠ 0 := by
  rw [prod_poldifDX]
  exact Finset.prod_ne_zero_iff.mpr fun s _ => sub_ne_zero.mpr fun h => Fin.succAbove_ne k s (hx h).symm

/-- Entries off the diagonal. -/
theorem cardinal_offdiag (hx : Function.Injective x) (h0 : ∀ k, α (x k) ≠ 0) (l : Nat)
    (hα : ContDiff ℝ (l + 1 : ℕ) α) (k j : Fin (N + 1)) (hkj : k ≠ j) :
    iteratedDeriv (l + 1) (cardinal α x j) (x k) = ((l + 1 : ℕ) : ℝ) * poldifZ x k j *
      (poldifC x (fun k => α (x k)) k j * iteratedDeriv l (cardinal α x k) (x k) -
        iteratedDeriv l (cardinal α x j) (x k)) := by
  have hcj := cardinal_contDiff (x := x) hα j
  have hck := cardinal_contDiff (x := x) hα k
  set cj := α (x j) * ∏ i, poldifDX x j i with hcjdef
  set ck := α (x k) * ∏ i, poldifDX x k i with hckdef
  have hcj0 : cj ≠ 0 := mul_ne_zero (h0 j) (prod_poldifDX_ne hx j)
  have h1 : (fun t => cj * ((t - x j) * cardinal α x j t)) = fun t => ck * ((t - x k) * cardinal α x k t) :=
    funext fun t => cardinal_factor hx h0 j k t
  have h2 := congrFun (congrArg (iteratedDeriv (l + 1)) h1) (x k)
  rw [iteratedDeriv_const_mul_field, iteratedDeriv_const_mul_field,
    iteratedDeriv_linear_mul _ _ _ hcj, iteratedDeriv_linear_mul _ _ _ hck] at h2
  simp only [Nat.add_sub_cancel, sub_self, zero_mul, zero_add] at h2
  have h3 : x k - x j ≠ 0 := sub_ne_zero.mpr fun h => hkj (hx h)
  have hZ : poldifZ x k j = (x k - x j)⁻¹ := by simp [poldifZ, poldifDX, hkj]
  have hC : poldifC x (fun k => α (x k)) k j = ck / cj := rfl
  rw [hZ, hC]
  field_simp
  linear_combination h2

/-- Rows of `Y`. -/
theorem cardinalPart_step (l : Nat) (hα : ContDiff ℝ (l + 1 : ℕ) α) (hx : Function.Injective x)
    (k : Fin (N + 1)) (s : Fin N) :
    iteratedDeriv (l + 1) (cardinalPart α x k (s.val + 1)) (x k) =
      iteratedDeriv (l + 1) (cardinalPart α x k s.val) (x k) +
        ((l + 1 : ℕ) : ℝ) * iteratedDeriv l (cardinalPart α x k s.val) (x k) * poldifX x s k := by
  have h1 : cardinalPart α x k (s.val + 1) = fun t =>
      (x k - x (k.succAbove s))⁻¹ * ((t - x (k.succAbove s)) * cardinalPart α x k s.val t) :=
    funext fun t => cardinalPart_succ α x k s t
  have h3 : x k - x (k.succAbove s) ≠ 0 := sub_ne_zero.mpr fun h => Fin.succAbove_ne k s (hx h).symm
  rw [h1, iteratedDeriv_const_mul_field, iteratedDeriv_linear_mul _ _ _ (cardinalPart_contDiff hα k s.val),
    poldifX_apply, Nat.add_sub_cancel]
  field_simp

theorem cumsumRows_zero {K : Type*} [Field K] (first : Fin (N + 1) → K) (others : Matrix (Fin N) (Fin (N + 1)) K)
    (k : Fin (N + 1)) : cumsumRows first others 0 k = first k := by
  unfold cumsumRows
  rw [Matrix.of_apply, show Finset.univ.filter (fun s : Fin (N + 1) => s ≤ 0) = {0} by ext s; simp,
    Finset.sum_singleton]
  rfl

theorem cumsumRows_succ {K : Type*} [Field K] (first : Fin (N + 1) → K) (others : Matrix (Fin N) (Fin (N + 1)) K)
    (s : Fin N) (k : Fin (N + 1)) :
    cumsumRows first others s.succ k = cumsumRows first others s.castSucc k + others s k := by
  unfold cumsumRows
  rw [Matrix.of_apply, Matrix.of_apply]
  have h : Finset.univ.filter (fun r : Fin (N + 1) => r ≤ s.succ) =
      insert s.succ (Finset.univ.filter fun r : Fin (N + 1) => r ≤ s.castSucc) := by
    ext r
    simp only [Finset.mem_filter, Finset.mem_univ, true_and, Finset.mem_insert, Fin.ext_iff, Fin.le_def,
      Fin.val_succ, Fin.val_castSucc]
    omega
  rw [h, Finset.sum_insert (by simp [Fin.le_def]), add_comm]
  rfl

/-- One pass through the loop. -/
theorem cumsumRows_eq (hx : Function.Injective x) (l : Nat) (hα : ContDiff ℝ (l + 1 : ℕ) α)
    (b : Fin (N + 1) → ℝ) (hb : ∀ k, b k = iteratedDeriv (l + 1) α (x k) / α (x k))
    (Y : Matrix (Fin (N + 1)) (Fin (N + 1)) ℝ)
    (hY : ∀ r k, Y r k = iteratedDeriv l (cardinalPart α x k r.val) (x k)) (r k : Fin (N + 1)) :
    cumsumRows b (Matrix.of fun s k => ((l + 1 : ℕ) : ℝ) * Y s.castSucc k * poldifX x s k) r k =
      iteratedDeriv (l + 1) (cardinalPart α x k r.val) (x k) := by
  induction r using Fin.induction with
  | zero =>
    rw [cumsumRows_zero, hb]
    have : cardinalPart α x k ((0 : Fin (N + 1)) : ℕ) = fun t => (α (x k))⁻¹ * α t := by
      ext t
      simp [cardinalPart, div_eq_inv_mul]
    rw [this, iteratedDeriv_const_mul_field, div_eq_inv_mul]
  | succ s ih =>
    rw [cumsumRows_succ, ih, Fin.val_succ, cardinalPart_step l hα hx, Matrix.of_apply, hY]
    rfl

/-- The loop computes derivatives of the cardinal functions at the nodes. -/
theorem poldifLoop_eq (hx : Function.Injective x) (h0 : ∀ k, α (x k) ≠ 0) (B : List (Fin (N + 1) → ℝ)) (l : Nat)
    (hα : ContDiff ℝ (l + B.length : ℕ) α)
    (hB : ∀ i b, B[i]? = some b → ∀ k, b k = iteratedDeriv (l + i + 1) α (x k) / α (x k))
    (Y D : Matrix (Fin (N + 1)) (Fin (N + 1)) ℝ)
    (hY : ∀ r k, Y r k = iteratedDeriv l (cardinalPart α x k r.val) (x k))
    (hD : ∀ k j, D k j = iteratedDeriv l (cardinal α x j) (x k)) :
    (poldifLoop (poldifZ x) (poldifC x fun k => α (x k)) (poldifX x) (l + 1) B Y D).length = B.length ∧
    ∀ (i : Nat) (E : Matrix (Fin (N + 1)) (Fin (N + 1)) ℝ),
      (poldifLoop (poldifZ x) (poldifC x fun k => α (x k)) (poldifX x) (l + 1) B Y D)[i]? = some E →
      ∀ k j, E k j = iteratedDeriv (l + i + 1) (cardinal α x j) (x k) := by
  induction B generalizing l Y D with
  | nil => exact ⟨rfl, fun i E h => by simp [poldifLoop] at h⟩
  | cons b rest ih =>
    have hα1 : ContDiff ℝ (l + 1 : ℕ) α := hα.of_le (by
      rw [List.length_cons]; exact_mod_cast (by omega : l + 1 ≤ l + (rest.length + 1)))
    have hb : ∀ k, b k = iteratedDeriv (l + 1) α (x k) / α (x k) := hB 0 b rfl
    have hY' := cumsumRows_eq hx l hα1 b hb Y hY
    unfold poldifLoop
    dsimp only
    set Y' := cumsumRows b (Matrix.of fun s k => ((l + 1 : ℕ) : ℝ) * Y s.castSucc k * poldifX x s k) with hY'def
    set D' : Matrix (Fin (N + 1)) (Fin (N + 1)) ℝ := Matrix.of fun k j => if k = j then Y' (Fin.last N) k
        else ((l + 1 : ℕ) : ℝ) * poldifZ x k j * (poldifC x (fun k => α (x k)) k j * D k k - D k j) with hD'def
    have hD' : ∀ k j, D' k j = iteratedDeriv (l + 1) (cardinal α x j) (x k) := by
      intro k j
      rw [hD'def, Matrix.of_apply]
      split
      · rename_i h
        subst h
        rw [hY', Fin.val_last, cardinalPart_last]
      · rename_i h
        rw [cardinal_offdiag hx h0 l hα1 k j h, hD, hD]
    obtain ⟨h1, h2⟩ := ih (l + 1) (by
        rw [List.length_cons] at hα
        rw [show l + 1 + rest.length = l + (rest.length + 1) by omega]; exact hα)
      (fun i b' hi k => by
        rw [hB (i + 1) b' (by rw [List.getElem?_cons_succ]; exact hi) k]
        rw [show l + (i + 1) + 1 = l + 1 + i + 1 by omega]) Y' D' hY' hD'
    refine ⟨by rw [List.length_cons, h1, List.length_cons], fun i E hE => ?_⟩
    cases i with
    | zero =>
      rw [List.getElem?_cons_zero] at hE
      cases hE
      exact hD'
    | succ i =>
      rw [List.getElem?_cons_succ] at hE
      rw [show l + (i + 1) + 1 = l + 1 + i + 1 by omega]
      exact h2 i E hE

end Cardinal

end Modred
