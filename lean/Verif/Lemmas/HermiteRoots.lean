import Verif.Lemmas.Hermite
import Verif.Spec.Hermite
import Mathlib.RingTheory.Polynomial.Hermite.Gaussian
import Mathlib.Algebra.Polynomial.Roots
import Mathlib.LinearAlgebra.Matrix.Hermitian

/-!
# Zeros of Hermite polynomials
-/

namespace Modred

open Matrix Polynomial

theorem derivative_hermite_succ (k : Nat) :
    derivative (hermite (k + 1)) = ((k + 1 : ℕ) : ℤ[X]) * hermite k := by
  induction k with
  | zero => simp
  | succ k ih =>
    rw [hermite_succ (k + 1), derivative_sub, derivative_mul, derivative_X, ih, derivative_mul,
      derivative_natCast, one_mul, zero_mul, zero_add]
    have h := hermite_succ k
    push_cast
    linear_combination (-(k : ℤ[X]) - 1) * h

theorem hermite_three_term (k : Nat) :
    hermite (k + 2) = X * hermite (k + 1) - ((k + 1 : ℕ) : ℤ[X]) * hermite k := by
  rw [hermite_succ (k + 1), derivative_hermite_succ]

/-- Hermite polynomial of the probabilists as a function. -/
noncomputable def hermiteFn (k : Nat) (t : ℝ) : ℝ := aeval t (hermite k)

theorem hermiteFn_zero (t : ℝ) : hermiteFn 0 t = 1 := by simp [hermiteFn]

theorem hermiteFn_one (t : ℝ) : hermiteFn 1 t = t := by simp [hermiteFn]

theorem hermiteFn_succ_succ (k : Nat) (t : ℝ) :
    hermiteFn (k + 2) t = t * hermiteFn (k + 1) t - (k + 1) * hermiteFn k t := by
  unfold hermiteFn
  rw [hermite_three_term]
  simp

/-- The weight function of the code. -/
noncomputable def gauss (t : ℝ) : ℝ := Real.exp (-t ^ 2 / 2)

theorem gauss_pos (t : ℝ) : 0 < gauss t := Real.exp_pos _

theorem gauss_contDiff (m : Nat) : ContDiff ℝ m gauss := by
  unfold gauss
  exact ((contDiff_id.pow 2).neg.div_const 2).exp

theorem iteratedDeriv_gauss (l : Nat) (t : ℝ) :
    iteratedDeriv l gauss t = (-1) ^ l * hermiteFn l t * gauss t := by
  have h := deriv_gaussian_eq_hermite_mul_gaussian l t
  rw [← iteratedDeriv_eq_iterate] at h
  have e : gauss = fun y => Real.exp (-(y ^ 2 / 2)) := by
    ext y
    unfold gauss
    congr 1
    ring
  rw [e]
  exact h

theorem herdifBeta_eq {n : Nat} (x : Fin n → ℝ) (i : Nat) (j : Fin n) :
    herdifBeta x i j = (-1) ^ i * hermiteFn i (x j) := by
  induction i using Nat.twoStepInduction with
  | zero => simp [herdifBeta, hermiteFn_zero]
  | one => simp [herdifBeta, hermiteFn_one]
  | more i h1 h2 =>
    unfold herdifBeta
    rw [h1, h2, hermiteFn_succ_succ]
    push_cast
    ring

theorem isHermiteZero_iff (n : Nat) (t : ℝ) : IsHermiteZero n t ↔ hermiteFn n (√2 * t) = 0 := by
  unfold IsHermiteZero
  have e : (fun t : ℝ => Real.exp (-t ^ 2)) = fun t => gauss (√2 * t) := by
    ext t
    unfold gauss
    congr 1
    rw [mul_pow, Real.sq_sqrt (by norm_num)]
    ring
  rw [e, iteratedDeriv_comp_const_mul (gauss_contDiff n)]
  dsimp only
  rw [iteratedDeriv_gauss]
  have h1 : (√2 : ℝ) ^ n ≠ 0 := pow_ne_zero _ (by positivity)
  have h2 : ((-1 : ℝ)) ^ n ≠ 0 := pow_ne_zero _ (by norm_num)
  have h3 := (gauss_pos (√2 * t)).ne'
  simp [h1, h3]

/-! ### The Jacobi array -/

theorem jacobi_apply (N : Nat) (i j : Fin (N + 1)) :
    jacobi (N + 1) i j = (if j.val = i.val + 1 then √(i.val + 1 : ℝ) else 0) +
      if i.val = j.val + 1 then √(i.val : ℝ) else 0 := by
  have h : ∀ y : ℝ, y ^ (0.5 : ℝ) = √y := fun y => by
    rw [Real.sqrt_eq_rpow]
    norm_num
  unfold jacobi
  rw [Matrix.of_apply]
  split
  · rename_i h1
    rw [if_neg (by omega), add_zero, h, h1]
    push_cast
    rfl
  · split
    · rw [zero_add, h]
    · rw [add_zero]

theorem jacobi_isHermitian (n : Nat) : Matrix.IsHermitian (jacobi n) := by
  ext i j
  rw [conjTranspose_apply, star_trivial]
  unfold jacobi
  rw [Matrix.of_apply, Matrix.of_apply]
  by_cases h1 : i.val = j.val + 1
  · rw [if_pos h1, if_neg (by omega), if_pos h1]
  · rw [if_neg h1]
    by_cases h2 : j.val = i.val + 1
    · rw [if_pos h2, if_pos h2]
    · rw [if_neg h2, if_neg h2, if_neg h1]

/-- A vector as a sequence. -/
def extend {n : Nat} (v : Fin n → ℝ) (k : Nat) : ℝ := if h : k < n then v ⟨k, h⟩ else 0

theorem sum_shift {n : Nat} (v : Fin n → ℝ) (k : Nat) (c : ℝ) :
    (∑ j : Fin n, (if j.val = k then c else 0) * v j) = c * extend v k := by
  unfold extend
  split
  · rename_i h
    rw [Finset.sum_eq_single (⟨k, h⟩ : Fin n)]
    · simp
    · intro j _ hj
      rw [if_neg (fun h' => hj (Fin.ext h')), zero_mul]
    · simp
  · rename_i h
    rw [mul_zero]
    refine Finset.sum_eq_zero fun j _ => ?_
    rw [if_neg (by have := j.isLt; omega), zero_mul]

/-- A row of the eigenvalue equation. -/
theorem jacobi_row {N : Nat} {v : Fin (N + 1) → ℝ} {μ : ℝ} (h : jacobi (N + 1) *ᵥ v = μ • v) (i : Nat)
    (hi : i < N + 1) : √(i + 1 : ℝ) * extend v (i + 1) + √(i : ℝ) * extend v (i - 1) = μ * extend v i := by
  have h1 := congrFun h ⟨i, hi⟩
  have h2 : (jacobi (N + 1) *ᵥ v) ⟨i, hi⟩ =
      √(i + 1 : ℝ) * extend v (i + 1) + √(i : ℝ) * extend v (i - 1) := by
    rw [← sum_shift v (i + 1), ← sum_shift v (i - 1), ← Finset.sum_add_distrib]
    unfold mulVec dotProduct
    refine Finset.sum_congr rfl fun j _ => ?_
    have := jacobi_apply N ⟨i, hi⟩ j
    dsimp only at this ⊢
    rw [this, add_mul]
    congr 1
    cases i with
    | zero => simp
    | succ i => simp [eq_comm]
  rw [h2] at h1
  rw [h1]
  simp [extend, hi]

/-- Entries of an eigenvector. -/
theorem jacobi_entries {N : Nat} {v : Fin (N + 1) → ℝ} {μ : ℝ} (h : jacobi (N + 1) *ᵥ v = μ • v) (k : Nat)
    (hk : k ≤ N + 1) : √(k.factorial : ℝ) * extend v k = hermiteFn k μ * extend v 0 := by
  induction k using Nat.twoStepInduction with
  | zero => simp [hermiteFn_zero]
  | one =>
    have h1 := jacobi_row h 0 (by omega)
    simp only [Nat.cast_zero, Real.sqrt_zero, zero_mul, add_zero, zero_add, Real.sqrt_one, one_mul] at h1
    simp [hermiteFn_one, h1]
  | more k h1 h2 =>
    have h3 := jacobi_row h (k + 1) (by omega)
    have e1 := h1 (by omega)
    have e2 := h2 (by omega)
    rw [Nat.add_sub_cancel] at h3
    rw [hermiteFn_succ_succ, Nat.factorial_succ, Nat.cast_mul, Real.sqrt_mul (by positivity)]
    have hs : √((k + 1).factorial : ℝ) = √((k + 1 : ℕ) : ℝ) * √(k.factorial : ℝ) := by
      rw [Nat.factorial_succ, Nat.cast_mul, Real.sqrt_mul (by positivity)]
    have hq : √((k + 1 : ℕ) : ℝ) * √((k + 1 : ℕ) : ℝ) = (k : ℝ) + 1 := by
      rw [Real.mul_self_sqrt (by positivity)]
      push_cast
      rfl
    have hr : √((k + 1 + 1 : ℕ) : ℝ) * extend v (k + 1 + 1) =
        μ * extend v (k + 1) - √((k + 1 : ℕ) : ℝ) * extend v k := by
      rw [← h3]
      push_cast
      ring
    have : √((k + 1 + 1 : ℕ) : ℝ) * √((k + 1).factorial : ℝ) * extend v (k + 2) =
        √((k + 1).factorial : ℝ) * (√((k + 1 + 1 : ℕ) : ℝ) * extend v (k + 1 + 1)) := by ring
    rw [this, hr, mul_sub]
    have t1 : √((k + 1).factorial : ℝ) * (μ * extend v (k + 1)) = μ * (hermiteFn (k + 1) μ * extend v 0) := by
      rw [← e2]; ring
    have t2 : √((k + 1).factorial : ℝ) * (√((k + 1 : ℕ) : ℝ) * extend v k) =
        (k + 1) * (hermiteFn k μ * extend v 0) := by
      rw [hs, ← e1, ← hq]; ring
    rw [t1, t2]
    ring

theorem jacobi_first_ne_zero {N : Nat} {v : Fin (N + 1) → ℝ} {μ : ℝ} (h : jacobi (N + 1) *ᵥ v = μ • v)
    (hv : v ≠ 0) : extend v 0 ≠ 0 := by
  intro h0
  apply hv
  ext k
  have h1 := jacobi_entries h k.val k.isLt.le
  rw [h0, mul_zero] at h1
  have h2 : √((k.val).factorial : ℝ) ≠ 0 := (Real.sqrt_pos.mpr (by positivity)).ne'
  have h3 := (mul_eq_zero.mp h1).resolve_left h2
  simpa [extend, k.isLt] using h3

/-- Eigenvalues are zeros of the Hermite polynomial. -/
theorem jacobi_eigenvalue {N : Nat} {v : Fin (N + 1) → ℝ} {μ : ℝ} (h : jacobi (N + 1) *ᵥ v = μ • v)
    (hv : v ≠ 0) : hermiteFn (N + 1) μ = 0 := by
  have h1 := jacobi_entries h (N + 1) le_rfl
  have h2 : extend v (N + 1) = 0 := by simp [extend]
  rw [h2, mul_zero] at h1
  exact (mul_eq_zero.mp h1.symm).resolve_right (jacobi_first_ne_zero h hv)

/-- Eigenvectors of the same eigenvalue are parallel. -/
theorem jacobi_parallel {N : Nat} {v u : Fin (N + 1) → ℝ} {μ : ℝ} (hv : jacobi (N + 1) *ᵥ v = μ • v)
    (hu : jacobi (N + 1) *ᵥ u = μ • u) : extend u 0 • v = extend v 0 • u := by
  ext k
  have h1 := jacobi_entries hv k.val k.isLt.le
  have h2 := jacobi_entries hu k.val k.isLt.le
  have h3 : √((k.val).factorial : ℝ) ≠ 0 := (Real.sqrt_pos.mpr (by positivity)).ne'
  have e1 : extend v k.val = v k := by simp [extend, k.isLt]
  have e2 : extend u k.val = u k := by simp [extend, k.isLt]
  rw [e1] at h1
  rw [e2] at h2
  refine mul_left_cancel₀ h3 ?_
  rw [Pi.smul_apply, Pi.smul_apply, smul_eq_mul, smul_eq_mul]
  linear_combination extend u 0 * h1 - extend v 0 * h2

theorem eigh_columns {n : Nat} {a : Matrix (Fin n) (Fin n) ℝ} {o : EighOut ℝ n} (h : IsEigh a o) (i : Fin n) :
    a *ᵥ (fun k => o.V k i) = o.w i • fun k => o.V k i := by
  ext k
  have := congrFun (congrFun h.eigen k) i
  rw [mul_diagonal] at this
  rw [Pi.smul_apply, smul_eq_mul, mul_comm]
  exact this

theorem eigh_dot {n : Nat} {a : Matrix (Fin n) (Fin n) ℝ} {o : EighOut ℝ n} (h : IsEigh a o) (i j : Fin n) :
    ∑ k, o.V k i * o.V k j = if i = j then 1 else 0 := by
  have := congrFun (congrFun h.orthonormal i) j
  rw [Matrix.one_apply] at this
  exact this

/-- The eigenvalues are distinct zeros of the Hermite polynomial. -/
theorem jacobi_eigvalsh {N : Nat} {w : Fin (N + 1) → ℝ} (h : IsEigvalsh (jacobi (N + 1)) w) :
    Function.Injective w ∧ ∀ i, hermiteFn (N + 1) (w i) = 0 := by
  obtain ⟨V, h⟩ := h
  have hne : ∀ i, (fun k => V k i) ≠ 0 := by
    intro i h0
    have h1 := eigh_dot h i i
    rw [if_pos rfl] at h1
    simp only [congrFun h0] at h1
    simp at h1
  refine ⟨fun i j hij => ?_, fun i => jacobi_eigenvalue (eigh_columns h i) (hne i)⟩
  by_contra hne'
  have hi := eigh_columns h i
  have hj := eigh_columns h j
  dsimp only at hi hj
  rw [← hij] at hj
  have hp := jacobi_parallel hi hj
  have h1 := eigh_dot h i j
  rw [if_neg hne'] at h1
  have h2 := eigh_dot h i i
  rw [if_pos rfl] at h2
  dsimp only at h1 h2
  have h3 : extend (fun k => V k j) 0 * ∑ k, V k i * V k i = extend (fun k => V k i) 0 * ∑ k, V k i * V k j := by
    rw [Finset.mul_sum, Finset.mul_sum]
    refine Finset.sum_congr rfl fun k _ => ?_
    have := congrFun hp k
    rw [Pi.smul_apply, Pi.smul_apply, smul_eq_mul, smul_eq_mul] at this
    linear_combination V k i * this
  rw [h1, h2, mul_zero, mul_one] at h3
  exact jacobi_first_ne_zero hj (hne j) h3

/-- There are no other zeros. -/
theorem hermiteFn_zeros {n : Nat} {w : Fin n → ℝ} (hw : Function.Injective w) (h0 : ∀ i, hermiteFn n (w i) = 0)
    (t : ℝ) (ht : hermiteFn n t = 0) : ∃ i, t = w i := by
  by_contra hne
  push Not at hne
  let p : ℝ[X] := (hermite n).map (Int.castRingHom ℝ)
  have hp : p.Monic := (hermite_monic n).map _
  have hdeg : p.natDegree = n := by
    rw [show p.natDegree = (hermite n).natDegree from (hermite_monic n).natDegree_map _, natDegree_hermite]
  have hev : ∀ y, p.eval y = hermiteFn n y := by
    intro y
    simp [p, hermiteFn, aeval_def, eval_map]
  have hsub : insert t (Finset.univ.image w) ⊆ p.roots.toFinset := by
    intro y hy
    rw [Multiset.mem_toFinset, mem_roots hp.ne_zero, IsRoot, hev]
    rcases Finset.mem_insert.mp hy with h | h
    · rw [h]; exact ht
    · obtain ⟨i, _, rfl⟩ := Finset.mem_image.mp h
      exact h0 i
  have h1 := Finset.card_le_card hsub
  rw [Finset.card_insert_of_notMem (by
    intro h
    obtain ⟨i, _, hi⟩ := Finset.mem_image.mp h
    exact hne i hi.symm), Finset.card_image_of_injective _ hw, Finset.card_univ, Fintype.card_fin] at h1
  have h2 := (Multiset.toFinset_card_le p.roots).trans (card_roots' p)
  omega

end Modred
