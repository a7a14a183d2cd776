import Verif.Lemmas.Hermite
import Mathlib.Analysis.Calculus.Deriv.Polynomial
import Mathlib.Analysis.SpecialFunctions.ExpDeriv
import Verif.Spec.Hermite

/-!
# C68: differentiation arrays
-/

namespace Modred

open Matrix Polynomial

section

variable {N : Nat} {α : ℝ → ℝ} {x : Fin (N + 1) → ℝ}

/-- A weighted polynomial is the combination of cardinal functions with its values. -/
theorem weighted_eq_sum (hx : Function.Injective x) (h0 : ∀ k, α (x k) ≠ 0) (p : ℝ[X])
    (hp : p.degree < ((N + 1 : ℕ) : WithBot ℕ)) (t : ℝ) :
    α t * p.eval t = ∑ j, α (x j) * p.eval (x j) * cardinal α x j t := by
  have h1 := Lagrange.eq_interpolate (s := Finset.univ) (v := x) (f := p) (hx.injOn) (by simpa using hp)
  have h2 : p.eval t = ∑ j, p.eval (x j) * ∏ s : Fin N, (t - x (j.succAbove s)) / (x j - x (j.succAbove s)) := by
    conv_lhs => rw [h1]
    rw [Lagrange.interpolate_apply, Polynomial.eval_finsetSum]
    refine Finset.sum_congr rfl fun j _ => ?_
    rw [Polynomial.eval_mul, Polynomial.eval_C, Lagrange.basis, Polynomial.eval_prod]
    congr 1
    have h3 : Finset.univ.erase j = Finset.univ.map ⟨j.succAbove, Fin.succAbove_right_injective⟩ := by
      ext i
      simp only [Finset.mem_erase, Finset.mem_univ, and_true, Finset.mem_map, Function.Embedding.coeFn_mk,
        true_and]
      exact ⟨Fin.exists_succAbove_eq, fun ⟨s, hs⟩ => hs ▸ Fin.succAbove_ne j s⟩
    rw [h3, Finset.prod_map]
    refine Finset.prod_congr rfl fun s _ => ?_
    simp [Lagrange.basisDivisor, div_eq_inv_mul]
  rw [h2, Finset.mul_sum]
  refine Finset.sum_congr rfl fun j _ => ?_
  unfold cardinal
  have := h0 j
  field_simp

theorem differentiates_of_cardinal (hx : Function.Injective x) (h0 : ∀ k, α (x k) ≠ 0) (l : Nat)
    (hα : ContDiff ℝ l α) (D : Matrix (Fin (N + 1)) (Fin (N + 1)) ℝ)
    (hD : ∀ k j, D k j = iteratedDeriv l (cardinal α x j) (x k)) : Differentiates α x l D := by
  intro p hp k
  rw [show (fun t => α t * p.eval t) = fun t => ∑ j, α (x j) * p.eval (x j) * cardinal α x j t from
    funext fun t => weighted_eq_sum hx h0 p hp t]
  rw [iteratedDeriv_fun_sum fun j _ => ((contDiff_const.mul (cardinal_contDiff hα j)).contDiffAt)]
  unfold mulVec dotProduct
  refine Finset.sum_congr rfl fun j _ => ?_
  dsimp only
  rw [iteratedDeriv_const_mul_field, hD]
  ring

end

/-- At most one array differentiates exactly. -/
theorem differentiates_unique {n : Nat} {α : ℝ → ℝ} {x : Fin n → ℝ} (hx : Function.Injective x)
    (h0 : ∀ k, α (x k) ≠ 0) (l : Nat) (D E : Matrix (Fin n) (Fin n) ℝ)
    (hD : Differentiates α x l D) (hE : Differentiates α x l E) : D = E := by
  ext k j
  have key : ∀ F : Matrix (Fin n) (Fin n) ℝ, Differentiates α x l F →
      F k j * α (x j) = iteratedDeriv l (fun t => α t * (Lagrange.basis Finset.univ x j).eval t) (x k) := by
    intro F hF
    have hdeg : (Lagrange.basis Finset.univ x j).degree < n := by
      rw [Lagrange.degree_basis hx.injOn (Finset.mem_univ j)]
      have : 0 < n := j.pos
      rw [Finset.card_univ, Fintype.card_fin]
      exact_mod_cast (by omega : n - 1 < n)
    rw [← hF _ hdeg k]
    unfold mulVec dotProduct
    rw [Finset.sum_eq_single j]
    · dsimp only
      rw [Lagrange.eval_basis_self hx.injOn (Finset.mem_univ j), mul_one]
    · intro i _ hij
      dsimp only
      rw [Lagrange.eval_basis_of_ne hij.symm (Finset.mem_univ i), mul_zero, mul_zero]
    · simp
  exact mul_right_cancel₀ (h0 j) ((key D hD).trans (key E hE).symm)

/-! ### The property -/

/-- Given weights and derivatives of the weight function over the weight function, `poldif` returns as many
arrays as there are rows, and array `i` gives derivatives of order `i + 1`, exactly. -/
theorem C68_poldif_weighted {n : Nat} (hn : 0 < n) (α : ℝ → ℝ) (x : Fin n → ℝ) (B : List (Fin n → ℝ))
    (hx : Function.Injective x) (h0 : ∀ k, α (x k) ≠ 0) (hα : ContDiff ℝ B.length α)
    (hB : IsWeightDerivatives α x B) :
    ∃ Dm, poldif x none (some fun k => α (x k)) (some B) = .ok Dm ∧ Dm.length = B.length ∧
      ∀ i D, Dm[i]? = some D → Differentiates α x (i + 1) D := by
  obtain ⟨N, rfl⟩ : ∃ N, n = N + 1 := ⟨n - 1, by omega⟩
  have h := poldifLoop_eq hx h0 B 0 (by rwa [Nat.zero_add]) (fun i b hi k => by rw [Nat.zero_add]; exact hB i b hi k)
    (Matrix.of fun _ _ => 1) 1
    (fun r k => by rw [iteratedDeriv_zero, cardinalPart_node hx h0]; rfl)
    (fun k j => by rw [iteratedDeriv_zero, cardinal_node hx h0, Matrix.one_apply])
  refine ⟨_, rfl, h.1, fun i D hD => ?_⟩
  have hi : i < B.length := by
    have := (List.getElem?_eq_some_iff.mp hD).1
    rwa [h.1] at this
  refine differentiates_of_cardinal hx h0 (i + 1) (hα.of_le (by exact_mod_cast hi)) D fun k j => ?_
  have := h.2 i D hD k j
  rwa [Nat.zero_add] at this

/-- Given only their number, `poldif` returns that many arrays, which differentiate polynomials of degree below
the number of nodes exactly. -/
theorem C68_poldif_unweighted {n : Nat} (hn : 0 < n) (x : Fin n → ℝ) (m : Nat) (hx : Function.Injective x) :
    ∃ Dm, poldif x (some m) none none = .ok Dm ∧ Dm.length = m ∧
      ∀ i D, Dm[i]? = some D → Differentiates (fun _ => 1) x (i + 1) D := by
  have h := C68_poldif_weighted hn (fun _ => 1) x (List.replicate m fun _ => 0) hx (fun _ => one_ne_zero)
    contDiff_const (fun i b hi k => by
      rw [List.getElem?_replicate] at hi
      split at hi
      · cases hi
        rw [iteratedDeriv_const]
        simp
      · cases hi)
  rw [List.length_replicate] at h
  exact h

/-- The arrays are the only ones with this property, so they do not depend on how they are computed. -/
theorem C68_poldif_unique {n : Nat} (hn : 0 < n) (α : ℝ → ℝ) (x : Fin n → ℝ) (B : List (Fin n → ℝ))
    (hx : Function.Injective x) (h0 : ∀ k, α (x k) ≠ 0) (hα : ContDiff ℝ B.length α)
    (hB : IsWeightDerivatives α x B) (Em : List (Matrix (Fin n) (Fin n) ℝ)) (hlen : Em.length = B.length)
    (hE : ∀ i E, Em[i]? = some E → Differentiates α x (i + 1) E) :
    poldif x none (some fun k => α (x k)) (some B) = .ok Em := by
  obtain ⟨Dm, h1, h2, h3⟩ := C68_poldif_weighted hn α x B hx h0 hα hB
  rw [h1]
  congr 1
  refine List.ext_getElem (h2.trans hlen.symm) fun i h4 h5 => ?_
  exact differentiates_unique hx h0 (i + 1) _ _ (h3 i _ (List.getElem?_eq_getElem h4))
    (hE i _ (List.getElem?_eq_getElem h5))

theorem differentiates_one_pow {n : Nat} (x : Fin n → ℝ) (D : Matrix (Fin n) (Fin n) ℝ)
    (hD : Differentiates (fun _ => 1) x 1 D) (l : Nat) : Differentiates (fun _ => 1) x l (D ^ l) := by
  induction l with
  | zero =>
    intro p _ k
    simp
  | succ l ih =>
    intro p hp k
    have h1 : (D *ᵥ fun j => (fun _ => (1 : ℝ)) (x j) * p.eval (x j)) =
        fun j => (fun _ => (1 : ℝ)) (x j) * (derivative p).eval (x j) := by
      ext j
      rw [hD p hp j, iteratedDeriv_one]
      simp only [one_mul]
      exact Polynomial.deriv p
    rw [pow_succ, ← mulVec_mulVec, h1, ih (derivative p) (lt_of_le_of_lt (degree_derivative_le) hp) k,
      iteratedDeriv_succ']
    congr 1
    ext t
    simp only [one_mul]
    exact (Polynomial.deriv p).symm

/-- Without weights, array `i` is power `i + 1` of the first, and vanishes once `i + 1` reaches the number of
nodes. -/
theorem C68_poldif_powers {n : Nat} (hn : 0 < n) (x : Fin n → ℝ) (m : Nat) (hx : Function.Injective x)
    (Dm : List (Matrix (Fin n) (Fin n) ℝ)) (hDm : poldif x (some m) none none = .ok Dm)
    (D₁ : Matrix (Fin n) (Fin n) ℝ) (hD₁ : Dm[0]? = some D₁) (i : Nat) (D : Matrix (Fin n) (Fin n) ℝ)
    (hD : Dm[i]? = some D) : D = D₁ ^ (i + 1) ∧ (n ≤ i + 1 → D = 0) := by
  obtain ⟨Dm', h1, _, h3⟩ := C68_poldif_unweighted hn x m hx
  rw [h1] at hDm
  cases hDm
  have hne : ∀ k : Fin n, (fun _ : ℝ => (1 : ℝ)) (x k) ≠ 0 := fun _ => one_ne_zero
  refine ⟨differentiates_unique hx hne (i + 1) _ _ (h3 i D hD)
    (differentiates_one_pow x D₁ (h3 0 D₁ hD₁) (i + 1)), fun hni => ?_⟩
  refine differentiates_unique hx hne (i + 1) _ _ (h3 i D hD) fun p hp k => ?_
  have hz : iteratedDeriv (i + 1) (fun t => (1 : ℝ) * p.eval t) = fun t => (derivative^[i + 1] p).eval t := by
    generalize i + 1 = l
    clear * -
    induction l generalizing p with
    | zero => ext t; simp
    | succ l ih =>
      rw [iteratedDeriv_succ', Function.iterate_succ_apply, ← ih (derivative p)]
      congr 1
      ext t
      simp only [one_mul]
      exact Polynomial.deriv p
  rw [hz, zero_mulVec]
  have : derivative^[i + 1] p = 0 := by
    by_cases hp0 : p = 0
    · rw [hp0]; simp
    · refine iterate_derivative_eq_zero (lt_of_lt_of_le ?_ hni)
      exact (natDegree_lt_iff_degree_lt hp0).mpr hp
  simp [this]

/-- Which arguments are rejected. -/
theorem C68_poldif_arguments {n : Nat} (x : Fin n → ℝ) (m : Option Nat) (alpha : Option (Fin n → ℝ))
    (B : Option (List (Fin n → ℝ))) :
    (poldif x m alpha B = .error .runtimeError ↔
      ¬ (m.isSome ∧ alpha.isNone ∧ B.isNone ∨ m.isNone ∧ alpha.isSome ∧ B.isSome)) ∧
    ((m.isSome ∧ alpha.isNone ∧ B.isNone ∨ m.isNone ∧ alpha.isSome ∧ B.isSome) →
      (poldif x m alpha B = .error .valueError ↔ n = 0)) := by
  cases n <;> cases m <;> cases alpha <;> cases B <;> simp [poldif, poldifCore]

/-- Hypotheses met: nodes 0, 1 and 3, and weight function `exp`, two derivatives. -/
example : ∃ Dm, poldif (![0, 1, 3] : Fin 3 → ℝ) none (some fun k => Real.exp ((![0, 1, 3] : Fin 3 → ℝ) k))
    (some [fun _ => 1, fun _ => 1]) = .ok Dm ∧ Dm.length = 2 ∧
    ∀ i D, Dm[i]? = some D → Differentiates Real.exp ![0, 1, 3] (i + 1) D := by
  refine C68_poldif_weighted (by norm_num) Real.exp _ _ ?_ (fun k => (Real.exp_pos _).ne') Real.contDiff_exp ?_
  · intro a b h
    fin_cases a <;> fin_cases b <;> simp_all
  · intro i b hi k
    rw [iteratedDeriv_eq_iterate, Real.iter_deriv_exp, div_self (Real.exp_pos _).ne']
    match i, hi with
    | 0, hi => cases hi; rfl
    | 1, hi => cases hi; rfl

/-- The array for nodes 0 and 1. -/
example : poldif (![0, 1] : Fin 2 → ℝ) (some 1) none none = .ok [!![-1, 1; -1, 1]] := by
  have hB : IsWeightDerivatives (fun _ => 1) (![0, 1] : Fin 2 → ℝ) [fun _ => 0] := by
    intro i b hi k
    match i, hi with
    | 0, hi => cases hi; simp
  refine C68_poldif_unique (by norm_num) (fun _ => 1) ![0, 1] [fun _ => 0] ?_ (fun _ => one_ne_zero)
    contDiff_const hB _ rfl ?_
  · intro a b h
    fin_cases a <;> fin_cases b <;> simp_all
  · intro i E hi p hp k
    match i, hi with
    | 0, hi =>
      cases hi
      have hp1 : p.degree ≤ 1 := by
        have : p.degree < 2 := by exact_mod_cast hp
        exact Order.le_of_lt_succ this
      rw [Polynomial.eq_X_add_C_of_degree_le_one hp1]
      fin_cases k <;> simp [mulVec, dotProduct, Fin.sum_univ_two]

end Modred
