import Verif.Props.Hermite
import Verif.Props.Linalg
import Verif.Lemmas.HermiteRoots
import Mathlib.Order.Interval.Set.Fin
import Mathlib.Order.WellFounded

/-!
# C69: Hermite nodes and differentiation on them

The number of nodes is `N + 1`, so at least one, except in the last section.
-/

namespace Modred

open Matrix Polynomial

theorem two_rpow : (2 : ℝ) ^ (0.5 : ℝ) = √2 := by
  rw [Real.sqrt_eq_rpow]
  norm_num

/-- `herroots` returns all zeros of the Hermite polynomial, each once and in ascending order. -/
theorem C69_herroots (N : Nat) (eigvalsh : Matrix (Fin (N + 1)) (Fin (N + 1)) ℝ → Fin (N + 1) → ℝ)
    (hlib : IsEigvalsh (jacobi (N + 1)) (eigvalsh (jacobi (N + 1)))) :
    StrictMono (herroots (N + 1) eigvalsh) ∧
    ∀ t, IsHermiteZero (N + 1) t ↔ ∃ k, t = herroots (N + 1) eigvalsh k := by
  obtain ⟨hinj, hzero⟩ := jacobi_eigvalsh hlib
  have hpos : (0 : ℝ) < √2 := by positivity
  have hval : ∀ k, herroots (N + 1) eigvalsh k =
      eigvalsh (jacobi (N + 1)) (Tuple.sort (eigvalsh (jacobi (N + 1))) k) / √2 := by
    intro k
    unfold herroots
    rw [two_rpow]
  constructor
  · have hmono : Monotone (eigvalsh (jacobi (N + 1)) ∘ Tuple.sort (eigvalsh (jacobi (N + 1)))) :=
      Tuple.monotone_sort _
    have hs := hmono.strictMono_of_injective (hinj.comp (Equiv.injective _))
    intro i j hij
    rw [hval, hval]
    exact div_lt_div_of_pos_right (hs hij) hpos
  · intro t
    rw [isHermiteZero_iff]
    constructor
    · intro h
      obtain ⟨i, hi⟩ := hermiteFn_zeros hinj hzero _ h
      refine ⟨(Tuple.sort (eigvalsh (jacobi (N + 1)))).symm i, ?_⟩
      rw [hval, Equiv.apply_symm_apply, ← hi]
      field_simp
    · rintro ⟨k, rfl⟩
      rw [hval, mul_div_cancel₀ _ hpos.ne']
      exact hzero _

/-- The nodes do not depend on the library. -/
theorem C69_nodes_unique (N : Nat) (eigvalsh eigvalsh' : Matrix (Fin (N + 1)) (Fin (N + 1)) ℝ → Fin (N + 1) → ℝ)
    (hlib : IsEigvalsh (jacobi (N + 1)) (eigvalsh (jacobi (N + 1))))
    (hlib' : IsEigvalsh (jacobi (N + 1)) (eigvalsh' (jacobi (N + 1)))) :
    herroots (N + 1) eigvalsh = herroots (N + 1) eigvalsh' := by
  obtain ⟨h1, h2⟩ := C69_herroots N eigvalsh hlib
  obtain ⟨h3, h4⟩ := C69_herroots N eigvalsh' hlib'
  refine (h1.range_inj h3).mp ?_
  ext t
  rw [Set.mem_range, Set.mem_range]
  constructor
  · rintro ⟨k, hk⟩
    obtain ⟨j, hj⟩ := (h4 t).mp ((h2 t).mpr ⟨k, hk.symm⟩)
    exact ⟨j, hj.symm⟩
  · rintro ⟨k, hk⟩
    obtain ⟨j, hj⟩ := (h2 t).mp ((h4 t).mpr ⟨k, hk.symm⟩)
    exact ⟨j, hj.symm⟩

theorem isHermiteZero_neg (n : Nat) (t : ℝ) (h : IsHermiteZero n t) : IsHermiteZero n (-t) := by
  unfold IsHermiteZero at *
  have h1 := iteratedDeriv_comp_neg n (fun t : ℝ => Real.exp (-t ^ 2)) (-t)
  simp only [neg_sq, neg_neg] at h1
  rw [h1, h, smul_zero]

/-- The nodes are symmetric about zero. -/
theorem C69_nodes_symmetric (N : Nat) (eigvalsh : Matrix (Fin (N + 1)) (Fin (N + 1)) ℝ → Fin (N + 1) → ℝ)
    (hlib : IsEigvalsh (jacobi (N + 1)) (eigvalsh (jacobi (N + 1)))) (k : Fin (N + 1)) :
    herroots (N + 1) eigvalsh k.rev = -herroots (N + 1) eigvalsh k := by
  obtain ⟨h1, h2⟩ := C69_herroots N eigvalsh hlib
  have h3 : StrictMono fun k : Fin (N + 1) => -herroots (N + 1) eigvalsh k.rev := by
    intro i j hij
    exact neg_lt_neg (h1 (Fin.rev_lt_rev.mpr hij))
  have h4 : (fun k : Fin (N + 1) => -herroots (N + 1) eigvalsh k.rev) = herroots (N + 1) eigvalsh := by
    refine (h3.range_inj h1).mp ?_
    ext t
    rw [Set.mem_range, Set.mem_range]
    constructor
    · rintro ⟨k, hk⟩
      obtain ⟨j, hj⟩ := (h2 t).mp (by
        rw [← hk]
        exact isHermiteZero_neg _ _ ((h2 _).mpr ⟨_, rfl⟩))
      exact ⟨j, hj.symm⟩
    · rintro ⟨k, hk⟩
      obtain ⟨j, hj⟩ := (h2 (-t)).mp (isHermiteZero_neg _ _ ((h2 t).mpr ⟨k, hk.symm⟩))
      refine ⟨j.rev, ?_⟩
      rw [Fin.rev_rev]
      have e : herroots (N + 1) eigvalsh j = -t := hj.symm
      exact neg_eq_iff_eq_neg.mpr e
  have h5 := congrFun h4 k
  exact neg_eq_iff_eq_neg.mp h5

/-- Change of variables. -/
theorem differentiates_scale {n : Nat} {α : ℝ → ℝ} {x : Fin n → ℝ} {l : Nat} {D : Matrix (Fin n) (Fin n) ℝ}
    (hα : ContDiff ℝ l α) (b : ℝ) (hb : b ≠ 0) (hD : Differentiates α x l D) :
    Differentiates (fun t => α (b * t)) (fun k => x k / b) l (b ^ l • D) := by
  intro p hp k
  let q : ℝ[X] := p.comp (C b⁻¹ * X)
  have hq : q.degree < n := by
    refine lt_of_le_of_lt ?_ hp
    by_cases h0 : p = 0
    · simp [q, h0]
    · have h1 : q.natDegree = p.natDegree := by
        rw [natDegree_comp, natDegree_C_mul_X _ (inv_ne_zero hb), mul_one]
      rw [degree_eq_natDegree h0, ← h1]
      exact degree_le_natDegree
  have hqe : ∀ s, q.eval s = p.eval (s / b) := fun s => by simp [q, div_eq_inv_mul]
  have h1 : (fun j => (fun t => α (b * t)) (x j / b) * p.eval (x j / b)) = fun j => α (x j) * q.eval (x j) := by
    ext j
    dsimp only
    rw [hqe, mul_div_cancel₀ _ hb]
  have h2 : (fun t => (fun t => α (b * t)) t * p.eval t) = fun t => (fun s => α s * q.eval s) (b * t) := by
    ext t
    dsimp only
    rw [hqe, mul_div_cancel_left₀ _ hb]
  have hc : ContDiff ℝ l fun s => α s * q.eval s := hα.mul (by simpa using q.contDiff_aeval (𝕜 := ℝ) l)
  rw [h1, h2, iteratedDeriv_comp_const_mul hc, smul_mulVec, Pi.smul_apply, smul_eq_mul, hD q hq k]
  dsimp only
  rw [mul_div_cancel₀ _ hb]

theorem herdif_beta_isWeightDerivatives {n : Nat} (x : Fin n → ℝ) (m : Nat) :
    IsWeightDerivatives gauss x ((List.range m).map fun i => herdifBeta x (i + 1)) := by
  intro i b hi k
  rw [List.getElem?_map, Option.map_eq_some_iff] at hi
  obtain ⟨i', h1, rfl⟩ := hi
  obtain ⟨_, h2⟩ := List.getElem?_eq_some_iff.mp h1
  rw [List.getElem_range] at h2
  subst h2
  rw [herdifBeta_eq, iteratedDeriv_gauss, mul_div_cancel_right₀ _ (gauss_pos _).ne']

/-- `herdif` returns the zeros of the Hermite polynomial scaled by `b`, and as many arrays as are asked for;
array `i` gives derivatives of order `i + 1` of a Gaussian times a polynomial, exactly. -/
theorem C69_herdif (N m : Nat) (hm : 0 < m) (b : ℝ) (hb : b ≠ 0)
    (eigvalsh : Matrix (Fin (N + 1)) (Fin (N + 1)) ℝ → Fin (N + 1) → ℝ)
    (hlib : IsEigvalsh (jacobi (N + 1)) (eigvalsh (jacobi (N + 1)))) :
    ∃ (x : Fin (N + 1) → ℝ) (Dm : List (Matrix (Fin (N + 1)) (Fin (N + 1)) ℝ)),
      herdif (N + 1) m b eigvalsh = .ok (x, Dm) ∧ Dm.length = m ∧
      (∀ t, IsHermiteZero (N + 1) (b * t) ↔ ∃ k, t = x k) ∧ (0 < b → StrictMono x) ∧
      ∀ i D, Dm[i]? = some D → Differentiates (fun t => Real.exp (-(b * t) ^ 2 / 2)) x (i + 1) D := by
  obtain ⟨h1, h2⟩ := C69_herroots N eigvalsh hlib
  obtain ⟨Dm, h3, h4, h5⟩ := C68_poldif_weighted (Nat.succ_pos N) gauss (herroots (N + 1) eigvalsh)
    ((List.range m).map fun i => herdifBeta (herroots (N + 1) eigvalsh) (i + 1)) h1.injective
    (fun k => (gauss_pos _).ne') (gauss_contDiff _) (herdif_beta_isWeightDerivatives _ m)
  rw [List.length_map, List.length_range] at h4
  refine ⟨fun k => herroots (N + 1) eigvalsh k / b, Dm.mapIdx fun i D => b ^ (i + 1) • D, ?_, ?_, ?_, ?_, ?_⟩
  · unfold herdif
    dsimp only
    rw [if_neg hm.ne']
    unfold gauss at h3
    rw [show poldif (herroots (N + 1) eigvalsh) none
        (some fun k => Real.exp (-herroots (N + 1) eigvalsh k ^ 2 / 2))
        (some ((List.range m).map fun i => herdifBeta (herroots (N + 1) eigvalsh) (i + 1))) = .ok Dm from h3]
    rfl
  · rw [List.length_mapIdx, h4]
  · intro t
    rw [h2]
    constructor
    · rintro ⟨k, hk⟩
      exact ⟨k, by dsimp only; rw [← hk, mul_div_cancel_left₀ _ hb]⟩
    · rintro ⟨k, hk⟩
      exact ⟨k, by rw [hk, mul_div_cancel₀ _ hb]⟩
  · intro hb' i j hij
    exact div_lt_div_of_pos_right (h1 hij) hb'
  · intro i D hD
    rw [List.getElem?_mapIdx, Option.map_eq_some_iff] at hD
    obtain ⟨D', hD', rfl⟩ := hD
    exact differentiates_scale (gauss_contDiff _) b hb (h5 i D' hD')

/-- For no derivatives at all `IndexError` is raised. -/
theorem C69_herdif_no_derivatives (n : Nat) (b : ℝ)
    (eigvalsh : Matrix (Fin (n - 1 + 1)) (Fin (n - 1 + 1)) ℝ → Fin (n - 1 + 1) → ℝ) :
    herdif n 0 b eigvalsh = .error .indexError := rfl

/-- VIOLATION: for degree zero, whose polynomial has no zeros, `herroots` returns one node, which is zero. -/
theorem C69_degree_zero_violation (eigvalsh : Matrix (Fin 1) (Fin 1) ℝ → Fin 1 → ℝ)
    (hlib : IsEigvalsh (jacobi 0) (eigvalsh (jacobi 0))) :
    (∀ t, ¬ IsHermiteZero 0 t) ∧ herroots 0 eigvalsh = fun _ => 0 := by
  constructor
  · intro t h
    rw [isHermiteZero_iff, hermiteFn_zero] at h
    exact one_ne_zero h
  · have hJ : jacobi 0 = 0 := by
      ext i j
      have hi := i.isLt
      have hj := j.isLt
      unfold jacobi
      rw [Matrix.of_apply, if_neg (by omega), if_neg (by omega)]
      rfl
    have hw : ∀ i, eigvalsh (jacobi 0) i = 0 := by
      intro i
      obtain ⟨V, h⟩ := hlib
      have h1 := eigh_columns h i
      have h2 := eigh_dot h i i
      rw [if_pos rfl] at h2
      rw [show jacobi 0 *ᵥ (fun k => V k i) = 0 by rw [hJ]; exact zero_mulVec _] at h1
      rw [Fin.sum_univ_one] at h2
      have h3 := congrFun h1 0
      rw [Pi.zero_apply, Pi.smul_apply, smul_eq_mul] at h3
      dsimp only at h2 h3
      rcases mul_eq_zero.mp h3.symm with h4 | h4
      · exact h4
      · rw [h4, zero_mul] at h2
        exact absurd h2 (by norm_num)
    ext i
    unfold herroots
    rw [show ∀ k, eigvalsh (jacobi 0) k = 0 from hw, zero_div]

/-- The library can meet the assumption, for any number of nodes. -/
theorem C69_library_exists (n : Nat) :
    ∃ eigvalsh : Matrix (Fin (n - 1 + 1)) (Fin (n - 1 + 1)) ℝ → Fin (n - 1 + 1) → ℝ,
      IsEigvalsh (jacobi n) (eigvalsh (jacobi n)) := by
  obtain ⟨o, ho⟩ := exists_isEigh (jacobi n) (jacobi_isHermitian n)
  exact ⟨fun _ => o.w, o.V, ho⟩

/-- Five nodes, two derivatives, scale two. -/
example : ∃ eigvalsh, ∃ (x : Fin 5 → ℝ) (Dm : List (Matrix (Fin 5) (Fin 5) ℝ)),
    herdif 5 2 2 eigvalsh = .ok (x, Dm) ∧ Dm.length = 2 ∧ StrictMono x := by
  obtain ⟨eigvalsh, h⟩ := C69_library_exists 5
  obtain ⟨x, Dm, h1, h2, _, h3, _⟩ := C69_herdif 4 2 (by norm_num) 2 (by norm_num) eigvalsh h
  exact ⟨eigvalsh, x, Dm, h1, h2, h3 (by norm_num)⟩

/-- The nodes for degree two are plus and minus one over the square root of two. -/
example (eigvalsh : Matrix (Fin 2) (Fin 2) ℝ → Fin 2 → ℝ)
    (hlib : IsEigvalsh (jacobi 2) (eigvalsh (jacobi 2))) :
    herroots 2 eigvalsh 0 = -(1 / √2) ∧ herroots 2 eigvalsh 1 = 1 / √2 := by
  obtain ⟨h1, h2⟩ := C69_herroots 1 eigvalsh hlib
  have hs := C69_nodes_symmetric 1 eigvalsh hlib 1
  have hz := (isHermiteZero_iff _ _).mp ((h2 _).mpr ⟨1, rfl⟩)
  have hlt : herroots 2 eigvalsh 0 < herroots 2 eigvalsh 1 := h1 (by decide : (0 : Fin 2) < 1)
  have hs' : herroots 2 eigvalsh 0 = -herroots 2 eigvalsh 1 := hs
  have hz' : hermiteFn 2 (√2 * herroots 2 eigvalsh 1) = 0 := hz
  rw [hermiteFn_succ_succ, hermiteFn_one, hermiteFn_zero] at hz'
  have hp : 0 < herroots 2 eigvalsh 1 := by linarith
  have hq : (0 : ℝ) < √2 := by positivity
  have h5 : (√2 * herroots 2 eigvalsh 1 - 1) * (√2 * herroots 2 eigvalsh 1 + 1) = 0 := by
    push_cast at hz'
    linear_combination hz'
  have h6 : √2 * herroots 2 eigvalsh 1 + 1 ≠ 0 := by positivity
  have h7 : √2 * herroots 2 eigvalsh 1 = 1 := by
    have := (mul_eq_zero.mp h5).resolve_right h6
    linarith
  have h8 : herroots 2 eigvalsh 1 = 1 / √2 := by
    rw [eq_div_iff hq.ne', mul_comm]
    exact h7
  exact ⟨by rw [hs', h8], h8⟩

end Modred
