import Verif.Spec.BalancedDual
import Verif.Props.Balanced
import Verif.Props.DualModel

/-!
# C130: balanced truncation of the adjoint system gives the dual model
-/

namespace Modred

open Matrix

section Determined

variable {n m : Nat} {H : Matrix (Fin n) (Fin m) ℝ} {lib lib' : Matrix (Fin n) (Fin m) ℝ → SvdOut ℝ n m} {t : ℝ}

/-- The inverse of the first singular triples does not depend on the library if equal singular values are not separated. -/
theorem firstInverse_determined (h : IsSvd H (lib H)) (h' : IsSvd H (lib' H)) (ht : 0 ≤ t) (e e' : Svd ℝ n m)
    (he : utilSvd lib H (some t) none = .ok e) (he' : utilSvd lib' H (some t) none = .ok e') :
    e'.r = e.r ∧ (∀ (i' : Fin e'.r) (i : Fin e.r), i'.val = i.val → e'.S i' = e.S i) ∧
    ∀ ns, (∀ i j : Fin e.r, i.val < ns → ns ≤ j.val → e.S j < e.S i) →
      firstCols e'.V ns * diagonal (fun i => 1 / firstEntries e'.S ns i) * (firstCols e'.U ns)ᴴ =
        firstCols e.V ns * diagonal (fun i => 1 / firstEntries e.S ns i) * (firstCols e.U ns)ᴴ := by
  classical
  have hr : ∀ t ∈ (none : Option ℝ), 0 ≤ t := by simp
  obtain ⟨k1, k2, k3⟩ := balance_determined (𝕜 := ℝ) (a := 1) (b := 1) (R := (1 : Matrix (Fin n) (Fin n) ℝ))
    (Q := (1 : Matrix (Fin m) (Fin m) ℝ)) h h' (by simp) (by simp) (by simp) one_ne_zero one_ne_zero ht hr e e' he (by simpa using he')
  have hS : ∀ i, 0 < e.S i := fun i => lt_of_le_of_lt ht (utilSvd_positive lib H none t hr h e he i)
  have hS' : ∀ i, 0 < e'.S i := fun i => lt_of_le_of_lt ht (utilSvd_positive lib' H none t hr h' e' he' i)
  have k2' : ∀ (i' : Fin e'.r) (i : Fin e.r), i'.val = i.val → e'.S i' = e.S i := by
    intro i' i hi
    have := k2 i' i hi
    rwa [norm_one, one_mul, one_mul] at this
  refine ⟨k1, k2', fun ns gap => ?_⟩
  let P : ℝ → Prop := fun x => ∃ i : Fin e.r, i.val < ns ∧ e.S i = x
  have hP : ∀ i : Fin e.r, i.val < ns ↔ P (e.S i) := by
    intro i
    constructor
    · intro hi
      exact ⟨i, hi, rfl⟩
    · rintro ⟨j, hj, hij⟩
      by_contra hc
      exact (gap j i hj (not_lt.mp hc)).ne hij.symm
  have hP' : ∀ i : Fin e'.r, i.val < ns ↔ P (e'.S i) := by
    intro i
    rw [k2' i ⟨i, k1 ▸ i.isLt⟩ rfl]
    exact hP ⟨i, k1 ▸ i.isLt⟩
  rw [firstCols_functions e.V e.U e.S ns P hP fun x => 1 / x, firstCols_functions e'.V e'.U e'.S ns P hP' fun x => 1 / x]
  have h1 := (k3 (fun x => if P x then 1 else 0) (fun x => if P x then 1 else 0) fun x _ => by simp).1
  rw [build_two hS _ _ fun x => if P x then 1 else 0, build_two hS' _ _ fun x => if P x then 1 else 0] at h1
  simp only [star_one, mul_one, one_smul, conjTranspose_one, Matrix.one_mul, Matrix.mul_one] at h1
  have e1 : ∀ {r : Nat} (S : Fin r → ℝ), (fun i => (if P (S i) then (1 : ℝ) else 0) / ((S i : ℝ) : ℝ)) =
      fun i => if P (S i) then 1 / S i else 0 := by
    intro r S
    funext i
    split
    · rfl
    · rw [zero_div]
  have e2 := e1 e.S
  have e3 := e1 e'.S
  simp only [RCLike.ofReal_real_eq_id, id_eq] at h1
  rw [e2, e3] at h1
  exact h1

end Determined

section Dual

variable {n p q : Nat} (A : Matrix (Fin n) (Fin n) ℝ) (B : Matrix (Fin n) (Fin p) ℝ) (C : Matrix (Fin q) (Fin n) ℝ)

/-- Responses of a projection depend on the product of the bases only. -/
theorem projection_response {r : Nat} (SL SR : Matrix (Fin n) (Fin r) ℝ) (k : Nat) :
    C * SR * (SLᵀ * A * SR) ^ k * (SLᵀ * B) = C * ((SR * SLᵀ * A) ^ k * (SR * SLᵀ)) * B := by
  have h : ∀ k, SR * (SLᵀ * A * SR) ^ k = (SR * SLᵀ * A) ^ k * SR := by
    intro k
    induction k with
    | zero => simp
    | succ k ih =>
      rw [pow_succ, ← Matrix.mul_assoc, ih, pow_succ]
      simp only [Matrix.mul_assoc]
  rw [Matrix.mul_assoc C, h]
  simp only [Matrix.mul_assoc]

theorem transposed_powers (N : Matrix (Fin n) (Fin n) ℝ) (k : Nat) :
    (Nᵀ * Aᴴ) ^ k * Nᵀ = ((N * A) ^ k * N)ᵀ := by
  have h : ∀ k, (N * A) ^ k * N = N * (A * N) ^ k := by
    intro k
    induction k with
    | zero => simp
    | succ k ih =>
      rw [pow_succ', Matrix.mul_assoc, ih, pow_succ']
      simp only [Matrix.mul_assoc]
  rw [h, transpose_mul, transpose_pow, transpose_mul, conjTranspose_eq_transpose_of_trivial]

variable (lyapunov : ∀ {n : Nat}, Matrix (Fin n) (Fin n) ℝ → Matrix (Fin n) (Fin n) ℝ → Matrix (Fin n) (Fin n) ℝ)
  (svd : ∀ {m n : Nat}, Matrix (Fin m) (Fin n) ℝ → SvdOut ℝ m n) (order : Option Nat)

/-- **C130.** `balanced_truncation` of the adjoint system, with inputs and outputs exchanged, returns the same singular values,
whatever the Lyapunov solver returns.  If equal singular values are not separated, the impulse response of its model is the
transpose of that of the model of the system, at all times. -/
theorem C130_balanced_truncation (hlib : ∀ {m n : Nat} (a : Matrix (Fin m) (Fin n) ℝ), IsSvd a (svd a)) (res res' : Balanced ℝ)
    (h : balancedTruncation lyapunov svd A B C order = .ok res)
    (h' : balancedTruncation lyapunov svd Aᴴ Cᴴ Bᴴ order = .ok res') :
    SameSingVals res res' ∧ (res.Separated order → DualResponse res.model res'.model) := by
  obtain ⟨sc, so, hsc, hso, s, hs, SL, SR, hSL, hSR, rfl⟩ := balancedTruncation_ok lyapunov svd A B C order res h
  obtain ⟨sc', so', hsc', hso', s', hs', SL', SR', hSL', hSR', rfl⟩ := balancedTruncation_ok lyapunov svd Aᴴ Cᴴ Bᴴ order res' h'
  rw [conjTranspose_conjTranspose, hso] at hsc'
  rw [conjTranspose_conjTranspose, conjTranspose_conjTranspose, hsc] at hso'
  cases hsc'
  cases hso'
  generalize so.U * diagPow (𝕜 := ℝ) so.S 0.5 = Lo at *
  generalize sc.U * diagPow (𝕜 := ℝ) sc.S 0.5 = Lc at *
  have hT : Lcᵀ * Lo = (Loᵀ * Lc)ᴴ := by
    rw [conjTranspose_eq_transpose_of_trivial, transpose_mul, transpose_transpose]
  rw [hT] at hs'
  have hx := utilSvd_dualLib svd (Loᵀ * Lc) (some svdAtol) none s' hs'
  obtain ⟨k1, k2, k3⟩ := firstInverse_determined (hlib (Loᵀ * Lc)) (dualLib_isSvd svd _ (hlib _)) svdAtol_pos.le s s'.exchange hs hx
  change s'.r = s.r at k1
  refine ⟨⟨k1, fun i i' hi => k2 i' i hi⟩, fun hsep => ?_⟩
  have hnum : order.getD s'.r = order.getD s.r := by rw [k1]
  have hk := k3 (order.getD s.r) hsep
  have hpos := utilSvd_positive svd _ none svdAtol (by simp) (hlib _) s hs
  have hpos' := utilSvd_positive svd _ none svdAtol (by simp) (hlib _) s' hs'
  have root : ∀ {r : Nat} (E : Fin r → ℝ), (∀ i, 0 < E i) →
      diagPow (𝕜 := ℝ) E (-0.5) * diagPow (𝕜 := ℝ) E (-0.5) = diagonal fun i => 1 / E i := by
    intro r E hE
    rw [diagPow_mul _ hE, show (-0.5 + -0.5 : ℝ) = -1 by norm_num]
    unfold diagPow
    congr 1
    ext i
    simp [Real.rpow_neg_one]
  have ht : ∀ {r : Nat} (E : Fin r → ℝ) e, (diagPow (𝕜 := ℝ) E e)ᵀ = diagPow (𝕜 := ℝ) E e := fun E e => by
    rw [← conjTranspose_eq_transpose_of_trivial, diagPow_conjTranspose]
  have hN : SR * SLᵀ = Lc * (firstCols s.V (order.getD s.r) * diagonal (fun i => 1 / firstEntries s.S (order.getD s.r) i) *
      (firstCols s.U (order.getD s.r))ᴴ) * Loᵀ := by
    rw [← root (firstEntries s.S (order.getD s.r)) fun i => svdAtol_pos.trans (hpos _), hSR, hSL, conjTranspose_eq_transpose_of_trivial]
    simp only [transpose_mul, ht, Matrix.mul_assoc]
  have hN' : SR' * SL'ᵀ = (SR * SLᵀ)ᵀ := by
    have hk' : firstCols s'.U (order.getD s'.r) * diagonal (fun i => 1 / firstEntries s'.S (order.getD s'.r) i) *
        (firstCols s'.V (order.getD s'.r))ᴴ = firstCols s.V (order.getD s.r) *
          diagonal (fun i => 1 / firstEntries s.S (order.getD s.r) i) * (firstCols s.U (order.getD s.r))ᴴ := by
      rw [hnum]
      exact hk
    rw [hN, ← hk', ← root (firstEntries s'.S (order.getD s'.r)) fun i => svdAtol_pos.trans (hpos' _), hSR', hSL', conjTranspose_eq_transpose_of_trivial]
    simp only [transpose_mul, transpose_transpose, ht, Matrix.mul_assoc]
  refine ⟨?_, rfl, rfl, fun k => ?_⟩
  · dsimp only
    rw [k1]
  · dsimp only
    rw [projection_response, projection_response, hN', transposed_powers]
    ext i j
    simp only [conjTranspose_eq_transpose_of_trivial, transpose_mul, Matrix.mul_assoc, submatrix_apply]
    rfl

end Dual

/-- Two states that are stable, observed and driven differently: the models of the system and of its adjoint have the same singular
values, and without an order their responses are transposes of each other. -/
example : ∃ (lyapunov : ∀ {n : Nat}, Matrix (Fin n) (Fin n) ℝ → Matrix (Fin n) (Fin n) ℝ → Matrix (Fin n) (Fin n) ℝ)
    (svd : ∀ {m n : Nat}, Matrix (Fin m) (Fin n) ℝ → SvdOut ℝ m n) (res res' : Balanced ℝ),
    IsLyapunovSolver lyapunov ∧ (∀ {m n : Nat} (a : Matrix (Fin m) (Fin n) ℝ), IsSvd a (svd a)) ∧
    balancedTruncation lyapunov svd (!![1 / 2, 1; 0, 1 / 3] : Matrix (Fin 2) (Fin 2) ℝ) !![1; 1] !![1, 0] none = .ok res ∧
    balancedTruncation lyapunov svd (!![1 / 2, 1; 0, 1 / 3] : Matrix (Fin 2) (Fin 2) ℝ)ᴴ (!![1, 0])ᴴ (!![1; 1])ᴴ none = .ok res' ∧
    SameSingVals res res' ∧ DualResponse res.model res'.model := by
  obtain ⟨l, hl⟩ := exists_lyapunovSolver (𝕜 := ℝ)
  obtain ⟨svd, hsvd⟩ : ∃ svd : ∀ {m n : Nat}, Matrix (Fin m) (Fin n) ℝ → SvdOut ℝ m n,
      ∀ {m n : Nat} (a : Matrix (Fin m) (Fin n) ℝ), IsSvd a (svd a) :=
    ⟨fun a => (exists_isSvd a).choose, fun a => (exists_isSvd a).choose_spec⟩
  generalize (!![1 / 2, 1; 0, 1 / 3] : Matrix (Fin 2) (Fin 2) ℝ) = A
  generalize (!![1; 1] : Matrix (Fin 2) (Fin 1) ℝ) = B
  generalize (!![1, 0] : Matrix (Fin 1) (Fin 2) ℝ) = C
  obtain ⟨res, h⟩ := C42_no_error l svd A B C none
  obtain ⟨res', h'⟩ := C42_no_error l svd Aᴴ Cᴴ Bᴴ none
  obtain ⟨h1, h2⟩ := C130_balanced_truncation (A := A) (B := B) (C := C) l svd none hsvd res res' h h'
  exact ⟨l, svd, res, res', hl, hsvd, h, h', h1, h2 fun i j _ hj => absurd j.isLt (not_lt.mpr hj)⟩

end Modred
