import Verif.Spec.Approx
import Verif.Lemmas.Balance

/-!
# Errors of scaled arrays
-/

namespace Modred

open Matrix

variable {𝕜 : Type*} [RCLike 𝕜]

section

variable {m n : Type*} {ε : ℝ}

theorem EntriesWithin.refl (h : 0 ≤ ε) (a : Matrix m n 𝕜) : EntriesWithin ε a a := by
  intro i j
  rw [sub_self, norm_zero]
  exact h

theorem EntriesWithin.of_eq {a b : Matrix m n 𝕜} (h : a = b) : EntriesWithin 0 a b :=
  h ▸ EntriesWithin.refl le_rfl a

theorem EntriesWithin.submatrix {m' n' : Type*} {a b : Matrix m n 𝕜} (h : EntriesWithin ε a b) (f : m' → m)
    (g : n' → n) : EntriesWithin ε (a.submatrix f g) (b.submatrix f g) := fun i j => h (f i) (g j)

theorem EntriesWithin.conjTranspose {a b : Matrix m n 𝕜} (h : EntriesWithin ε a b) :
    EntriesWithin ε aᴴ bᴴ := by
  intro i j
  rw [conjTranspose_apply, conjTranspose_apply, ← star_sub, norm_star]
  exact h j i

end

theorem rpow_neg_half {x : ℝ} (hx : 0 < x) : x ^ (-0.5 : ℝ) = (Real.sqrt x)⁻¹ := by
  rw [Real.sqrt_eq_rpow, ← Real.rpow_neg hx.le]
  norm_num

theorem rpow_half {x : ℝ} : x ^ (0.5 : ℝ) = Real.sqrt x := by
  rw [Real.sqrt_eq_rpow]
  norm_num

section

variable {r : Nat} {ε : ℝ} {x : Fin r → ℝ}

/-- Scaling on both sides. -/
theorem scaled_within (hx : ∀ i, 0 < x i) {M : Matrix (Fin r) (Fin r) 𝕜}
    (h : EntriesWithin ε M (diagonal fun i => (x i : 𝕜))) (i j : Fin r) :
    ‖(diagPow (𝕜 := 𝕜) x (-0.5) * M * diagPow (𝕜 := 𝕜) x (-0.5)) i j - if i = j then 1 else 0‖ ≤
      ε / Real.sqrt (x i * x j) := by
  have hi := hx i
  have hj := hx j
  have hsi : 0 < Real.sqrt (x i) := Real.sqrt_pos.mpr hi
  have hsj : 0 < Real.sqrt (x j) := Real.sqrt_pos.mpr hj
  have key : (diagPow (𝕜 := 𝕜) x (-0.5) * M * diagPow (𝕜 := 𝕜) x (-0.5)) i j - (if i = j then 1 else 0) =
      (((Real.sqrt (x i))⁻¹ * (Real.sqrt (x j))⁻¹ : ℝ) : 𝕜) * (M i j - diagonal (fun i => (x i : 𝕜)) i j) := by
    unfold diagPow
    rw [mul_diagonal, diagonal_mul, rpow_neg_half hi, rpow_neg_half hj, diagonal_apply]
    by_cases hij : i = j
    · subst hij
      rw [if_pos rfl, if_pos rfl, mul_sub, ← RCLike.ofReal_mul]
      have h1 : (Real.sqrt (x i))⁻¹ * (Real.sqrt (x i))⁻¹ * x i = 1 := by
        rw [← mul_inv, Real.mul_self_sqrt hi.le, inv_mul_cancel₀ hi.ne']
      rw [h1]
      push_cast
      ring
    · rw [if_neg hij, if_neg hij]
      push_cast
      ring
  rw [key, norm_mul, RCLike.norm_ofReal, abs_of_pos (by positivity), Real.sqrt_mul hi.le, ← mul_inv,
    div_eq_inv_mul]
  exact mul_le_mul_of_nonneg_left (h i j) (by positivity)

/-- Scaling on the left. -/
theorem scaled_left_within {q : Nat} (hx : ∀ i, 0 < x i) {M P : Matrix (Fin r) (Fin q) 𝕜}
    (h : EntriesWithin ε M (diagonal (fun i => (x i : 𝕜)) * P)) (i : Fin r) (j : Fin q) :
    ‖(diagPow (𝕜 := 𝕜) x (-0.5) * M) i j - (diagPow (𝕜 := 𝕜) x 0.5 * P) i j‖ ≤ ε / Real.sqrt (x i) := by
  have hi := hx i
  have hsi : 0 < Real.sqrt (x i) := Real.sqrt_pos.mpr hi
  have key : (diagPow (𝕜 := 𝕜) x (-0.5) * M) i j - (diagPow (𝕜 := 𝕜) x 0.5 * P) i j =
      (((Real.sqrt (x i))⁻¹ : ℝ) : 𝕜) * (M i j - (diagonal (fun i => (x i : 𝕜)) * P) i j) := by
    unfold diagPow
    rw [diagonal_mul, diagonal_mul, diagonal_mul, rpow_neg_half hi, rpow_half, mul_sub, ← mul_assoc,
      ← RCLike.ofReal_mul]
    congr 3
    field_simp
    rw [Real.sq_sqrt hi.le]
  rw [key, norm_mul, RCLike.norm_ofReal, abs_of_pos (by positivity), div_eq_inv_mul]
  exact mul_le_mul_of_nonneg_left (h i j) (by positivity)

/-- Energies. -/
theorem energy_within {q : Nat} (hx : ∀ i, 0 < x i) {V : Matrix (Fin q) (Fin r) 𝕜} {η : ℝ}
    (h : EntriesWithin η (Vᴴ * V) 1) (i : Fin r) :
    |∑ j, ‖(diagPow (𝕜 := 𝕜) x 0.5 * Vᴴ) i j‖ ^ 2 - x i| ≤ η * x i := by
  have hi := hx i
  have h1 : ∀ j, ‖(diagPow (𝕜 := 𝕜) x 0.5 * Vᴴ) i j‖ ^ 2 = x i * ‖V j i‖ ^ 2 := by
    intro j
    unfold diagPow
    rw [diagonal_mul, rpow_half, norm_mul, RCLike.norm_ofReal, abs_of_nonneg (Real.sqrt_nonneg _), mul_pow,
      Real.sq_sqrt hi.le, conjTranspose_apply, norm_star]
  have h2 : (Vᴴ * V) i i = ((∑ j, ‖V j i‖ ^ 2 : ℝ) : 𝕜) := by
    rw [Matrix.mul_apply]
    push_cast
    refine Finset.sum_congr rfl fun j _ => ?_
    rw [conjTranspose_apply, RCLike.star_def, RCLike.conj_mul]
  have h3 := h i i
  rw [h2, one_apply_eq, ← RCLike.ofReal_one, ← RCLike.ofReal_sub, RCLike.norm_ofReal] at h3
  rw [Finset.sum_congr rfl fun j _ => h1 j, ← Finset.mul_sum]
  rw [show x i * ∑ j, ‖V j i‖ ^ 2 - x i = x i * (∑ j, ‖V j i‖ ^ 2 - 1) by ring, abs_mul, abs_of_pos hi,
    mul_comm η]
  exact mul_le_mul_of_nonneg_left h3 hi.le

end

theorem one_comp {m n : Type*} [DecidableEq m] [DecidableEq n] {f : m → n} (hf : Function.Injective f)
    (i j : m) : (1 : Matrix n n 𝕜) (f i) (f j) = (1 : Matrix m m 𝕜) i j := by
  simp [Matrix.one_apply, hf.eq_iff]

theorem diagonal_comp {m n : Type*} [DecidableEq m] [DecidableEq n] {f : m → n} (hf : Function.Injective f)
    (d : n → 𝕜) (i j : m) : diagonal d (f i) (f j) = diagonal (fun i => d (f i)) i j := by
  simp [diagonal_apply, hf.eq_iff]

/-- A lower bound of the values gives a bound of the errors that does not depend on the mode. -/
theorem ModesWithin.uniform {k l r : Nat} {ε c : ℝ} {x : Fin r → ℝ} {ips : Fin k → Fin l → 𝕜}
    {sel : Fin k → Fin r} {sel' : Fin l → Fin r} (h : ModesWithin ε x ips sel sel') (hε : 0 ≤ ε) (hc : 0 < c)
    (hx : ∀ i, c ≤ x i) (a : Fin k) (b : Fin l) :
    ‖ips a b - if sel a = sel' b then 1 else 0‖ ≤ ε / c := by
  refine le_trans (h a b) (div_le_div_of_nonneg_left hε hc ?_)
  exact Real.le_sqrt_of_sq_le (by rw [sq]; exact mul_le_mul (hx _) (hx _) hc.le (hc.le.trans (hx _)))

section

variable {n : Nat} (lib : Matrix (Fin n) (Fin n) 𝕜 → EighOut 𝕜 n)
  (argsort : (Fin n → ℝ) → Equiv.Perm (Fin n)) (a : Matrix (Fin n) (Fin n) 𝕜)
  (atol rtol : Option ℝ) (pd : Bool) {ε η : ℝ}

/-- Results of `util.eigh`. -/
theorem utilEigh_within (h : IsEighUpTo ε η a (lib a)) (res : Eigh 𝕜 n)
    (hres : utilEigh lib argsort a atol rtol pd = .ok res) :
    EntriesWithin η (res.Vᴴ * res.V) 1 ∧
    EntriesWithin ε (res.Vᴴ * a * res.V) (diagonal fun i => (res.w i : 𝕜)) ∧
    EntriesWithin ε (a * res.V) (res.V * diagonal fun i => (res.w i : 𝕜)) := by
  obtain ⟨atol', num, -, -, rfl⟩ := utilEigh_cases lib argsort a atol rtol pd res hres
  set f : Fin (min num n) → Fin n := fun i => descending argsort (lib a).w (Fin.castLE (Nat.min_le_right num n) i)
    with hf
  have hinj : Function.Injective f := (Equiv.injective _).comp (Fin.castLE_injective _)
  refine ⟨?_, ?_, ?_⟩
  · intro i j
    have := h.orthonormal (f i) (f j)
    rw [one_comp hinj] at this
    exact this
  · intro i j
    have := h.diagonalizes (f i) (f j)
    rw [diagonal_comp hinj] at this
    exact this
  · intro i j
    have := h.eigen i (f j)
    rw [mul_diagonal] at this ⊢
    exact this

/-- Eigenvalues that are returned are larger than the absolute tolerance, and than the relative tolerance
times the largest of all. -/
theorem utilEigh_lower (t : ℝ) (ht : 0 ≤ t) (hr : ∀ t ∈ rtol, 0 ≤ t) (hs : IsArgsort argsort) (res : Eigh 𝕜 n)
    (hres : utilEigh lib argsort a (some t) rtol true = .ok res) (i : Fin res.r) :
    t < res.w i ∧ ∀ ρ ∈ rtol, ∀ k, ρ * |(lib a).w k| < res.w i := by
  have hpos := C20_positive_partial lib argsort a rtol t ht hs hr res hres i
  obtain ⟨p, hp, hle, hk, hv⟩ := C20_kept_iff lib argsort a (some t) rtol true hs hr res hres
  have hi : i.val < n := lt_of_lt_of_le i.isLt hle
  obtain ⟨⟨h1, h2⟩, -⟩ := (hk ⟨i, hi⟩).mp i.isLt
  rw [(hv i ⟨i, hi⟩ rfl).1] at hpos ⊢
  rw [abs_of_pos hpos] at h1 h2
  refine ⟨h1 t rfl, fun ρ hρ k => lt_of_le_of_lt ?_ (h2 ρ hρ)⟩
  have := hp ⟨0, by omega⟩ (p.symm k) (Fin.mk_le_of_le_val (Nat.zero_le _))
  rw [Equiv.apply_symm_apply] at this
  exact mul_le_mul_of_nonneg_left this (hr ρ hρ)

end

section

variable {m n : Nat} (lib : Matrix (Fin m) (Fin n) 𝕜 → SvdOut 𝕜 m n) (a : Matrix (Fin m) (Fin n) 𝕜)
  (atol rtol : Option ℝ) {ε η : ℝ}

/-- Results of `util.svd`. -/
theorem utilSvd_within (h : IsSvdUpTo ε η a (lib a)) (s : Svd 𝕜 m n) (hs : utilSvd lib a atol rtol = .ok s) :
    EntriesWithin η (s.Uᴴ * s.U) 1 ∧ EntriesWithin η (s.Vᴴ * s.V) 1 ∧
    EntriesWithin ε (s.Uᴴ * a * s.V) (diagonal fun i => (s.S i : 𝕜)) ∧
    EntriesWithin ε (a * s.V) (s.U * diagonal fun i => (s.S i : 𝕜)) ∧
    EntriesWithin ε (aᴴ * s.U) (s.V * diagonal fun i => (s.S i : 𝕜)) := by
  obtain ⟨num, -, rfl⟩ := utilSvd_cases lib a atol rtol s hs
  set f : Fin (min num (min m n)) → Fin (min m n) := Fin.castLE (Nat.min_le_right num (min m n)) with hf
  have hinj : Function.Injective f := Fin.castLE_injective _
  refine ⟨?_, ?_, ?_, ?_, ?_⟩
  · intro i j
    have := h.left (f i) (f j)
    rw [one_comp hinj] at this
    exact this
  · intro i j
    have := h.right (f i) (f j)
    rw [one_comp hinj] at this
    rw [show (firstCols (lib a).Vhᴴ num)ᴴ = (lib a).Vh.submatrix f id by
      ext; simp [firstCols, hf]]
    exact this
  · intro i j
    have := h.diagonalizes (f i) (f j)
    rw [diagonal_comp hinj] at this
    exact this
  · intro i j
    have := h.mul_right i (f j)
    rw [mul_diagonal] at this ⊢
    exact this
  · intro i j
    have := h.mul_left i (f j)
    rw [mul_diagonal] at this ⊢
    exact this

/-- Singular values that are returned are larger than the absolute tolerance, and than the relative
tolerance times the largest of all. -/
theorem utilSvd_lower (hnn : ∀ i, 0 ≤ (lib a).S i) (hsort : Antitone (lib a).S) (hr : ∀ t ∈ rtol, 0 ≤ t)
    (s : Svd 𝕜 m n) (hs : utilSvd lib a atol rtol = .ok s) (i : Fin s.r) :
    (∀ t ∈ atol, t < s.S i) ∧ ∀ ρ ∈ rtol, ∀ k, ρ * (lib a).S k < s.S i := by
  obtain ⟨num, hnum, rfl⟩ := utilSvd_cases lib a atol rtol s hs
  obtain ⟨h1, h2⟩ := numRetained_spec _ _ _ _ (abs_antitone hnn hsort) hr hnum
  have hi : i.val < min num (min m n) := i.isLt
  have hi' : i.val < min m n := by omega
  obtain ⟨h3, h4⟩ := (h2 ⟨i, hi'⟩).mp (by show i.val < num; omega)
  rw [abs_of_nonneg (hnn _)] at h3
  simp only [abs_of_nonneg (hnn _)] at h4
  refine ⟨h3, fun ρ hρ k => lt_of_le_of_lt ?_ (h4 ρ hρ)⟩
  exact mul_le_mul_of_nonneg_left (hsort (Fin.mk_le_of_le_val (Nat.zero_le _))) (hr ρ hρ)

end

end Modred
