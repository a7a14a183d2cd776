import Verif.Lemmas.Determined

/-!
# What the retained singular triples determine
-/

namespace Modred

open Matrix

variable {𝕜 : Type*} [RCLike 𝕜]

section Thin

variable {n k k' : Nat} {C C' T : Matrix (Fin n) (Fin n) 𝕜} {U : Matrix (Fin n) (Fin k) 𝕜}
  {U' : Matrix (Fin n) (Fin k') 𝕜} {d : Fin k → ℝ} {d' : Fin k' → ℝ} {s : ℝ}

theorem thin_overlap (hU : Uᴴ * U = 1) (hU' : U'ᴴ * U' = 1) (hC : C = U * diagonal (fun i => (d i : 𝕜)) * Uᴴ)
    (hC' : C' = U' * diagonal (fun i => (d' i : 𝕜)) * U'ᴴ) (hT : Tᴴ * T = 1) (h : C' = (s : 𝕜) • (T * C * Tᴴ))
    (f g : ℝ → 𝕜) (hfg : ∀ x, g (s * x) = f x) :
    diagonal (fun i => f (d i)) * (Uᴴ * Tᴴ * U') = (Uᴴ * Tᴴ * U') * diagonal fun i => g (d' i) := by
  have h1 : (s : 𝕜) • (diagonal (fun i => (d i : 𝕜)) * (Uᴴ * Tᴴ * U')) = (Uᴴ * Tᴴ * U') * diagonal fun i => (d' i : 𝕜) := by
    have e1 : C' * U' = U' * diagonal fun i => (d' i : 𝕜) := by
      rw [hC', Matrix.mul_assoc, hU', Matrix.mul_one]
    have e2 : Uᴴ * C = diagonal (fun i => (d i : 𝕜)) * Uᴴ := by
      rw [hC, ← Matrix.mul_assoc, ← Matrix.mul_assoc, hU, Matrix.one_mul]
    rw [Matrix.mul_assoc (Uᴴ * Tᴴ), ← e1, h, Matrix.smul_mul, Matrix.mul_smul]
    congr 1
    rw [show Uᴴ * Tᴴ * (T * C * Tᴴ * U') = Uᴴ * (Tᴴ * T) * C * Tᴴ * U' by simp only [Matrix.mul_assoc], hT, Matrix.mul_one,
      e2]
    simp only [Matrix.mul_assoc]
  ext i j
  rw [diagonal_mul, mul_diagonal]
  by_cases h0 : (Uᴴ * Tᴴ * U') i j = 0
  · rw [h0, mul_zero, zero_mul]
  · have h4 := congrFun (congrFun h1 i) j
    rw [Matrix.smul_apply, diagonal_mul, mul_diagonal, smul_eq_mul, ← mul_assoc, ← RCLike.ofReal_mul, mul_comm] at h4
    have h2 : s * d i = d' j := RCLike.ofReal_inj.mp (mul_left_cancel₀ h0 h4)
    rw [← h2, hfg, mul_comm]

theorem thin_range (hU : Uᴴ * U = 1) (hU' : U'ᴴ * U' = 1) (hC : C = U * diagonal (fun i => (d i : 𝕜)) * Uᴴ)
    (hC' : C' = U' * diagonal (fun i => (d' i : 𝕜)) * U'ᴴ) (hT : Tᴴ * T = 1) (h : C' = (s : 𝕜) • (T * C * Tᴴ))
    (g : ℝ → 𝕜) (hg : g 0 = 0) :
    T * U * (Uᴴ * Tᴴ * U') * (diagonal fun i => g (d' i)) = U' * diagonal fun i => g (d' i) := by
  have hT' : T * Tᴴ = 1 := mul_eq_one_comm.mp hT
  have e1 : U' * (diagonal fun i => (d' i : 𝕜)) = C' * U' := by
    rw [hC', Matrix.mul_assoc, hU', Matrix.mul_one]
  have e2 : T * U * (Uᴴ * Tᴴ) * C' = C' := by
    rw [h, hC, Matrix.mul_smul]
    congr 1
    rw [show T * U * (Uᴴ * Tᴴ) * (T * (U * diagonal (fun i => (d i : 𝕜)) * Uᴴ) * Tᴴ) =
      T * U * (Uᴴ * (Tᴴ * T) * U) * diagonal (fun i => (d i : 𝕜)) * Uᴴ * Tᴴ by simp only [Matrix.mul_assoc], hT,
      Matrix.mul_one, hU, Matrix.mul_one]
    simp only [Matrix.mul_assoc]
  have e3 : T * U * (Uᴴ * Tᴴ * U') * (diagonal fun i => (d' i : 𝕜)) = U' * diagonal fun i => (d' i : 𝕜) := by
    rw [e1, show T * U * (Uᴴ * Tᴴ * U') * (diagonal fun i => (d' i : 𝕜)) =
      T * U * (Uᴴ * Tᴴ) * (U' * diagonal fun i => (d' i : 𝕜)) by simp only [Matrix.mul_assoc], e1, ← Matrix.mul_assoc, e2]
  ext i j
  have e4 := congrFun (congrFun e3 i) j
  rw [mul_diagonal, mul_diagonal] at e4 ⊢
  by_cases h0 : d' j = 0
  · rw [h0, hg, mul_zero, mul_zero]
  · rw [mul_right_cancel₀ (RCLike.ofReal_ne_zero.mpr h0) e4]

/-- Functions, which are zero at zero, of similar arrays are similar. -/
theorem thin_functions (hU : Uᴴ * U = 1) (hU' : U'ᴴ * U' = 1) (hC : C = U * diagonal (fun i => (d i : 𝕜)) * Uᴴ)
    (hC' : C' = U' * diagonal (fun i => (d' i : 𝕜)) * U'ᴴ) (hT : Tᴴ * T = 1) (h : C' = (s : 𝕜) • (T * C * Tᴴ)) (hs : s ≠ 0)
    (f g : ℝ → 𝕜) (hfg : ∀ x, g (s * x) = f x) (hf : f 0 = 0) :
    U' * diagonal (fun i => g (d' i)) * U'ᴴ = T * (U * diagonal (fun i => f (d i)) * Uᴴ) * Tᴴ := by
  have hT' : T * Tᴴ = 1 := mul_eq_one_comm.mp hT
  have hg : g 0 = 0 := by rw [← hf, ← hfg, mul_zero]
  have h' : C = ((s⁻¹ : ℝ) : 𝕜) • (Tᴴ * C' * Tᴴᴴ) := by
    rw [h, conjTranspose_conjTranspose, Matrix.mul_smul, Matrix.smul_mul, smul_smul, ← RCLike.ofReal_mul, inv_mul_cancel₀ hs,
      RCLike.ofReal_one, one_smul, show Tᴴ * (T * C * Tᴴ) * T = Tᴴ * T * C * (Tᴴ * T) by simp only [Matrix.mul_assoc], hT,
      Matrix.mul_one, Matrix.one_mul]
  have r1 := thin_range hU hU' hC hC' hT h g hg
  have r2 := thin_range hU' hU hC' hC (T := Tᴴ) (by rw [conjTranspose_conjTranspose]; exact hT') h' (fun x => star (f x))
    (by rw [hf, star_zero])
  have r3 := congrArg conjTranspose r2
  have hd : (diagonal fun i => star (f (d i)))ᴴ = diagonal fun i => f (d i) := by
    rw [diagonal_conjTranspose]
    congr 1
    ext i
    exact star_star _
  simp only [conjTranspose_mul, conjTranspose_conjTranspose, hd] at r3
  rw [← r1, Matrix.mul_assoc (T * U), ← thin_overlap hU hU' hC hC' hT h f g hfg]
  rw [show T * U * (diagonal (fun i => f (d i)) * (Uᴴ * Tᴴ * U')) * U'ᴴ =
    T * U * ((diagonal fun i => f (d i)) * (Uᴴ * (Tᴴ * U') * (U'ᴴ * T))) * Tᴴ by
      simp only [Matrix.mul_assoc, hT', Matrix.mul_one], r3]
  simp only [Matrix.mul_assoc]

theorem thin_count (hU : Uᴴ * U = 1) (hU' : U'ᴴ * U' = 1) (hC : C = U * diagonal (fun i => (d i : 𝕜)) * Uᴴ)
    (hC' : C' = U' * diagonal (fun i => (d' i : 𝕜)) * U'ᴴ) (hT : Tᴴ * T = 1) (h : C' = (s : 𝕜) • (T * C * Tᴴ)) (hs : s ≠ 0)
    (P P' : ℝ → Prop) [DecidablePred P] [DecidablePred P'] (hP : ∀ x, P' (s * x) ↔ P x) (h0 : ¬ P 0) :
    (Finset.univ.filter fun i => P' (d' i)).card = (Finset.univ.filter fun i => P (d i)).card := by
  have h1 := thin_functions hU hU' hC hC' hT h hs (fun y => if P y then 1 else 0) (fun y => if P' y then 1 else 0) (by
    intro y
    simp only [hP]) (if_neg h0)
  have h2 := congrArg Matrix.trace h1
  rw [Matrix.trace_mul_cycle, hU', Matrix.one_mul, trace_diagonal, Matrix.trace_mul_cycle, hT, Matrix.one_mul,
    Matrix.trace_mul_cycle, hU, Matrix.one_mul, trace_diagonal, Finset.sum_ite, Finset.sum_ite] at h2
  simp only [Finset.sum_const_zero, add_zero, Finset.sum_const, nsmul_eq_mul, mul_one] at h2
  exact_mod_cast h2

end Thin

/-- Sorted values, of which as many are larger than any number, are the same. -/
theorem antitone_unique_of_counts {k : Nat} {u v : Fin k → ℝ} (hu : Antitone u) (hv : Antitone v) (hu0 : ∀ i, 0 ≤ u i)
    (hv0 : ∀ i, 0 ≤ v i) (h : ∀ y : ℝ, 0 ≤ y →
      (Finset.univ.filter fun i => y < u i).card = (Finset.univ.filter fun i => y < v i).card) : u = v := by
  have key : ∀ i y, 0 ≤ y → (y < u i ↔ y < v i) := by
    intro i y hy
    rw [← lt_card_filter_iff (fun i => y < u i) (fun i j hij hj => lt_of_lt_of_le hj (hu hij)) i,
      ← lt_card_filter_iff (fun i => y < v i) (fun i j hij hj => lt_of_lt_of_le hj (hv hij)) i, h y hy]
  ext i
  refine le_antisymm (not_lt.mp fun hc => ?_) (not_lt.mp fun hc => ?_)
  · exact lt_irrefl _ ((key i _ (hv0 i)).mp hc)
  · exact lt_irrefl _ ((key i _ (hu0 i)).mpr hc)

section Svd

variable {n m : Nat} {lib lib' : Matrix (Fin n) (Fin m) 𝕜 → SvdOut 𝕜 n m} {B B' : Matrix (Fin n) (Fin m) 𝕜}
  {T : Matrix (Fin n) (Fin n) 𝕜} {Q : Matrix (Fin m) (Fin m) 𝕜} {a : 𝕜} {t : ℝ} {rtol : Option ℝ}

theorem svd_retained_spec (h : IsSvd B (lib B)) (hr : ∀ t ∈ rtol, 0 ≤ t) (e : Svd 𝕜 n m)
    (he : utilSvd lib B (some t) rtol = .ok e) :
    ∃ hle : e.r ≤ min n m, (∀ i : Fin (min n m), i.val < e.r ↔ KeptValue (lib B).S t rtol ((lib B).S i)) ∧
      (∀ i, e.S i = (lib B).S (Fin.castLE hle i)) ∧ (∀ k i, e.U k i = (lib B).U k (Fin.castLE hle i)) ∧
      ∀ k i, e.V k i = (lib B).Vhᴴ k (Fin.castLE hle i) := by
  obtain ⟨hle, hk, hv⟩ := C19_kept_iff lib B (some t) rtol h hr e he
  refine ⟨hle, fun i => ?_, fun i => (hv i _ rfl).1, fun k i => (hv i _ rfl).2.1 k, fun k i => (hv i _ rfl).2.2 k⟩
  rw [hk]
  unfold Obeys KeptValue
  have h0 : ∀ i, |(lib B).S i| ≤ |(lib B).S ⟨0, i.pos⟩| := by
    intro i
    rw [abs_of_nonneg (h.nonneg _), abs_of_nonneg (h.nonneg _)]
    exact h.sorted (Fin.mk_le_of_le_val (Nat.zero_le _))
  constructor
  · rintro ⟨h1, h2⟩
    exact ⟨h1 t rfl, fun u hu => ⟨_, h0, h2 u hu⟩, fun j hj => absurd hj (not_lt.mpr (h.nonneg j))⟩
  · rintro ⟨h1, h2, -⟩
    refine ⟨fun u hu => by cases hu; exact h1, fun u hu => ?_⟩
    obtain ⟨k, hk1, hk2⟩ := h2 u hu
    rwa [le_antisymm (h0 k) (hk1 _)] at hk2

theorem first_functions {p k r : Nat} (hle : r ≤ k) {W : Matrix (Fin p) (Fin k) 𝕜} {w : Fin k → ℝ} {V : Matrix (Fin p) (Fin r) 𝕜}
    {v : Fin r → ℝ} (hV : ∀ l i, V l i = W l (Fin.castLE hle i)) (hv : ∀ i, v i = w (Fin.castLE hle i)) (P : ℝ → Prop)
    [DecidablePred P] (hk : ∀ i : Fin k, i.val < r ↔ P (w i)) (f : ℝ → 𝕜) :
    V * diagonal (fun i => f (v i)) * Vᴴ = W * diagonal (fun i => if P (w i) then f (w i) else 0) * Wᴴ := by
  ext l q
  rw [Matrix.mul_apply, Matrix.mul_apply]
  simp only [Matrix.mul_diagonal, conjTranspose_apply, hv, hV]
  rw [sum_first hle fun i => W l i * f (w i) * star (W q i)]
  refine Finset.sum_congr rfl fun i _ => ?_
  by_cases h : i.val < r
  · rw [if_pos h, if_pos ((hk i).mp h)]
  · rw [if_neg h, if_neg (fun h' => h ((hk i).mpr h')), mul_zero, zero_mul]

theorem IsSvd.left_square (h : IsSvd B (lib B)) :
    B * Bᴴ = (lib B).U * diagonal (fun i => (((lib B).S i ^ 2 : ℝ) : 𝕜)) * (lib B).Uᴴ := by
  conv_lhs => rw [h.product]
  rw [conjTranspose_mul, conjTranspose_mul, diagonal_real_conjTranspose,
    show (lib B).U * diagonal (fun i => ((lib B).S i : 𝕜)) * (lib B).Vh *
      ((lib B).Vhᴴ * (diagonal (fun i => ((lib B).S i : 𝕜)) * (lib B).Uᴴ)) =
    (lib B).U * (diagonal (fun i => ((lib B).S i : 𝕜)) * ((lib B).Vh * (lib B).Vhᴴ) * diagonal (fun i => ((lib B).S i : 𝕜))) *
      (lib B).Uᴴ by simp only [Matrix.mul_assoc], h.right, Matrix.mul_one, diagonal_mul_diagonal]
  simp only [pow_two, RCLike.ofReal_mul]

theorem IsSvd.right_square (h : IsSvd B (lib B)) :
    Bᴴ * B = (lib B).Vhᴴ * diagonal (fun i => (((lib B).S i ^ 2 : ℝ) : 𝕜)) * (lib B).Vhᴴᴴ := by
  conv_lhs => rw [h.product]
  rw [conjTranspose_mul, conjTranspose_mul, diagonal_real_conjTranspose,
    show (lib B).Vhᴴ * (diagonal (fun i => ((lib B).S i : 𝕜)) * (lib B).Uᴴ) *
      ((lib B).U * diagonal (fun i => ((lib B).S i : 𝕜)) * (lib B).Vh) =
    (lib B).Vhᴴ * (diagonal (fun i => ((lib B).S i : 𝕜)) * ((lib B).Uᴴ * (lib B).U) * diagonal (fun i => ((lib B).S i : 𝕜))) *
      (lib B).Vh by simp only [Matrix.mul_assoc], h.left, Matrix.mul_one, diagonal_mul_diagonal, conjTranspose_conjTranspose]
  simp only [pow_two, RCLike.ofReal_mul]

theorem norm_sq_smul (a : 𝕜) : star a * a = ((‖a‖ ^ 2 : ℝ) : 𝕜) := by
  rw [RCLike.star_def, RCLike.conj_mul, RCLike.ofReal_pow]

/-- KeptValue singular triples of arrays that differ by unitary factors and a number. -/
theorem svd_determined (h : IsSvd B (lib B)) (h' : IsSvd B' (lib' B')) (hT : Tᴴ * T = 1) (hQ : Q * Qᴴ = 1)
    (hB : B' = a • (T * B * Q)) (ha : a ≠ 0) (ht : 0 ≤ t) (hr : ∀ t ∈ rtol, 0 ≤ t) (e e' : Svd 𝕜 n m)
    (he : utilSvd lib B (some t) rtol = .ok e) (he' : utilSvd lib' B' (some (‖a‖ * t)) rtol = .ok e') :
    e'.r = e.r ∧ (∀ (i' : Fin e'.r) (i : Fin e.r), i'.val = i.val → e'.S i' = ‖a‖ * e.S i) ∧
    ∀ f g : ℝ → 𝕜, (∀ x, 0 < x → g (‖a‖ * x) = f x) →
      e'.U * diagonal (fun i => g (e'.S i)) * e'.Uᴴ = T * (e.U * diagonal (fun i => f (e.S i)) * e.Uᴴ) * Tᴴ ∧
      e'.V * diagonal (fun i => g (e'.S i)) * e'.Vᴴ = Qᴴ * (e.V * diagonal (fun i => f (e.S i)) * e.Vᴴ) * Q := by
  classical
  have hQ' : Qᴴ * Q = 1 := mul_eq_one_comm.mp hQ
  have na : 0 < ‖a‖ := norm_pos_iff.mpr ha
  have na2 : ‖a‖ ^ 2 ≠ 0 := (pow_pos na 2).ne'
  have l1 : B' * B'ᴴ = ((‖a‖ ^ 2 : ℝ) : 𝕜) • (T * (B * Bᴴ) * Tᴴ) := by
    rw [hB, conjTranspose_smul, Matrix.smul_mul, Matrix.mul_smul, smul_smul, mul_comm, norm_sq_smul, conjTranspose_mul,
      conjTranspose_mul, show T * B * Q * (Qᴴ * (Bᴴ * Tᴴ)) = T * B * (Q * Qᴴ) * Bᴴ * Tᴴ by simp only [Matrix.mul_assoc], hQ,
      Matrix.mul_one]
    simp only [Matrix.mul_assoc]
  have l2 : B'ᴴ * B' = ((‖a‖ ^ 2 : ℝ) : 𝕜) • (Qᴴ * (Bᴴ * B) * Qᴴᴴ) := by
    rw [hB, conjTranspose_smul, Matrix.smul_mul, Matrix.mul_smul, smul_smul, norm_sq_smul, conjTranspose_mul,
      conjTranspose_mul, conjTranspose_conjTranspose, show Qᴴ * (Bᴴ * Tᴴ) * (T * B * Q) = Qᴴ * Bᴴ * (Tᴴ * T) * B * Q by
        simp only [Matrix.mul_assoc], hT, Matrix.mul_one]
    simp only [Matrix.mul_assoc]
  have hV : (lib B).Vhᴴᴴ * (lib B).Vhᴴ = 1 := by rw [conjTranspose_conjTranspose]; exact h.right
  have hV' : (lib' B').Vhᴴᴴ * (lib' B').Vhᴴ = 1 := by rw [conjTranspose_conjTranspose]; exact h'.right
  -- singular values
  have hS : (lib' B').S = fun i => ‖a‖ * (lib B).S i := by
    refine antitone_unique_of_counts h'.sorted (fun i j hij => mul_le_mul_of_nonneg_left (h.sorted hij) na.le) h'.nonneg
      (fun i => mul_nonneg na.le (h.nonneg i)) fun y hy => ?_
    have := thin_count h.left h'.left h.left_square h'.left_square hT l1 na2 (fun x => y ^ 2 < ‖a‖ ^ 2 * x) (fun x => y ^ 2 < x)
      (fun x => Iff.rfl) (by rw [mul_zero]; exact not_lt.mpr (sq_nonneg y))
    simp only [← mul_pow] at this
    convert this using 3
    · exact (pow_lt_pow_iff_left₀ hy (h'.nonneg _) two_ne_zero).symm
    · exact (pow_lt_pow_iff_left₀ hy (mul_nonneg na.le (h.nonneg _)) two_ne_zero).symm
  have hret := retained_scale (w := (lib B).S) (w' := (lib' B').S) (t := t) (rtol := rtol) na
    (fun i => ⟨i, congrFun hS i⟩) (fun i => ⟨i, congrFun hS i⟩)
  have hpos : ∀ x, KeptValue (lib B).S t rtol x → x ≠ 0 := by
    rintro x ⟨h1, -⟩ rfl
    rw [abs_zero] at h1
    exact absurd h1 (not_lt.mpr ht)
  obtain ⟨hle, hk, hv, hU1, hV1⟩ := svd_retained_spec h hr e he
  obtain ⟨hle', hk', hv', hU1', hV1'⟩ := svd_retained_spec h' hr e' he'
  have hrr : e'.r = e.r := by
    refine eq_of_forall_lt_iff fun c => ?_
    by_cases hc : c < min n m
    · rw [hk' ⟨c, hc⟩, hk ⟨c, hc⟩, hS]
      rw [hS] at hret
      exact hret _
    · exact ⟨fun h => by omega, fun h => by omega⟩
  refine ⟨hrr, fun i' i hi => ?_, fun f g hfg => ?_⟩
  · rw [hv', hv, hS, show Fin.castLE hle' i' = Fin.castLE hle i from Fin.ext hi]
  · have sq1 : ∀ i, Real.sqrt ((lib B).S i ^ 2) = (lib B).S i := fun i => Real.sqrt_sq (h.nonneg i)
    have sq2 : ∀ i, Real.sqrt ((lib' B').S i ^ 2) = (lib' B').S i := fun i => Real.sqrt_sq (h'.nonneg i)
    have hF : ∀ x : ℝ, (if KeptValue (lib' B').S (‖a‖ * t) rtol (Real.sqrt (‖a‖ ^ 2 * x)) then g (Real.sqrt (‖a‖ ^ 2 * x)) else 0) =
        if KeptValue (lib B).S t rtol (Real.sqrt x) then f (Real.sqrt x) else 0 := by
      intro x
      rw [Real.sqrt_mul (sq_nonneg _), Real.sqrt_sq na.le]
      by_cases hx : KeptValue (lib B).S t rtol (Real.sqrt x)
      · rw [if_pos hx, if_pos ((hret _).mpr hx), hfg _ (lt_of_le_of_ne (Real.sqrt_nonneg x) (hpos _ hx).symm)]
      · rw [if_neg hx, if_neg fun h => hx ((hret _).mp h)]
    have hF0 : (if KeptValue (lib B).S t rtol (Real.sqrt 0) then f (Real.sqrt 0) else 0) = 0 := by
      rw [Real.sqrt_zero, if_neg fun h => hpos 0 h rfl]
    have k1 := thin_functions h.left h'.left h.left_square h'.left_square hT l1 na2
      (fun x => if KeptValue (lib B).S t rtol (Real.sqrt x) then f (Real.sqrt x) else 0)
      (fun x => if KeptValue (lib' B').S (‖a‖ * t) rtol (Real.sqrt x) then g (Real.sqrt x) else 0) hF hF0
    have k2 := thin_functions hV hV' h.right_square h'.right_square (T := Qᴴ)
      (by rw [conjTranspose_conjTranspose]; exact hQ) l2 na2
      (fun x => if KeptValue (lib B).S t rtol (Real.sqrt x) then f (Real.sqrt x) else 0)
      (fun x => if KeptValue (lib' B').S (‖a‖ * t) rtol (Real.sqrt x) then g (Real.sqrt x) else 0) hF hF0
    simp only [sq1, sq2] at k1 k2
    rw [conjTranspose_conjTranspose Q] at k2
    rw [first_functions hle hU1 hv _ hk, first_functions hle' hU1' hv' _ hk', first_functions hle hV1 hv _ hk,
      first_functions hle' hV1' hv' _ hk']
    exact ⟨k1, k2⟩

end Svd

end Modred
