import Verif.Props.Determined

/-!
# Decompositions for more vectors that carry the same information

The vectors `v` are replaced by `a ∑ Q i j v i` where `Q` has orthonormal rows and may have more columns than rows.
-/

namespace Modred

open Matrix

variable {𝕜 : Type*} [RCLike 𝕜] {n m m' : Nat}

/-- Which values are retained does not depend on how many are zero. -/
theorem keptValue_wide {w : Fin m → ℝ} {w' : Fin m' → ℝ} {s t : ℝ} {rtol : Option ℝ} (hm : rtol = none ∨ 0 < m ∧ 0 < m')
    (hs0 : 0 < s)
    (h1 : ∀ i, w i ≠ 0 → ∃ j, w' j = s * w i) (h2 : ∀ j, w' j ≠ 0 → ∃ i, w' j = s * w i) (x : ℝ) :
    KeptValue w' (s * t) rtol (s * x) ↔ KeptValue w t rtol x := by
  have ha : ∀ y : ℝ, |s * y| = s * |y| := fun y => by rw [abs_mul, abs_of_pos hs0]
  have up : ∀ c, 0 ≤ c → (∀ j, |w' j| ≤ s * c) → ∀ i, |w i| ≤ c := by
    intro c hc h i
    by_cases hi : w i = 0
    · rwa [hi, abs_zero]
    · obtain ⟨j, hj⟩ := h1 i hi
      have := h j
      rw [hj, ha] at this
      exact le_of_mul_le_mul_left this hs0
  have down : ∀ c, 0 ≤ c → (∀ i, |w i| ≤ c) → ∀ j, |w' j| ≤ s * c := by
    intro c hc h j
    by_cases hj : w' j = 0
    · rw [hj, abs_zero]
      exact mul_nonneg hs0.le hc
    · obtain ⟨i, hi⟩ := h2 j hj
      rw [hi, ha]
      exact mul_le_mul_of_nonneg_left (h i) hs0.le
  have ex : ∀ {p : Nat} (v : Fin p → ℝ), 0 < p → ∃ k, ∀ i, |v i| ≤ |v k| := by
    intro p v hp
    have : Nonempty (Fin p) := ⟨⟨0, hp⟩⟩
    obtain ⟨k, hk⟩ := Finite.exists_max fun i => |v i|
    exact ⟨k, hk⟩
  unfold KeptValue
  rw [ha x]
  refine and_congr (mul_lt_mul_iff_of_pos_left hs0) (and_congr (forall_congr' fun u => imp_congr_right fun hu' => ?_) ?_)
  · rcases hm with rfl | ⟨hm, hm'⟩
    · cases hu'
    obtain ⟨k, hk⟩ := ex w hm
    obtain ⟨k', hk'⟩ := ex w' hm'
    have hkk : |w' k'| = s * |w k| := by
      refine le_antisymm (down _ (abs_nonneg _) hk k') ?_
      have h := up (|w' k'| / s) (div_nonneg (abs_nonneg _) hs0.le) (by rwa [mul_div_cancel₀ _ hs0.ne']) k
      rwa [le_div_iff₀ hs0, mul_comm] at h
    have e1 : ∀ l, (∀ i, |w i| ≤ |w l|) → |w l| = |w k| := fun l hl => le_antisymm (hk l) (hl k)
    have e2 : ∀ l, (∀ i, |w' i| ≤ |w' l|) → |w' l| = s * |w k| := fun l hl => (le_antisymm (hk' l) (hl k')).trans hkk
    constructor
    · rintro ⟨l, hl, hu⟩
      refine ⟨k, hk, ?_⟩
      rw [e2 l hl, show u * (s * |w k|) = s * (u * |w k|) by ring] at hu
      exact lt_of_mul_lt_mul_left hu hs0.le
    · rintro ⟨l, hl, hu⟩
      refine ⟨k', hk', ?_⟩
      rw [hkk, show u * (s * |w k|) = s * (u * |w k|) by ring, ← e1 l hl]
      exact mul_lt_mul_of_pos_left hu hs0
  · constructor
    · intro h i hi
      obtain ⟨j, hj⟩ := h1 i hi.ne
      have := h j (by rw [hj]; exact mul_neg_of_pos_of_neg hs0 hi)
      rw [hj, ha] at this
      exact lt_of_mul_lt_mul_left this hs0.le
    · intro h j hj
      obtain ⟨i, hi⟩ := h2 j hj.ne
      rw [hi] at hj
      rw [hi, ha]
      exact mul_lt_mul_of_pos_left (h i (by by_contra hc; exact absurd hj (not_lt.mpr (mul_nonneg hs0.le (not_lt.mp hc))))) hs0

theorem wide_pos {Q : Matrix (Fin m) (Fin m') 𝕜} (hQ : Q * Qᴴ = 1) (hm : 0 < m) : 0 < m' := by
  by_contra hc
  obtain rfl : m' = 0 := by omega
  have := congrFun (congrFun hQ ⟨0, hm⟩) ⟨0, hm⟩
  rw [Matrix.mul_apply, Finset.univ_eq_empty, Finset.sum_empty, Matrix.one_apply_eq] at this
  exact zero_ne_one this

theorem sorted_unique_of_counts {k k' : Nat} {u : Fin k → ℝ} {v : Fin k' → ℝ} (hk : k' = k) (hu : Antitone u) (hv : Antitone v)
    (hu0 : ∀ i, 0 ≤ u i) (hv0 : ∀ i, 0 ≤ v i) (h : ∀ y : ℝ, 0 ≤ y →
      (Finset.univ.filter fun i => y < v i).card = (Finset.univ.filter fun i => y < u i).card) (i' : Fin k') (i : Fin k)
    (hi : i'.val = i.val) : v i' = u i := by
  subst hk
  rw [antitone_unique_of_counts hv hu hv0 hu0 h, Fin.ext hi]

section Eigh

variable {A : Matrix (Fin m) (Fin m) 𝕜} {A' : Matrix (Fin m') (Fin m') 𝕜} {Q : Matrix (Fin m) (Fin m') 𝕜}
  {lib : Matrix (Fin m) (Fin m) 𝕜 → EighOut 𝕜 m} {lib' : Matrix (Fin m') (Fin m') 𝕜 → EighOut 𝕜 m'}
  {argsort : (Fin m → ℝ) → Equiv.Perm (Fin m)} {argsort' : (Fin m' → ℝ) → Equiv.Perm (Fin m')} {s t : ℝ} {rtol : Option ℝ}

/-- Retained eigenpairs. -/
theorem eigh_wide (h : IsEigh A (lib A)) (h' : IsEigh A' (lib' A')) (hQ : Q * Qᴴ = 1)
    (hA : A' = (s : 𝕜) • (Qᴴ * A * Q)) (hs0 : 0 < s) (ht : 0 ≤ t) (hs : IsArgsort argsort) (hs' : IsArgsort argsort')
    (hr : ∀ t ∈ rtol, 0 ≤ t) (e : Eigh 𝕜 m) (e' : Eigh 𝕜 m') (he : utilEigh lib argsort A (some t) rtol true = .ok e)
    (he' : utilEigh lib' argsort' A' (some (s * t)) rtol true = .ok e') :
    e'.r = e.r ∧ (∀ (i' : Fin e'.r) (i : Fin e.r), i'.val = i.val → e'.w i' = s * e.w i) ∧
    ∀ f g : ℝ → 𝕜, (∀ x, 0 < x → g (s * x) = f x) →
      e'.V * diagonal (fun i => g (e'.w i)) * e'.Vᴴ = Qᴴ * (e.V * diagonal (fun i => f (e.w i)) * e.Vᴴ) * Q := by
  classical
  have hm := pos_of_utilEigh_ok he
  have hm' := wide_pos hQ hm
  have hVV : ∀ {p : Nat} {B : Matrix (Fin p) (Fin p) 𝕜} {o : EighOut 𝕜 p}, IsEigh B o →
      B = o.V * diagonal (fun i => (o.w i : 𝕜)) * o.Vᴴ := by
    intro p B o ho
    rw [← ho.eigen, Matrix.mul_assoc, mul_eq_one_comm.mp ho.orthonormal, Matrix.mul_one]
  -- orthonormal eigenvectors in the larger space
  have hU : (Qᴴ * (lib A).V)ᴴ * (Qᴴ * (lib A).V) = 1 := by
    rw [conjTranspose_mul, conjTranspose_conjTranspose,
      show (lib A).Vᴴ * Q * (Qᴴ * (lib A).V) = (lib A).Vᴴ * (Q * Qᴴ) * (lib A).V by simp only [Matrix.mul_assoc], hQ,
      Matrix.mul_one, h.orthonormal]
  have hC : Qᴴ * A * Q = Qᴴ * (lib A).V * diagonal (fun i => ((lib A).w i : 𝕜)) * (Qᴴ * (lib A).V)ᴴ := by
    conv_lhs => rw [hVV h]
    rw [conjTranspose_mul, conjTranspose_conjTranspose]
    simp only [Matrix.mul_assoc]
  have hC' := hVV h'
  have hT : (1 : Matrix (Fin m') (Fin m') 𝕜)ᴴ * 1 = 1 := by simp
  have hA1 : A' = (s : 𝕜) • (1 * (Qᴴ * A * Q) * (1 : Matrix (Fin m') (Fin m') 𝕜)ᴴ) := by
    rw [conjTranspose_one, Matrix.one_mul, Matrix.mul_one, hA]
  have count := fun (P P' : ℝ → Prop) [DecidablePred P] [DecidablePred P'] (hP : ∀ x, P' (s * x) ↔ P x) (h0 : ¬ P 0) =>
    thin_count hU h'.orthonormal hC hC' hT hA1 hs0.ne' P P' hP h0
  have m1 : ∀ i, (lib A).w i ≠ 0 → ∃ j, (lib' A').w j = s * (lib A).w i := by
    intro i hi
    have := count (fun x => x = (lib A).w i) (fun x => x = s * (lib A).w i)
      (fun x => by rw [mul_right_inj' hs0.ne']) (fun h => hi h.symm)
    have hpos : 0 < (Finset.univ.filter fun j => (lib A).w j = (lib A).w i).card :=
      Finset.card_pos.mpr ⟨i, Finset.mem_filter.mpr ⟨Finset.mem_univ _, rfl⟩⟩
    rw [← this] at hpos
    obtain ⟨j, hj⟩ := Finset.card_pos.mp hpos
    exact ⟨j, (Finset.mem_filter.mp hj).2⟩
  have m2 : ∀ j, (lib' A').w j ≠ 0 → ∃ i, (lib' A').w j = s * (lib A).w i := by
    intro j hj
    have := count (fun x => s * x = (lib' A').w j) (fun x => x = (lib' A').w j)
      (fun x => Iff.rfl) (fun h => hj (by rw [← h, mul_zero]))
    have hpos : 0 < (Finset.univ.filter fun i => (lib' A').w i = (lib' A').w j).card :=
      Finset.card_pos.mpr ⟨j, Finset.mem_filter.mpr ⟨Finset.mem_univ _, rfl⟩⟩
    rw [this] at hpos
    obtain ⟨i, hi⟩ := Finset.card_pos.mp hpos
    exact ⟨i, (Finset.mem_filter.mp hi).2.symm⟩
  have hret := keptValue_wide (t := t) (rtol := rtol) (.inr ⟨hm, hm'⟩) hs0 m1 m2
  have hk0 : ∀ x, KeptValue (lib A).w t rtol x → x ≠ 0 := by
    rintro x ⟨h1, -⟩ rfl
    rw [abs_zero] at h1
    exact absurd h1 (not_lt.mpr ht)
  have hw := C20_positive_partial _ _ _ _ t ht hs hr e he
  have hw' := C20_positive_partial _ _ _ _ (s * t) (mul_nonneg hs0.le ht) hs' hr e' he'
  have functions : ∀ f g : ℝ → 𝕜, (∀ x, 0 < x → g (s * x) = f x) →
      e'.V * diagonal (fun i => g (e'.w i)) * e'.Vᴴ = Qᴴ * (e.V * diagonal (fun i => f (e.w i)) * e.Vᴴ) * Q := by
    intro f g hfg
    have k1 := eigh_kept_functions hs hr e he fun x => if 0 < x then f x else 0
    have k2 := eigh_kept_functions hs' hr e' he' fun x => if 0 < x then g x else 0
    simp only [hw, hw', if_true] at k1 k2
    rw [k1, k2]
    have := thin_functions hU h'.orthonormal hC hC' hT hA1 hs0.ne'
      (fun x => if KeptValue (lib A).w t rtol x then (if 0 < x then f x else 0) else 0)
      (fun x => if KeptValue (lib' A').w (s * t) rtol x then (if 0 < x then g x else 0) else 0)
      (fun x => by
        simp only [hret]
        by_cases hx : 0 < x
        · rw [if_pos (mul_pos hs0 hx), if_pos hx, hfg x hx]
        · rw [if_neg hx, if_neg fun h => hx (pos_of_mul_pos_right h hs0.le)])
      (by rw [if_neg fun h => hk0 0 h rfl])
    rw [this, conjTranspose_one, Matrix.one_mul, Matrix.mul_one, conjTranspose_mul, conjTranspose_conjTranspose]
    simp only [Matrix.mul_assoc]
  have hrr : e'.r = e.r := by
    rw [retained_card hs hr e he, retained_card hs' hr e' he']
    exact count _ _ hret fun h => hk0 0 h rfl
  refine ⟨hrr, fun i' i hi => ?_, functions⟩
  -- retained eigenvalues are sorted, and as many exceed any number
  have anti : ∀ {p : Nat} {l : Matrix (Fin p) (Fin p) 𝕜 → EighOut 𝕜 p} {as : (Fin p → ℝ) → Equiv.Perm (Fin p)}
      {B : Matrix (Fin p) (Fin p) 𝕜} {τ : ℝ} {f : Eigh 𝕜 p}, IsArgsort as → (∀ i, 0 < f.w i) →
      utilEigh l as B (some τ) rtol true = .ok f → Antitone f.w := by
    intro p l as B τ f ha hf hff i j hij
    obtain ⟨q, hq, hle, -, hw, -⟩ := retained_spec ha hr f hff
    have := hq (show Fin.castLE hle i ≤ Fin.castLE hle j from hij)
    dsimp only at this
    rwa [← hw, ← hw, abs_of_pos (hf j), abs_of_pos (hf i)] at this
  have a1 := anti hs hw he
  have a2 := anti hs' hw' he'
  obtain ⟨o1, -⟩ := C20_eigenpairs _ _ _ _ _ _ h hs e he
  obtain ⟨o2, -⟩ := C20_eigenpairs _ _ _ _ _ _ h' hs' e' he'
  refine sorted_unique_of_counts hrr (fun i j hij => mul_le_mul_of_nonneg_left (a1 hij) hs0.le) a2
    (fun i => mul_nonneg hs0.le (hw i).le) (fun i => (hw' i).le) (fun y _ => ?_) i' i hi
  have h2 := congrArg Matrix.trace (functions (fun x => if y < s * x then 1 else 0) (fun x => if y < x then 1 else 0)
    fun x _ => rfl)
  rw [Matrix.trace_mul_cycle, o2, Matrix.one_mul, trace_diagonal, Matrix.trace_mul_cycle, hQ, Matrix.one_mul,
    Matrix.trace_mul_cycle, o1, Matrix.one_mul, trace_diagonal, Finset.sum_ite, Finset.sum_ite] at h2
  simp only [Finset.sum_const_zero, add_zero, Finset.sum_const, nsmul_eq_mul, mul_one] at h2
  exact_mod_cast h2

/-- What the coefficients `V w^(-1/2)` of the modes determine. -/
theorem build_wide (h : IsEigh A (lib A)) (h' : IsEigh A' (lib' A')) (hQ : Q * Qᴴ = 1)
    (hA : A' = (s : 𝕜) • (Qᴴ * A * Q)) (hs0 : 0 < s) (ht : 0 ≤ t) (hs : IsArgsort argsort) (hs' : IsArgsort argsort')
    (hr : ∀ t ∈ rtol, 0 ≤ t) (e : Eigh 𝕜 m) (e' : Eigh 𝕜 m') (he : utilEigh lib argsort A (some t) rtol true = .ok e)
    (he' : utilEigh lib' argsort' A' (some (s * t)) rtol true = .ok e') :
    (∀ f g : ℝ → 𝕜, (∀ x, 0 < x → g (s * x) = f x) →
      (s : 𝕜) • ((e'.V * diagPow (𝕜 := 𝕜) e'.w (-0.5)) * diagonal (fun i => g (e'.w i)) *
        (e'.V * diagPow (𝕜 := 𝕜) e'.w (-0.5))ᴴ) =
      Qᴴ * ((e.V * diagPow (𝕜 := 𝕜) e.w (-0.5)) * diagonal (fun i => f (e.w i)) *
        (e.V * diagPow (𝕜 := 𝕜) e.w (-0.5))ᴴ) * Q) ∧
    e'.V * e'.Vᴴ = Qᴴ * (e.V * e.Vᴴ) * Q := by
  have hw := C20_positive_partial _ _ _ _ t ht hs hr e he
  have hw' := C20_positive_partial _ _ _ _ (s * t) (mul_nonneg hs0.le ht) hs' hr e' he'
  constructor
  · intro f g hfg
    rw [build_weighted hw, build_weighted hw', ← diagonal_smul_mul]
    exact (eigh_wide h h' hQ hA hs0 ht hs hs' hr e e' he he').2.2 (fun x => f x / (x : 𝕜))
      (fun x => (s : 𝕜) * (g x / (x : 𝕜))) (scaled_weights hs0 hfg)
  · have := (eigh_wide h h' hQ hA hs0 ht hs hs' hr e e' he he').2.2 (fun _ => 1) (fun _ => 1) fun _ _ => rfl
    simpa only [diagonal_one, Matrix.mul_one] using this

end Eigh

section Svd

variable {n' : Nat} {B : Matrix (Fin n) (Fin m) 𝕜} {B' : Matrix (Fin n') (Fin m') 𝕜} {T : Matrix (Fin n') (Fin n) 𝕜}
  {Q : Matrix (Fin m) (Fin m') 𝕜} {lib : Matrix (Fin n) (Fin m) 𝕜 → SvdOut 𝕜 n m}
  {lib' : Matrix (Fin n') (Fin m') 𝕜 → SvdOut 𝕜 n' m'} {a : 𝕜} {t : ℝ} {rtol : Option ℝ}

/-- Retained singular triples. -/
theorem svd_wide (h : IsSvd B (lib B)) (h' : IsSvd B' (lib' B')) (hT : Tᴴ * T = 1) (hQ : Q * Qᴴ = 1)
    (hB : B' = a • (T * B * Q)) (ha : a ≠ 0) (ht : 0 ≤ t) (hr : ∀ t ∈ rtol, 0 ≤ t) (e : Svd 𝕜 n m) (e' : Svd 𝕜 n' m')
    (he : utilSvd lib B (some t) rtol = .ok e) (he' : utilSvd lib' B' (some (‖a‖ * t)) rtol = .ok e') :
    e'.r = e.r ∧ (∀ (i' : Fin e'.r) (i : Fin e.r), i'.val = i.val → e'.S i' = ‖a‖ * e.S i) ∧
    ∀ f g : ℝ → 𝕜, (∀ x, 0 < x → g (‖a‖ * x) = f x) →
      e'.U * diagonal (fun i => g (e'.S i)) * e'.Uᴴ = T * (e.U * diagonal (fun i => f (e.S i)) * e.Uᴴ) * Tᴴ ∧
      e'.V * diagonal (fun i => g (e'.S i)) * e'.Vᴴ = Qᴴ * (e.V * diagonal (fun i => f (e.S i)) * e.Vᴴ) * Q := by
  classical
  have na : 0 < ‖a‖ := norm_pos_iff.mpr ha
  have na2 : ‖a‖ ^ 2 ≠ 0 := (pow_pos na 2).ne'
  have l1 : B' * B'ᴴ = ((‖a‖ ^ 2 : ℝ) : 𝕜) • (1 * (T * (B * Bᴴ) * Tᴴ) * (1 : Matrix (Fin n') (Fin n') 𝕜)ᴴ) := by
    rw [conjTranspose_one, Matrix.one_mul, Matrix.mul_one, hB, conjTranspose_smul, Matrix.smul_mul, Matrix.mul_smul, smul_smul, mul_comm, norm_sq_smul, conjTranspose_mul,
      conjTranspose_mul, show T * B * Q * (Qᴴ * (Bᴴ * Tᴴ)) = T * B * (Q * Qᴴ) * Bᴴ * Tᴴ by simp only [Matrix.mul_assoc], hQ,
      Matrix.mul_one]
    simp only [Matrix.mul_assoc]
  have hT1 : (1 : Matrix (Fin m') (Fin m') 𝕜)ᴴ * 1 = 1 := by simp
  have hT2 : (1 : Matrix (Fin n') (Fin n') 𝕜)ᴴ * 1 = 1 := by simp
  have l2 : B'ᴴ * B' = ((‖a‖ ^ 2 : ℝ) : 𝕜) • (1 * (Qᴴ * (Bᴴ * B) * Q) * (1 : Matrix (Fin m') (Fin m') 𝕜)ᴴ) := by
    rw [hB, conjTranspose_smul, Matrix.smul_mul, Matrix.mul_smul, smul_smul, norm_sq_smul, conjTranspose_mul,
      conjTranspose_mul, conjTranspose_one, Matrix.one_mul, Matrix.mul_one, show Qᴴ * (Bᴴ * Tᴴ) * (T * B * Q) = Qᴴ * Bᴴ * (Tᴴ * T) * B * Q by
        simp only [Matrix.mul_assoc], hT, Matrix.mul_one]
    simp only [Matrix.mul_assoc]
  have hV : (Qᴴ * (lib B).Vhᴴ)ᴴ * (Qᴴ * (lib B).Vhᴴ) = 1 := by
    rw [conjTranspose_mul, conjTranspose_conjTranspose, conjTranspose_conjTranspose,
      show (lib B).Vh * Q * (Qᴴ * (lib B).Vhᴴ) = (lib B).Vh * (Q * Qᴴ) * (lib B).Vhᴴ by simp only [Matrix.mul_assoc], hQ,
      Matrix.mul_one, h.right]
  have hU : (T * (lib B).U)ᴴ * (T * (lib B).U) = 1 := by
    rw [conjTranspose_mul, show (lib B).Uᴴ * Tᴴ * (T * (lib B).U) = (lib B).Uᴴ * (Tᴴ * T) * (lib B).U by simp only [Matrix.mul_assoc],
      hT, Matrix.mul_one, h.left]
  have hsqU : T * (B * Bᴴ) * Tᴴ = T * (lib B).U * diagonal (fun i => (((lib B).S i ^ 2 : ℝ) : 𝕜)) * (T * (lib B).U)ᴴ := by
    rw [h.left_square]
    simp only [Matrix.mul_assoc, conjTranspose_mul]
  have hV' : (lib' B').Vhᴴᴴ * (lib' B').Vhᴴ = 1 := by rw [conjTranspose_conjTranspose]; exact h'.right
  have hsq : Qᴴ * (Bᴴ * B) * Q = Qᴴ * (lib B).Vhᴴ * diagonal (fun i => (((lib B).S i ^ 2 : ℝ) : 𝕜)) * (Qᴴ * (lib B).Vhᴴ)ᴴ := by
    rw [h.right_square]
    simp only [Matrix.mul_assoc, conjTranspose_mul, conjTranspose_conjTranspose]
  obtain ⟨hle, hk, hv, hU1, hV1⟩ := svd_retained_spec h hr e he
  obtain ⟨hle', hk', hv', hU1', hV1'⟩ := svd_retained_spec h' hr e' he'
  have count := fun (P P' : ℝ → Prop) [DecidablePred P] [DecidablePred P'] (hP : ∀ x, P' (‖a‖ ^ 2 * x) ↔ P x) (h0 : ¬ P 0) =>
    thin_count hU h'.left hsqU h'.left_square hT2 l1 na2 P P' hP h0
  have sq : ∀ x y, 0 ≤ x → 0 ≤ y → (x ^ 2 = ‖a‖ ^ 2 * y ^ 2 ↔ x = ‖a‖ * y) := by
    intro x y hx hy
    rw [← mul_pow]
    exact pow_left_inj₀ hx (mul_nonneg na.le hy) two_ne_zero
  have m1 : ∀ i, (lib B).S i ≠ 0 → ∃ j, (lib' B').S j = ‖a‖ * (lib B).S i := by
    intro i hi
    have := count (fun x => x = (lib B).S i ^ 2) (fun x => x = ‖a‖ ^ 2 * (lib B).S i ^ 2)
      (fun x => by rw [mul_right_inj' na2]) (fun h => hi (pow_eq_zero_iff two_ne_zero |>.mp h.symm))
    have hpos : 0 < (Finset.univ.filter fun j => (lib B).S j ^ 2 = (lib B).S i ^ 2).card :=
      Finset.card_pos.mpr ⟨i, Finset.mem_filter.mpr ⟨Finset.mem_univ _, rfl⟩⟩
    rw [← this] at hpos
    obtain ⟨j, hj⟩ := Finset.card_pos.mp hpos
    exact ⟨j, (sq _ _ (h'.nonneg j) (h.nonneg i)).mp (Finset.mem_filter.mp hj).2⟩
  have m2 : ∀ j, (lib' B').S j ≠ 0 → ∃ i, (lib' B').S j = ‖a‖ * (lib B).S i := by
    intro j hj
    have := count (fun x => ‖a‖ ^ 2 * x = (lib' B').S j ^ 2) (fun x => x = (lib' B').S j ^ 2)
      (fun x => Iff.rfl) (fun h => hj (pow_eq_zero_iff two_ne_zero |>.mp (by rw [← h, mul_zero])))
    have hpos : 0 < (Finset.univ.filter fun i => (lib' B').S i ^ 2 = (lib' B').S j ^ 2).card :=
      Finset.card_pos.mpr ⟨j, Finset.mem_filter.mpr ⟨Finset.mem_univ _, rfl⟩⟩
    rw [this] at hpos
    obtain ⟨i, hi⟩ := Finset.card_pos.mp hpos
    exact ⟨i, (sq _ _ (h'.nonneg j) (h.nonneg i)).mp (Finset.mem_filter.mp hi).2.symm⟩
  have ok : ∀ {p q : Nat} {l : Matrix (Fin p) (Fin q) 𝕜 → SvdOut 𝕜 p q} {C : Matrix (Fin p) (Fin q) 𝕜} {τ : ℝ} {f : Svd 𝕜 p q},
      utilSvd l C (some τ) rtol = .ok f → rtol = none ∨ 0 < min p q := by
    intro p q l C τ f hf
    by_contra hc
    push Not at hc
    have := (C19_error_iff l C (some τ) rtol .indexError).mpr ⟨rfl, hc.1, by omega⟩
    rw [hf] at this
    cases this
  have hret := keptValue_wide (t := t) (rtol := rtol) (w := (lib B).S) (w' := (lib' B').S)
    ((ok he).elim Or.inl fun h1 => (ok he').elim Or.inl fun h2 => .inr ⟨h1, h2⟩) na m1 m2
  have hpos : ∀ x, KeptValue (lib B).S t rtol x → x ≠ 0 := by
    rintro x ⟨h1, -⟩ rfl
    rw [abs_zero] at h1
    exact absurd h1 (not_lt.mpr ht)
  have sq1 : ∀ i, Real.sqrt ((lib B).S i ^ 2) = (lib B).S i := fun i => Real.sqrt_sq (h.nonneg i)
  have sq2 : ∀ i, Real.sqrt ((lib' B').S i ^ 2) = (lib' B').S i := fun i => Real.sqrt_sq (h'.nonneg i)
  have functions : ∀ f g : ℝ → 𝕜, (∀ x, 0 < x → g (‖a‖ * x) = f x) →
      e'.U * diagonal (fun i => g (e'.S i)) * e'.Uᴴ = T * (e.U * diagonal (fun i => f (e.S i)) * e.Uᴴ) * Tᴴ ∧
      e'.V * diagonal (fun i => g (e'.S i)) * e'.Vᴴ = Qᴴ * (e.V * diagonal (fun i => f (e.S i)) * e.Vᴴ) * Q := by
    intro f g hfg
    have hF : ∀ x : ℝ, (if KeptValue (lib' B').S (‖a‖ * t) rtol (Real.sqrt (‖a‖ ^ 2 * x)) then g (Real.sqrt (‖a‖ ^ 2 * x)) else 0) =
        if KeptValue (lib B).S t rtol (Real.sqrt x) then f (Real.sqrt x) else 0 := by
      intro x
      rw [Real.sqrt_mul (sq_nonneg _), Real.sqrt_sq na.le]
      by_cases hx : KeptValue (lib B).S t rtol (Real.sqrt x)
      · rw [if_pos hx, if_pos ((hret _).mpr hx), hfg _ (lt_of_le_of_ne (Real.sqrt_nonneg x) (hpos _ hx).symm)]
      · rw [if_neg hx, if_neg fun h => hx ((hret _).mp h)]
    have hF0 : (if KeptValue (lib B).S t rtol (Real.sqrt 0) then f (Real.sqrt 0) else 0) = 0 := by
      rw [Real.sqrt_zero, if_neg fun h => hpos 0 h rfl]
    have k1 := thin_functions hU h'.left hsqU h'.left_square hT2 l1 na2
      (fun x => if KeptValue (lib B).S t rtol (Real.sqrt x) then f (Real.sqrt x) else 0)
      (fun x => if KeptValue (lib' B').S (‖a‖ * t) rtol (Real.sqrt x) then g (Real.sqrt x) else 0) hF hF0
    have k2 := thin_functions hV hV' hsq h'.right_square hT1 l2 na2
      (fun x => if KeptValue (lib B).S t rtol (Real.sqrt x) then f (Real.sqrt x) else 0)
      (fun x => if KeptValue (lib' B').S (‖a‖ * t) rtol (Real.sqrt x) then g (Real.sqrt x) else 0) hF hF0
    simp only [sq1, sq2] at k1 k2
    rw [first_functions hle hU1 hv _ hk, first_functions hle' hU1' hv' _ hk', first_functions hle hV1 hv _ hk,
      first_functions hle' hV1' hv' _ hk']
    refine ⟨k1.trans ?_, k2.trans ?_⟩ <;>
    simp only [Matrix.mul_assoc, conjTranspose_mul, conjTranspose_conjTranspose, conjTranspose_one, Matrix.one_mul, Matrix.mul_one]
  obtain ⟨o1, -, -, -, hS, -⟩ := C19_singular_triples _ _ _ _ h e he
  obtain ⟨o2, -, -, -, hS', -⟩ := C19_singular_triples _ _ _ _ h' e' he'
  have counts : ∀ (P P' : ℝ → Prop) [DecidablePred P] [DecidablePred P'], (∀ x, 0 < x → (P' (‖a‖ * x) ↔ P x)) →
      (Finset.univ.filter fun i => P' (e'.S i)).card = (Finset.univ.filter fun i => P (e.S i)).card := by
    intro P P' _ _ hP
    have h2 := congrArg Matrix.trace (functions (fun x => if P x then 1 else 0) (fun x => if P' x then 1 else 0)
      fun x hx => by simp only [hP x hx]).1
    rw [Matrix.trace_mul_cycle, o2, Matrix.one_mul, trace_diagonal, Matrix.trace_mul_cycle (A := T), hT, Matrix.one_mul,
      Matrix.trace_mul_cycle, o1, Matrix.one_mul, trace_diagonal, Finset.sum_ite, Finset.sum_ite] at h2
    simp only [Finset.sum_const_zero, add_zero, Finset.sum_const, nsmul_eq_mul, mul_one] at h2
    exact_mod_cast h2
  have hrr : e'.r = e.r := by
    have := counts (fun _ => True) (fun _ => True) fun _ _ => Iff.rfl
    simpa only [Finset.filter_true, Finset.card_univ, Fintype.card_fin] using this
  refine ⟨hrr, sorted_unique_of_counts (u := fun i => ‖a‖ * e.S i) hrr (fun i j hij => ?_) (fun i j hij => ?_)
    (fun i => mul_nonneg na.le (hS i)) hS' fun y _ => ?_, functions⟩
  · dsimp only
    rw [hv, hv]
    exact mul_le_mul_of_nonneg_left (h.sorted (show Fin.castLE hle i ≤ Fin.castLE hle j from hij)) na.le
  · rw [hv', hv']
    exact h'.sorted (show Fin.castLE hle' i ≤ Fin.castLE hle' j from hij)
  · exact counts (fun x => y < ‖a‖ * x) (fun x => y < x) fun _ _ => Iff.rfl

end Svd

end Modred
