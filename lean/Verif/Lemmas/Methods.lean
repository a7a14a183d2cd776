import Verif.Lemmas.DeterminedSvd

/-!
# Singular values and vectors of an array, and eigenvalues and eigenvectors of its square
-/

namespace Modred

open Matrix

variable {𝕜 : Type*} [RCLike 𝕜] {n m : Nat}

/-- Eigenvectors of an array give the array. -/
theorem IsEigh.product {A : Matrix (Fin m) (Fin m) 𝕜} {o : EighOut 𝕜 m} (h : IsEigh A o) :
    A = o.V * diagonal (fun i => (o.w i : 𝕜)) * o.Vᴴ := by
  rw [← h.eigen, Matrix.mul_assoc, mul_eq_one_comm.mp h.orthonormal, Matrix.mul_one]

section Square

variable {lib : Matrix (Fin m) (Fin m) 𝕜 → EighOut 𝕜 m} {argsort : (Fin m → ℝ) → Equiv.Perm (Fin m)}
  {svd : Matrix (Fin n) (Fin m) 𝕜 → SvdOut 𝕜 n m} {B : Matrix (Fin n) (Fin m) 𝕜} {t : ℝ} {rtol : Option ℝ}

/-- As many eigenvalues of the square as squared singular values have a property that zero does not have. -/
theorem square_count (h : IsEigh (Bᴴ * B) (lib (Bᴴ * B))) (h' : IsSvd B (svd B)) (P : ℝ → Prop) [DecidablePred P] (h0 : ¬ P 0) :
    (Finset.univ.filter fun i => P ((svd B).S i ^ 2)).card = (Finset.univ.filter fun i => P ((lib (Bᴴ * B)).w i)).card := by
  refine thin_count (s := 1) (T := (1 : Matrix (Fin m) (Fin m) 𝕜)) h.orthonormal ?_ h.product h'.right_square ?_ ?_ one_ne_zero P P
    (fun x => by rw [one_mul]) h0
  · rw [conjTranspose_conjTranspose]
    exact h'.right
  · rw [conjTranspose_one, Matrix.mul_one]
  · rw [conjTranspose_one, Matrix.mul_one, Matrix.one_mul, RCLike.ofReal_one, one_smul]

theorem square_functions (h : IsEigh (Bᴴ * B) (lib (Bᴴ * B))) (h' : IsSvd B (svd B)) (f : ℝ → 𝕜) (hf : f 0 = 0) :
    (svd B).Vhᴴ * diagonal (fun i => f ((svd B).S i ^ 2)) * (svd B).Vhᴴᴴ =
      (lib (Bᴴ * B)).V * diagonal (fun i => f ((lib (Bᴴ * B)).w i)) * (lib (Bᴴ * B)).Vᴴ := by
  have := thin_functions (s := 1) (T := (1 : Matrix (Fin m) (Fin m) 𝕜)) h.orthonormal
    (by rw [conjTranspose_conjTranspose]; exact h'.right) h.product h'.right_square (by rw [conjTranspose_one, Matrix.mul_one])
    (by rw [conjTranspose_one, Matrix.mul_one, Matrix.one_mul, RCLike.ofReal_one, one_smul]) one_ne_zero f f
    (fun x => by rw [one_mul]) hf
  rwa [conjTranspose_one, Matrix.mul_one, Matrix.one_mul] at this

theorem square_nonneg (h : IsEigh (Bᴴ * B) (lib (Bᴴ * B))) (h' : IsSvd B (svd B)) (i : Fin m) : 0 ≤ (lib (Bᴴ * B)).w i := by
  classical
  by_contra hc
  have := square_count h h' (fun x => x < 0) (lt_irrefl 0)
  rw [Finset.filter_false_of_mem fun j _ => not_lt.mpr (sq_nonneg _), Finset.card_empty] at this
  have h1 := Finset.card_eq_zero.mp this.symm
  have : i ∈ Finset.univ.filter fun i => (lib (Bᴴ * B)).w i < 0 := Finset.mem_filter.mpr ⟨Finset.mem_univ _, not_le.mp hc⟩
  rw [h1] at this
  exact absurd this (Finset.notMem_empty _)

/-- Eigenvalues of the square other than zero are squares of singular values, and conversely. -/
theorem square_mem (h : IsEigh (Bᴴ * B) (lib (Bᴴ * B))) (h' : IsSvd B (svd B)) (y : ℝ) (hy : y ≠ 0) :
    (∃ j, (svd B).S j ^ 2 = y) ↔ ∃ i, (lib (Bᴴ * B)).w i = y := by
  classical
  have := square_count h h' (fun x => x = y) (fun h => hy h.symm)
  constructor
  · rintro ⟨j, hj⟩
    have h1 : 0 < (Finset.univ.filter fun i => (svd B).S i ^ 2 = y).card :=
      Finset.card_pos.mpr ⟨j, Finset.mem_filter.mpr ⟨Finset.mem_univ _, hj⟩⟩
    rw [this] at h1
    obtain ⟨i, hi⟩ := Finset.card_pos.mp h1
    exact ⟨i, (Finset.mem_filter.mp hi).2⟩
  · rintro ⟨i, hi⟩
    have h1 : 0 < (Finset.univ.filter fun i => (lib (Bᴴ * B)).w i = y).card :=
      Finset.card_pos.mpr ⟨i, Finset.mem_filter.mpr ⟨Finset.mem_univ _, hi⟩⟩
    rw [← this] at h1
    obtain ⟨j, hj⟩ := Finset.card_pos.mp h1
    exact ⟨j, (Finset.mem_filter.mp hj).2⟩

/-- Singular values obey the tolerances if and only if their squares obey the squared tolerances. -/
theorem square_kept (h : IsEigh (Bᴴ * B) (lib (Bᴴ * B))) (h' : IsSvd B (svd B)) (ht : 0 ≤ t) (hr : ∀ t ∈ rtol, 0 ≤ t) (x : ℝ)
    (hx : 0 < x) (hmem : ∃ j, (svd B).S j = x) :
    KeptValue (svd B).S t rtol x ↔ KeptValue (lib (Bᴴ * B)).w (t ^ 2) (rtol.map (· ^ 2)) (x ^ 2) := by
  have hw := square_nonneg h h'
  have hS := h'.nonneg
  have hsq : ∀ a b : ℝ, 0 ≤ a → 0 ≤ b → (a ^ 2 < b ^ 2 ↔ a < b) := fun a b ha hb => pow_lt_pow_iff_left₀ ha hb two_ne_zero
  have hsq' : ∀ a b : ℝ, 0 ≤ a → 0 ≤ b → (a ^ 2 ≤ b ^ 2 ↔ a ≤ b) := fun a b ha hb => pow_le_pow_iff_left₀ ha hb two_ne_zero
  have hmax : ∀ j k, (svd B).S j ^ 2 = (lib (Bᴴ * B)).w k → 0 < (svd B).S j →
      ((∀ i, (lib (Bᴴ * B)).w i ≤ (lib (Bᴴ * B)).w k) ↔ ∀ i, (svd B).S i ≤ (svd B).S j) := by
    intro j k hjk hj
    constructor
    · intro hk i
      rw [← hsq' _ _ (hS i) (hS j), hjk]
      rcases (hS i).eq_or_lt with h0 | h0
      · rw [← h0, zero_pow two_ne_zero]
        exact hw k
      · obtain ⟨l, hl⟩ := (square_mem h h' _ (pow_pos h0 2).ne').mp ⟨i, rfl⟩
        rw [← hl]
        exact hk l
    · intro hj' i
      rw [← hjk]
      rcases (hw i).eq_or_lt with h0 | h0
      · rw [← h0]
        positivity
      · obtain ⟨l, hl⟩ := (square_mem h h' _ h0.ne').mpr ⟨i, rfl⟩
        rw [← hl, hsq' _ _ (hS l) (hS j)]
        exact hj' l
  unfold KeptValue
  simp only [abs_of_nonneg (hw _), abs_of_nonneg (hS _), abs_of_pos hx, abs_of_pos (pow_pos hx 2)]
  refine and_congr (hsq t x ht hx.le).symm (and_congr ?_ ?_)
  · constructor
    · intro hk u hu
      obtain ⟨v, hv, rfl⟩ := Option.map_eq_some_iff.mp hu
      obtain ⟨j, hj, hux⟩ := hk v hv
      obtain ⟨l, hl⟩ := hmem
      have hjpos : 0 < (svd B).S j := lt_of_lt_of_le (hl ▸ hx) (hj l)
      obtain ⟨k, hkk⟩ := (square_mem h h' _ (pow_pos hjpos 2).ne').mp ⟨j, rfl⟩
      refine ⟨k, (hmax j k hkk.symm hjpos).mpr hj, ?_⟩
      rw [hkk, ← mul_pow, hsq _ _ (mul_nonneg (hr v hv) (hS j)) hx.le]
      exact hux
    · intro hk v hv
      obtain ⟨k, hkm, hux⟩ := hk (v ^ 2) (Option.map_eq_some_iff.mpr ⟨v, hv, rfl⟩)
      obtain ⟨l, hl⟩ := hmem
      obtain ⟨l', hl'⟩ := (square_mem h h' (x ^ 2) (pow_pos hx 2).ne').mp ⟨l, by rw [hl]⟩
      have hkpos : 0 < (lib (Bᴴ * B)).w k := lt_of_lt_of_le (hl' ▸ pow_pos hx 2) (hkm l')
      obtain ⟨j, hj⟩ := (square_mem h h' _ hkpos.ne').mpr ⟨k, rfl⟩
      have hjpos : 0 < (svd B).S j := lt_of_le_of_ne (hS j) fun h0 => by
        rw [← h0, zero_pow two_ne_zero] at hj
        exact hkpos.ne hj
      refine ⟨j, (hmax j k hj hjpos).mp hkm, ?_⟩
      rwa [← hj, ← mul_pow, hsq _ _ (mul_nonneg (hr v hv) (hS j)) hx.le] at hux
  · exact ⟨fun _ j hj => absurd hj (not_lt.mpr (hw j)), fun _ j hj => absurd hj (not_lt.mpr (hS j))⟩

/-- The retained singular values and right singular vectors of an array, and the retained eigenvalues and eigenvectors of its
square, with squared tolerances. -/
theorem square_determined (h : IsEigh (Bᴴ * B) (lib (Bᴴ * B))) (h' : IsSvd B (svd B)) (ht : 0 ≤ t) (hr : ∀ t ∈ rtol, 0 ≤ t)
    (hs : IsArgsort argsort) (e : Eigh 𝕜 m) (e' : Svd 𝕜 n m)
    (he : utilEigh lib argsort (Bᴴ * B) (some (t ^ 2)) (rtol.map (· ^ 2)) true = .ok e)
    (he' : utilSvd svd B (some t) rtol = .ok e') :
    e'.r = e.r ∧ (∀ (i' : Fin e'.r) (i : Fin e.r), i'.val = i.val → e'.S i' ^ 2 = e.w i) ∧
    ∀ f : ℝ → 𝕜, e'.V * diagonal (fun i => f (e'.S i ^ 2)) * e'.Vᴴ = e.V * diagonal (fun i => f (e.w i)) * e.Vᴴ := by
  classical
  have hr2 : ∀ t ∈ rtol.map (· ^ 2), 0 ≤ t := by
    intro u hu
    obtain ⟨v, -, rfl⟩ := Option.map_eq_some_iff.mp hu
    exact sq_nonneg v
  have hS := h'.nonneg
  obtain ⟨hle', hk', hS', -, hV'⟩ := svd_retained_spec h' hr e' he'
  -- which squares are kept
  have hiff : ∀ j, KeptValue (svd B).S t rtol ((svd B).S j) ↔
      KeptValue (lib (Bᴴ * B)).w (t ^ 2) (rtol.map (· ^ 2)) ((svd B).S j ^ 2) := by
    intro j
    rcases (hS j).eq_or_lt with h0 | h0
    · rw [← h0]
      constructor
      · rintro ⟨hc, -⟩
        rw [abs_zero] at hc
        exact absurd hc (not_lt.mpr ht)
      · rintro ⟨hc, -⟩
        rw [zero_pow two_ne_zero, abs_zero] at hc
        exact absurd hc (not_lt.mpr (sq_nonneg t))
    · exact square_kept h h' ht hr _ h0 ⟨j, rfl⟩
  have hzero : ¬ KeptValue (lib (Bᴴ * B)).w (t ^ 2) (rtol.map (· ^ 2)) 0 := by
    rintro ⟨hc, -⟩
    rw [abs_zero] at hc
    exact absurd hc (not_lt.mpr (sq_nonneg t))
  have hfun : ∀ f : ℝ → 𝕜, e'.V * diagonal (fun i => f (e'.S i ^ 2)) * e'.Vᴴ = e.V * diagonal (fun i => f (e.w i)) * e.Vᴴ := by
    intro f
    rw [eigh_kept_functions hs hr2 e he, first_functions hle' hV' hS' _ hk' (fun x => f (x ^ 2)), ← square_functions h h'
      (fun x => if KeptValue (lib (Bᴴ * B)).w (t ^ 2) (rtol.map (· ^ 2)) x then f x else 0) (if_neg hzero)]
    simp only [hiff]
  have hcard : ∀ P : ℝ → Prop, [DecidablePred P] → (Finset.univ.filter fun i => P (e'.S i ^ 2)).card =
      (Finset.univ.filter fun i => P (e.w i)).card := by
    intro P _
    have h1 := congrArg Matrix.trace (hfun fun x => if P x then 1 else 0)
    obtain ⟨-, hVV, -⟩ := C19_singular_triples _ _ _ _ h' e' he'
    have hVe := (C20_eigenpairs lib argsort _ _ _ true h hs e he).1
    rw [Matrix.trace_mul_cycle, hVV, Matrix.one_mul, trace_diagonal, Matrix.trace_mul_cycle, hVe, Matrix.one_mul, trace_diagonal,
      Finset.sum_ite, Finset.sum_ite] at h1
    simp only [Finset.sum_const_zero, add_zero, Finset.sum_const, nsmul_eq_mul, mul_one] at h1
    exact_mod_cast h1
  have hnum : e'.r = e.r := by
    have := hcard (fun _ => True)
    simpa using this
  refine ⟨hnum, ?_, hfun⟩
  have hsort : Antitone fun i => e.w i := by
    obtain ⟨p, hp, hle, -, hw, -⟩ := retained_spec hs hr2 e he
    intro i j hij
    have := hp (show Fin.castLE hle i ≤ Fin.castLE hle j from hij)
    dsimp only at this
    rwa [← hw, ← hw, abs_of_nonneg (by rw [hw]; exact square_nonneg h h' _), abs_of_nonneg (by rw [hw]; exact square_nonneg h h' _)] at this
  obtain ⟨-, -, -, -, hS0, hSsort⟩ := C19_singular_triples _ _ _ _ h' e' he'
  have hu : (fun i : Fin e.r => e'.S (Fin.cast hnum.symm i) ^ 2) = e.w := by
    refine antitone_unique_of_counts ?_ hsort (fun i => sq_nonneg _) (fun i => ?_) fun y _ => ?_
    · intro i j hij
      exact pow_le_pow_left₀ (hS0 _) (hSsort (show Fin.cast hnum.symm i ≤ Fin.cast hnum.symm j from hij)) 2
    · obtain ⟨p, -, hle, -, hw, -⟩ := retained_spec hs hr2 e he
      rw [hw]
      exact square_nonneg h h' _
    · rw [← hcard fun x => y < x]
      refine Finset.card_bij (fun i _ => Fin.cast hnum.symm i) ?_ ?_ ?_
      · intro i hi
        simpa using hi
      · intro i _ j _ hij
        exact Fin.cast_injective _ hij
      · intro j hj
        exact ⟨Fin.cast hnum j, by simpa using hj, by simp⟩
  intro i' i hi
  rw [← hu]
  dsimp only
  rw [show Fin.cast hnum.symm i = i' from Fin.ext hi.symm]

end Square

end Modred
