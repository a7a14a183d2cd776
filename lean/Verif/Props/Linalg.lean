import Verif.Lemmas.Linalg
import Mathlib.Data.Fin.Tuple.Sort
import Mathlib.Analysis.Matrix.Spectrum
import Mathlib.Data.Fin.VecNotation
import Mathlib.LinearAlgebra.Matrix.Notation

/-!
# Decompositions (C19-C21)
-/

namespace Modred

open Matrix

variable {𝕜 : Type*} [RCLike 𝕜]

/-! ### C19 -/

section C19

theorem IsSvd.mul_right {m n : Nat} {a : Matrix (Fin m) (Fin n) 𝕜} {o : SvdOut 𝕜 m n} (h : IsSvd a o) :
    a * o.Vhᴴ = o.U * diagonal (fun i => (o.S i : 𝕜)) := by
  conv_lhs => rw [h.product]
  rw [Matrix.mul_assoc, h.right, Matrix.mul_one]

theorem IsSvd.mul_left {m n : Nat} {a : Matrix (Fin m) (Fin n) 𝕜} {o : SvdOut 𝕜 m n} (h : IsSvd a o) :
    aᴴ * o.U = o.Vhᴴ * diagonal (fun i => (o.S i : 𝕜)) := by
  conv_lhs => rw [h.product]
  rw [conjTranspose_mul, conjTranspose_mul, Matrix.mul_assoc, Matrix.mul_assoc, h.left,
    Matrix.mul_one, diagonal_conjTranspose]
  congr 2
  ext i
  simp

variable {m n : Nat} (lib : Matrix (Fin m) (Fin n) 𝕜 → SvdOut 𝕜 m n) (a : Matrix (Fin m) (Fin n) 𝕜)
  (atol rtol : Option ℝ)

theorem utilSvd_cases (res : Svd 𝕜 m n) (hres : utilSvd lib a atol rtol = .ok res) :
    ∃ num, numRetained (lib a).S atol rtol = .ok num ∧
      res = ⟨min num (min m n), firstCols (lib a).U num, firstEntries (lib a).S num,
        firstCols (lib a).Vhᴴ num⟩ := by
  unfold utilSvd at hres
  dsimp only at hres
  split at hres
  · cases hres
  · rename_i num hnum
    cases hres
    exact ⟨num, hnum, rfl⟩

theorem abs_antitone {k : Nat} {S : Fin k → ℝ} (h0 : ∀ i, 0 ≤ S i) (hs : Antitone S) :
    ∀ i j, i ≤ j → |S j| ≤ |S i| := by
  intro i j hij
  rw [abs_of_nonneg (h0 i), abs_of_nonneg (h0 j)]
  exact hs hij

/-- The singular vectors returned are orthonormal, and they are singular vectors for the values
returned, which are in descending order. -/
theorem C19_singular_triples (h : IsSvd a (lib a)) (res : Svd 𝕜 m n)
    (hres : utilSvd lib a atol rtol = .ok res) :
    res.Uᴴ * res.U = 1 ∧ res.Vᴴ * res.V = 1 ∧
    a * res.V = res.U * diagonal (fun i => (res.S i : 𝕜)) ∧
    aᴴ * res.U = res.V * diagonal (fun i => (res.S i : 𝕜)) ∧
    (∀ i, 0 ≤ res.S i) ∧ Antitone res.S := by
  obtain ⟨num, -, rfl⟩ := utilSvd_cases lib a atol rtol res hres
  have he : Function.Injective (Fin.castLE (Nat.min_le_right num (min m n))) :=
    Fin.castLE_injective _
  have hV : (lib a).Vhᴴᴴ * (lib a).Vhᴴ = 1 := by rw [conjTranspose_conjTranspose]; exact h.right
  refine ⟨orthonormal_submatrix _ h.left _ he, orthonormal_submatrix _ hV _ he, ?_, ?_,
    fun i => h.nonneg _, fun i j hij => h.sorted (by simpa using hij)⟩
  · unfold firstCols
    rw [mul_submatrix_cols]
    rw [h.mul_right, mul_diagonal_submatrix]
    rfl
  · unfold firstCols
    rw [mul_submatrix_cols]
    rw [h.mul_left, mul_diagonal_submatrix]
    rfl

/-- Exactly the singular values that obey the tolerances are returned. -/
theorem C19_kept_iff (h : IsSvd a (lib a)) (hr : ∀ t ∈ rtol, 0 ≤ t) (res : Svd 𝕜 m n)
    (hres : utilSvd lib a atol rtol = .ok res) :
    res.r ≤ min m n ∧
    (∀ i : Fin (min m n), i.val < res.r ↔ Obeys (lib a).S atol rtol i) ∧
    ∀ (i : Fin res.r) (j : Fin (min m n)), j.val = i.val → res.S i = (lib a).S j ∧
      (∀ k, res.U k i = (lib a).U k j) ∧ ∀ k, res.V k i = star ((lib a).Vh j k) := by
  obtain ⟨num, hnum, rfl⟩ := utilSvd_cases lib a atol rtol res hres
  obtain ⟨h1, h2⟩ := numRetained_spec _ _ _ _ (abs_antitone h.nonneg h.sorted) hr hnum
  refine ⟨Nat.min_le_right _ _, fun i => ?_, fun i j hij => ?_⟩
  · rw [← h2 i]
    simp only [Nat.min_eq_left h1]
  · have : j = Fin.castLE (Nat.min_le_right num (min m n)) i := by ext; exact hij
    subst this
    exact ⟨rfl, fun k => rfl, fun k => rfl⟩

/-- The squared distance (sum of squared magnitudes of all entries) between the array and the product of
the arrays returned is the sum of the squares of the singular values not returned. -/
theorem C19_truncation_error (h : IsSvd a (lib a)) (res : Svd 𝕜 m n)
    (hres : utilSvd lib a atol rtol = .ok res) :
    frobSq (a - res.U * diagonal (fun i => (res.S i : 𝕜)) * res.Vᴴ) =
      ∑ i : Fin (min m n), if i.val < res.r then 0 else (lib a).S i ^ 2 := by
  classical
  obtain ⟨num, -, rfl⟩ := utilSvd_cases lib a atol rtol res hres
  have hV : (lib a).Vhᴴᴴ * (lib a).Vhᴴ = 1 := by rw [conjTranspose_conjTranspose]; exact h.right
  unfold firstCols firstEntries
  dsimp only
  generalize lib a = o at *
  rw [selected_product o.U (fun i => (o.S i : 𝕜)) o.Vhᴴ _ (Fin.castLE_injective _)]
  have hp : a = o.U * diagonal (fun i => (o.S i : 𝕜)) * o.Vhᴴᴴ := by
    rw [conjTranspose_conjTranspose]; exact h.product
  conv_lhs => enter [1, 1]; rw [hp]
  rw [← Matrix.sub_mul, ← Matrix.mul_sub, diagonal_sub]
  rw [show (fun i => (o.S i : 𝕜) -
      if ∃ j, Fin.castLE (Nat.min_le_right num (min m n)) j = i then (o.S i : 𝕜) else 0) =
    fun i => (((if i.val < min num (min m n) then 0 else o.S i) : ℝ) : 𝕜) from ?_]
  · rw [frobSq_isometry _ _ h.left hV]
    refine Finset.sum_congr rfl fun i _ => ?_
    split <;> simp
  · ext i
    simp only [exists_castLE_iff]
    split <;> simp

theorem frobSq_eq_zero {p q : Nat} (b : Matrix (Fin p) (Fin q) 𝕜) (h : frobSq b = 0) : b = 0 := by
  ext i j
  unfold frobSq at h
  rw [Finset.sum_eq_zero_iff_of_nonneg fun _ _ => Finset.sum_nonneg fun _ _ => by positivity] at h
  have := h i (Finset.mem_univ _)
  rw [Finset.sum_eq_zero_iff_of_nonneg fun _ _ => by positivity] at this
  simpa using this j (Finset.mem_univ _)

/-- If nothing but zeros is dropped, the product of the arrays returned is the array. -/
theorem C19_exact (h : IsSvd a (lib a)) (res : Svd 𝕜 m n)
    (hres : utilSvd lib a atol rtol = .ok res)
    (hz : ∀ i : Fin (min m n), res.r ≤ i.val → (lib a).S i = 0) :
    a = res.U * diagonal (fun i => (res.S i : 𝕜)) * res.Vᴴ := by
  rw [← sub_eq_zero]
  apply frobSq_eq_zero
  rw [C19_truncation_error lib a atol rtol h res hres]
  refine Finset.sum_eq_zero fun i _ => ?_
  split
  · rfl
  · rw [hz i (by omega)]; simp

/-- An exception is raised exactly if a relative tolerance is given and the array has no row or no
column. -/
theorem C19_error_iff (e : Err) :
    utilSvd lib a atol rtol = .error e ↔ e = .indexError ∧ rtol ≠ none ∧ min m n = 0 := by
  rw [← numRetained_error (lib a).S atol rtol e]
  unfold utilSvd
  dsimp only
  split <;> simp_all

end C19

/-- A library result for the array with rows (0, 3) and (2, 0). -/
noncomputable def exampleSvd : SvdOut ℝ 2 2 where
  U := !![1, 0; 0, 1]
  S := ![3, 2]
  Vh := !![0, 1; 1, 0]

theorem exampleSvd_isSvd : IsSvd (!![0, 3; 2, 0] : Matrix (Fin 2) (Fin 2) ℝ) exampleSvd where
  left := by ext i j; fin_cases i <;> fin_cases j <;> simp [exampleSvd, Matrix.mul_apply, Fin.sum_univ_two]
  right := by ext i j; fin_cases i <;> fin_cases j <;> simp [exampleSvd, Matrix.mul_apply, Fin.sum_univ_two]
  product := by
    ext i j
    rw [Matrix.mul_apply]
    refine Eq.trans ?_ (Fin.sum_univ_two _).symm
    fin_cases i <;> fin_cases j <;> simp [exampleSvd, Matrix.mul_diagonal]
  nonneg := by intro i; fin_cases i <;> simp [exampleSvd]
  sorted := by
    intro i j hij; fin_cases i <;> fin_cases j <;> simp_all [exampleSvd]
    norm_num

/-- With absolute tolerance 2 the value 2 is dropped, as it is not larger. -/
example : ∃ res, utilSvd (fun _ => exampleSvd) !![0, 3; 2, 0] (some 2) none = .ok res ∧ res.r = 1 ∧
    res.Uᴴ * res.U = 1 ∧ ∀ i, res.S i = 3 := by
  have hn := C19_error_iff (fun _ => exampleSvd) (!![0, 3; 2, 0] : Matrix (Fin 2) (Fin 2) ℝ) (some 2) none
  cases h : utilSvd (fun _ => exampleSvd) (!![0, 3; 2, 0] : Matrix (Fin 2) (Fin 2) ℝ) (some 2) none with
  | error e => simpa using (hn e).mp h
  | ok res =>
    obtain ⟨h1, h2, h3⟩ := C19_kept_iff _ _ _ _ exampleSvd_isSvd (by simp) res h
    have a0 := h2 (0 : Fin 2)
    have a1 := h2 (1 : Fin 2)
    simp [Obeys, exampleSvd] at a0 a1
    have hr : res.r = 1 := by
      have : (2 : ℝ) < 3 := by norm_num
      have := a0.mpr this
      omega
    refine ⟨res, rfl, hr, (C19_singular_triples _ _ _ _ exampleSvd_isSvd res h).1, fun i => ?_⟩
    have hi : (0 : Fin 2).val = i.val := by
      have := i.isLt
      simp; omega
    rw [(h3 i (0 : Fin 2) hi).1]
    simp [exampleSvd]

/-! ### C20 -/

section C20

variable {n : Nat} (lib : Matrix (Fin n) (Fin n) 𝕜 → EighOut 𝕜 n)
  (argsort : (Fin n → ℝ) → Equiv.Perm (Fin n)) (a : Matrix (Fin n) (Fin n) 𝕜)
  (atol rtol : Option ℝ) (pd : Bool)

/-- The order in which `util.eigh` lists the eigenvalues: descending magnitude. -/
def descending (w : Fin n → ℝ) : Equiv.Perm (Fin n) := Fin.revPerm.trans (argsort fun j => |w j|)

theorem descending_antitone (h : IsArgsort argsort) (w : Fin n → ℝ) :
    ∀ i j, i ≤ j → |w (descending argsort w j)| ≤ |w (descending argsort w i)| := by
  intro i j hij
  exact h (fun j => |w j|) (Fin.rev_le_rev.mpr hij)

theorem npMin_le {w : Fin n → ℝ} {low : ℝ} (h : npMin w = .ok low) :
    (∀ i, low ≤ w i) ∧ ∃ i, w i = low := by
  unfold npMin at h
  split at h
  · cases h
    refine ⟨fun i => Finset.inf'_le _ (Finset.mem_univ i), ?_⟩
    obtain ⟨i, -, hi⟩ := Finset.exists_mem_eq_inf' (s := Finset.univ) ⟨⟨0, by assumption⟩, Finset.mem_univ _⟩ w
    exact ⟨i, hi.symm⟩
  · cases h

/-- What the adjusted tolerance means. -/
theorem adjustTol_spec {w : Fin n → ℝ} {atol' : Option ℝ} (h : adjustTol w atol pd = .ok atol') (x : ℝ) :
    (∀ t ∈ atol', t < |x|) ↔
      (∀ t ∈ atol, t < |x|) ∧ (pd = true → ∀ j, w j < 0 → |w j| < |x|) := by
  unfold adjustTol at h
  cases pd with
  | false =>
    simp only [Bool.false_eq_true, if_false, Except.ok.injEq] at h
    subst h
    simp
  | true =>
    simp only [if_true] at h
    split at h
    · cases h
    · rename_i low hlow
      obtain ⟨h1, k, h2⟩ := npMin_le hlow
      by_cases hneg : low < 0
      · rw [if_pos hneg] at h
        cases atol with
        | none => cases h
        | some t =>
          have hall : (∀ j, w j < 0 → |w j| < |x|) ↔ |low| < |x| := by
            constructor
            · intro hj
              rw [← h2]
              exact hj k (by rw [h2]; exact hneg)
            · intro hl j hj
              refine lt_of_le_of_lt ?_ hl
              rw [abs_of_neg hj, abs_of_neg hneg]
              linarith [h1 j]
          simp only at h
          split at h
          · rename_i hlt
            cases h
            simp only [Option.mem_def, Option.some.injEq, forall_eq', true_implies, hall]
            exact ⟨fun h => ⟨lt_trans hlt h, h⟩, fun h => h.2⟩
          · rename_i hlt
            cases h
            simp only [Option.mem_def, Option.some.injEq, forall_eq', true_implies, hall]
            exact ⟨fun h => ⟨h, lt_of_le_of_lt (not_lt.mp hlt) h⟩, fun h => h.1⟩
      · rw [if_neg hneg] at h
        cases h
        have : ∀ j, w j < 0 → |w j| < |x| := fun j hj =>
          absurd (lt_of_le_of_lt (h1 j) hj) hneg
        simp only [true_implies]
        exact ⟨fun h => ⟨h, this⟩, fun h => h.1⟩

theorem utilEigh_cases (res : Eigh 𝕜 n) (hres : utilEigh lib argsort a atol rtol pd = .ok res) :
    ∃ atol' num,
      adjustTol (fun i => (lib a).w (descending argsort (lib a).w i)) atol pd = .ok atol' ∧
      numRetained (fun i => (lib a).w (descending argsort (lib a).w i)) atol' rtol = .ok num ∧
      res = ⟨min num n, firstEntries (fun i => (lib a).w (descending argsort (lib a).w i)) num,
        firstCols ((lib a).V.submatrix id (descending argsort (lib a).w)) num⟩ := by
  unfold utilEigh at hres
  dsimp only at hres
  split at hres
  · cases hres
  · rename_i atol' h1
    split at hres
    · cases hres
    · rename_i num h2
      cases hres
      exact ⟨atol', num, h1, h2, rfl⟩

/-- What is returned are orthonormal eigenvectors and their eigenvalues, in order of descending
magnitude. -/
theorem C20_eigenpairs (h : IsEigh a (lib a)) (hs : IsArgsort argsort) (res : Eigh 𝕜 n)
    (hres : utilEigh lib argsort a atol rtol pd = .ok res) :
    res.Vᴴ * res.V = 1 ∧ a * res.V = res.V * diagonal (fun i => (res.w i : 𝕜)) ∧
    ∀ i j, i ≤ j → |res.w j| ≤ |res.w i| := by
  obtain ⟨atol', num, -, -, rfl⟩ := utilEigh_cases lib argsort a atol rtol pd res hres
  refine ⟨?_, ?_, fun i j hij => descending_antitone argsort hs _ _ _ (by simpa using hij)⟩
  · exact orthonormal_submatrix _ (orthonormal_submatrix _ h.orthonormal _ (Equiv.injective _)) _
      (Fin.castLE_injective _)
  · unfold firstCols
    rw [mul_submatrix_cols, mul_submatrix_cols, h.eigen, mul_diagonal_submatrix, mul_diagonal_submatrix]
    rfl

/-- Exactly those eigenpairs are returned that obey the tolerances and, for arrays said to be positive
definite, are larger in magnitude than every negative eigenvalue. -/
theorem C20_kept_iff (hs : IsArgsort argsort) (hr : ∀ t ∈ rtol, 0 ≤ t) (res : Eigh 𝕜 n)
    (hres : utilEigh lib argsort a atol rtol pd = .ok res) :
    ∃ p : Equiv.Perm (Fin n), (∀ i j, i ≤ j → |(lib a).w (p j)| ≤ |(lib a).w (p i)|) ∧ res.r ≤ n ∧
      (∀ i : Fin n, i.val < res.r ↔ Obeys (fun i => (lib a).w (p i)) atol rtol i ∧
        (pd = true → ∀ j, (lib a).w j < 0 → |(lib a).w j| < |(lib a).w (p i)|)) ∧
      ∀ (i : Fin res.r) (j : Fin n), j.val = i.val → res.w i = (lib a).w (p j) ∧
        ∀ k, res.V k i = (lib a).V k (p j) := by
  obtain ⟨atol', num, hA, hN, rfl⟩ := utilEigh_cases lib argsort a atol rtol pd res hres
  refine ⟨descending argsort (lib a).w, descending_antitone argsort hs _, Nat.min_le_right _ _, ?_, ?_⟩
  · obtain ⟨h1, h2⟩ := numRetained_spec _ _ _ _ (descending_antitone argsort hs (lib a).w) hr hN
    intro i
    simp only [Nat.min_eq_left h1]
    rw [h2 i]
    unfold Obeys
    rw [adjustTol_spec atol pd hA]
    have hperm : (∀ j, (lib a).w (descending argsort (lib a).w j) < 0 →
        |(lib a).w (descending argsort (lib a).w j)| < |(lib a).w (descending argsort (lib a).w i)|) ↔
        ∀ j, (lib a).w j < 0 → |(lib a).w j| < |(lib a).w (descending argsort (lib a).w i)| :=
      (descending argsort (lib a).w).forall_congr_right
        (q := fun j => (lib a).w j < 0 → |(lib a).w j| < |(lib a).w (descending argsort (lib a).w i)|)
    rw [hperm]
    tauto
  · intro i j hij
    have : j = Fin.castLE (Nat.min_le_right num n) i := by ext; exact hij
    subst this
    exact ⟨rfl, fun k => rfl⟩

/-- With an absolute tolerance, which is not negative, only positive eigenvalues of an array said to be
positive definite are returned. -/
theorem C20_positive_partial (t : ℝ) (ht : 0 ≤ t) (hs : IsArgsort argsort) (hr : ∀ t ∈ rtol, 0 ≤ t)
    (res : Eigh 𝕜 n) (hres : utilEigh lib argsort a (some t) rtol true = .ok res) (i : Fin res.r) :
    0 < res.w i := by
  obtain ⟨p, -, hle, hk, hv⟩ := C20_kept_iff lib argsort a (some t) rtol true hs hr res hres
  have hi := i.isLt
  obtain ⟨⟨h1, -⟩, h2⟩ := (hk ⟨i, by omega⟩).mp hi
  have h1 := h1 t rfl
  dsimp only at h1
  rw [(hv i ⟨i, by omega⟩ rfl).1]
  rcases lt_trichotomy ((lib a).w (p ⟨i, by omega⟩)) 0 with h | h | h
  · exact absurd (h2 rfl _ h) (lt_irrefl _)
  · rw [h, abs_zero] at h1
    exact absurd h1 (not_lt.mpr ht)
  · exact h

/-- Without an absolute tolerance, zero eigenvalues of an array said to be positive definite are
returned, although only positive ones are promised. -/
theorem C20_zero_eigenvalues_returned_violation (hs : IsArgsort argsort)
    (hpos : ∀ i, 0 ≤ (lib a).w i) (hz : ∃ i, (lib a).w i = 0) :
    ∃ res, utilEigh lib argsort a none none true = .ok res ∧ ∃ i, res.w i = 0 := by
  obtain ⟨k, hk⟩ := hz
  have hA : adjustTol (fun i => (lib a).w (descending argsort (lib a).w i)) none true = .ok none := by
    unfold adjustTol
    simp only [if_true]
    split
    · rename_i e he
      unfold npMin at he
      rw [dif_pos k.pos] at he
      cases he
    · rename_i low hlow
      obtain ⟨-, j, hj⟩ := npMin_le hlow
      rw [if_neg]
      rw [← hj]
      exact not_lt.mpr (hpos _)
  cases hres : utilEigh lib argsort a none none true with
  | error e =>
    exfalso
    unfold utilEigh at hres
    dsimp only at hres
    have hA' : adjustTol (fun i => (lib a).w (argsort (fun j => |(lib a).w j|) i.rev)) none true =
      .ok none := hA
    rw [hA'] at hres
    cases hres
  | ok res =>
    refine ⟨res, rfl, ?_⟩
    obtain ⟨p, -, hle, hk', hv⟩ := C20_kept_iff lib argsort a none none true hs (by simp) res hres
    have hlt : (p.symm k).val < res.r := by
      rw [hk']
      exact ⟨⟨by simp, by simp⟩, fun _ j hj => absurd hj (not_lt.mpr (hpos j))⟩
    refine ⟨⟨p.symm k, hlt⟩, ?_⟩
    rw [(hv ⟨p.symm k, hlt⟩ (p.symm k) rfl).1]
    simpa using hk

/-- Without an absolute tolerance, every array said to be positive definite that has a negative
eigenvalue, such as one from rounding, raises `TypeError`. -/
theorem C20_type_error_violation (hneg : ∃ i, (lib a).w i < 0) :
    utilEigh lib argsort a none rtol true = .error .typeError := by
  obtain ⟨k, hk⟩ := hneg
  have hA : adjustTol (fun i => (lib a).w (argsort (fun j => |(lib a).w j|) i.rev)) none true =
      .error .typeError := by
    unfold adjustTol
    simp only [if_true]
    split
    · rename_i e he
      unfold npMin at he
      rw [dif_pos k.pos] at he
      cases he
    · rename_i low hlow
      obtain ⟨h1, -⟩ := npMin_le hlow
      rw [if_pos]
      refine lt_of_le_of_lt (h1 ((descending argsort (lib a).w).symm k)) ?_
      have : (lib a).w (descending argsort (lib a).w ((descending argsort (lib a).w).symm k)) < 0 := by
        simpa using hk
      exact this
  unfold utilEigh
  dsimp only
  rw [hA]

/-- With an absolute tolerance, an array with at least one row raises no exception. -/
theorem C20_no_error (t : ℝ) (hn : 0 < n) :
    ∃ res, utilEigh lib argsort a (some t) rtol pd = .ok res := by
  cases hres : utilEigh lib argsort a (some t) rtol pd with
  | ok res => exact ⟨res, rfl⟩
  | error e =>
    exfalso
    unfold utilEigh at hres
    dsimp only at hres
    split at hres
    · rename_i e' h
      unfold adjustTol at h
      cases pd with
      | false => cases h
      | true =>
        simp only [if_true] at h
        unfold npMin at h
        rw [dif_pos hn] at h
        dsimp only at h
        split at h
        · split at h <;> cases h
        · cases h
    · split at hres
      · rename_i h
        exact absurd ((numRetained_error _ _ _ _).mp h).2.2 (by omega)
      · cases hres

end C20

/-- A library result for the diagonal array with entries -1 and 3. -/
noncomputable def exampleEigh : EighOut ℝ 2 where
  w := ![-1, 3]
  V := 1

theorem exampleEigh_isEigh : IsEigh (diagonal ![-1, 3] : Matrix (Fin 2) (Fin 2) ℝ) exampleEigh where
  orthonormal := by simp [exampleEigh]
  eigen := by simp [exampleEigh]

theorem sort_isArgsort (n : Nat) : IsArgsort (fun x : Fin n → ℝ => Tuple.sort x) :=
  fun x => Tuple.monotone_sort x

/-- Only the eigenvalue 3 is returned for an array said to be positive definite. -/
example : ∃ res, utilEigh (fun _ => exampleEigh) (fun x => Tuple.sort x) (diagonal ![-1, 3])
    (some (1 / 10)) none true = .ok res ∧ ∀ i, res.w i = 3 := by
  obtain ⟨res, hres⟩ := C20_no_error (fun _ => exampleEigh) (fun x => Tuple.sort x) (diagonal ![-1, 3]) none
    true (1 / 10) (by decide)
  refine ⟨res, hres, fun i => ?_⟩
  obtain ⟨p, -, hle, -, hv⟩ := C20_kept_iff _ _ _ _ _ _ (sort_isArgsort 2) (by simp) res hres
  have hp := C20_positive_partial _ _ _ _ (1 / 10) (by norm_num) (sort_isArgsort 2) (by simp) res hres i
  rw [(hv i ⟨i, by omega⟩ rfl).1] at hp ⊢
  generalize p ⟨i, _⟩ = j at hp ⊢
  fin_cases j
  · simp [exampleEigh] at hp
    linarith
  · simp [exampleEigh]

example : utilEigh (fun _ => exampleEigh) (fun x => Tuple.sort x) (diagonal ![-1, 3]) none none true =
    .error .typeError :=
  C20_type_error_violation _ _ _ _ ⟨0, by simp [exampleEigh]⟩

example : ∃ res, utilEigh (fun _ => (⟨![0, 3], 1⟩ : EighOut ℝ 2)) (fun x => Tuple.sort x)
    (diagonal ![0, 3]) none none true = .ok res ∧ ∃ i, res.w i = 0 :=
  C20_zero_eigenvalues_returned_violation _ _ _ (sort_isArgsort 2)
    (fun i => by fin_cases i <;> simp) ⟨0, by simp⟩

/-- The spectral theorem: Hermitian arrays have what the library is assumed to return. -/
theorem exists_isEigh {n : Nat} (a : Matrix (Fin n) (Fin n) 𝕜) (ha : a.IsHermitian) :
    ∃ o, IsEigh a o := by
  refine ⟨⟨ha.eigenvalues, ha.eigenvectorUnitary⟩, ?_, ?_⟩
  · have := ha.eigenvectorUnitary.2
    exact (Matrix.mem_unitaryGroup_iff').mp this
  · have h := ha.spectral_theorem
    rw [Unitary.conjStarAlgAut_apply] at h
    conv_lhs => enter [1]; rw [h]
    rw [Matrix.mul_assoc]
    have hu : (star (ha.eigenvectorUnitary : Matrix (Fin n) (Fin n) 𝕜)) *
        (ha.eigenvectorUnitary : Matrix (Fin n) (Fin n) 𝕜) = 1 :=
      (Matrix.mem_unitaryGroup_iff').mp ha.eigenvectorUnitary.2
    rw [hu, Matrix.mul_one]
    rfl

/-! ### C21 -/

section C21

variable {n : Nat} (lib : Matrix (Fin n) (Fin n) 𝕜 → EigOut 𝕜 n) (a : Matrix (Fin n) (Fin n) 𝕜)

theorem IsEig.offdiag {a : Matrix (Fin n) (Fin n) 𝕜} {o : EigOut 𝕜 n} (h : IsEig a o) (i j : Fin n)
    (hij : o.w i ≠ o.w j) : (o.Lᴴ * o.R) i j = 0 := by
  have e : diagonal o.w * (o.Lᴴ * o.R) = o.Lᴴ * o.R * diagonal o.w := by
    rw [← Matrix.mul_assoc, ← h.left, Matrix.mul_assoc, h.right, Matrix.mul_assoc]
  have e' := congrFun (congrFun e i) j
  rw [diagonal_mul, mul_diagonal] at e'
  have : (o.w i - o.w j) * (o.Lᴴ * o.R) i j = 0 := by rw [sub_mul, e']; ring
  rcases mul_eq_zero.mp this with h0 | h0
  · exact absurd (sub_eq_zero.mp h0) hij
  · exact h0

theorem IsEig.isUnit_right {a : Matrix (Fin n) (Fin n) 𝕜} {o : EigOut 𝕜 n} (h : IsEig a o)
    (hw : Function.Injective o.w) : IsUnit o.R := by
  rw [← Matrix.linearIndependent_cols_iff_isUnit]
  refine Module.End.eigenvectors_linearIndependent' (Matrix.toLin' a) o.w hw _ fun j => ?_
  rw [Module.End.hasEigenvector_iff, Module.End.mem_eigenspace_iff]
  refine ⟨?_, h.right_nonzero j⟩
  ext i
  have := congrFun (congrFun h.right i) j
  rw [mul_diagonal, Matrix.mul_apply] at this
  rw [toLin'_apply]
  simp only [mulVec, dotProduct, Pi.smul_apply, smul_eq_mul]
  rw [mul_comm (o.w j)]
  exact this

theorem IsEig.diag_ne_zero {a : Matrix (Fin n) (Fin n) 𝕜} {o : EigOut 𝕜 n} (h : IsEig a o)
    (hw : Function.Injective o.w) (j : Fin n) : (o.Lᴴ * o.R) j j ≠ 0 := by
  intro h0
  apply h.left_nonzero j
  have hrow : (fun i => star (o.L i j)) ᵥ* o.R = 0 := by
    ext k
    by_cases hk : k = j
    · subst hk
      exact h0
    · exact h.offdiag j k fun e => hk (hw e).symm
  have hu := h.isUnit_right hw
  have hv : (fun i => star (o.L i j)) = 0 := by
    have h1 : ((fun i => star (o.L i j)) ᵥ* o.R) ᵥ* o.R⁻¹ = 0 := by rw [hrow, zero_vecMul]
    rwa [vecMul_vecMul, Matrix.mul_nonsing_inv _ ((Matrix.isUnit_iff_isUnit_det _).mp hu),
      vecMul_one] at h1
  ext i
  have := congrFun hv i
  simpa using this

/-- What is returned are right and left eigenvectors with the eigenvalues of the library, for either
scale choice.  (A zero scale factor, by which Python would divide to get values that are not numbers,
gives zero vectors here.) -/
theorem C21_eigenvectors (h : IsEig a (lib a)) (choice : List Char) (w : Fin n → 𝕜)
    (R L : Matrix (Fin n) (Fin n) 𝕜) (hres : eigBiorthog lib a choice = .ok (w, R, L)) :
    w = (lib a).w ∧ a * R = R * diagonal w ∧ Lᴴ * a = diagonal w * Lᴴ := by
  unfold eigBiorthog at hres
  dsimp only at hres
  generalize lib a = o at *
  split at hres
  · cases hres
    refine ⟨rfl, h.right, ?_⟩
    ext i j
    have e := congrFun (congrFun h.left i) j
    rw [diagonal_mul, Matrix.mul_apply] at e
    rw [diagonal_mul, Matrix.mul_apply]
    simp only [conjTranspose_apply, of_apply, star_div₀, star_star] at e ⊢
    rw [← mul_div_assoc, ← e, Finset.sum_div]
    exact Finset.sum_congr rfl fun k _ => by ring
  · split at hres
    · cases hres
      refine ⟨rfl, ?_, h.left⟩
      ext i j
      have e := congrFun (congrFun h.right i) j
      rw [mul_diagonal, Matrix.mul_apply] at e
      rw [mul_diagonal, Matrix.mul_apply]
      simp only [of_apply]
      rw [div_mul_eq_mul_div, ← e, Finset.sum_div]
      exact Finset.sum_congr rfl fun k _ => by ring
    · cases hres

/-- For an array with distinct eigenvalues the left and right eigenvectors are biorthonormal. -/
theorem C21_biorthonormal (h : IsEig a (lib a)) (hw : Function.Injective (lib a).w) (choice : List Char)
    (w : Fin n → 𝕜) (R L : Matrix (Fin n) (Fin n) 𝕜)
    (hres : eigBiorthog lib a choice = .ok (w, R, L)) : Lᴴ * R = 1 := by
  unfold eigBiorthog at hres
  dsimp only at hres
  generalize lib a = o at *
  have key : ∀ i j, (o.Lᴴ * o.R) i j = if i = j then (o.Lᴴ * o.R) i i else 0 := by
    intro i j
    split
    · rename_i e; subst e; rfl
    · rename_i e
      exact h.offdiag i j fun e' => e (hw e')
  split at hres
  · cases hres
    ext i j
    have e : ((Matrix.of fun i j => o.L i j / star ((o.Lᴴ * o.R).diag j))ᴴ * o.R) i j =
        (o.Lᴴ * o.R) i j / (o.Lᴴ * o.R) i i := by
      rw [Matrix.mul_apply, Matrix.mul_apply (M := o.Lᴴ) (N := o.R) (i := i) (k := j)]
      simp only [conjTranspose_apply, of_apply, star_div₀, star_star, diag_apply]
      rw [Finset.sum_div]
      exact Finset.sum_congr rfl fun k _ => by ring
    rw [e, key i j, Matrix.one_apply]
    split
    · exact div_self (h.diag_ne_zero hw i)
    · simp
  · split at hres
    · cases hres
      ext i j
      have e : (o.Lᴴ * (Matrix.of fun i j => o.R i j / (o.Lᴴ * o.R).diag j)) i j =
          (o.Lᴴ * o.R) i j / (o.Lᴴ * o.R) j j := by
        rw [Matrix.mul_apply, Matrix.mul_apply (M := o.Lᴴ) (N := o.R) (i := i) (k := j)]
        simp only [of_apply, diag_apply]
        rw [Finset.sum_div]
        exact Finset.sum_congr rfl fun k _ => by ring
      rw [e, key i j, Matrix.one_apply]
      split
      · rename_i e; subst e; exact div_self (h.diag_ne_zero hw i)
      · simp
    · cases hres

/-- The vectors of the side not chosen are those of the library. -/
theorem C21_unscaled_side (choice : List Char) (w : Fin n → 𝕜) (R L : Matrix (Fin n) (Fin n) 𝕜)
    (hres : eigBiorthog lib a choice = .ok (w, R, L)) :
    (choice.map Char.toLower = ['l', 'e', 'f', 't'] → R = (lib a).R) ∧ (choice.map Char.toLower = ['r', 'i', 'g', 'h', 't'] → L = (lib a).L) := by
  unfold eigBiorthog at hres
  dsimp only at hres
  split at hres
  · rename_i hc
    cases hres
    exact ⟨fun _ => rfl, fun h => absurd (hc.symm.trans h) (by decide)⟩
  · rename_i hc
    split at hres
    · cases hres
      exact ⟨fun h => absurd h hc, fun _ => rfl⟩
    · cases hres

/-- Any other scale choice raises `ValueError`, and none of the two does. -/
theorem C21_scale_choice (choice : List Char) :
    eigBiorthog lib a choice = .error .valueError ↔
      choice.map Char.toLower ≠ ['l', 'e', 'f', 't'] ∧ choice.map Char.toLower ≠ ['r', 'i', 'g', 'h', 't'] := by
  unfold eigBiorthog
  dsimp only
  split
  · simp_all
  · split <;> simp_all

end C21

/-- A library result for the array with rows (1, 1) and (0, 2). -/
noncomputable def exampleEig : EigOut ℝ 2 where
  w := ![1, 2]
  L := !![1, 0; -1, 1]
  R := !![1, 1; 0, 1]

theorem exampleEig_isEig : IsEig (!![1, 1; 0, 2] : Matrix (Fin 2) (Fin 2) ℝ) exampleEig where
  right := by
    ext i j
    rw [mul_diagonal]
    fin_cases i <;> fin_cases j <;> simp [exampleEig, Matrix.mul_apply, Fin.sum_univ_two] <;> norm_num
  left := by
    ext i j
    rw [diagonal_mul]
    fin_cases i <;> fin_cases j <;> simp [exampleEig, Matrix.mul_apply, Fin.sum_univ_two] <;> norm_num
  right_nonzero := by
    intro j h
    have h0 := congrFun h j
    fin_cases j <;> simp [exampleEig] at h0
  left_nonzero := by
    intro j h
    have h0 := congrFun h j
    fin_cases j <;> simp [exampleEig] at h0

example : ∃ w R L, eigBiorthog (fun _ => exampleEig) !![1, 1; 0, 2] ['R', 'I', 'G', 'H', 'T'] = .ok (w, R, L) ∧
    Lᴴ * R = 1 := by
  have h : ∃ r, eigBiorthog (fun _ => exampleEig) (!![1, 1; 0, 2] : Matrix (Fin 2) (Fin 2) ℝ)
      ['R', 'I', 'G', 'H', 'T'] = .ok r := by
    unfold eigBiorthog
    dsimp only
    rw [if_neg (by decide), if_pos (by decide)]
    exact ⟨_, rfl⟩
  obtain ⟨⟨w, R, L⟩, h⟩ := h
  refine ⟨w, R, L, h, C21_biorthonormal _ _ exampleEig_isEig ?_ _ _ _ _ h⟩
  intro i j hij
  fin_cases i <;> fin_cases j <;> simp [exampleEig] at hij ⊢

example : eigBiorthog (fun _ => exampleEig) !![1, 1; 0, 2] ['b', 'o', 't', 'h'] = .error .valueError :=
  (C21_scale_choice _ _ _).mpr (by decide)

end Modred
