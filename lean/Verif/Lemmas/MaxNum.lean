import Verif.Lemmas.Methods
import Verif.Model.Dmd
import Verif.Model.Tlsqr
import Verif.Spec.MaxNum
import Verif.Spec.Tlsqr
import Mathlib.LinearAlgebra.Matrix.Rank

/-!
# A largest number of eigenvalues, and a tolerance
-/

namespace Modred

open Matrix
open scoped ComplexOrder

variable {𝕜 : Type*} [RCLike 𝕜] {n m : Nat}

omit [RCLike 𝕜] in
theorem eigh_record_eq {e e' : Eigh 𝕜 m} (hr : e.r = e'.r) (hw : ∀ i, e.w i = e'.w (Fin.cast hr i))
    (hV : ∀ k i, e.V k i = e'.V k (Fin.cast hr i)) : e = e' := by
  obtain ⟨r, w, V⟩ := e
  obtain ⟨r', w', V'⟩ := e'
  dsimp only at hr hw hV
  subst hr
  congr 1
  · exact funext hw
  · exact Matrix.ext hV

omit [RCLike 𝕜] in
theorem svd_record_eq {e e' : Svd 𝕜 n m} (hr : e.r = e'.r) (hU : ∀ k i, e.U k i = e'.U k (Fin.cast hr i))
    (hS : ∀ i, e.S i = e'.S (Fin.cast hr i)) (hV : ∀ k i, e.V k i = e'.V k (Fin.cast hr i)) : e = e' := by
  obtain ⟨r, U, S, V⟩ := e
  obtain ⟨r', U', S', V'⟩ := e'
  dsimp only at hr hU hS hV
  subst hr
  congr 1
  · exact Matrix.ext hU
  · exact funext hS
  · exact Matrix.ext hV

/-- The first `k` of the first `N`. -/
theorem eigh_truncate_first (w : Fin m → ℝ) (V : Matrix (Fin m) (Fin m) 𝕜) (N k : Nat) :
    (⟨min N m, firstEntries w N, firstCols V N⟩ : Eigh 𝕜 m).truncate (some k) =
      ⟨min (min k N) m, firstEntries w (min k N), firstCols V (min k N)⟩ := by
  unfold Eigh.truncate
  dsimp only
  split
  · exact eigh_record_eq (by dsimp only; omega) (fun i => rfl) fun l i => rfl
  · exact eigh_record_eq (by dsimp only; omega) (fun i => rfl) fun l i => rfl

theorem svd_truncate_first (U : Matrix (Fin n) (Fin (min n m)) 𝕜) (S : Fin (min n m) → ℝ) (V : Matrix (Fin m) (Fin (min n m)) 𝕜)
    (N k : Nat) : (⟨min N (min n m), firstCols U N, firstEntries S N, firstCols V N⟩ : Svd 𝕜 n m).truncate (some k) =
      ⟨min (min k N) (min n m), firstCols U (min k N), firstEntries S (min k N), firstCols V (min k N)⟩ := by
  unfold Svd.truncate
  dsimp only
  split
  · exact svd_record_eq (by dsimp only; omega) (fun l i => rfl) (fun i => rfl) fun l i => rfl
  · exact svd_record_eq (by dsimp only; omega) (fun l i => rfl) (fun i => rfl) fun l i => rfl

/-- If exactly `k` values are larger than `s`, the tolerance `s` retains the first `k` of those that a smaller tolerance
retains. -/
theorem numRetained_max {x : Fin m → ℝ} (hx : ∀ i j, i ≤ j → |x j| ≤ |x i|) {t s : ℝ} {rtol : Option ℝ} (hr : ∀ t ∈ rtol, 0 ≤ t)
    (hts : t ≤ s) : numRetained x (some s) rtol = (numRetained x (some t) rtol).map (min (numAbove x (some s))) := by
  cases h : numRetained x (some t) rtol with
  | error e =>
    rw [numRetained_error] at h
    exact (numRetained_error _ _ _ _).mpr h
  | ok N =>
    cases h' : numRetained x (some s) rtol with
    | error e =>
      rw [numRetained_error] at h'
      have := (numRetained_error x (some t) rtol e).mpr h'
      rw [h] at this
      cases this
    | ok N' =>
      obtain ⟨a1, a2⟩ := numRetained_spec x _ _ _ hx hr h
      obtain ⟨b1, b2⟩ := numRetained_spec x _ _ _ hx hr h'
      obtain ⟨c1, c2⟩ := numAbove_spec x (some s) hx
      have key : ∀ i : Fin m, i.val < N' ↔ i.val < min (numAbove x (some s)) N := by
        intro i
        rw [lt_min_iff, a2, b2, c2]
        unfold Obeys
        simp only [Option.mem_def, Option.some.injEq, forall_eq']
        exact ⟨fun hh => ⟨hh.1, lt_of_le_of_lt hts hh.1, hh.2⟩, fun hh => ⟨hh.1, hh.2.2⟩⟩
      change Except.ok N' = Except.ok (min (numAbove x (some s)) N)
      congr 1
      have hle : min (numAbove x (some s)) N ≤ m := le_trans (min_le_right _ _) a1
      rcases lt_trichotomy N' (min (numAbove x (some s)) N) with hlt | heq | hgt
      · exact absurd ((key ⟨N', lt_of_lt_of_le hlt hle⟩).mpr hlt) (lt_irrefl _)
      · exact heq
      · exact absurd ((key ⟨_, lt_of_lt_of_le hgt b1⟩).mp hgt) (lt_irrefl _)

/-- Eigenvalues of an array that is positive semidefinite. -/
theorem utilEigh_max {eigh : Matrix (Fin m) (Fin m) 𝕜 → EighOut 𝕜 m} {argsort : (Fin m → ℝ) → Equiv.Perm (Fin m)}
    {C : Matrix (Fin m) (Fin m) 𝕜} {t s : ℝ} {rtol : Option ℝ} {k : Nat} (hs : IsArgsort argsort) (hr : ∀ t ∈ rtol, 0 ≤ t)
    (h0 : ∀ i, 0 ≤ (eigh C).w i) (hts : t ≤ s) (hk : (Finset.univ.filter fun i => s < (eigh C).w i).card = k) :
    (utilEigh eigh argsort C (some t) rtol true).map (·.truncate (some k)) = utilEigh eigh argsort C (some s) rtol true := by
  classical
  unfold utilEigh adjustTol
  simp only [if_true]
  cases hmin : npMin fun i : Fin m => (eigh C).w (argsort (fun j => |(eigh C).w j|) i.rev) with
  | error e => rfl
  | ok low =>
    obtain ⟨-, i, hi⟩ := npMin_le hmin
    have hlow : ¬ low < 0 := not_lt.mpr (hi ▸ h0 _)
    simp only [if_neg hlow]
    have hnum : numAbove (fun i : Fin m => (eigh C).w (argsort (fun j => |(eigh C).w j|) i.rev)) (some s) = k := by
      rw [← hk]
      unfold numAbove
      refine Finset.card_equiv (Fin.revPerm.trans (argsort fun j => |(eigh C).w j|)) fun i => ?_
      simp only [Finset.mem_filter, Finset.mem_univ, true_and, abs_of_nonneg (h0 _)]
      rfl
    rw [numRetained_max (fun i j hij => descending_antitone argsort hs _ i j hij) hr hts, hnum]
    cases numRetained (fun i : Fin m => (eigh C).w (argsort (fun j => |(eigh C).w j|) i.rev)) (some t) rtol with
    | error e => rfl
    | ok N => exact congrArg Except.ok (eigh_truncate_first _ _ _ _)

/-- Singular values. -/
theorem utilSvd_max {svd : Matrix (Fin n) (Fin m) 𝕜 → SvdOut 𝕜 n m} {B : Matrix (Fin n) (Fin m) 𝕜} {t s : ℝ} {rtol : Option ℝ}
    {k : Nat} (h : IsSvd B (svd B)) (hr : ∀ t ∈ rtol, 0 ≤ t) (hts : t ≤ s)
    (hk : (Finset.univ.filter fun i => s < (svd B).S i).card = k) :
    (utilSvd svd B (some t) rtol).map (·.truncate (some k)) = utilSvd svd B (some s) rtol := by
  classical
  unfold utilSvd
  dsimp only
  have hnum : numAbove (svd B).S (some s) = k := by
    rw [← hk]
    unfold numAbove
    simp only [abs_of_nonneg (h.nonneg _)]
  rw [numRetained_max (abs_antitone h.nonneg h.sorted) hr hts, hnum]
  cases numRetained (svd B).S (some t) rtol with
  | error e => rfl
  | ok N => exact congrArg Except.ok (svd_truncate_first _ _ _ _ _)

theorem exists_isEigh_eigenvalues {C : Matrix (Fin m) (Fin m) 𝕜} (hC : C.IsHermitian) :
    ∃ o : EighOut 𝕜 m, IsEigh C o ∧ o.w = hC.eigenvalues := by
  refine ⟨⟨hC.eigenvalues, hC.eigenvectorUnitary⟩, ⟨(Matrix.mem_unitaryGroup_iff').mp hC.eigenvectorUnitary.2, ?_⟩, rfl⟩
  have h := hC.spectral_theorem
  rw [Unitary.conjStarAlgAut_apply] at h
  conv_lhs => enter [1]; rw [h]
  have hu : (star (hC.eigenvectorUnitary : Matrix (Fin m) (Fin m) 𝕜)) * (hC.eigenvectorUnitary : Matrix (Fin m) (Fin m) 𝕜) = 1 :=
    (Matrix.mem_unitaryGroup_iff').mp hC.eigenvectorUnitary.2
  rw [Matrix.mul_assoc, hu, Matrix.mul_one]
  rfl

/-- The library's eigenvalues are those of the array. -/
theorem EigenvaluesAbove.eigh {C : Matrix (Fin m) (Fin m) 𝕜} {s : ℝ} {k : Nat} (h : EigenvaluesAbove C s k) {o : EighOut 𝕜 m}
    (ho : IsEigh C o) : (Finset.univ.filter fun i => s < o.w i).card = k := by
  obtain ⟨hC, hk⟩ := h
  obtain ⟨o', ho', hw⟩ : ∃ o' : EighOut 𝕜 m, IsEigh C o' ∧ o'.w = hC.eigenvalues := exists_isEigh_eigenvalues hC
  rw [← hk, ← hw]
  exact eigh_count (s := 1) (Q := 1) ho' ho (by rw [conjTranspose_one, Matrix.mul_one])
    (by rw [conjTranspose_one, Matrix.mul_one, Matrix.one_mul, RCLike.ofReal_one, one_smul]) _ _ fun x => by rw [one_mul]

/-- The squares of the library's singular values are eigenvalues of the square. -/
theorem EigenvaluesAbove.svd {B : Matrix (Fin n) (Fin m) 𝕜} {s : ℝ} {k : Nat} (h : EigenvaluesAbove (Bᴴ * B) (s ^ 2) k)
    (hs : 0 ≤ s) {o : SvdOut 𝕜 n m} (ho : IsSvd B o) : (Finset.univ.filter fun i => s < o.S i).card = k := by
  obtain ⟨e, he⟩ := exists_isEigh (Bᴴ * B) (isHermitian_conjTranspose_mul_self B)
  have h1 := square_count (lib := fun _ => e) (svd := fun _ => o) he ho (fun x => s ^ 2 < x) (not_lt.mpr (sq_nonneg s))
  rw [h.eigh he] at h1
  rw [← h1]
  congr 1
  ext i
  simp only [Finset.mem_filter, Finset.mem_univ, true_and]
  exact (sq_lt_sq₀ hs (ho.nonneg i)).symm

/-- Eigenvalues of a positive semidefinite array. -/
theorem IsEigh.nonneg {C : Matrix (Fin m) (Fin m) 𝕜} (hC : C.PosSemidef) {o : EighOut 𝕜 m} (ho : IsEigh C o) (i : Fin m) :
    0 ≤ o.w i := by
  have h1 : o.Vᴴ * C * o.V = diagonal fun i => (o.w i : 𝕜) := by
    rw [Matrix.mul_assoc, ho.eigen, ← Matrix.mul_assoc, ho.orthonormal, Matrix.one_mul]
  have h2 := hC.conjTranspose_mul_mul_same o.V
  rw [h1] at h2
  have h3 := h2.diag_nonneg (i := i)
  rw [diagonal_apply_eq] at h3
  exact RCLike.ofReal_nonneg.mp h3

/-! ### Dynamic mode decomposition -/

theorem dmdEigendecomp_max {eigh : Matrix (Fin m) (Fin m) 𝕜 → EighOut 𝕜 m} {argsort : (Fin m → ℝ) → Equiv.Perm (Fin m)}
    (eig : ∀ {r : Nat}, Matrix (Fin r) (Fin r) 𝕜 → EigOut 𝕜 r) {C : Matrix (Fin m) (Fin m) 𝕜} (K : Matrix (Fin m) (Fin m) 𝕜)
    {t s : ℝ} {rtol : Option ℝ} {k : Nat} (hs : IsArgsort argsort) (hr : ∀ t ∈ rtol, 0 ≤ t) (hC : C.PosSemidef)
    (h : IsEigh C (eigh C)) (hts : t ≤ s) (hk : EigenvaluesAbove C s k) :
    dmdEigendecomp eigh argsort eig C K (some t) rtol (some k) = dmdEigendecomp eigh argsort eig C K (some s) rtol none := by
  unfold dmdEigendecomp
  rw [← utilEigh_max hs hr (h.nonneg hC) hts (hk.eigh h)]
  cases utilEigh eigh argsort C (some t) rtol true with
  | error e => rfl
  | ok e => rfl

theorem dmdDirectRest_max {lib : PodLib 𝕜 n m} (eig : ∀ {r : Nat}, Matrix (Fin r) (Fin r) 𝕜 → EigOut 𝕜 r)
    {B : Matrix (Fin n) (Fin m) 𝕜} (cross : Svd 𝕜 n m → Matrix (Fin m) (Fin m) 𝕜) (X Y : Matrix (Fin n) (Fin m) 𝕜)
    (idx : Option (List Int)) {t s : ℝ} {rtol : Option ℝ} {k : Nat} (hr : ∀ t ∈ rtol, 0 ≤ t) (h : IsSvd B (lib.svd B)) (hs : 0 ≤ s)
    (hts : t ≤ s) (hk : EigenvaluesAbove (Bᴴ * B) (s ^ 2) k) :
    dmdDirectRest lib eig B cross X Y idx (some t) rtol (some k) = dmdDirectRest lib eig B cross X Y idx (some s) rtol none := by
  unfold dmdDirectRest
  rw [← utilSvd_max h hr hts (hk.svd hs h)]
  cases utilSvd lib.svd B (some t) rtol with
  | error e => rfl
  | ok e => rfl

/-! ### Total-least-squares DMD -/

/-- If no eigenvalue is between two tolerances, they retain the same. -/
theorem utilEigh_between {eigh : Matrix (Fin m) (Fin m) 𝕜 → EighOut 𝕜 m} {argsort : (Fin m → ℝ) → Equiv.Perm (Fin m)}
    {C : Matrix (Fin m) (Fin m) 𝕜} {t s : ℝ} {rtol : Option ℝ} {j : Nat} (hs : IsArgsort argsort) (hr : ∀ t ∈ rtol, 0 ≤ t)
    (hC : C.PosSemidef) (h : IsEigh C (eigh C)) (hts : t ≤ s) (ht : EigenvaluesAbove C t j) (hs' : EigenvaluesAbove C s j) :
    utilEigh eigh argsort C (some t) rtol true = utilEigh eigh argsort C (some s) rtol true := by
  rw [← utilEigh_max hs hr (h.nonneg hC) hts (hs'.eigh h), utilEigh_max hs hr (h.nonneg hC) le_rfl (ht.eigh h)]

theorem utilSvd_between {svd : Matrix (Fin n) (Fin m) 𝕜 → SvdOut 𝕜 n m} {B : Matrix (Fin n) (Fin m) 𝕜} {t s : ℝ}
    {rtol : Option ℝ} {j : Nat} (h : IsSvd B (svd B)) (hr : ∀ t ∈ rtol, 0 ≤ t) (h0 : 0 ≤ t) (hts : t ≤ s)
    (ht : EigenvaluesAbove (Bᴴ * B) (t ^ 2) j) (hs' : EigenvaluesAbove (Bᴴ * B) (s ^ 2) j) :
    utilSvd svd B (some t) rtol = utilSvd svd B (some s) rtol := by
  rw [← utilSvd_max h hr hts (hs'.svd (h0.trans hts) h), utilSvd_max h hr le_rfl (ht.svd h0 h)]

/-- Orthonormal vectors that are combinations of `q` vectors are at most `q`. -/
theorem orthonormal_card_le {q r : Nat} {A : Matrix (Fin m) (Fin r) 𝕜} {V : Matrix (Fin m) (Fin q) 𝕜} {N : Matrix (Fin q) (Fin r) 𝕜}
    (hA : Aᴴ * A = 1) (h : A = V * N) : r ≤ q := by
  have h1 : (1 : Matrix (Fin r) (Fin r) 𝕜).rank ≤ N.rank := by
    rw [← hA]
    conv_lhs => enter [1, 2]; rw [h]
    rw [← Matrix.mul_assoc]
    exact Matrix.rank_mul_le_right _ _
  rw [Matrix.rank_one, Fintype.card_fin] at h1
  exact h1.trans (Matrix.rank_le_height N)

/-- As many eigenvectors with eigenvalues other than zero as the rank, at most. -/
theorem eigenvectors_le {q r : Nat} {A : Matrix (Fin m) (Fin r) 𝕜} {V : Matrix (Fin m) (Fin q) 𝕜} {N : Matrix (Fin q) (Fin m) 𝕜}
    {w : Fin r → ℝ} (hA : Aᴴ * A = 1) (h : V * N * A = A * diagonal fun i => (w i : 𝕜)) (hw : ∀ i, 0 < w i) : r ≤ q := by
  refine orthonormal_card_le (V := V) (N := N * A * diagonal fun i => ((w i)⁻¹ : 𝕜)) hA ?_
  rw [← Matrix.mul_assoc, ← Matrix.mul_assoc, h, Matrix.mul_assoc, diagonal_mul_diagonal]
  conv_lhs => rw [← Matrix.mul_one A, ← diagonal_one]
  congr 2
  ext i
  rw [mul_inv_cancel₀]
  exact_mod_cast (hw i).ne'

omit [RCLike 𝕜] in
theorem eigh_truncate_le {e : Eigh 𝕜 m} {k : Nat} (h : e.r ≤ k) : e.truncate (some k) = e := by
  unfold Eigh.truncate
  dsimp only
  rw [if_neg (not_lt.mpr h)]

omit [RCLike 𝕜] in
theorem svd_truncate_le {e : Svd 𝕜 n m} {k : Nat} (h : e.r ≤ k) : e.truncate (some k) = e := by
  unfold Svd.truncate
  dsimp only
  rw [if_neg (not_lt.mpr h)]

omit [RCLike 𝕜] in
theorem eigh_truncate_r (e : Eigh 𝕜 m) (k : Nat) : (e.truncate (some k)).r ≤ k := by
  unfold Eigh.truncate
  dsimp only
  split
  · exact min_le_left _ _
  · omega

omit [RCLike 𝕜] in
theorem svd_truncate_r (e : Svd 𝕜 n m) (k : Nat) : (e.truncate (some k)).r ≤ k := by
  unfold Svd.truncate
  dsimp only
  split
  · exact min_le_left _ _
  · omega

theorem tlsProjCorr_eq {q : Nat} (V : Matrix (Fin m) (Fin q) 𝕜) (C : Matrix (Fin m) (Fin m) 𝕜) :
    tlsProjCorr V C = V * Vᴴ * C * (V * Vᴴ) := by
  unfold tlsProjCorr
  simp only [Matrix.mul_assoc]

theorem tlsEigendecomp_max {eigh : Matrix (Fin m) (Fin m) 𝕜 → EighOut 𝕜 m} {argsort : (Fin m → ℝ) → Equiv.Perm (Fin m)}
    (eig : ∀ {r : Nat}, Matrix (Fin r) (Fin r) 𝕜 → EigOut 𝕜 r) {C C' : Matrix (Fin m) (Fin m) 𝕜} (K : Matrix (Fin m) (Fin m) 𝕜)
    {t s : ℝ} {rtol rtol' : Option ℝ} {k j : Nat} (hs : IsArgsort argsort) (hr : ∀ t ∈ rtol, 0 ≤ t) (hr' : ∀ t ∈ rtol', 0 ≤ t)
    (hC : C.PosSemidef) (hC' : C'.PosSemidef) (h : ∀ C, C.IsHermitian → IsEigh C (eigh C)) (h0 : 0 ≤ t) (hts : t ≤ s)
    (hk : EigenvaluesAbove (C + C') s k) {d : TlsDecomp 𝕜 m}
    (hd : tlsEigendecomp eigh argsort eig C C' K (some t) rtol rtol' (some k) = .ok d)
    (hj : EigenvaluesAbove (d.proj * C * d.proj) t j) (hj' : EigenvaluesAbove (d.proj * C * d.proj) s j) :
    tlsEigendecomp eigh argsort eig C C' K (some s) rtol rtol' none = .ok d := by
  have hsum := hC.add hC'
  have h1 := utilEigh_max (t := t) hs hr ((h _ hsum.isHermitian).nonneg hsum) hts (hk.eigh (h _ hsum.isHermitian))
  unfold tlsEigendecomp at hd ⊢
  rw [← h1]
  cases ha : utilEigh eigh argsort (C + C') (some t) rtol true with
  | error e => rw [ha] at hd; cases hd
  | ok a =>
    rw [ha] at hd
    have hred : (Except.ok a : Except Err (Eigh 𝕜 m)).map (·.truncate (some k)) = Except.ok (a.truncate (some k)) := rfl
    rw [hred]
    dsimp only at hd ⊢
    rw [show (a.truncate (some k)).truncate none = a.truncate (some k) from rfl]
    have hle := eigh_truncate_r a k
    generalize a.truncate (some k) = a' at hd hle ⊢
    cases hb : utilEigh eigh argsort (tlsProjCorr a'.V C) (some t) rtol' true with
    | error e => rw [hb] at hd; cases hd
    | ok b =>
      rw [hb] at hd
      dsimp only at hd
      have hPC : (a'.V * a'.Vᴴ * C * (a'.V * a'.Vᴴ)).PosSemidef := by
        have := hC.conjTranspose_mul_mul_same (a'.V * a'.Vᴴ)
        rwa [conjTranspose_mul, conjTranspose_conjTranspose] at this
      have hbr : b.r ≤ k := by
        obtain ⟨b1, b2, -⟩ := C20_eigenpairs eigh argsort _ _ _ _ (by rw [tlsProjCorr_eq]; exact h _ hPC.isHermitian) hs b hb
        have hw := C20_positive_partial eigh argsort _ rtol' t h0 hs hr' b hb
        exact (eigenvectors_le b1 b2 hw).trans hle
      rw [eigh_truncate_le hbr] at hd
      have hbs : utilEigh eigh argsort (tlsProjCorr a'.V C) (some s) rtol' true = .ok b := by
        rw [← hb]
        have hproj : d.proj = a'.V * a'.Vᴴ := by
          split at hd
          · cases hd
          · cases hd
            rfl
        rw [hproj] at hj hj'
        rw [tlsProjCorr_eq]
        exact (utilEigh_between hs hr' hPC (h _ hPC.isHermitian) hts hj hj').symm
      rw [hbs]
      exact hd

/-- As many singular values above a tolerance as the rank, at most. -/
theorem utilSvd_r_le_rank {svd : Matrix (Fin n) (Fin m) 𝕜 → SvdOut 𝕜 n m} {B : Matrix (Fin n) (Fin m) 𝕜} {t : ℝ} {rtol : Option ℝ}
    (h : IsSvd B (svd B)) (hr : ∀ t ∈ rtol, 0 ≤ t) (h0 : 0 ≤ t) {b : Svd 𝕜 n m} (hb : utilSvd svd B (some t) rtol = .ok b) {q : Nat}
    {N : Matrix (Fin n) (Fin q) 𝕜} {V : Matrix (Fin m) (Fin q) 𝕜} (hB : B = N * Vᴴ) : b.r ≤ q := by
  obtain ⟨-, hV, -, hU, -, -⟩ := C19_singular_triples svd B _ _ h b hb
  have hS : ∀ i, 0 < b.S i := by
    obtain ⟨hle, hk, hS, -⟩ := svd_retained_spec h hr b hb
    intro i
    obtain ⟨h1, -⟩ := (hk (Fin.castLE hle i)).mp i.2
    rw [abs_of_nonneg (h.nonneg _)] at h1
    rw [hS]
    exact lt_of_le_of_lt h0 h1
  refine orthonormal_card_le (V := V) (N := Nᴴ * b.U * diagonal fun i => ((b.S i)⁻¹ : 𝕜)) hV ?_
  have h1 : V * (Nᴴ * b.U) = b.V * diagonal fun i => (b.S i : 𝕜) := by
    rw [← hU, ← Matrix.mul_assoc]
    congr 1
    rw [hB, conjTranspose_mul, conjTranspose_conjTranspose]
  rw [← Matrix.mul_assoc, h1, Matrix.mul_assoc, diagonal_mul_diagonal]
  conv_lhs => rw [← Matrix.mul_one b.V, ← diagonal_one]
  congr 2
  ext i
  rw [mul_inv_cancel₀]
  exact_mod_cast (hS i).ne'

theorem dmdDirectRest_rank {lib : PodLib 𝕜 n m} (eig : ∀ {r : Nat}, Matrix (Fin r) (Fin r) 𝕜 → EigOut 𝕜 r)
    {B : Matrix (Fin n) (Fin m) 𝕜} (cross : Svd 𝕜 n m → Matrix (Fin m) (Fin m) 𝕜) (X Y : Matrix (Fin n) (Fin m) 𝕜)
    (idx : Option (List Int)) {t s : ℝ} {rtol : Option ℝ} {k j q : Nat} (hr : ∀ t ∈ rtol, 0 ≤ t) (h : IsSvd B (lib.svd B)) (h0 : 0 ≤ t)
    (hts : t ≤ s) (hj : EigenvaluesAbove (Bᴴ * B) (t ^ 2) j) (hj' : EigenvaluesAbove (Bᴴ * B) (s ^ 2) j)
    {N : Matrix (Fin n) (Fin q) 𝕜} {V : Matrix (Fin m) (Fin q) 𝕜} (hB : B = N * Vᴴ) (hq : q ≤ k) :
    dmdDirectRest lib eig B cross X Y idx (some t) rtol (some k) = dmdDirectRest lib eig B cross X Y idx (some s) rtol none := by
  unfold dmdDirectRest
  rw [← utilSvd_between h hr h0 hts hj hj']
  cases hb : utilSvd lib.svd B (some t) rtol with
  | error e => rfl
  | ok b =>
    dsimp only
    rw [svd_truncate_le ((utilSvd_r_le_rank h hr h0 hb hB).trans hq)]
    rfl

end Modred
