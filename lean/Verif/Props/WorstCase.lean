import Verif.Spec.WorstCase
import Verif.Props.HankelBest
import Verif.Spec.Stability
import Mathlib.LinearAlgebra.FiniteDimensional.Lemmas

/-!
# C81: modes are best in the worst case, and tolerances bound errors
-/

namespace Modred

open Matrix
open scoped ComplexOrder

variable {𝕜 : Type*} [RCLike 𝕜] {E : Type*} [AddCommGroup E] [Module 𝕜 E]

/-! ### Lengths -/

theorem plainLength_eq {n : Nat} (v : Fin n → 𝕜) : (plainLength v : 𝕜) = star v ⬝ᵥ v := by
  unfold plainLength dotProduct
  push_cast
  refine Finset.sum_congr rfl fun i _ => ?_
  rw [Pi.star_apply, RCLike.star_def, RCLike.conj_mul]

theorem plainLength_nonneg {n : Nat} (v : Fin n → 𝕜) : 0 ≤ plainLength v := Finset.sum_nonneg fun _ _ => sq_nonneg _

/-- Arrays with orthonormal columns keep lengths. -/
theorem plainLength_isometry {n s : Nat} {V : Matrix (Fin n) (Fin s) 𝕜} (hV : Vᴴ * V = 1) (y : Fin s → 𝕜) :
    plainLength (V *ᵥ y) = plainLength y := by
  have : ((plainLength (V *ᵥ y) : ℝ) : 𝕜) = (plainLength y : 𝕜) := by
    rw [plainLength_eq, plainLength_eq, star_mulVec, ← dotProduct_mulVec, mulVec_mulVec, hV, one_mulVec]
  exact_mod_cast this

/-- Components along orthonormal columns are together at most as long. -/
theorem plainLength_components {n s : Nat} {V : Matrix (Fin n) (Fin s) 𝕜} (hV : Vᴴ * V = 1) (x : Fin n → 𝕜) :
    plainLength (Vᴴ *ᵥ x) ≤ plainLength x := by
  have h : ((plainLength (x - V *ᵥ (Vᴴ *ᵥ x)) : ℝ) : 𝕜) = (plainLength x : 𝕜) - (plainLength (Vᴴ *ᵥ x) : 𝕜) := by
    have h1 : star (V *ᵥ (Vᴴ *ᵥ x)) ⬝ᵥ x = star (Vᴴ *ᵥ x) ⬝ᵥ (Vᴴ *ᵥ x) := by
      rw [star_mulVec, ← dotProduct_mulVec]
    have h2 : star x ⬝ᵥ (V *ᵥ (Vᴴ *ᵥ x)) = star (Vᴴ *ᵥ x) ⬝ᵥ (Vᴴ *ᵥ x) := by
      rw [star_mulVec, conjTranspose_conjTranspose, dotProduct_mulVec]
    have h3 : star (V *ᵥ (Vᴴ *ᵥ x)) ⬝ᵥ (V *ᵥ (Vᴴ *ᵥ x)) = star (Vᴴ *ᵥ x) ⬝ᵥ (Vᴴ *ᵥ x) := by
      rw [star_mulVec, ← dotProduct_mulVec, mulVec_mulVec, hV, one_mulVec]
    rw [plainLength_eq, plainLength_eq, plainLength_eq, star_sub, sub_dotProduct, dotProduct_sub, dotProduct_sub, h1, h2, h3]
    ring
  have h' : plainLength (x - V *ᵥ (Vᴴ *ᵥ x)) = plainLength x - plainLength (Vᴴ *ᵥ x) := by exact_mod_cast h
  have := plainLength_nonneg (x - V *ᵥ (Vᴴ *ᵥ x))
  linarith

/-- A quadratic form in terms of eigenvectors. -/
theorem quadratic_eigen {m s : Nat} {C : Matrix (Fin m) (Fin m) 𝕜} {V : Matrix (Fin m) (Fin s) 𝕜} {a : Fin s → ℝ}
    (hC : C = V * diagonal (fun i => (a i : 𝕜)) * Vᴴ) (y : Fin m → 𝕜) :
    RCLike.re (star y ⬝ᵥ (C *ᵥ y)) = ∑ i, a i * ‖(Vᴴ *ᵥ y) i‖ ^ 2 := by
  have h : star y ⬝ᵥ (C *ᵥ y) = ((∑ i, a i * ‖(Vᴴ *ᵥ y) i‖ ^ 2 : ℝ) : 𝕜) := by
    rw [hC, ← mulVec_mulVec, ← mulVec_mulVec, dotProduct_mulVec, ← conjTranspose_conjTranspose V, ← star_mulVec,
      conjTranspose_conjTranspose]
    unfold dotProduct
    push_cast
    refine Finset.sum_congr rfl fun i _ => ?_
    rw [mulVec_diagonal, Pi.star_apply, RCLike.star_def, mul_left_comm, RCLike.conj_mul]
  rw [h, RCLike.ofReal_re]

/-! ### The core -/

/-- Linear combinations of vectors. -/
theorem sum_smul_combine {m q : Nat} (v : Fin m → E) (M : Matrix (Fin m) (Fin q) 𝕜) (x : Fin q → 𝕜) :
    ∑ j, x j • combine v M j = ∑ i, (M *ᵥ x) i • v i := by
  unfold combine
  simp only [Finset.smul_sum, smul_smul, mulVec, dotProduct, Finset.sum_smul]
  rw [Finset.sum_comm]
  refine Finset.sum_congr rfl fun i _ => Finset.sum_congr rfl fun j _ => ?_
  rw [mul_comm]

/-- The inner product of a linear combination with itself. -/
theorem ip_sum_smul (ip : E →ₗ⋆[𝕜] E →ₗ[𝕜] 𝕜) {m : Nat} (v : Fin m → E) (y : Fin m → 𝕜) :
    ip (∑ i, y i • v i) (∑ i, y i • v i) = star y ⬝ᵥ (gram ip v v *ᵥ y) := by
  simp only [map_sum, LinearMap.map_smulₛₗ, LinearMap.sum_apply, LinearMap.smul_apply, dotProduct, mulVec, gram,
    Matrix.of_apply, smul_eq_mul, Pi.star_apply, RCLike.star_def, Finset.mul_sum, RingHom.id_apply]
  rw [Finset.sum_comm]
  refine Finset.sum_congr rfl fun i _ => Finset.sum_congr rfl fun j _ => ?_
  ring

/-- Components of what is left when the first `k` components are removed. -/
theorem components_left {m s k : Nat} {V : Matrix (Fin m) (Fin s) 𝕜} (hV : Vᴴ * V = 1) (hk : k ≤ s) (x : Fin m → 𝕜) (i : Fin s) :
    (Vᴴ *ᵥ ((1 - V.submatrix id (Fin.castLE hk) * (V.submatrix id (Fin.castLE hk))ᴴ) *ᵥ x)) i =
      if i.val < k then 0 else (Vᴴ *ᵥ x) i := by
  have h1 : Vᴴ * V.submatrix id (Fin.castLE hk) = (1 : Matrix (Fin s) (Fin s) 𝕜).submatrix id (Fin.castLE hk) := by
    rw [← hV]
    exact mul_submatrix_cols _ _ _
  rw [mulVec_mulVec, Matrix.mul_sub, Matrix.mul_one, ← Matrix.mul_assoc, h1, sub_mulVec, Pi.sub_apply, ← mulVec_mulVec]
  have h2 : ((1 : Matrix (Fin s) (Fin s) 𝕜).submatrix id (Fin.castLE hk) *ᵥ ((V.submatrix id (Fin.castLE hk))ᴴ *ᵥ x)) i =
      if i.val < k then (Vᴴ *ᵥ x) i else 0 := by
    split_ifs with hi
    · rw [mulVec, dotProduct, Finset.sum_eq_single ⟨i, hi⟩]
      · rw [submatrix_apply, id, show Fin.castLE hk ⟨i, hi⟩ = i from rfl, one_apply_eq, one_mul]
        rfl
      · intro j _ hj
        rw [submatrix_apply, id, one_apply_ne, zero_mul]
        intro h
        exact hj (Fin.ext (congrArg Fin.val h).symm)
      · intro h
        exact absurd (Finset.mem_univ _) h
    · rw [mulVec, dotProduct]
      refine Finset.sum_eq_zero fun j _ => ?_
      rw [submatrix_apply, id, one_apply_ne, zero_mul]
      intro h
      have := congrArg Fin.val h
      have := j.isLt
      simp at *
      omega
  rw [h2]
  split_ifs
  · exact sub_self _
  · exact sub_zero _

section Core

variable {m s r : Nat} {ip : E →ₗ⋆[𝕜] E →ₗ[𝕜] 𝕜} {data : Fin m → E} {V : Matrix (Fin m) (Fin s) 𝕜} {a : Fin s → ℝ}
  {modes : Fin r → E} {coeffs : Matrix (Fin r) (Fin m) 𝕜}

/-- What is left of linear combinations of the data. -/
theorem left_length (hV : Vᴴ * V = 1) (hC : gram ip data data = V * diagonal (fun i => (a i : 𝕜)) * Vᴴ) {k : Nat} (hk : k ≤ s)
    (x : Fin m → 𝕜) (p : Fin m → E)
    (hp : p = combine data (V.submatrix id (Fin.castLE hk) * (V.submatrix id (Fin.castLE hk))ᴴ)) :
    RCLike.re (ip (∑ j, x j • (data j - p j)) (∑ j, x j • (data j - p j))) =
      ∑ i : Fin s, if i.val < k then 0 else a i * ‖(Vᴴ *ᵥ x) i‖ ^ 2 := by
  have h1 : ∀ j, data j - p j = combine data (1 - V.submatrix id (Fin.castLE hk) * (V.submatrix id (Fin.castLE hk))ᴴ) j := by
    intro j
    rw [combine_sub, combine_one, hp]
  simp only [h1]
  rw [sum_smul_combine, ip_sum_smul, quadratic_eigen hC]
  refine Finset.sum_congr rfl fun i _ => ?_
  rw [components_left hV]
  split_ifs <;> simp

/-- An eigendecomposition of the array of inner products gives approximations that are best in the worst case. -/
theorem worst_core (hV : Vᴴ * V = 1) (hC : gram ip data data = V * diagonal (fun i => (a i : 𝕜)) * Vᴴ) (ha : Antitone a)
    (h0 : ∀ i, 0 ≤ a i) (hr : r ≤ s)
    (hp : ∀ (k : Nat) (hk : k ≤ r) j, ∑ i : Fin k, coeffs (Fin.castLE hk i) j • modes (Fin.castLE hk i) =
      combine data (V.submatrix id (Fin.castLE (hk.trans hr)) * (V.submatrix id (Fin.castLE (hk.trans hr)))ᴴ) j) :
    BestInWorstCase (fun v => RCLike.re (ip v v)) data modes coeffs (fun i => a (Fin.castLE hr i)) ∧
    ∀ b, 0 ≤ b → (∀ i : Fin s, r ≤ i.val → a i ≤ b) → WithinTolerance (fun v => RCLike.re (ip v v)) data modes coeffs b := by
  have bound : ∀ (k : Nat) (b : ℝ), 0 ≤ b → (∀ i : Fin s, k ≤ i.val → a i ≤ b) → ∀ x : Fin m → 𝕜,
      (∑ i : Fin s, if i.val < k then 0 else a i * ‖(Vᴴ *ᵥ x) i‖ ^ 2) ≤ b * ∑ j, ‖x j‖ ^ 2 := by
    intro k b hb hab x
    calc (∑ i : Fin s, if i.val < k then 0 else a i * ‖(Vᴴ *ᵥ x) i‖ ^ 2) ≤ ∑ i : Fin s, b * ‖(Vᴴ *ᵥ x) i‖ ^ 2 := by
          refine Finset.sum_le_sum fun i _ => ?_
          split_ifs with hi
          · exact mul_nonneg hb (sq_nonneg _)
          · exact mul_le_mul_of_nonneg_right (hab i (not_lt.mp hi)) (sq_nonneg _)
      _ = b * plainLength (Vᴴ *ᵥ x) := by rw [plainLength, Finset.mul_sum]
      _ ≤ b * ∑ j, ‖x j‖ ^ 2 := mul_le_mul_of_nonneg_left (plainLength_components hV x) hb
  refine ⟨⟨fun k x => ?_, fun k q c => ?_⟩, fun b hb hab x => ?_⟩
  · have h := left_length hV hC (k.isLt.le.trans hr) x _ (funext fun j => hp k k.isLt.le j)
    rw [h]
    exact bound k _ (h0 _) (fun i hi => ha (Fin.le_iff_val_le_val.mpr hi)) x
  · have hk : k.val + 1 ≤ s := k.isLt.trans_le hr
    obtain ⟨y, hy, hy0⟩ : ∃ y : Fin (k.val + 1) → 𝕜, (c * V.submatrix id (Fin.castLE hk)) *ᵥ y = 0 ∧ y ≠ 0 := by
      have := LinearMap.ker_ne_bot_of_finrank_lt (f := (c * V.submatrix id (Fin.castLE hk)).mulVecLin)
        (by simp)
      obtain ⟨y, hy, hy0⟩ := Submodule.exists_mem_ne_zero_of_ne_bot this
      exact ⟨y, hy, hy0⟩
    have hV' : (V.submatrix id (Fin.castLE hk))ᴴ * V.submatrix id (Fin.castLE hk) = 1 :=
      orthonormal_submatrix V hV _ (Fin.castLE_injective hk)
    have hlen := plainLength_isometry hV' y
    refine ⟨V.submatrix id (Fin.castLE hk) *ᵥ y, fun hx => ?_, ?_⟩
    · rw [hx] at hlen
      refine hy0 (funext fun i => ?_)
      have hz : plainLength y = 0 := by rw [← hlen]; simp [plainLength]
      have := (Finset.sum_eq_zero_iff_of_nonneg fun i _ => sq_nonneg ‖y i‖).mp hz i (Finset.mem_univ _)
      simpa using this
    · have h1 : ∑ j, (V.submatrix id (Fin.castLE hk) *ᵥ y) j • (data j - ∑ i, c i j • q i) =
          ∑ j, (V.submatrix id (Fin.castLE hk) *ᵥ y) j • data j := by
        have := sum_smul_combine q c (V.submatrix id (Fin.castLE hk) *ᵥ y)
        unfold combine at this
        simp only [smul_sub, Finset.sum_sub_distrib]
        rw [this, mulVec_mulVec, hy]
        simp
      rw [h1, ip_sum_smul, quadratic_eigen hC]
      have h2 : ∀ i : Fin s, (Vᴴ *ᵥ (V.submatrix id (Fin.castLE hk) *ᵥ y)) i =
          if h : i.val < k.val + 1 then y ⟨i, h⟩ else 0 := by
        intro i
        rw [mulVec_mulVec, show Vᴴ * V.submatrix id (Fin.castLE hk) =
          (1 : Matrix (Fin s) (Fin s) 𝕜).submatrix id (Fin.castLE hk) by rw [← hV]; exact mul_submatrix_cols _ _ _]
        rw [mulVec, dotProduct]
        split_ifs with hi
        · rw [Finset.sum_eq_single ⟨i, hi⟩]
          · rw [submatrix_apply, id, show Fin.castLE hk ⟨i, hi⟩ = i from rfl, one_apply_eq, one_mul]
          · intro j _ hj
            rw [submatrix_apply, id, one_apply_ne, zero_mul]
            intro h
            exact hj (Fin.ext (congrArg Fin.val h).symm)
          · intro h
            exact absurd (Finset.mem_univ _) h
        · refine Finset.sum_eq_zero fun j _ => ?_
          rw [submatrix_apply, id, one_apply_ne, zero_mul]
          intro h
          have h3 : i.val = j.val := congrArg Fin.val h
          have := j.isLt
          omega
      have h3 : ∀ i : Fin s, a (Fin.castLE hr k) * ‖(Vᴴ *ᵥ (V.submatrix id (Fin.castLE hk) *ᵥ y)) i‖ ^ 2 ≤
          a i * ‖(Vᴴ *ᵥ (V.submatrix id (Fin.castLE hk) *ᵥ y)) i‖ ^ 2 := by
        intro i
        by_cases hi : i.val < k.val + 1
        · exact mul_le_mul_of_nonneg_right (ha (Fin.le_iff_val_le_val.mpr (Nat.lt_succ_iff.mp hi))) (sq_nonneg _)
        · rw [h2, dif_neg hi]
          simp
      refine le_trans (le_of_eq ?_) (Finset.sum_le_sum fun i _ => h3 i)
      rw [← Finset.mul_sum]
      congr 1
      have h4 := plainLength_isometry hV (Function.extend (Fin.castLE hk) y 0)
      have h5 : V *ᵥ Function.extend (Fin.castLE hk) y 0 = V.submatrix id (Fin.castLE hk) *ᵥ y := by
        ext j
        rw [mulVec, mulVec, dotProduct, dotProduct]
        rw [← Finset.sum_subset (Finset.subset_univ (Finset.univ.map (Fin.castLEEmb hk)))]
        · rw [Finset.sum_map]
          refine Finset.sum_congr rfl fun i _ => ?_
          change V j (Fin.castLE hk i) * Function.extend (Fin.castLE hk) y 0 (Fin.castLE hk i) = _
          rw [(Fin.castLE_injective hk).extend_apply]
          rfl
        · intro i _ hi
          have : Function.extend (Fin.castLE hk) y 0 i = 0 :=
            Function.extend_apply' _ _ _ fun ⟨l, hl⟩ => hi (Finset.mem_map.mpr ⟨l, Finset.mem_univ _, hl⟩)
          rw [this, mul_zero]
      rw [← h5]
      have h6 : Vᴴ *ᵥ (V *ᵥ Function.extend (Fin.castLE hk) y 0) = Function.extend (Fin.castLE hk) y 0 := by
        rw [mulVec_mulVec, hV, one_mulVec]
      rw [h6]
      exact h4
  · have h := left_length hV hC (le_refl r |>.trans hr) x _ (funext fun j => hp r le_rfl j)
    have e : (∑ j, x j • (data j - ∑ i, coeffs i j • modes i)) = ∑ j, x j • (data j - ∑ i : Fin r,
        coeffs (Fin.castLE le_rfl i) j • modes (Fin.castLE le_rfl i)) := rfl
    dsimp only
    rw [e, h]
    exact bound r b hb hab x

end Core

/-- Every vector is reproduced within the tolerance. -/
theorem WithinTolerance.each {m r : Nat} {sqLength : E → ℝ} {data : Fin m → E} {modes : Fin r → E}
    {coeffs : Matrix (Fin r) (Fin m) 𝕜} {b : ℝ} (h : WithinTolerance sqLength data modes coeffs b) (j : Fin m) :
    sqLength (data j - ∑ i, coeffs i j • modes i) ≤ b := by
  have h1 := h (Pi.single j 1)
  rw [Finset.sum_eq_single j, Finset.sum_eq_single j] at h1
  · simpa using h1
  · intro i _ hi
    simp [hi]
  · simp
  · intro i _ hi
    simp [hi]
  · simp

/-! ### Arrays -/

theorem combine_columns {n m q : Nat} (X : Matrix (Fin n) (Fin m) 𝕜) (M : Matrix (Fin m) (Fin q) 𝕜) (j : Fin q) :
    combine (E := Fin n → 𝕜) Xᵀ M j = (X * M)ᵀ j := by
  ext i
  simp [combine, Matrix.mul_apply, mul_comm]

theorem gram_columns {n m : Nat} (W : Matrix (Fin n) (Fin n) 𝕜) (X : Matrix (Fin n) (Fin m) 𝕜) :
    gram (E := Fin n → 𝕜) (weightedIp W) Xᵀ Xᵀ = Xᴴ * W * X := by
  ext i j
  rw [Matrix.mul_assoc, Matrix.mul_apply]
  change star (Xᵀ i) ⬝ᵥ (W *ᵥ Xᵀ j) = _
  unfold dotProduct
  refine Finset.sum_congr rfl fun k _ => ?_
  rw [Matrix.mul_apply]
  rfl

/-- The core for columns of arrays. -/
theorem worst_columns {n m s r : Nat} {W : Matrix (Fin n) (Fin n) 𝕜} {X : Matrix (Fin n) (Fin m) 𝕜}
    {V : Matrix (Fin m) (Fin s) 𝕜} {a : Fin s → ℝ} {modes : Matrix (Fin n) (Fin r) 𝕜} {coeffs : Matrix (Fin r) (Fin m) 𝕜}
    (hV : Vᴴ * V = 1) (hC : Xᴴ * W * X = V * diagonal (fun i => (a i : 𝕜)) * Vᴴ) (ha : Antitone a) (h0 : ∀ i, 0 ≤ a i)
    (hr : r ≤ s)
    (hp : ∀ (k : Nat) (hk : k ≤ r), modes.submatrix id (Fin.castLE hk) * coeffs.submatrix (Fin.castLE hk) id =
      X * (V.submatrix id (Fin.castLE (hk.trans hr)) * (V.submatrix id (Fin.castLE (hk.trans hr)))ᴴ)) :
    BestInWorstCase (weightedLength W) Xᵀ modesᵀ coeffs (fun i => a (Fin.castLE hr i)) ∧
    ∀ b, 0 ≤ b → (∀ i : Fin s, r ≤ i.val → a i ≤ b) → WithinTolerance (weightedLength W) Xᵀ modesᵀ coeffs b := by
  refine worst_core (E := Fin n → 𝕜) (ip := weightedIp W) hV (by rw [gram_columns]; exact hC) ha h0 hr fun k hk j => ?_
  rw [combine_columns, ← hp k hk]
  ext i
  simp [Matrix.mul_apply, mul_comm]

theorem weightedLength_one {n : Nat} : weightedLength (1 : Matrix (Fin n) (Fin n) 𝕜) = plainLength := by
  ext v
  rw [weightedLength, one_mulVec, ← plainLength_eq, RCLike.ofReal_re]

/-! ### Tolerances -/

/-- Eigenvalues that are not kept. -/
theorem not_obeys_le {n : Nat} {x : Fin n → ℝ} (h0 : ∀ i, 0 ≤ x i) {atol rtol : Option ℝ} {b : ℝ} (hb : ToleranceBound x atol rtol b)
    {i : Fin n} (h : ¬Obeys x atol rtol i) : x i ≤ b := by
  unfold Obeys at h
  rw [not_and_or] at h
  rw [abs_of_nonneg (h0 _), abs_of_nonneg (h0 _)] at h
  rcases h with h | h
  · push Not at h
    obtain ⟨t, ht, h1⟩ := h
    exact h1.trans (hb.absolute t ht)
  · push Not at h
    obtain ⟨t, ht, h1⟩ := h
    exact h1.trans (hb.relative t ht _)

/-- What the sorted and truncated eigendecomposition is a part of, and the size of the rest. -/
theorem utilEigh_rest {m : Nat} (lib : Matrix (Fin m) (Fin m) 𝕜 → EighOut 𝕜 m)
    (argsort : (Fin m → ℝ) → Equiv.Perm (Fin m)) (C : Matrix (Fin m) (Fin m) 𝕜) (atol rtol : Option ℝ) (pd : Bool)
    (hC : C.PosSemidef) (hlib : IsEigh C (lib C)) (hs : IsArgsort argsort) (hr : ∀ t ∈ rtol, 0 ≤ t)
    (e : Eigh 𝕜 m) (he : utilEigh lib argsort C atol rtol pd = .ok e) :
    ∃ (V : Matrix (Fin m) (Fin m) 𝕜) (a : Fin m → ℝ) (hle : e.r ≤ m), Vᴴ * V = 1 ∧
      C = V * diagonal (fun i => (a i : 𝕜)) * Vᴴ ∧ Antitone a ∧ (∀ i, 0 ≤ a i) ∧
      e.V = V.submatrix id (Fin.castLE hle) ∧ e.w = (fun i => a (Fin.castLE hle i)) ∧
      ∀ b, ToleranceBound (lib C).w atol rtol b → ∀ i : Fin m, e.r ≤ i.val → a i ≤ b := by
  obtain ⟨p, hp, hle, hkept, hv⟩ := C20_kept_iff lib argsort C atol rtol pd hs hr e he
  have hnn : ∀ i, 0 ≤ (lib C).w i := by
    intro i
    have h1 := (hC.conjTranspose_mul_mul_same (lib C).V).diag_nonneg (i := i)
    rw [Matrix.mul_assoc, hlib.eigen, ← Matrix.mul_assoc, hlib.orthonormal, Matrix.one_mul,
      diagonal_apply_eq] at h1
    exact_mod_cast h1
  have hu : (lib C).V * (lib C).Vᴴ = 1 := mul_eq_one_comm.mp hlib.orthonormal
  refine ⟨(lib C).V.submatrix id p, fun i => (lib C).w (p i), hle,
    orthonormal_submatrix _ hlib.orthonormal _ p.injective, ?_, ?_, fun i => hnn _, ?_, ?_, fun b hb i hi => ?_⟩
  · rw [← mul_diagonal_submatrix (lib C).V (fun i => ((lib C).w i : 𝕜)) p, ← hlib.eigen]
    have : (C * (lib C).V).submatrix id p * ((lib C).V.submatrix id p)ᴴ = C * (lib C).V * (lib C).Vᴴ := by
      ext i j
      rw [Matrix.mul_apply, Matrix.mul_apply]
      exact Equiv.sum_comp p fun l => (C * (lib C).V) i l * (lib C).Vᴴ l j
    rw [this, Matrix.mul_assoc, hu, Matrix.mul_one]
  · intro i j hij
    have := hp i j hij
    rwa [abs_of_nonneg (hnn _), abs_of_nonneg (hnn _)] at this
  · ext i j
    exact (hv j (Fin.castLE hle j) rfl).2 i
  · ext i
    exact (hv i (Fin.castLE hle i) rfl).1
  · refine not_obeys_le (x := fun i => (lib C).w (p i)) (fun i => hnn _) ⟨hb.nonneg, hb.absolute, fun t ht i => hb.relative t ht _⟩
      fun ho => absurd ((hkept i).mpr ⟨ho, fun _ j hj => absurd hj (not_lt.mpr (hnn j))⟩) (not_lt.mpr hi)

/-! ### POD -/

/-- **C81** for the method of snapshots. -/
theorem C81_snaps {n m : Nat} (lib : PodLib 𝕜 n m) (vecs : Matrix (Fin n) (Fin m) 𝕜)
    (modeIndices : Option (List Int)) (weights : Option (NdArray 𝕜)) (ws : Weights 𝕜) (rtol : Option ℝ)
    (t : ℝ) (ht : 0 ≤ t) (hr : ∀ t ∈ rtol, 0 ≤ t) (hs : IsArgsort lib.argsort)
    (hws : arraysInit weights = .ok ws) (hfit : ws.Fits n) (hW : (ws.matrix n).PosSemidef)
    (hlib : IsEigh (vecsᴴ * ws.matrix n * vecs) (lib.eigh (vecsᴴ * ws.matrix n * vecs)))
    (res : PodResult 𝕜 n m) (corr : Matrix (Fin m) (Fin m) 𝕜)
    (hres : podSnaps lib vecs modeIndices weights (some t) rtol = .ok (res, corr)) :
    ∃ modes : Matrix (Fin n) (Fin res.r) 𝕜, SelectedFrom modeIndices res.modes modes ∧
      BestInWorstCase (weightedLength (ws.matrix n)) vecsᵀ modesᵀ res.projCoeffs res.eigvals ∧
      ∀ b, ToleranceBound (lib.eigh (vecsᴴ * ws.matrix n * vecs)).w (some t) rtol b →
        WithinTolerance (weightedLength (ws.matrix n)) vecsᵀ modesᵀ res.projCoeffs b := by
  obtain ⟨e, c, he, hc, h⟩ := podSnaps_cases lib vecs modeIndices weights ws _ _ hws hfit _ hres
  obtain ⟨rfl, rfl⟩ := Prod.mk.inj h
  have hw := C20_positive_partial _ _ _ _ t ht hs hr e he
  obtain ⟨V, a, hle, hV, hC, ha, h0, hVe, hwe, hrest⟩ := utilEigh_rest _ _ _ _ _ _
    (hW.conjTranspose_mul_mul_same vecs) hlib hs hr e he
  have hworst := worst_columns (modes := vecs * (e.V * diagPow (𝕜 := 𝕜) e.w (-0.5))) (coeffs := diagPow (𝕜 := 𝕜) e.w 0.5 * e.Vᴴ)
    hV hC ha h0 hle (fun k hk => by
      rw [← mul_submatrix_cols, Matrix.mul_assoc, first_build_mul_proj hk hw]
      rw [show e.V.submatrix id (Fin.castLE hk) = V.submatrix id (Fin.castLE (hk.trans hle)) by rw [hVe]; rfl])
  refine ⟨vecs * (e.V * diagPow (𝕜 := 𝕜) e.w (-0.5)), ?_, ?_, fun b hb => hworst.2 b hb.nonneg (hrest b hb)⟩
  · intro i j hij b
    have h1 := selectedFrom_of_pick _ _ _ hc i j hij
    dsimp only
    rw [Matrix.mul_apply]
    simp only [h1]
    rw [← Matrix.mul_apply, Matrix.mul_one]
  · have := hworst.1
    rw [← hwe] at this
    exact this

/-- Singular triples, those that are kept coming first. -/
theorem triples_worst {n m s r : Nat} {H : Matrix (Fin n) (Fin m) 𝕜} {U : Matrix (Fin n) (Fin s) 𝕜} {S : Fin s → ℝ}
    {V : Matrix (Fin m) (Fin s) 𝕜} (hU : Uᴴ * U = 1) (hV : Vᴴ * V = 1) (hH : H = U * diagonal (fun i => (S i : 𝕜)) * Vᴴ)
    (ha : Antitone S) (h0 : ∀ i, 0 ≤ S i) (hr : r ≤ s) {O : Matrix (Fin n) (Fin r) 𝕜} {K : Matrix (Fin r) (Fin m) 𝕜}
    (hp : ∀ (k : Nat) (hk : k ≤ r), O.submatrix id (Fin.castLE hk) * K.submatrix (Fin.castLE hk) id =
      H * (V.submatrix id (Fin.castLE (hk.trans hr)) * (V.submatrix id (Fin.castLE (hk.trans hr)))ᴴ)) :
    BestInWorstCase plainLength Hᵀ Oᵀ K (fun i => S (Fin.castLE hr i) ^ 2) ∧
    ∀ b, 0 ≤ b → (∀ i : Fin s, r ≤ i.val → S i ≤ b) → WithinTolerance plainLength Hᵀ Oᵀ K (b ^ 2) := by
  have hC : Hᴴ * (1 : Matrix (Fin n) (Fin n) 𝕜) * H = V * diagonal (fun i => ((S i ^ 2 : ℝ) : 𝕜)) * Vᴴ := by
    rw [Matrix.mul_one, hH, conjTranspose_mul, conjTranspose_mul, diagonal_real_conjTranspose, conjTranspose_conjTranspose,
      show V * (diagonal (fun i => (S i : 𝕜)) * Uᴴ) * (U * diagonal (fun i => (S i : 𝕜)) * Vᴴ) =
        V * (diagonal (fun i => (S i : 𝕜)) * (Uᴴ * U) * diagonal (fun i => (S i : 𝕜))) * Vᴴ by simp only [Matrix.mul_assoc],
      hU, Matrix.mul_one, diagonal_mul_diagonal]
    congr 3
    ext i
    rw [← RCLike.ofReal_mul, sq]
  have h := worst_columns (W := 1) (modes := O) (coeffs := K) hV hC (fun i j hij => pow_le_pow_left₀ (h0 j) (ha hij) 2)
    (fun i => sq_nonneg _) hr hp
  rw [weightedLength_one] at h
  exact ⟨h.1, fun b hb hS => h.2 _ (sq_nonneg b) fun i hi => pow_le_pow_left₀ (h0 i) (hS i hi) 2⟩

/-- Singular values that are not kept. -/
theorem utilSvd_rest {m n : Nat} {svd : Matrix (Fin m) (Fin n) 𝕜 → SvdOut 𝕜 m n} {H : Matrix (Fin m) (Fin n) 𝕜}
    (hlib : IsSvd H (svd H)) {atol rtol : Option ℝ} (hr : ∀ t ∈ rtol, 0 ≤ t) (s : Svd 𝕜 m n)
    (hs : utilSvd svd H atol rtol = .ok s) {b : ℝ} (hb : ToleranceBound (svd H).S atol rtol b) (i : Fin (min m n))
    (hi : s.r ≤ i.val) : (svd H).S i ≤ b := by
  obtain ⟨-, hkept, -⟩ := C19_kept_iff _ _ _ _ hlib hr s hs
  exact not_obeys_le hlib.nonneg hb fun ho => absurd ((hkept i).mpr ho) (not_lt.mpr hi)

/-- **C81** for the direct method. -/
theorem C81_direct {n m : Nat} (lib : PodLib 𝕜 n m) (vecs : Matrix (Fin n) (Fin m) 𝕜)
    (modeIndices : Option (List Int)) (ws : DirectWeights 𝕜) (atol rtol : Option ℝ) (hr : ∀ t ∈ rtol, 0 ≤ t)
    (hfit : ws.Fits n) (hchol : ∀ p q w, ws = .d2 p q w → IsCholesky lib.cholesky (ws.matrix n))
    (hlib : ∀ a, IsSvd a (lib.svd a)) (res : PodResult 𝕜 n m)
    (hres : podDirect lib vecs modeIndices ws atol rtol = .ok res) :
    ∃ (modes : Matrix (Fin n) (Fin res.r) 𝕜) (G : Matrix (Fin n) (Fin n) 𝕜), SelectedFrom modeIndices res.modes modes ∧
      BestInWorstCase (weightedLength (ws.matrix n)) vecsᵀ modesᵀ res.projCoeffs res.eigvals ∧
      Gᴴ * G = ws.matrix n ∧ ∀ b, ToleranceBound (lib.svd (G * vecs)).S atol rtol b →
        WithinTolerance (weightedLength (ws.matrix n)) vecsᵀ modesᵀ res.projCoeffs (b ^ 2) := by
  obtain ⟨G, H, h1, h2, h3⟩ := podDirect_cases lib vecs modeIndices ws atol rtol hfit hchol
  obtain ⟨s, c, hs, hc, rfl⟩ := h3 res hres
  obtain ⟨-, -, hAV, -, hS, -⟩ := C19_singular_triples _ _ _ _ (hlib _) s hs
  obtain ⟨hle, -, hv⟩ := C19_kept_iff _ _ _ _ (hlib _) hr s hs
  have hsvd := hlib (G * vecs)
  have hHG : H * G = 1 := mul_eq_one_comm.mp h1
  have hC : vecsᴴ * ws.matrix n * vecs = (lib.svd (G * vecs)).Vhᴴ *
      diagonal (fun i => (((lib.svd (G * vecs)).S i ^ 2 : ℝ) : 𝕜)) * ((lib.svd (G * vecs)).Vhᴴ)ᴴ := by
    rw [← h2, show vecsᴴ * (Gᴴ * G) * vecs = (G * vecs)ᴴ * (G * vecs) by
      rw [conjTranspose_mul]; simp only [Matrix.mul_assoc]]
    generalize hA : G * vecs = A at *
    conv_lhs => rw [hsvd.product]
    rw [conjTranspose_mul, conjTranspose_mul, diagonal_real_conjTranspose, conjTranspose_conjTranspose]
    rw [show (lib.svd A).Vhᴴ * (diagonal (fun i => ((lib.svd A).S i : 𝕜)) * (lib.svd A).Uᴴ) *
        ((lib.svd A).U * diagonal (fun i => ((lib.svd A).S i : 𝕜)) * (lib.svd A).Vh) =
      (lib.svd A).Vhᴴ * (diagonal (fun i => ((lib.svd A).S i : 𝕜)) * ((lib.svd A).Uᴴ * (lib.svd A).U) *
        diagonal (fun i => ((lib.svd A).S i : 𝕜))) * (lib.svd A).Vh by simp only [Matrix.mul_assoc]]
    rw [hsvd.left, Matrix.mul_one, diagonal_mul_diagonal]
    congr 3
    ext i
    rw [← RCLike.ofReal_mul, sq]
  have hV : ((lib.svd (G * vecs)).Vhᴴ)ᴴ * (lib.svd (G * vecs)).Vhᴴ = 1 := by
    rw [conjTranspose_conjTranspose]
    exact hsvd.right
  have hworst := worst_columns (modes := H * s.U) (coeffs := diagonal (fun i => (s.S i : 𝕜)) * s.Vᴴ) hV hC
    (fun i j hij => pow_le_pow_left₀ (hsvd.nonneg j) (hsvd.sorted hij) 2) (fun i => sq_nonneg _) hle (fun k hk => by
      have hVs : (lib.svd (G * vecs)).Vhᴴ.submatrix id (Fin.castLE (hk.trans hle)) =
          s.V.submatrix id (Fin.castLE hk) := by
        ext i j
        exact ((hv (Fin.castLE hk j) (Fin.castLE (hk.trans hle) j) rfl).2.2 i).symm
      rw [hVs]
      have e1 : (diagonal (fun i => (s.S i : 𝕜)) * s.Vᴴ).submatrix (Fin.castLE hk) id =
          diagonal (fun i => (s.S (Fin.castLE hk i) : 𝕜)) * (s.V.submatrix id (Fin.castLE hk))ᴴ := by
        ext i j
        simp [diagonal_mul]
      rw [e1, ← mul_submatrix_cols, Matrix.mul_assoc, ← Matrix.mul_assoc (s.U.submatrix id _),
        ← mul_diagonal_submatrix s.U (fun i => (s.S i : 𝕜)), ← hAV, ← mul_submatrix_cols,
        Matrix.mul_assoc G, ← Matrix.mul_assoc, ← Matrix.mul_assoc, hHG, Matrix.one_mul, Matrix.mul_assoc])
  dsimp only
  rw [diagPow_sq hS]
  refine ⟨H * s.U, G, selectedFrom_of_pick _ _ _ hc, ?_, h2, fun b hb => hworst.2 _ (sq_nonneg b) fun i hi =>
    pow_le_pow_left₀ (hsvd.nonneg i) (utilSvd_rest hsvd hr s hs hb i hi) 2⟩
  have e : (fun i => s.S i ^ (2 : ℝ)) = fun i => (lib.svd (G * vecs)).S (Fin.castLE hle i) ^ 2 := by
    ext i
    rw [(hv i (Fin.castLE hle i) rfl).1, Real.rpow_two]
  rw [e]
  exact hworst.1

section Handles

/-- **C81** for `PODHandles`: the modes put and the projection coefficients. -/
theorem C81_handles {m : Nat} (eigh : Matrix (Fin m) (Fin m) 𝕜 → EighOut 𝕜 m)
    (argsort : (Fin m → ℝ) → Equiv.Perm (Fin m)) (ip : E →ₗ⋆[𝕜] E →ₗ[𝕜] 𝕜) (vecs : Fin m → E) (rtol : Option ℝ)
    (t : ℝ) (ht : 0 ≤ t) (hr : ∀ t ∈ rtol, 0 ≤ t) (hs : IsArgsort argsort)
    (hsymm : ∀ x y, ip y x = star (ip x y)) (hnn : ∀ x, 0 ≤ RCLike.re (ip x x))
    (hlib : IsEigh (gram ip vecs vecs) (eigh (gram ip vecs vecs)))
    (pod : PodHandles 𝕜 E m)
    (hpod : podHandlesDecomp eigh argsort (fun x y => ip x y) vecs (some t) rtol = .ok pod) :
    ∃ modes : Fin pod.r → E,
      (∀ l k out, podHandlesModes pod l k = .ok out → ∀ (i : Fin out.k) (j : Fin pod.r),
        l[i.val]? = some (j : Int) → out.v i = modes j) ∧
      BestInWorstCase (fun v => RCLike.re (ip v v)) vecs modes (podHandlesProjCoeffs pod) pod.eigvals ∧
      ∀ b, ToleranceBound (eigh (gram ip vecs vecs)).w (some t) rtol b →
        WithinTolerance (fun v => RCLike.re (ip v v)) vecs modes (podHandlesProjCoeffs pod) b := by
  obtain ⟨e, he, rfl⟩ := podHandlesDecomp_cases eigh argsort ip vecs _ _ pod hpod
  have hw := C20_positive_partial _ _ _ _ t ht hs hr e he
  have h4 : handlesSymmIp (fun x y => ip x y) vecs = gram ip vecs vecs := rfl
  rw [h4] at he
  have hC0 : (gram ip vecs vecs).PosSemidef := handlesIp_posSemidef ip hsymm hnn vecs
  obtain ⟨V, a, hle, hV, hC, ha, h0, hVe, hwe, hrest⟩ := utilEigh_rest _ _ _ _ _ _ hC0 hlib hs hr e he
  have hworst := worst_core (ip := ip) (modes := combine vecs (e.V * diagPow (𝕜 := 𝕜) e.w (-0.5)))
    (coeffs := diagPow (𝕜 := 𝕜) e.w 0.5 * e.Vᴴ) hV hC ha h0 hle (fun k hk j => by
      rw [show V.submatrix id (Fin.castLE (hk.trans hle)) = e.V.submatrix id (Fin.castLE hk) by rw [hVe]; rfl,
        ← first_build_mul_proj hk hw]
      rw [← combine_combine vecs ((e.V * diagPow (𝕜 := 𝕜) e.w (-0.5)).submatrix id (Fin.castLE hk))]
      rfl)
  refine ⟨combine vecs (e.V * diagPow (𝕜 := 𝕜) e.w (-0.5)), ?_, ?_, fun b hb => hworst.2 b hb.nonneg (hrest b hb)⟩
  · intro l k out hout i j hij
    obtain ⟨sel, -, h2, h3⟩ := podHandlesModes_cases _ l k out hout
    have := h2 i _ hij
    unfold npAxisIndex at this
    have hj := j.isLt
    dsimp only at hj this
    rw [dif_pos (by omega)] at this
    rw [h3]
    dsimp only
    congr 1
    have := Except.ok.inj this
    rw [← this]
    rfl
  · have := hworst.1
    rw [← hwe] at this
    exact this

end Handles

/-! ### BPOD -/

/-- The factors from a decomposition that is sorted and truncated, for the array and for its conjugate transpose. -/
theorem utilSvd_worst {m n : Nat} {svd : Matrix (Fin m) (Fin n) 𝕜 → SvdOut 𝕜 m n} {H : Matrix (Fin m) (Fin n) 𝕜}
    (hlib : IsSvd H (svd H)) {atol rtol : Option ℝ} (hr : ∀ t ∈ rtol, 0 ≤ t) (s : Svd 𝕜 m n)
    (hs : utilSvd svd H atol rtol = .ok s) (hS : ∀ i, 0 < s.S i) :
    (BestInWorstCase plainLength Hᵀ (s.U * diagPow (𝕜 := 𝕜) s.S 0.5)ᵀ (diagPow (𝕜 := 𝕜) s.S 0.5 * s.Vᴴ) (fun i => s.S i ^ 2) ∧
    ∀ b, ToleranceBound (svd H).S atol rtol b →
      WithinTolerance plainLength Hᵀ (s.U * diagPow (𝕜 := 𝕜) s.S 0.5)ᵀ (diagPow (𝕜 := 𝕜) s.S 0.5 * s.Vᴴ) (b ^ 2)) ∧
    BestInWorstCase plainLength (Hᴴ)ᵀ (s.V * diagPow (𝕜 := 𝕜) s.S 0.5)ᵀ (diagPow (𝕜 := 𝕜) s.S 0.5 * s.Uᴴ)
      (fun i => s.S i ^ 2) ∧
    ∀ b, ToleranceBound (svd H).S atol rtol b →
      WithinTolerance plainLength (Hᴴ)ᵀ (s.V * diagPow (𝕜 := 𝕜) s.S 0.5)ᵀ (diagPow (𝕜 := 𝕜) s.S 0.5 * s.Uᴴ) (b ^ 2) := by
  obtain ⟨hU, hV, hHV, hHU⟩ := utilSvd_triples svd H _ _ hlib s hs
  obtain ⟨hle, -, hv⟩ := C19_kept_iff _ _ _ _ hlib hr s hs
  have hV0 : ((svd H).Vhᴴ)ᴴ * (svd H).Vhᴴ = 1 := by
    rw [conjTranspose_conjTranspose]
    exact hlib.right
  have eV : s.V = (svd H).Vhᴴ.submatrix id (Fin.castLE hle) := by
    ext i j
    exact (hv j (Fin.castLE hle j) rfl).2.2 i
  have eU : s.U = (svd H).U.submatrix id (Fin.castLE hle) := by
    ext i j
    exact (hv j (Fin.castLE hle j) rfl).2.1 i
  have eS : (fun i => s.S i ^ 2) = fun i => (svd H).S (Fin.castLE hle i) ^ 2 := by
    ext i
    rw [(hv i (Fin.castLE hle i) rfl).1]
  have h1 := triples_worst (H := H) (O := s.U * diagPow (𝕜 := 𝕜) s.S 0.5) (K := diagPow (𝕜 := 𝕜) s.S 0.5 * s.Vᴴ) hlib.left hV0
    (by rw [conjTranspose_conjTranspose]; exact hlib.product) hlib.sorted hlib.nonneg hle
    (fun k hk => by rw [first_triples hk hS hHV, eV]; rfl)
  have h2 := triples_worst (H := Hᴴ) (O := s.V * diagPow (𝕜 := 𝕜) s.S 0.5) (K := diagPow (𝕜 := 𝕜) s.S 0.5 * s.Uᴴ) hV0 hlib.left
    (by
      conv_lhs => rw [hlib.product]
      rw [conjTranspose_mul, conjTranspose_mul, diagonal_real_conjTranspose, Matrix.mul_assoc]) hlib.sorted hlib.nonneg hle
    (fun k hk => by rw [first_triples hk hS hHU, eU]; rfl)
  rw [← eS] at h1 h2
  exact ⟨⟨h1.1, fun b hb => h1.2 b hb.nonneg fun i hi => utilSvd_rest hlib hr s hs hb i hi⟩, h2.1, fun b hb =>
    h2.2 b hb.nonneg fun i hi => utilSvd_rest hlib hr s hs hb i hi⟩

section BpodArrays

variable {n md ma : Nat} (svd : Matrix (Fin ma) (Fin md) 𝕜 → SvdOut 𝕜 ma md) (X : Matrix (Fin n) (Fin md) 𝕜)
  (Y : Matrix (Fin n) (Fin ma) 𝕜) (p q : Nat) (idxD idxA : Option (List Int)) (weights : Option (NdArray 𝕜))
  (ws : Weights 𝕜) (atol rtol : Option ℝ)

/-- **C81** for BPOD of arrays: what the adjoint vectors see of linear combinations of the direct vectors, and the other way
round. -/
theorem C81_bpod_arrays (hr : ∀ t ∈ rtol, 0 ≤ t) (hws : arraysInit weights = .ok ws) (hfit : ws.Fits n)
    (res : BpodResult 𝕜 n md ma) (hres : bpodArrays svd X Y p q idxD idxA weights atol rtol = .ok res)
    (hlib : IsSvd res.hankel (svd res.hankel)) (hS : ∀ i, 0 < res.singVals i) (hH : res.hankel = Yᴴ * ws.matrix n * X) :
    ∃ Φ Ψ : Matrix (Fin n) (Fin res.r) 𝕜, Chosen Φ idxD res.directModes ∧ Chosen Ψ idxA res.adjointModes ∧
      BestInWorstCase plainLength (Yᴴ * ws.matrix n * X)ᵀ (Yᴴ * ws.matrix n * Φ)ᵀ res.directProjCoeffs
        (fun i => res.singVals i ^ 2) ∧
      (∀ b, ToleranceBound (svd res.hankel).S atol rtol b →
        WithinTolerance plainLength (Yᴴ * ws.matrix n * X)ᵀ (Yᴴ * ws.matrix n * Φ)ᵀ res.directProjCoeffs (b ^ 2)) ∧
      ((ws.matrix n).IsHermitian →
        BestInWorstCase plainLength (Xᴴ * ws.matrix n * Y)ᵀ (Xᴴ * ws.matrix n * Ψ)ᵀ res.adjointProjCoeffs
          (fun i => res.singVals i ^ 2) ∧
        ∀ b, ToleranceBound (svd res.hankel).S atol rtol b →
          WithinTolerance plainLength (Xᴴ * ws.matrix n * Y)ᵀ (Xᴴ * ws.matrix n * Ψ)ᵀ res.adjointProjCoeffs (b ^ 2)) := by
  obtain ⟨rows, s, dm, am, -, -, hs, hdm, ham, rfl⟩ :=
    bpodArrays_cases svd X Y p q idxD idxA weights ws _ _ hws hfit res hres
  dsimp only at hlib hH hS ⊢
  generalize ofRows ma md rows = H at *
  obtain ⟨-, hV, hHV, hHU⟩ := utilSvd_triples svd H _ _ hlib s hs
  obtain ⟨⟨h1, h2⟩, h3, h4⟩ := utilSvd_worst hlib hr s hs hS
  have hd : Yᴴ * ws.matrix n * (X * (s.V * diagPow (𝕜 := 𝕜) s.S (-0.5))) = s.U * diagPow (𝕜 := 𝕜) s.S 0.5 := by
    rw [← Matrix.mul_assoc, ← hH]
    have h := balance_right hS hHV
    rw [← conjTranspose_mul, ← conjTranspose_inj, conjTranspose_conjTranspose, conjTranspose_mul,
      conjTranspose_conjTranspose, diagPow_conjTranspose] at h
    exact h
  refine ⟨X * (s.V * diagPow (𝕜 := 𝕜) s.S (-0.5)), Y * (s.U * diagPow (𝕜 := 𝕜) s.S (-0.5)),
    linCombineArrays_ok _ _ _ _ hdm, linCombineArrays_ok _ _ _ _ ham, ?_, ?_, fun hW => ?_⟩
  · rw [hd, ← hH]
    exact h1
  · rw [hd, ← hH]
    exact h2
  · have hX : Hᴴ = Xᴴ * ws.matrix n * Y := by
      rw [hH, conjTranspose_mul, conjTranspose_mul, conjTranspose_conjTranspose, hW.eq, Matrix.mul_assoc]
    have ha : Xᴴ * ws.matrix n * (Y * (s.U * diagPow (𝕜 := 𝕜) s.S (-0.5))) = s.V * diagPow (𝕜 := 𝕜) s.S 0.5 := by
      have h := balance_left hS hHU
      rw [← conjTranspose_inj, conjTranspose_mul, conjTranspose_conjTranspose, conjTranspose_mul,
        conjTranspose_conjTranspose, diagPow_conjTranspose, hX] at h
      rw [← Matrix.mul_assoc, h]
    rw [ha, ← hX]
    exact ⟨h3, h4⟩

end BpodArrays

section BpodHandles

variable {md ma : Nat} (X : Fin md → E) (Y : Fin ma → E) (p q : Nat)
  (svd : Matrix (Fin (ma / q * q)) (Fin (md / p * p)) 𝕜 → SvdOut 𝕜 (ma / q * q) (md / p * p)) (atol rtol : Option ℝ)

/-- **C81** for `BPODHandles`. -/
theorem C81_bpod_handles (hr : ∀ t ∈ rtol, 0 ≤ t) (ip : E →ₗ⋆[𝕜] E →ₗ[𝕜] 𝕜)
    (b : BpodHandles 𝕜 E md ma (ma / q * q) (md / p * p))
    (hb : bpodHandlesDecomp (fun x y => ip x y) X Y p q svd atol rtol = .ok b)
    (hlib : IsSvd b.hankel (svd b.hankel)) (hS : ∀ i, 0 < b.singVals i)
    (hH : ∀ (i : Fin (ma / q * q)) (j : Fin (md / p * p)) (i' : Fin ma) (j' : Fin md), i'.val = i.val →
      j'.val = j.val → b.hankel i j = ip (Y i') (X j')) :
    ∃ Φ Ψ : Fin b.r → E,
      (∀ l k out, bpodHandlesDirectModes b l k = .ok out → ∀ (i : Fin out.k) (j : Fin b.r),
        l[i.val]? = some (j : Int) → out.v i = Φ j) ∧
      (∀ l k out, bpodHandlesAdjointModes b l k = .ok out → ∀ (i : Fin out.k) (j : Fin b.r),
        l[i.val]? = some (j : Int) → out.v i = Ψ j) ∧
      BestInWorstCase plainLength b.hankelᵀ (fun j i => ip (Y (Fin.castLE (Nat.div_mul_le_self ma q) i)) (Φ j))
        (bpodHandlesDirectProjCoeffs b) (fun i => b.singVals i ^ 2) ∧
      (∀ c, ToleranceBound (svd b.hankel).S atol rtol c →
        WithinTolerance plainLength b.hankelᵀ (fun j i => ip (Y (Fin.castLE (Nat.div_mul_le_self ma q) i)) (Φ j))
          (bpodHandlesDirectProjCoeffs b) (c ^ 2)) ∧
      ((∀ x y, ip y x = star (ip x y)) →
        BestInWorstCase plainLength (b.hankelᴴ)ᵀ (fun j i => ip (X (Fin.castLE (Nat.div_mul_le_self md p) i)) (Ψ j))
          (bpodHandlesAdjointProjCoeffs b) (fun i => b.singVals i ^ 2) ∧
        ∀ c, ToleranceBound (svd b.hankel).S atol rtol c →
          WithinTolerance plainLength (b.hankelᴴ)ᵀ (fun j i => ip (X (Fin.castLE (Nat.div_mul_le_self md p) i)) (Ψ j))
            (bpodHandlesAdjointProjCoeffs b) (c ^ 2)) := by
  obtain ⟨rows, s, hrows, hs, rfl⟩ := bpodHandlesDecomp_cases X Y p q svd _ rtol _ b hb
  dsimp only at *
  generalize ofRows (ma / q * q) (md / p * p) rows = H at *
  have hH' : H = handlesIp (fun x y => ip x y) (fun k => Y (Fin.castLE (Nat.div_mul_le_self ma q) k))
      (fun k => X (Fin.castLE (Nat.div_mul_le_self md p) k)) := by
    ext i j
    exact hH i j _ _ rfl rfl
  obtain ⟨-, hV, hHV, hHU⟩ := utilSvd_triples svd H _ _ hlib s hs
  obtain ⟨⟨h1, h2⟩, h3, h4⟩ := utilSvd_worst hlib hr s hs hS
  have hd : (fun j i => ip (Y (Fin.castLE (Nat.div_mul_le_self ma q) i))
        (combine (fun k => X (Fin.castLE (Nat.div_mul_le_self md p) k)) (s.V * diagPow (𝕜 := 𝕜) s.S (-0.5)) j)) =
        (s.U * diagPow (𝕜 := 𝕜) s.S 0.5)ᵀ := by
    have h := balance_right hS hHV
    rw [← conjTranspose_mul, ← conjTranspose_inj, conjTranspose_conjTranspose, conjTranspose_mul,
      conjTranspose_conjTranspose, diagPow_conjTranspose] at h
    rw [← h, hH', ← handlesIp_combine_right]
    rfl
  refine ⟨combine (fun k => X (Fin.castLE (Nat.div_mul_le_self md p) k)) (s.V * diagPow (𝕜 := 𝕜) s.S (-0.5)),
    combine (fun k => Y (Fin.castLE (Nat.div_mul_le_self ma q) k)) (s.U * diagPow (𝕜 := 𝕜) s.S (-0.5)),
    fun l k out hout i j hij => linCombineSized_mode _ _ _ _ _ _ hout i j hij,
    fun l k out hout i j hij => linCombineSized_mode _ _ _ _ _ _ hout i j hij, ?_, ?_, fun hsymm => ?_⟩
  · rw [hd]
    exact h1
  · rw [hd]
    exact h2
  · have h := balance_left hS hHU
    rw [← conjTranspose_inj, conjTranspose_mul, conjTranspose_conjTranspose, conjTranspose_mul,
      conjTranspose_conjTranspose, diagPow_conjTranspose] at h
    have hHs : Hᴴ = handlesIp (fun x y => ip x y) (fun k => X (Fin.castLE (Nat.div_mul_le_self md p) k))
        (fun k => Y (Fin.castLE (Nat.div_mul_le_self ma q) k)) := by
      rw [hH']
      ext i j
      exact (hsymm _ _).symm
    have ha : (fun j i => ip (X (Fin.castLE (Nat.div_mul_le_self md p) i))
        (combine (fun k => Y (Fin.castLE (Nat.div_mul_le_self ma q) k)) (s.U * diagPow (𝕜 := 𝕜) s.S (-0.5)) j)) =
        (s.V * diagPow (𝕜 := 𝕜) s.S 0.5)ᵀ := by
      rw [← h, hHs, ← handlesIp_combine_right]
      rfl
    rw [ha]
    exact ⟨h3, h4⟩

end BpodHandles

/-! ### ERA -/

section Era

variable (svd : ∀ {m n : Nat}, Matrix (Fin m) (Fin n) 𝕜 → SvdOut 𝕜 m n) (cast : 𝕜 → 𝕜) (self o : EraObj)
  (markovs : MarkovsIn 𝕜) (mc mo : Option Int)

/-- **C81** for `ERA.compute_model`: the Hankel array is approximated by a product, the model has the first rows and columns of
the factors. -/
theorem C81_era (hlib : ∀ {m n : Nat} (a : Matrix (Fin m) (Fin n) 𝕜), IsSvd a (svd a)) (numStates : Nat)
    (model : LtiModel 𝕜) (hres : eraModel svd cast self markovs numStates mc mo = .ok (o, model)) :
    ∃ h s, ∃ (O : Matrix (Fin h.rows) (Fin s.r) 𝕜) (K : Matrix (Fin s.r) (Fin h.cols) 𝕜),
      eraHankel cast self markovs mc mo = .ok (o, h) ∧ utilSvd svd h.array (some svdAtol) none = .ok s ∧
      model.r = min numStates s.r ∧
      (∀ (i : Fin model.r) (j : Fin model.p) (i' : Fin s.r) (j' : Fin h.cols), i'.val = i.val → j'.val = j.val →
        model.B i j = K i' j') ∧
      (∀ (i : Fin model.q) (j : Fin model.r) (i' : Fin h.rows) (j' : Fin s.r), i'.val = i.val → j'.val = j.val →
        model.C i j = O i' j') ∧
      BestInWorstCase plainLength h.arrayᵀ Oᵀ K (fun i => s.S i ^ 2) ∧
      WithinTolerance plainLength h.arrayᵀ Oᵀ K (svdAtol ^ 2) := by
  cases hm : setMarkovs markovs with
  | error e =>
    unfold eraModel at hres
    rw [hm] at hres
    cases hres
  | ok m =>
    obtain ⟨h, h1, -, h2⟩ := eraModel_cases svd cast self o markovs m mc mo numStates model hm hres
    unfold eraReduce at h2
    split at h2
    · cases h2
    rename_i s hs
    cases h2
    have hS : ∀ i, 0 < s.S i := fun i =>
      lt_trans (by norm_num [svdAtol]) (utilSvd_positive svd _ none svdAtol (by simp) (hlib _) s hs i)
    obtain ⟨⟨w1, w2⟩, -⟩ := utilSvd_worst (hlib _) (by simp) s hs hS
    refine ⟨h, s, _, _, h1, hs, rfl, ?_, ?_, w1, w2 _ ⟨by norm_num [svdAtol], by simp, by simp⟩⟩
    · intro i j i' j' hi hj
      dsimp only
      rw [show j' = Fin.castLE (Nat.min_le_right _ _) j from Fin.ext hj,
        show i' = Fin.castLE (Nat.min_le_right _ _) i from Fin.ext hi]
      simp [firstCols, firstEntries, diagPow, diagonal_mul]
    · intro i j i' j' hi hj
      dsimp only
      rw [show j' = Fin.castLE (Nat.min_le_right _ _) j from Fin.ext hj,
        show i' = Fin.castLE (Nat.min_le_right _ _) i from Fin.ext hi]
      simp [firstRows, firstCols, firstEntries, diagPow, mul_diagonal]

end Era

/-! ### Examples -/

/-- The method of snapshots with weights 2 and 3. -/
example : ∃ (lib : PodLib ℝ 2 3) (res : PodResult ℝ 2 3) (corr : Matrix (Fin 3) (Fin 3) ℝ),
    podSnaps lib exampleData none (some exampleWeights) (some (1 / 10)) none = .ok (res, corr) ∧
    ∃ modes : Matrix (Fin 2) (Fin res.r) ℝ, SelectedFrom none res.modes modes ∧
      BestInWorstCase (weightedLength (diagonal ![2, 3])) exampleDataᵀ modesᵀ res.projCoeffs res.eigvals ∧
      WithinTolerance (weightedLength (diagonal ![2, 3])) exampleDataᵀ modesᵀ res.projCoeffs (1 / 10) := by
  obtain ⟨lib, -, heigh, hs, -⟩ := exists_podLib (𝕜 := ℝ) 2 3
  let ws : Weights ℝ := .d1 2 fun i => if i = 0 then 2 else 3
  have hW : ws.matrix 2 = diagonal ![2, 3] := by
    ext i j
    fin_cases i <;> fin_cases j <;> simp [ws, Weights.matrix]
  have hWp : (ws.matrix 2).PosSemidef := by
    rw [hW]
    refine PosSemidef.diagonal fun i => ?_
    fin_cases i <;> simp
  have hC := (hWp.conjTranspose_mul_mul_same exampleData).isHermitian
  obtain ⟨e, he⟩ := C20_no_error lib.eigh lib.argsort (exampleDataᴴ * ws.matrix 2 * exampleData)
    none true (1 / 10) (by norm_num)
  have hres : podSnaps lib exampleData none (some exampleWeights) (some (1 / 10)) none =
      .ok (⟨e.r, e.w, ⟨e.r, exampleData * (e.V * diagPow e.w (-0.5))⟩, diagPow e.w 0.5 * e.Vᴴ, e.V⟩,
        exampleDataᴴ * ws.matrix 2 * exampleData) := by
    unfold podSnaps
    rw [exampleWeights_init]
    dsimp only
    unfold symmIpArray
    rw [C45_formula ws rfl]
    dsimp only
    rw [he]
    rfl
  refine ⟨lib, _, _, hres, ?_⟩
  rw [← hW]
  obtain ⟨modes, h1, h2, h3⟩ := C81_snaps lib exampleData none _ ws _ (1 / 10) (by norm_num) (by simp) hs exampleWeights_init rfl
    hWp (heigh _ hC) _ _ hres
  exact ⟨modes, h1, h2, h3 _ ⟨by norm_num, by simp, by simp⟩⟩

/-- The direct method with weights 2 and 3. -/
example : ∃ (lib : PodLib ℝ 2 3) (res : PodResult ℝ 2 3),
    podDirect lib exampleData none (.d1 2 fun i => if i = 0 then 2 else 3) none none = .ok res ∧
    ∃ modes : Matrix (Fin 2) (Fin res.r) ℝ, SelectedFrom none res.modes modes ∧
      BestInWorstCase (weightedLength (diagonal ![2, 3])) exampleDataᵀ modesᵀ res.projCoeffs res.eigvals := by
  obtain ⟨lib, hsvd, -, -, -⟩ := exists_podLib (𝕜 := ℝ) 2 3
  have hfit : (DirectWeights.d1 2 fun i => if i = 0 then 2 else 3 : DirectWeights ℝ).Fits 2 := by
    refine ⟨rfl, fun i => ?_⟩
    dsimp only
    split <;> norm_num
  obtain ⟨res, hres⟩ := C22_direct_no_error lib exampleData _ none none hfit (by simp) (Or.inl rfl)
  refine ⟨lib, res, hres, ?_⟩
  obtain ⟨modes, G, h1, h2, -⟩ := C81_direct lib exampleData none _ none none (by simp) hfit (by simp) hsvd res hres
  rw [show (DirectWeights.d1 2 fun i => if i = 0 then 2 else 3 : DirectWeights ℝ).matrix 2 = diagonal ![2, 3] by
    ext i j
    fin_cases i <;> fin_cases j <;> simp [DirectWeights.matrix]] at h2
  exact ⟨modes, h1, h2⟩

/-- Handles of the numbers 3 and 4. -/
example : ∃ (pod : PodHandles ℝ ℝ 2) (modes : Fin pod.r → ℝ),
    podHandlesDecomp (fun _ => exampleCorrEigh) (fun x => Tuple.sort x) (fun x y => LinearMap.mul ℝ ℝ x y)
      ![3, 4] (some (1 / 10)) none = .ok pod ∧
    BestInWorstCase (fun v : ℝ => v * v) ![3, 4] modes (podHandlesProjCoeffs pod) pod.eigvals ∧
    WithinTolerance (fun v : ℝ => v * v) ![3, 4] modes (podHandlesProjCoeffs pod) (1 / 10) := by
  obtain ⟨e, he⟩ := C20_no_error (fun _ => exampleCorrEigh) (fun x => Tuple.sort x)
    (handlesSymmIp (fun x y : ℝ => LinearMap.mul ℝ ℝ x y) ![3, 4]) none true (1 / 10) (by norm_num)
  have h2 : podHandlesDecomp (fun _ => exampleCorrEigh) (fun x => Tuple.sort x)
      (fun x y => LinearMap.mul ℝ ℝ x y) ![3, 4] (some (1 / 10)) none =
      .ok ⟨![3, 4], handlesSymmIp (fun x y : ℝ => LinearMap.mul ℝ ℝ x y) ![3, 4], e.r, e.w, e.V⟩ := by
    unfold podHandlesDecomp
    rw [if_neg (by norm_num)]
    dsimp only
    rw [he]
  let ip : ℝ →ₗ⋆[ℝ] ℝ →ₗ[ℝ] ℝ := LinearMap.mul ℝ ℝ
  obtain ⟨modes, -, h3, h4⟩ := C81_handles (fun _ => exampleCorrEigh) (fun x => Tuple.sort x) ip ![3, 4] none (1 / 10)
    (by norm_num) (by simp) (sort_isArgsort 2) (fun x y => mul_comm y x)
    (fun x => mul_self_nonneg (x : ℝ))
    (by rw [show gram ip ![3, 4] ![3, 4] = _ from exampleCorr]; exact exampleCorrEigh_isEigh) _ h2
  exact ⟨_, modes, h2, h3, h4 _ ⟨by norm_num, by simp, by simp⟩⟩

/-- One state with impulse response 1, 2. -/
example : ∃ (svd : Matrix (Fin 2) (Fin 2) ℝ → SvdOut ℝ 2 2) (res : BpodResult ℝ 1 2 2) (Φ : Matrix (Fin 1) (Fin res.r) ℝ),
    bpodArrays svd !![1, 2] !![1, 2] 1 1 none none none (some (1 / 10)) none = .ok res ∧
    BestInWorstCase plainLength ((!![1, 2] : Matrix (Fin 1) (Fin 2) ℝ)ᴴ * Weights.none.matrix 1 * (!![1, 2] : Matrix (Fin 1) (Fin 2) ℝ))ᵀ
      ((!![1, 2] : Matrix (Fin 1) (Fin 2) ℝ)ᴴ * Weights.none.matrix 1 * Φ)ᵀ res.directProjCoeffs (fun i => res.singVals i ^ 2) := by
  choose svd hsvd using fun a : Matrix (Fin 2) (Fin 2) ℝ => exists_isSvd a
  obtain ⟨res, hres⟩ := C25_no_error svd !![1, 2] !![1, 2] 1 1 none .none (some (1 / 10)) none
    (by decide) (by decide) (by decide) (by decide) (by decide) (by decide) rfl trivial
  obtain ⟨Φ, Ψ, -, -, h, -⟩ := C81_bpod_arrays svd !![1, 2] !![1, 2] 1 1 none none none .none (some (1 / 10)) none (by simp) rfl
    trivial res hres (hsvd _) (fun i => lt_trans (by norm_num)
    (C24_positive svd _ _ 1 1 none none none .none none (1 / 10) (by simp) rfl trivial res hres (hsvd _) i)) (by
      refine (C25_arrays svd _ _ 1 1 none none none .none _ _ le_rfl le_rfl rfl trivial !![2] !![2] !![1] !![1]
        ?_ ?_ ?_ res hres).1
      · ext i j
        fin_cases i; fin_cases j
        simp [Weights.matrix]
      · intro i j
        fin_cases i; fin_cases j <;> simp
      · intro i j
        fin_cases i; fin_cases j <;> simp)
  exact ⟨svd, res, Φ, hres, h⟩

/-- Handles of impulse responses with two inputs and one output. -/
example : ∃ (svd : Matrix (Fin (2 / 1 * 1)) (Fin (4 / 2 * 2)) ℝ → SvdOut ℝ (2 / 1 * 1) (4 / 2 * 2)) (b : _) (Φ : Fin b.r → ℝ),
    bpodHandlesDecomp (fun x y : ℝ => LinearMap.mul ℝ ℝ x y) ![1, 3, 2, 6] ![1, 2] 2 1 svd (some (1 / 10)) none =
      .ok b ∧
    BestInWorstCase plainLength b.hankelᵀ (fun j i => LinearMap.mul ℝ ℝ ((![1, 2] : Fin 2 → ℝ) (Fin.castLE (by decide) i)) (Φ j))
      (bpodHandlesDirectProjCoeffs b) (fun i => b.singVals i ^ 2) := by
  choose svd hsvd using fun a : Matrix (Fin (2 / 1 * 1)) (Fin (4 / 2 * 2)) ℝ => exists_isSvd a
  obtain ⟨b, hb⟩ := C25_handles_no_error ![1, 3, 2, 6] ![1, 2] 2 1 svd (some (1 / 10)) none
    (fun x y : ℝ => LinearMap.mul ℝ ℝ x y) (by decide) (by decide) (by decide) (by decide)
  have hH := C25_handles ![1, 3, 2, 6] ![1, 2] 2 1 svd _ _ (fun x y : ℝ => LinearMap.mul ℝ ℝ x y) (fun x => 2 * x) (fun x => 2 * x)
    (fun u v => by simp only [LinearMap.mul_apply']; ring) (by decide) (by decide) (by decide) ![1, 3] ![1]
    (fun j => by fin_cases j <;> norm_num) (fun i => by fin_cases i <;> norm_num) b hb
  obtain ⟨Φ, -, -, -, h, -⟩ := C81_bpod_handles ![1, 3, 2, 6] ![1, 2] 2 1 svd (some (1 / 10)) none (by simp) (LinearMap.mul ℝ ℝ) b hb
    (hsvd _) (fun i => lt_trans (by norm_num)
      (C24_handles_positive ![1, 3, 2, 6] ![1, 2] 2 1 svd none (fun x y : ℝ => LinearMap.mul ℝ ℝ x y) (1 / 10) (by simp) b hb
        (hsvd _) i)) hH
  exact ⟨svd, b, Φ, hb, h⟩

/-- A system with state array 1/2 whose model is computed. -/
example : ∃ (svd : ∀ {m n : Nat}, Matrix (Fin m) (Fin n) ℝ → SvdOut ℝ m n) (o : EraObj) (model : LtiModel ℝ)
    (h : HankelPair ℝ) (r : Nat) (O : Matrix (Fin h.rows) (Fin r) ℝ) (K : Matrix (Fin r) (Fin h.cols) ℝ) (S : Fin r → ℝ),
    eraModel svd id (eraInit none none) (.d3 (halves 1)) 1 none none = .ok (o, model) ∧
    eraHankel id (eraInit none none) (.d3 (halves 1)) none none = .ok (o, h) ∧ h.rows = 1 ∧ h.cols = 1 ∧ h.h 0 0 = 1 ∧
    BestInWorstCase plainLength h.arrayᵀ Oᵀ K (fun i => S i ^ 2) := by
  choose svd hsvd using fun (m n : Nat) (a : Matrix (Fin m) (Fin n) ℝ) => exists_isSvd a
  obtain ⟨o, h, hh, h1, h2, h3⟩ := halves_hankel 1
  obtain ⟨model, hmodel⟩ := C36_no_error (fun {m n} => svd m n) id (eraInit none none) o (.d3 (halves 1)) none none 1
    h hh
  obtain ⟨h', s, O, K, k1, -, -, -, -, k2, -⟩ := C81_era (fun {m n} => svd m n) id (eraInit none none) o (.d3 (halves 1)) none none
    (fun a => hsvd _ _ a) 1 model hmodel
  rw [hh] at k1
  cases k1
  exact ⟨fun {m n} => svd m n, o, model, h, s.r, O, K, s.S, hmodel, hh, h1, h2, h3, k2⟩

end Modred
