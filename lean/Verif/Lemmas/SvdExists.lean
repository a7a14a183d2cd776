import Verif.Props.Linalg
import Mathlib.Analysis.InnerProductSpace.PiL2
import Mathlib.Analysis.Matrix.PosDef

/-!
# Every array has a singular value decomposition

So that the assumptions on the numerical library can be met for all arrays.
-/

namespace Modred

open Matrix
open scoped ComplexOrder

variable {𝕜 : Type*} [RCLike 𝕜]

/-- Eigendecomposition with eigenvalues in descending order. -/
theorem exists_sorted_eigh {n : Nat} (a : Matrix (Fin n) (Fin n) 𝕜) (ha : a.IsHermitian) :
    ∃ o, IsEigh a o ∧ Antitone o.w := by
  obtain ⟨o, ho⟩ := exists_isEigh a ha
  let p : Equiv.Perm (Fin n) := Tuple.sort (fun i => -o.w i)
  refine ⟨⟨fun i => o.w (p i), o.V.submatrix id p⟩, ⟨?_, ?_⟩, ?_⟩
  · exact orthonormal_submatrix _ ho.orthonormal _ p.injective
  · dsimp only
    rw [mul_submatrix_cols, ho.eigen, mul_diagonal_submatrix]
  · intro i j hij
    have := Tuple.monotone_sort (fun i => -o.w i) hij
    simp only [Function.comp] at this
    exact neg_le_neg_iff.mp this

/-- A singular value decomposition with as many singular values as columns, if there are enough rows. -/
theorem exists_tall_svd {m n : Nat} (h : n ≤ m) (a : Matrix (Fin m) (Fin n) 𝕜) :
    ∃ (U : Matrix (Fin m) (Fin n) 𝕜) (S : Fin n → ℝ) (V : Matrix (Fin n) (Fin n) 𝕜),
      Uᴴ * U = 1 ∧ Vᴴ * V = 1 ∧ V * Vᴴ = 1 ∧ a = U * diagonal (fun i => (S i : 𝕜)) * Vᴴ ∧ (∀ i, 0 ≤ S i) ∧
      Antitone S := by
  obtain ⟨o, ho, hw⟩ := exists_sorted_eigh (aᴴ * a) (isHermitian_conjTranspose_mul_self a)
  obtain ⟨w, V⟩ := o
  obtain ⟨hV, hE⟩ := ho
  dsimp only at hV hE hw
  have hV' : V * Vᴴ = 1 := mul_eq_one_comm.mp hV
  have hG : (a * V)ᴴ * (a * V) = diagonal (fun i => (w i : 𝕜)) := by
    rw [conjTranspose_mul, show Vᴴ * aᴴ * (a * V) = Vᴴ * (aᴴ * a * V) by simp only [Matrix.mul_assoc], hE,
      ← Matrix.mul_assoc, hV, Matrix.one_mul]
  let x : Fin n → EuclideanSpace 𝕜 (Fin m) := fun j => WithLp.toLp 2 fun i => (a * V) i j
  have hip : ∀ i j, inner 𝕜 (x i) (x j) = if i = j then (w i : 𝕜) else 0 := by
    intro i j
    have := congrFun (congrFun hG i) j
    rw [Matrix.mul_apply, diagonal_apply] at this
    rw [← this, EuclideanSpace.inner_eq_star_dotProduct, dotProduct_comm]
    rfl
  have hn : ∀ i, ‖x i‖ ^ 2 = w i := by
    intro i
    have := hip i i
    rw [if_pos rfl, inner_self_eq_norm_sq_to_K] at this
    exact_mod_cast this
  have hw0 : ∀ i, 0 ≤ w i := fun i => by rw [← hn i]; positivity
  let S : Fin n → ℝ := fun i => Real.sqrt (w i)
  have hSS : ∀ i, S i * S i = w i := fun i => Real.mul_self_sqrt (hw0 i)
  -- normalized columns, where they are not zero
  let f : Fin n → Fin m := Fin.castLE h
  let v : Fin m → EuclideanSpace 𝕜 (Fin m) := fun k =>
    if hk : k.val < n then ((S ⟨k, hk⟩ : 𝕜)⁻¹) • x ⟨k, hk⟩ else 0
  have hvf : ∀ i, v (f i) = ((S i : 𝕜)⁻¹) • x i := by
    intro i
    simp only [v, f, Fin.val_castLE, i.isLt, dif_pos]
  let s : Set (Fin m) := {k | ∃ i, f i = k ∧ S i ≠ 0}
  have hs : Orthonormal 𝕜 (s.domRestrict v) := by
    rw [orthonormal_iff_ite]
    rintro ⟨k, i, rfl, hi⟩ ⟨l, j, rfl, hj⟩
    have hi' : (S i : 𝕜) ≠ 0 := by exact_mod_cast hi
    simp only [Set.domRestrict_apply, Subtype.mk.injEq]
    rw [hvf, hvf, inner_smul_left, inner_smul_right, hip]
    by_cases hij : i = j
    · subst hij
      simp only [if_true]
      rw [← hSS i]
      push_cast
      rw [map_inv₀, RCLike.conj_ofReal]
      field_simp
    · rw [if_neg hij, if_neg (fun h' => hij (Fin.castLE_injective h h'))]
      simp
  obtain ⟨b, hb⟩ := Orthonormal.exists_orthonormalBasis_extension_of_card_eq (𝕜 := 𝕜)
    (by simp) hs
  have hcol : ∀ i, x i = (S i : 𝕜) • b (f i) := by
    intro i
    by_cases hi : S i = 0
    · have : ‖x i‖ ^ 2 = 0 := by rw [hn, ← hSS, hi, mul_zero]
      rw [hi, RCLike.ofReal_zero, zero_smul]
      simpa using this
    · have hi' : (S i : 𝕜) ≠ 0 := by exact_mod_cast hi
      rw [hb (f i) ⟨i, rfl, hi⟩, hvf, smul_smul, mul_inv_cancel₀ hi', one_smul]
  refine ⟨Matrix.of fun k i => b (f i) k, S, V, ?_, hV, hV', ?_, fun i => Real.sqrt_nonneg _,
    fun i j hij => Real.sqrt_le_sqrt (hw hij)⟩
  · ext i j
    rw [Matrix.mul_apply, Matrix.one_apply]
    have := (orthonormal_iff_ite.mp b.orthonormal) (f i) (f j)
    rw [EuclideanSpace.inner_eq_star_dotProduct, dotProduct_comm] at this
    refine Eq.trans ?_ (this.trans ?_)
    · rfl
    · simp only [(Fin.castLE_injective h).eq_iff, f]
  · have haV : a * V = (Matrix.of fun k i => b (f i) k) * diagonal (fun i => (S i : 𝕜)) := by
      ext k i
      rw [mul_diagonal]
      have := congrArg (fun y : EuclideanSpace 𝕜 (Fin m) => y k) (hcol i)
      simp only [PiLp.smul_apply, smul_eq_mul] at this
      rw [Matrix.of_apply, mul_comm]
      exact this
    rw [← haV, Matrix.mul_assoc, hV', Matrix.mul_one]

/-- Every array has a singular value decomposition. -/
theorem exists_isSvd {m n : Nat} (a : Matrix (Fin m) (Fin n) 𝕜) : ∃ o, IsSvd a o := by
  suffices hk : ∃ (U : Matrix (Fin m) (Fin (min m n)) 𝕜) (S : Fin (min m n) → ℝ)
      (Vh : Matrix (Fin (min m n)) (Fin n) 𝕜), Uᴴ * U = 1 ∧ Vh * Vhᴴ = 1 ∧
      a = U * diagonal (fun i => (S i : 𝕜)) * Vh ∧ (∀ i, 0 ≤ S i) ∧ Antitone S by
    obtain ⟨U, S, Vh, h1, h2, h3, h4, h5⟩ := hk
    exact ⟨⟨U, S, Vh⟩, h1, h2, h3, h4, h5⟩
  rcases le_total n m with h | h
  · rw [Nat.min_eq_right h]
    obtain ⟨U, S, V, h1, h2, -, h3, h4, h5⟩ := exists_tall_svd h a
    exact ⟨U, S, Vᴴ, h1, by rw [conjTranspose_conjTranspose]; exact h2, h3, h4, h5⟩
  · rw [Nat.min_eq_left h]
    obtain ⟨U, S, V, h1, h2, -, h3, h4, h5⟩ := exists_tall_svd h aᴴ
    refine ⟨V, S, Uᴴ, h2, by rw [conjTranspose_conjTranspose]; exact h1, ?_, h4, h5⟩
    have := congrArg conjTranspose h3
    rw [conjTranspose_conjTranspose, conjTranspose_mul, conjTranspose_mul, conjTranspose_conjTranspose,
      diagonal_conjTranspose] at this
    rw [this, Matrix.mul_assoc]
    congr 2
    congr 1
    ext i
    simp

end Modred
