import Verif.Props.Approx

/-!
# The direct method of POD with errors (C67)

The direct method does not divide by singular values, so its errors do not depend on tolerances.
-/

namespace Modred

open Matrix
open scoped ComplexOrder

variable {𝕜 : Type*} [RCLike 𝕜]

/-- **C67.** Direct method: if the singular value decomposition has errors `ε` and `η`, the modes are orthonormal up to `η` and the
projection coefficients are inner products with the modes up to `ε`, whatever the tolerances. -/
theorem C67_pod_direct {n m : Nat} (lib : PodLib 𝕜 n m) (vecs : Matrix (Fin n) (Fin m) 𝕜) (modeIndices : Option (List Int))
    (ws : DirectWeights 𝕜) (atol rtol : Option ℝ) {ε η : ℝ} (hfit : ws.Fits n)
    (hchol : ∀ p q w, ws = .d2 p q w → IsCholesky lib.cholesky (ws.matrix n))
    (hlib : ∀ G : Matrix (Fin n) (Fin n) 𝕜, Gᴴ * G = ws.matrix n → IsSvdUpTo ε η (G * vecs) (lib.svd (G * vecs)))
    (res : PodResult 𝕜 n m) (hres : podDirect lib vecs modeIndices ws atol rtol = .ok res) :
    ∃ modes : Matrix (Fin n) (Fin res.r) 𝕜, Chosen modes modeIndices res.modes ∧
      EntriesWithin η (modesᴴ * ws.matrix n * modes) 1 ∧
      EntriesWithin ε (modesᴴ * ws.matrix n * vecs) res.projCoeffs := by
  obtain ⟨G, H, h1, h2, h3⟩ := podDirect_cases lib vecs modeIndices ws atol rtol hfit hchol
  obtain ⟨s, c, hs, hc, rfl⟩ := h3 res hres
  obtain ⟨hU, -, -, -, hUG⟩ := utilSvd_within _ _ _ _ (hlib G h2) s hs
  have hS : ∀ i, 0 ≤ s.S i := by
    obtain ⟨num, -, rfl⟩ := utilSvd_cases _ _ atol rtol s hs
    exact fun i => (hlib G h2).nonneg _
  obtain ⟨sel, hsel, h4, h5⟩ := pickCols_ok _ _ _ hc
  refine ⟨H * s.U, ⟨sel, hsel, h4, h5⟩, ?_, ?_⟩
  · rw [← h2, show (H * s.U)ᴴ * (Gᴴ * G) * (H * s.U) = (G * H * s.U)ᴴ * (G * H * s.U) by
      simp only [conjTranspose_mul, Matrix.mul_assoc], h1, Matrix.one_mul]
    exact hU
  · intro i j
    have h := hUG.conjTranspose i j
    dsimp only
    rw [diagPow_sq hS, ← h2, show (H * s.U)ᴴ * (Gᴴ * G) * vecs = (G * H * s.U)ᴴ * (G * vecs) by
      simp only [conjTranspose_mul, Matrix.mul_assoc], h1, Matrix.one_mul]
    rw [conjTranspose_mul (G * vecs)ᴴ, conjTranspose_conjTranspose, conjTranspose_mul s.V, diagonal_conjTranspose] at h
    refine le_of_eq_of_le ?_ h
    rw [show (star fun k => (s.S k : 𝕜)) = fun k => (s.S k : 𝕜) from funext fun k => RCLike.conj_ofReal _]

/-- For arrays with the entry 2 or -2, 21/10 instead of the singular value. -/
noncomputable def inexactSvd (a : Matrix (Fin 1) (Fin 1) ℝ) : SvdOut ℝ 1 1 := ⟨fun _ _ => a 0 0 / 2, fun _ => 21 / 10, fun _ _ => 1⟩

theorem inexactSvd_within (a : Matrix (Fin 1) (Fin 1) ℝ) (ha : a 0 0 * a 0 0 = 4) : IsSvdUpTo (1 / 10) 0 a (inexactSvd a) := by
  have hz : ∀ i : Fin (min 1 1), i = (0 : Fin 1) := fun i => Subsingleton.elim (α := Fin 1) _ _
  have hd : ∀ x : ℝ, diagonal (fun _ : Fin 1 => x) 0 0 = x := fun x => diagonal_apply_eq _ _
  refine ⟨fun i j => ?_, fun i j => ?_, fun i j => ?_, fun i j => ?_, fun i j => ?_, fun i => by norm_num [inexactSvd], fun i j _ => le_rfl⟩
  all_goals
    obtain rfl := hz i
    obtain rfl := hz j
  · change ‖star (a 0 0 / 2) * (a 0 0 / 2) + 0 - (1 : Matrix (Fin 1) (Fin 1) ℝ) 0 0‖ ≤ 0
    rw [one_apply_eq, star_trivial, norm_le_zero_iff]
    linarith
  · change ‖(1 : ℝ) * star 1 + 0 - (1 : Matrix (Fin 1) (Fin 1) ℝ) 0 0‖ ≤ 0
    simp
  · change ‖(star (a 0 0 / 2) * a 0 0 + 0) * star 1 + 0 - diagonal (fun _ : Fin 1 => (21 / 10 : ℝ)) 0 0‖ ≤ 1 / 10
    rw [hd, star_trivial, star_one, Real.norm_eq_abs, abs_le]
    constructor <;> linarith
  · change ‖a 0 0 * star 1 + 0 - (a 0 0 / 2 * diagonal (fun _ : Fin 1 => (21 / 10 : ℝ)) 0 0 + 0)‖ ≤ 1 / 10
    rw [hd, star_one, Real.norm_eq_abs, abs_le]
    constructor <;> nlinarith
  · change ‖star (a 0 0) * (a 0 0 / 2) + 0 - (star 1 * diagonal (fun _ : Fin 1 => (21 / 10 : ℝ)) 0 0 + 0)‖ ≤ 1 / 10
    rw [hd, star_trivial, star_one, Real.norm_eq_abs, abs_le]
    constructor <;> linarith

/-- A singular value 2 with the error 1/10: it returns 21/10. -/
example : ∃ (lib : PodLib ℝ 1 1) (res : PodResult ℝ 1 1),
    podDirect lib !![2] none .none (some 1) none = .ok res ∧ res.r = 1 ∧ (∀ i, res.eigvals i = (21 / 10) ^ (2 : ℝ)) ∧
      ∃ modes : Matrix (Fin 1) (Fin res.r) ℝ, Chosen modes none res.modes ∧
        EntriesWithin 0 (modesᴴ * (DirectWeights.none : DirectWeights ℝ).matrix 1 * modes) 1 ∧
        EntriesWithin (1 / 10) (modesᴴ * (DirectWeights.none : DirectWeights ℝ).matrix 1 * !![(2 : ℝ)]) res.projCoeffs := by
  obtain ⟨lib₀, -⟩ := exists_podLib (𝕜 := ℝ) 1 1
  set lib : PodLib ℝ 1 1 := { lib₀ with svd := inexactSvd } with hl
  obtain ⟨res, hres⟩ := C22_direct_no_error lib !![2] .none (some 1) none trivial (by intro p q w h; cases h) (.inl rfl)
  obtain ⟨G, H, h1, h2, h3⟩ := podDirect_cases lib !![2] none .none (some 1) none trivial (by intro p q w h; cases h)
  refine ⟨lib, res, hres, ?_, ?_, C67_pod_direct lib !![2] none .none (some 1) none trivial
    (by intro p q w h; cases h) (fun G hG => ?_) res hres⟩
  · obtain ⟨s, c, hs, -, rfl⟩ := h3 res hres
    obtain ⟨num, hnum, rfl⟩ := utilSvd_cases _ _ _ _ s hs
    obtain ⟨h4, h5⟩ := numRetained_spec _ _ _ _ (abs_antitone (fun _ => by norm_num [hl, inexactSvd]) fun i j _ => le_rfl) (by simp) hnum
    have h6 := (h5 ⟨0, by decide⟩).mpr ⟨fun u hu => by cases hu; norm_num [hl, inexactSvd], by simp⟩
    dsimp only at h6 ⊢
    omega
  · obtain ⟨s, c, hs, -, rfl⟩ := h3 res hres
    obtain ⟨num, hnum, rfl⟩ := utilSvd_cases _ _ _ _ s hs
    intro i
    rfl
  · have hG : G 0 0 * G 0 0 = 1 := by
      have := congrFun (congrFun hG 0) 0
      simpa [Matrix.mul_apply, DirectWeights.matrix] using this
    refine inexactSvd_within _ ?_
    rcases mul_self_eq_one_iff.mp hG with hG | hG <;> norm_num [Matrix.mul_apply, hG]

end Modred
