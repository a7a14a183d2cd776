import Verif.Lemmas.Dmd
import Verif.Lemmas.DeterminedSvd

/-!
# Dynamic mode decompositions of the same data in another order and in other units
-/

namespace Modred

open Matrix

variable {𝕜 : Type*} [RCLike 𝕜] {m m' : Nat}

/-- The eigenvectors `V` and `V'` span the same spaces, for every part of the spectrum. -/
def SameSpectrum (s : ℝ) (Q : Matrix (Fin m) (Fin m') 𝕜) (d : DmdDecomp 𝕜 m) (d' : DmdDecomp 𝕜 m') : Prop :=
  ∀ f g : ℝ → 𝕜, (∀ x, 0 < x → g (s * x) = f x) →
    d'.V * diagonal (fun i => g (d'.w i)) * d'.Vᴴ = Qᴴ * (d.V * diagonal (fun i => f (d.w i)) * d.Vᴴ) * Q

section Overlap

variable {C K : Matrix (Fin m) (Fin m) 𝕜} {C' K' : Matrix (Fin m') (Fin m') 𝕜} {d : DmdDecomp 𝕜 m} {d' : DmdDecomp 𝕜 m'} {s : ℝ}
  {Q : Matrix (Fin m) (Fin m') 𝕜} {a b : 𝕜}

theorem overlap_facts (h : d.Vᴴ * d.V = 1) (h' : d'.Vᴴ * d'.V = 1) (hQ : Q * Qᴴ = 1) (hV : SameSpectrum s Q d d') :
    d'.V = Qᴴ * d.V * (d.Vᴴ * Q * d'.V) ∧ (d.Vᴴ * Q * d'.V) * (d.Vᴴ * Q * d'.V)ᴴ = 1 ∧
    (d.Vᴴ * Q * d'.V)ᴴ * (d.Vᴴ * Q * d'.V) = 1 ∧
    ∀ f g : ℝ → 𝕜, (∀ x, 0 < x → g (s * x) = f x) →
      d.Vᴴ * Q * d'.V * diagonal (fun i => g (d'.w i)) = diagonal (fun i => f (d.w i)) * (d.Vᴴ * Q * d'.V) := by
  have hP : d'.V * d'.Vᴴ = Qᴴ * (d.V * d.Vᴴ) * Q := by
    have := hV (fun _ => 1) (fun _ => 1) fun _ _ => rfl
    simpa only [diagonal_one, Matrix.mul_one] using this
  have e1 : d'.V = Qᴴ * d.V * (d.Vᴴ * Q * d'.V) := by
    have := congrArg (· * d'.V) hP
    rw [Matrix.mul_assoc d'.V, h', Matrix.mul_one] at this
    rw [show Qᴴ * d.V * (d.Vᴴ * Q * d'.V) = Qᴴ * (d.V * d.Vᴴ) * Q * d'.V by simp only [Matrix.mul_assoc]]
    exact this
  have hct : (d.Vᴴ * Q * d'.V)ᴴ = d'.Vᴴ * Qᴴ * d.V := by
    simp only [conjTranspose_mul, conjTranspose_conjTranspose, Matrix.mul_assoc]
  refine ⟨e1, ?_, ?_, fun f g hfg => ?_⟩
  · rw [hct, show d.Vᴴ * Q * d'.V * (d'.Vᴴ * Qᴴ * d.V) = d.Vᴴ * Q * (d'.V * d'.Vᴴ) * Qᴴ * d.V by
      simp only [Matrix.mul_assoc], hP,
      show d.Vᴴ * Q * (Qᴴ * (d.V * d.Vᴴ) * Q) * Qᴴ * d.V = d.Vᴴ * (Q * Qᴴ) * d.V * d.Vᴴ * (Q * Qᴴ) * d.V by
        simp only [Matrix.mul_assoc], hQ, Matrix.mul_one, Matrix.mul_one, h, Matrix.one_mul, h]
  · rw [hct, show d'.Vᴴ * Qᴴ * d.V * (d.Vᴴ * Q * d'.V) = d'.Vᴴ * (Qᴴ * d.V * (d.Vᴴ * Q * d'.V)) by
      simp only [Matrix.mul_assoc], ← e1, h']
  · have := congrArg (fun M => d.Vᴴ * Q * M * d'.V) (hV f g hfg)
    rw [show d.Vᴴ * Q * (d'.V * diagonal (fun i => g (d'.w i)) * d'.Vᴴ) * d'.V =
        d.Vᴴ * Q * d'.V * diagonal (fun i => g (d'.w i)) * (d'.Vᴴ * d'.V) by simp only [Matrix.mul_assoc], h',
      Matrix.mul_one, show d.Vᴴ * Q * (Qᴴ * (d.V * diagonal (fun i => f (d.w i)) * d.Vᴴ) * Q) * d'.V =
        d.Vᴴ * (Q * Qᴴ) * d.V * diagonal (fun i => f (d.w i)) * (d.Vᴴ * Q * d'.V) by simp only [Matrix.mul_assoc], hQ,
      Matrix.mul_one, h, Matrix.one_mul] at this
    exact this

theorem overlap_pow (h : d.Vᴴ * d.V = 1) (h' : d'.Vᴴ * d'.V = 1) (hQ : Q * Qᴴ = 1) (hV : SameSpectrum s Q d d') (hs : 0 < s)
    (p : ℝ) : d.Vᴴ * Q * d'.V * diagPow (𝕜 := 𝕜) d'.w p =
      ((s ^ p : ℝ) : 𝕜) • (diagPow (𝕜 := 𝕜) d.w p * (d.Vᴴ * Q * d'.V)) := by
  have := (overlap_facts h h' hQ hV).2.2.2 (fun x => ((s ^ p : ℝ) : 𝕜) * ((x ^ p : ℝ) : 𝕜)) (fun x => ((x ^ p : ℝ) : 𝕜))
    fun x hx => by rw [Real.mul_rpow hs.le hx.le, RCLike.ofReal_mul]
  unfold diagPow
  rw [this, ← Matrix.smul_mul]
  congr 1
  ext i j
  rw [Matrix.smul_apply]
  by_cases hij : i = j
  · subst hij
    simp only [diagonal_apply_eq, smul_eq_mul]
  · simp only [diagonal_apply_ne _ hij, smul_zero]

/-- What the decompositions have in common: the parts of the approximating linear map. -/
theorem dmd_parts (hc : DmdCore C K d) (hc' : DmdCore C' K' d') (hQ : Q * Qᴴ = 1) (hV : SameSpectrum s Q d d') (hs : 0 < s)
    (hK : K' = (star a * b) • (Qᴴ * K * Q)) (ha : ‖a‖ ^ 2 = s) (hb : b ≠ 0) (hLR : d.Lᴴ * d.R = 1) (hLR' : d'.Lᴴ * d'.R = 1) :
    d'.r = d.r ∧
    (∀ z, Fintype.card {i // d'.eigvals i = b / a * z} = Fintype.card {i // d.eigvals i = z}) ∧
    ∀ F G : 𝕜 → 𝕜, (∀ x, G (b / a * x) = F x) →
      d'.R * diagonal (fun i => G (d'.eigvals i)) * d'.Lᴴ =
        (d.Vᴴ * Q * d'.V)ᴴ * (d.R * diagonal (fun i => F (d.eigvals i)) * d.Lᴴ) * (d.Vᴴ * Q * d'.V) := by
  classical
  obtain ⟨e1, hU, hU', -⟩ := overlap_facts hc.orth hc'.orth hQ hV
  have e2 := overlap_pow hc.orth hc'.orth hQ hV hs (-0.5)
  set U := d.Vᴴ * Q * d'.V with hUdef
  have ha0 : a ≠ 0 := by
    rintro rfl
    rw [norm_zero] at ha
    norm_num at ha
    exact hs.ne ha
  have hRL : d.R * d.Lᴴ = 1 := mul_eq_one_comm.mp hLR
  have hRL' : d'.R * d'.Lᴴ = 1 := mul_eq_one_comm.mp hLR'
  set A := lowOrderMap (diagPow (𝕜 := 𝕜) d.w (-0.5)) d.V K with hA
  set A' := lowOrderMap (diagPow (𝕜 := 𝕜) d'.w (-0.5)) d'.V K' with hA'
  have hmap : U * A' = (b / a) • (A * U) := by
    have i1 : U * diagPow (𝕜 := 𝕜) d'.w (-0.5) = ((s ^ (-0.5 : ℝ) : ℝ) : 𝕜) • (diagPow (𝕜 := 𝕜) d.w (-0.5) * U) := e2
    have i2 : d'.V * diagPow (𝕜 := 𝕜) d'.w (-0.5) =
        ((s ^ (-0.5 : ℝ) : ℝ) : 𝕜) • (Qᴴ * (d.V * diagPow (𝕜 := 𝕜) d.w (-0.5)) * U) := by
      conv_lhs => rw [e1]
      rw [Matrix.mul_assoc, i1, Matrix.mul_smul]
      simp only [Matrix.mul_assoc]
    have i3 : U * d'.Vᴴ = d.Vᴴ * Q := by
      conv_lhs => rw [e1]
      rw [conjTranspose_mul, ← Matrix.mul_assoc, hU, Matrix.one_mul, conjTranspose_mul, conjTranspose_conjTranspose]
    have hhalf : ((s ^ (-0.5 : ℝ) : ℝ) : 𝕜) * ((s ^ (-0.5 : ℝ) : ℝ) : 𝕜) * (star a * b) = b / a := by
      rw [← RCLike.ofReal_mul, ← Real.rpow_add hs, show (-0.5 + -0.5 : ℝ) = -1 by norm_num, Real.rpow_neg_one, ← ha,
        RCLike.ofReal_inv, ← norm_sq_smul]
      have : star a ≠ 0 := star_ne_zero.mpr ha0
      field_simp
    rw [hA', lowOrderMap, ← Matrix.mul_assoc, i1, i2, hK, Matrix.smul_mul, Matrix.smul_mul, Matrix.mul_smul, Matrix.mul_smul,
      Matrix.mul_smul, Matrix.mul_smul, Matrix.mul_smul, smul_smul, smul_smul,
      show ((s ^ (-0.5 : ℝ) : ℝ) : 𝕜) * (star a * b) * ((s ^ (-0.5 : ℝ) : ℝ) : 𝕜) = b / a by rw [← hhalf]; ring]
    congr 1
    rw [show diagPow (𝕜 := 𝕜) d.w (-0.5) * U *
        (d'.Vᴴ * (Qᴴ * K * Q * (Qᴴ * (d.V * diagPow (𝕜 := 𝕜) d.w (-0.5)) * U))) = diagPow (𝕜 := 𝕜) d.w (-0.5) *
        ((U * d'.Vᴴ) * (Qᴴ * (K * ((Q * Qᴴ) * ((d.V * diagPow (𝕜 := 𝕜) d.w (-0.5)) * U))))) by
      simp only [Matrix.mul_assoc], i3, hQ, Matrix.one_mul, hA, lowOrderMap,
      show d.Vᴴ * Q * (Qᴴ * (K * (d.V * diagPow (𝕜 := 𝕜) d.w (-0.5) * U))) =
        d.Vᴴ * ((Q * Qᴴ) * (K * (d.V * diagPow (𝕜 := 𝕜) d.w (-0.5) * U))) by simp only [Matrix.mul_assoc], hQ, Matrix.one_mul]
    simp only [Matrix.mul_assoc]
  -- the overlap of eigenvectors
  have hM : d.Lᴴ * U * d'.R * diagonal d'.eigvals = (b / a) • (diagonal d.eigvals * (d.Lᴴ * U * d'.R)) := by
    have hr : A' * d'.R = d'.R * diagonal d'.eigvals := hc'.right
    have hl : d.Lᴴ * A = diagonal d.eigvals * d.Lᴴ := hc.left
    rw [Matrix.mul_assoc, ← hr, show d.Lᴴ * U * (A' * d'.R) = d.Lᴴ * (U * A') * d'.R by simp only [Matrix.mul_assoc], hmap,
      Matrix.mul_smul, Matrix.smul_mul, ← Matrix.mul_assoc, hl]
    simp only [Matrix.mul_assoc]
  have hMent : ∀ i j, (d.Lᴴ * U * d'.R) i j ≠ 0 → d'.eigvals j = b / a * d.eigvals i := by
    intro i j hij
    have := congrFun (congrFun hM i) j
    rw [Matrix.mul_diagonal, Matrix.smul_apply, Matrix.diagonal_mul, smul_eq_mul] at this
    have h2 : (d.Lᴴ * U * d'.R) i j * (d'.eigvals j - b / a * d.eigvals i) = 0 := by linear_combination this
    rcases mul_eq_zero.mp h2 with h3 | h3
    · exact absurd h3 hij
    · linear_combination h3
  have hfun : ∀ F G : 𝕜 → 𝕜, (∀ x, G (b / a * x) = F x) →
      d.Lᴴ * U * d'.R * diagonal (fun i => G (d'.eigvals i)) = diagonal (fun i => F (d.eigvals i)) * (d.Lᴴ * U * d'.R) := by
    intro F G hFG
    ext i j
    rw [Matrix.mul_diagonal, Matrix.diagonal_mul]
    by_cases hij : (d.Lᴴ * U * d'.R) i j = 0
    · rw [hij, zero_mul, mul_zero]
    · rw [hMent i j hij, hFG, mul_comm]
  have hMM : (d.Lᴴ * U * d'.R) * (d'.Lᴴ * Uᴴ * d.R) = 1 := by
    rw [show d.Lᴴ * U * d'.R * (d'.Lᴴ * Uᴴ * d.R) = d.Lᴴ * U * (d'.R * d'.Lᴴ) * Uᴴ * d.R by simp only [Matrix.mul_assoc],
      hRL', Matrix.mul_one, show d.Lᴴ * U * Uᴴ * d.R = d.Lᴴ * (U * Uᴴ) * d.R by simp only [Matrix.mul_assoc], hU,
      Matrix.mul_one, hLR]
  have hMM' : (d'.Lᴴ * Uᴴ * d.R) * (d.Lᴴ * U * d'.R) = 1 := by
    rw [show d'.Lᴴ * Uᴴ * d.R * (d.Lᴴ * U * d'.R) = d'.Lᴴ * Uᴴ * (d.R * d.Lᴴ) * U * d'.R by simp only [Matrix.mul_assoc],
      hRL, Matrix.mul_one, show d'.Lᴴ * Uᴴ * U * d'.R = d'.Lᴴ * (Uᴴ * U) * d'.R by simp only [Matrix.mul_assoc], hU',
      Matrix.mul_one, hLR']
  refine ⟨?_, fun z => ?_, fun F G hFG => ?_⟩
  · have t1 := congrArg Matrix.trace hU
    rw [Matrix.trace_mul_comm, hU', Matrix.trace_one, Matrix.trace_one, Fintype.card_fin, Fintype.card_fin] at t1
    exact_mod_cast t1
  · have hz := hfun (fun x => if x = z then 1 else 0) (fun x => if x = b / a * z then 1 else 0) fun x => by
      have : b / a * x = b / a * z ↔ x = z := by
        constructor
        · intro h
          exact mul_left_cancel₀ (div_ne_zero hb ha0) h
        · rintro rfl
          rfl
      simp only [this]
    have t2 : (diagonal fun i => if d'.eigvals i = b / a * z then (1 : 𝕜) else 0).trace =
        (diagonal fun i => if d.eigvals i = z then (1 : 𝕜) else 0).trace := by
      rw [← Matrix.one_mul (diagonal fun i => if d'.eigvals i = b / a * z then (1 : 𝕜) else 0), ← hMM', Matrix.mul_assoc, hz,
        Matrix.trace_mul_comm, Matrix.mul_assoc, hMM, Matrix.mul_one]
    rw [Matrix.trace_diagonal, Matrix.trace_diagonal, Finset.sum_boole, Finset.sum_boole] at t2
    rw [Fintype.card_subtype, Fintype.card_subtype]
    exact_mod_cast t2
  · have hR : d'.R = Uᴴ * d.R * (d.Lᴴ * U * d'.R) := by
      rw [show Uᴴ * d.R * (d.Lᴴ * U * d'.R) = Uᴴ * (d.R * d.Lᴴ) * U * d'.R by simp only [Matrix.mul_assoc], hRL,
        Matrix.mul_one, hU', Matrix.one_mul]
    conv_lhs => rw [hR]
    rw [Matrix.mul_assoc (Uᴴ * d.R), hfun F G hFG,
      show Uᴴ * d.R * (diagonal (fun i => F (d.eigvals i)) * (d.Lᴴ * U * d'.R)) * d'.Lᴴ =
        Uᴴ * d.R * (diagonal (fun i => F (d.eigvals i)) * (d.Lᴴ * U * (d'.R * d'.Lᴴ))) by simp only [Matrix.mul_assoc],
      hRL', Matrix.mul_one]
    simp only [Matrix.mul_assoc]

/-- The products of build coefficients of modes and of adjoint modes, and those with coefficients. -/
theorem dmd_builds (hc : DmdCore C K d) (hc' : DmdCore C' K' d') (hQ : Q * Qᴴ = 1) (hV : SameSpectrum s Q d d') (hs : 0 < s)
    (hK : K' = (star a * b) • (Qᴴ * K * Q)) (ha : ‖a‖ ^ 2 = s) (hb : b ≠ 0) (hLR : d.Lᴴ * d.R = 1) (hLR' : d'.Lᴴ * d'.R = 1)
    (F G : 𝕜 → 𝕜) (hFG : ∀ x, G (b / a * x) = F x) :
    d'.buildProj * diagonal (fun i => G (d'.eigvals i)) * d'.buildAdjointᴴ =
      ((s⁻¹ : ℝ) : 𝕜) • (Qᴴ * (d.buildProj * diagonal (fun i => F (d.eigvals i)) * d.buildAdjointᴴ) * Q) ∧
    d'.buildProj * diagonal (fun i => G (d'.eigvals i)) * (d'.Lᴴ * (diagPow (𝕜 := 𝕜) d'.w 0.5 * d'.Vᴴ)) =
      Qᴴ * (d.buildProj * diagonal (fun i => F (d.eigvals i)) * (d.Lᴴ * (diagPow (𝕜 := 𝕜) d.w 0.5 * d.Vᴴ))) * Q := by
  obtain ⟨-, -, hparts⟩ := dmd_parts hc hc' hQ hV hs hK ha hb hLR hLR'
  have hp := hparts F G hFG
  have hpow : ∀ p : ℝ, d'.V * diagPow (𝕜 := 𝕜) d'.w p * (d.Vᴴ * Q * d'.V)ᴴ =
      ((s ^ p : ℝ) : 𝕜) • (Qᴴ * (d.V * diagPow (𝕜 := 𝕜) d.w p)) := by
    intro p
    obtain ⟨e1, hU, -, -⟩ := overlap_facts hc.orth hc'.orth hQ hV
    have e2 := overlap_pow hc.orth hc'.orth hQ hV hs p
    generalize d.Vᴴ * Q * d'.V = U at *
    rw [e1, Matrix.mul_assoc (Qᴴ * d.V), e2, Matrix.mul_smul, Matrix.smul_mul]
    congr 1
    rw [show Qᴴ * d.V * (diagPow (𝕜 := 𝕜) d.w p * U) * Uᴴ = Qᴴ * (d.V * diagPow (𝕜 := 𝕜) d.w p) * (U * Uᴴ) by
      simp only [Matrix.mul_assoc], hU, Matrix.mul_one]
  have hpow' : ∀ p : ℝ, (d.Vᴴ * Q * d'.V) * (diagPow (𝕜 := 𝕜) d'.w p * d'.Vᴴ) =
      ((s ^ p : ℝ) : 𝕜) • ((diagPow (𝕜 := 𝕜) d.w p * d.Vᴴ) * Q) := by
    intro p
    have := congrArg conjTranspose (hpow p)
    rw [conjTranspose_smul, conjTranspose_mul _ ((d.Vᴴ * Q * d'.V)ᴴ), conjTranspose_conjTranspose, conjTranspose_mul d'.V,
      conjTranspose_mul Qᴴ, conjTranspose_mul d.V, conjTranspose_conjTranspose, RCLike.star_def, RCLike.conj_ofReal] at this
    have hself : ∀ {r : Nat} (w : Fin r → ℝ), (diagPow (𝕜 := 𝕜) w p)ᴴ = diagPow (𝕜 := 𝕜) w p := by
      intro r w
      unfold diagPow
      rw [diagonal_conjTranspose]
      congr 1
      ext i
      rw [Pi.star_apply, RCLike.star_def, RCLike.conj_ofReal]
    rw [hself, hself] at this
    exact this
  have hself : ∀ {r : Nat} (w : Fin r → ℝ) (p : ℝ), (diagPow (𝕜 := 𝕜) w p)ᴴ = diagPow (𝕜 := 𝕜) w p := by
    intro r w p
    unfold diagPow
    rw [diagonal_conjTranspose]
    congr 1
    ext i
    rw [Pi.star_apply, RCLike.star_def, RCLike.conj_ofReal]
  have hadj : ∀ {p : Nat} (e : DmdDecomp 𝕜 p), e.buildAdjointᴴ = e.Lᴴ * (diagPow (𝕜 := 𝕜) e.w (-0.5) * e.Vᴴ) := by
    intro p e
    unfold DmdDecomp.buildAdjoint
    rw [conjTranspose_mul, conjTranspose_mul, hself, Matrix.mul_assoc]
  have key : ∀ p : ℝ, d'.buildProj * diagonal (fun i => G (d'.eigvals i)) * (d'.Lᴴ * (diagPow (𝕜 := 𝕜) d'.w p * d'.Vᴴ)) =
      ((s ^ (-0.5 + p) : ℝ) : 𝕜) •
        (Qᴴ * (d.buildProj * diagonal (fun i => F (d.eigvals i)) * (d.Lᴴ * (diagPow (𝕜 := 𝕜) d.w p * d.Vᴴ))) * Q) := by
    intro p
    unfold DmdDecomp.buildProj
    rw [show d'.V * (diagPow (𝕜 := 𝕜) d'.w (-0.5) * d'.R) * diagonal (fun i => G (d'.eigvals i)) *
        (d'.Lᴴ * (diagPow (𝕜 := 𝕜) d'.w p * d'.Vᴴ)) = d'.V * diagPow (𝕜 := 𝕜) d'.w (-0.5) *
        (d'.R * diagonal (fun i => G (d'.eigvals i)) * d'.Lᴴ) * (diagPow (𝕜 := 𝕜) d'.w p * d'.Vᴴ) by
      simp only [Matrix.mul_assoc], hp,
      show d'.V * diagPow (𝕜 := 𝕜) d'.w (-0.5) * ((d.Vᴴ * Q * d'.V)ᴴ * (d.R * diagonal (fun i => F (d.eigvals i)) * d.Lᴴ) *
        (d.Vᴴ * Q * d'.V)) * (diagPow (𝕜 := 𝕜) d'.w p * d'.Vᴴ) =
        (d'.V * diagPow (𝕜 := 𝕜) d'.w (-0.5) * (d.Vᴴ * Q * d'.V)ᴴ) * (d.R * diagonal (fun i => F (d.eigvals i)) * d.Lᴴ) *
        ((d.Vᴴ * Q * d'.V) * (diagPow (𝕜 := 𝕜) d'.w p * d'.Vᴴ)) by simp only [Matrix.mul_assoc], hpow, hpow', Matrix.smul_mul,
      Matrix.smul_mul, Matrix.mul_smul, smul_smul, ← RCLike.ofReal_mul, ← Real.rpow_add hs]
    congr 1
    simp only [Matrix.mul_assoc]
  constructor
  · rw [hadj, hadj, key, show (-0.5 + -0.5 : ℝ) = -1 by norm_num, Real.rpow_neg_one]
  · rw [key, show (-0.5 + 0.5 : ℝ) = 0 by norm_num, Real.rpow_zero, RCLike.ofReal_one, one_smul]

end Overlap

end Modred
