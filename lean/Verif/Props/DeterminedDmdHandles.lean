import Verif.Props.DeterminedDmd
import Verif.Props.DmdHandles

/-!
# Results of dynamic mode decomposition of handles do not depend on the order of the pairs and on units (C95)
-/

namespace Modred

open Matrix

variable {𝕜 : Type*} [RCLike 𝕜] {m : Nat} {E : Type*} [AddCommGroup E] [Module 𝕜 E]

section Sums

variable (ip : E →ₗ⋆[𝕜] E →ₗ[𝕜] 𝕜)

theorem ip_combine_vec {p q : Nat} (v : Fin p → E) (P : Matrix (Fin p) (Fin q) 𝕜) (x : E) :
    (fun k => ip (combine v P k) x) = Pᴴ *ᵥ fun k => ip (v k) x := by
  ext i
  unfold combine
  rw [map_sum, LinearMap.sum_apply, Matrix.mulVec, dotProduct]
  refine Finset.sum_congr rfl fun k _ => ?_
  rw [LinearMap.map_smulₛₗ, LinearMap.smul_apply, smul_eq_mul]
  rfl

theorem sum_combine {p q : Nat} (u : Fin p → E) (P : Matrix (Fin p) (Fin q) 𝕜) (y : Fin q → 𝕜) :
    ∑ j, y j • combine u P j = ∑ j, (P *ᵥ y) j • u j := by
  unfold combine
  simp only [Finset.smul_sum, smul_smul]
  rw [Finset.sum_comm]
  refine Finset.sum_congr rfl fun j _ => ?_
  rw [← Finset.sum_smul, Matrix.mulVec, dotProduct]
  congr 1
  exact Finset.sum_congr rfl fun i _ => mul_comm _ _

theorem weighted_pair {p q r : Nat} (u : Fin p → E) (v : Fin q → E) (M : Matrix (Fin p) (Fin r) 𝕜) (N : Matrix (Fin q) (Fin r) 𝕜)
    (d : Fin r → 𝕜) (x : E) : ∑ i, (d i * ip (combine v N i) x) • combine u M i =
      ∑ j, ((M * diagonal d * Nᴴ) *ᵥ fun k => ip (v k) x) j • u j := by
  rw [sum_combine u M fun i => d i * ip (combine v N i) x]
  have h1 : (fun i => d i * ip (combine v N i) x) = diagonal d *ᵥ (Nᴴ *ᵥ fun k => ip (v k) x) := by
    rw [← ip_combine_vec]
    ext i
    rw [Matrix.mulVec_diagonal]
  rw [h1, Matrix.mulVec_mulVec, Matrix.mulVec_mulVec, Matrix.mul_assoc]

theorem weighted_coeffs {p r k : Nat} (u : Fin p → E) (M : Matrix (Fin p) (Fin r) 𝕜) (d : Fin r → 𝕜)
    (c : Matrix (Fin r) (Fin k) 𝕜) (j : Fin k) :
    ∑ i, (d i * c i j) • combine u M i = combine u (M * diagonal d * c) j := by
  rw [Matrix.mul_assoc, ← combine_combine]
  conv_rhs => unfold combine
  simp only [Matrix.diagonal_mul]
  rfl

end Sums

section Outcome

variable {p : Nat} {ip : E →ₗ⋆[𝕜] E →ₗ[𝕜] 𝕜} {X Y : Fin m → E} {X' Y' : Fin p → E} {a b : 𝕜} {Q : Matrix (Fin m) (Fin p) 𝕜}
  {d : DmdDecomp 𝕜 m} {d' : DmdDecomp 𝕜 p}

theorem gram_mixed_of (ip : E →ₗ⋆[𝕜] E →ₗ[𝕜] 𝕜) (X Y : Fin m → E) (a b : 𝕜) (Q : Matrix (Fin m) (Fin p) 𝕜) :
    gram ip (combine X (a • Q)) (combine Y (b • Q)) = (star a * b) • (Qᴴ * gram ip X Y * Q) := by
  have := handlesIp_combine ip X Y (a • Q) (b • Q)
  rw [conjTranspose_smul, Matrix.smul_mul, Matrix.mul_smul, Matrix.smul_mul, smul_smul, mul_comm b] at this
  exact this

theorem mixed_adjoint {r r' : Nat} (hQ : Q * Qᴴ = 1) (u v : Fin m → E) (b e : 𝕜) {M N : Matrix (Fin m) (Fin r) 𝕜}
    {M' N' : Matrix (Fin p) (Fin r') 𝕜} {D : Fin r → 𝕜} {D' : Fin r' → 𝕜}
    (h : M' * diagonal D' * N'ᴴ = e • (Qᴴ * (M * diagonal D * Nᴴ) * Q)) (he : b * e * star a = 1) (x : E) :
    ∑ i, (D' i * ip (combine (combine v (a • Q)) N' i) x) • combine (combine u (b • Q)) M' i =
      ∑ i, (D i * ip (combine v N i) x) • combine u M i := by
  rw [weighted_pair, weighted_pair, ip_combine_vec, sum_combine u (b • Q), Matrix.mulVec_mulVec, Matrix.mulVec_mulVec, h]
  have : b • Q * e • (Qᴴ * (M * diagonal D * Nᴴ) * Q) * (a • Q)ᴴ = M * diagonal D * Nᴴ := by
    rw [conjTranspose_smul, Matrix.mul_smul, Matrix.mul_smul, Matrix.smul_mul, Matrix.smul_mul, Matrix.smul_mul, smul_smul,
      smul_smul, show star a * e * b = b * e * star a by ring, he, one_smul,
      show Q * (Qᴴ * (M * diagonal D * Nᴴ) * Q) * Qᴴ = (Q * Qᴴ) * (M * diagonal D * Nᴴ) * (Q * Qᴴ) by
        simp only [Matrix.mul_assoc], hQ, Matrix.mul_one, Matrix.one_mul]
  rw [this]

theorem mixed_coeffs {r r' : Nat} (hQ : Q * Qᴴ = 1) (u : Fin m → E) (c e f : 𝕜) {M : Matrix (Fin m) (Fin r) 𝕜}
    {M' : Matrix (Fin p) (Fin r') 𝕜} {D : Fin r → 𝕜} {D' : Fin r' → 𝕜} {N : Matrix (Fin r) (Fin m) 𝕜}
    {N' : Matrix (Fin r') (Fin p) 𝕜} (h : M' * diagonal D' * N' = e • (Qᴴ * (M * diagonal D * N) * Q)) (he : c * e = f)
    (j' j : Fin p) (hj : j'.val = j.val) :
    ∑ i, (D' i * N' i j') • combine (combine u (c • Q)) M' i = f • ∑ k, Q k j • ∑ i, (D i * N i k) • combine u M i := by
  obtain rfl : j' = j := Fin.ext hj
  simp only [weighted_coeffs]
  rw [h, combine_combine]
  have h1 : ∑ k, Q k j' • combine u (M * diagonal D * N) k = combine (combine u (M * diagonal D * N)) Q j' := rfl
  rw [h1, combine_combine, Matrix.smul_mul, Matrix.mul_smul, smul_smul, he,
    show Q * (Qᴴ * (M * diagonal D * N) * Q) = (Q * Qᴴ) * (M * diagonal D * N) * Q by simp only [Matrix.mul_assoc], hQ,
    Matrix.one_mul]
  unfold combine
  simp only [Finset.smul_sum, smul_smul, Matrix.smul_apply, smul_eq_mul]

theorem same_dmd_of (hQ : Q * Qᴴ = 1) (ha : a ≠ 0) (hb : b ≠ 0) (hX : X' = combine X (a • Q)) (hY : Y' = combine Y (b • Q))
    (hc : DmdCore (gram ip X X) (gram ip X Y) d) (hc' : DmdCore (gram ip X' X') (gram ip X' Y') d')
    (hLR : d.Lᴴ * d.R = 1) (hLR' : d'.Lᴴ * d'.R = 1) (hV : SameSpectrum (‖a‖ ^ 2) Q d d') :
    SameDmdOf ip a b Q d.eigvals d'.eigvals (combine Y d.buildExact) (combine X d.buildProj) (combine X d.buildAdjoint)
      (combine Y' d'.buildExact) (combine X' d'.buildProj) (combine X' d'.buildAdjoint)
      (d.Lᴴ * (diagPow (𝕜 := 𝕜) d.w 0.5 * d.Vᴴ)) (d.Lᴴ * (diagPow (𝕜 := 𝕜) d.w (-0.5) * (d.Vᴴ * gram ip X Y)))
      (d'.Lᴴ * (diagPow (𝕜 := 𝕜) d'.w 0.5 * d'.Vᴴ))
      (d'.Lᴴ * (diagPow (𝕜 := 𝕜) d'.w (-0.5) * (d'.Vᴴ * gram ip X' Y'))) := by
  subst hX hY
  have hs : 0 < ‖a‖ ^ 2 := pow_pos (norm_pos_iff.mpr ha) 2
  have hsta : star a ≠ 0 := star_ne_zero.mpr ha
  have hK := gram_mixed_of ip X Y a b Q
  have hB := dmd_products hQ ha hb hc hc' hK hLR hLR' hV
  obtain ⟨h1, h2, -⟩ := dmd_parts hc hc' hQ hV hs hK rfl hb hLR hLR'
  have hself : ∀ {r : Nat} (w : Fin r → ℝ) (p : ℝ), (diagPow (𝕜 := 𝕜) w p)ᴴ = diagPow (𝕜 := 𝕜) w p := by
    intro r w p
    unfold diagPow
    rw [diagonal_conjTranspose]
    congr 1
    ext i
    rw [Pi.star_apply, RCLike.star_def, RCLike.conj_ofReal]
  have hadj : ∀ {q : Nat} (e : DmdDecomp 𝕜 q) (K : Matrix (Fin q) (Fin q) 𝕜),
      e.Lᴴ * (diagPow (𝕜 := 𝕜) e.w (-0.5) * (e.Vᴴ * K)) = e.buildAdjointᴴ * K := by
    intro q e K
    unfold DmdDecomp.buildAdjoint
    rw [conjTranspose_mul, conjTranspose_mul, hself]
    simp only [Matrix.mul_assoc]
  have after : ∀ {r r' : Nat} {M : Matrix (Fin m) (Fin r) 𝕜} {D : Matrix (Fin r) (Fin r) 𝕜} {N : Matrix (Fin r) (Fin m) 𝕜}
      {M' : Matrix (Fin p) (Fin r') 𝕜} {D' : Matrix (Fin r') (Fin r') 𝕜} {N' : Matrix (Fin r') (Fin p) 𝕜} {e : 𝕜},
      M' * D' * N' = e • (Qᴴ * (M * D * N) * Q) →
      M' * D' * (N' * gram ip (combine X (a • Q)) (combine Y (b • Q))) =
        (e * (star a * b)) • (Qᴴ * (M * D * (N * gram ip X Y)) * Q) := by
    intro r r' M D N M' D' N' e h
    rw [← Matrix.mul_assoc, h, hK, Matrix.mul_smul, Matrix.smul_mul, smul_smul, mul_comm (star a * b)]
    congr 1
    rw [show Qᴴ * (M * D * N) * Q * (Qᴴ * gram ip X Y * Q) = Qᴴ * (M * D * N) * (Q * Qᴴ) * gram ip X Y * Q by
      simp only [Matrix.mul_assoc], hQ, Matrix.mul_one]
    simp only [Matrix.mul_assoc]
  rw [hadj, hadj]
  refine ⟨h1, fun z => ?_, fun F G hFG => ?_, fun F G hFG => ?_, fun F G hFG => ?_, fun F G hFG => ?_, fun F G hFG => ?_,
    fun F G hFG => ?_⟩
  · rw [Nat.card_eq_fintype_card, Nat.card_eq_fintype_card]
    exact h2 z
  · exact mixed_adjoint hQ X X a _ (hB F G hFG).1 (by field_simp)
  · exact mixed_adjoint hQ Y X b _ (hB F G hFG).2.1 (by field_simp)
  · exact mixed_coeffs hQ X a _ a (hB F G hFG).2.2.1 (mul_one a)
  · exact mixed_coeffs hQ Y b _ a (hB F G hFG).2.2.2 (by field_simp)
  · exact mixed_coeffs hQ X a _ b (after (hB F G hFG).1) (by field_simp)
  · exact mixed_coeffs hQ Y b _ b (after (hB F G hFG).2.1) (by field_simp)

/-- The same for data whose number of vectors is written in two ways. -/
theorem same_dmd_handles {m' : Nat} (hm : m' = p) {X Y : Fin m → E} {X' Y' : Fin m' → E} {d : DmdDecomp 𝕜 m}
    {d' : DmdDecomp 𝕜 m'} {lib lib' : DmdLib 𝕜} {t : ℝ} (hlib : lib.Lawful) (hlib' : lib'.Lawful)
    (hsym : ∀ x y, ip y x = star (ip x y)) (hQ : Q * Qᴴ = 1) (ha : a ≠ 0) (hb : b ≠ 0) (ht : 0 ≤ t)
    (hX : ∀ (j' : Fin m') (j : Fin p), j'.val = j.val → X' j' = a • ∑ i, Q i j • X i)
    (hY : ∀ (j' : Fin m') (j : Fin p), j'.val = j.val → Y' j' = b • ∑ i, Q i j • Y i)
    (hd : dmdEigendecomp lib.eigh lib.argsort lib.eig (gram ip X X) (gram ip X Y) (some t) none none = .ok d)
    (hd' : dmdEigendecomp lib'.eigh lib'.argsort lib'.eig (gram ip X' X') (gram ip X' Y') (some (‖a‖ ^ 2 * t)) none none =
      .ok d')
    (heig : EigOfReducedVecs ip lib.eig X Y d) (heig' : EigOfReducedVecs ip lib'.eig X' Y' d')
    (hinj : Function.Injective d.eigvals) (hinj' : Function.Injective d'.eigvals) :
    SameDmdOf ip a b Q d.eigvals d'.eigvals (combine Y d.buildExact) (combine X d.buildProj) (combine X d.buildAdjoint)
      (combine Y' d'.buildExact) (combine X' d'.buildProj) (combine X' d'.buildAdjoint)
      (d.Lᴴ * (diagPow (𝕜 := 𝕜) d.w 0.5 * d.Vᴴ)) (d.Lᴴ * (diagPow (𝕜 := 𝕜) d.w (-0.5) * (d.Vᴴ * gram ip X Y)))
      (d'.Lᴴ * (diagPow (𝕜 := 𝕜) d'.w 0.5 * d'.Vᴴ))
      (d'.Lᴴ * (diagPow (𝕜 := 𝕜) d'.w (-0.5) * (d'.Vᴴ * gram ip X' Y'))) := by
  subst hm
  have na : 0 < ‖a‖ ^ 2 := pow_pos (norm_pos_iff.mpr ha) 2
  have comb : ∀ (c : 𝕜) (Z : Fin m → E) (j : Fin m'), c • ∑ i, Q i j • Z i = combine Z (c • Q) j := by
    intro c Z j
    unfold combine
    simp only [Finset.smul_sum, smul_smul, Matrix.smul_apply, smul_eq_mul]
  have hX' : X' = combine X (a • Q) := by
    ext j
    rw [hX j j rfl, comb]
  have hY' : Y' = combine Y (b • Q) := by
    ext j
    rw [hY j j rfl, comb]
  obtain ⟨-, hc, hLR⟩ := handles_modes lib ip t none ht hlib hsym hd heig
  obtain ⟨-, hc', hLR'⟩ := handles_modes lib' ip _ none (mul_nonneg na.le ht) hlib' hsym hd' heig'
  refine same_dmd_of hQ ha hb hX' hY' hc hc' (hLR hinj) (hLR' hinj') (snaps_sameEigh hd hd' (hlib.eigh _ (gram_herm ip hsym X))
    (hlib'.eigh _ (gram_herm ip hsym X')) hQ ?_ na ht hlib.argsort hlib'.argsort (by simp))
  rw [hX', gram_mixed_of, norm_sq_smul]

end Outcome

/-! ### Handles -/

section Handles

variable (lib lib' : DmdLib 𝕜) (ip : E →ₗ⋆[𝕜] E →ₗ[𝕜] 𝕜) (t : ℝ) (rtol rtol' : Option ℝ) (a b : 𝕜)
  (g h g' h' : DmdHandles 𝕜 E)

/-- **C95.** Handles of pairs of vectors. -/
theorem C95_handles_pairs (hlib : lib.Lawful) (hlib' : lib'.Lawful) (hsym : ∀ x y, ip y x = star (ip x y)) (ha : a ≠ 0)
    (hb : b ≠ 0) (ht : 0 ≤ t) (vecs adv vecs' adv' : List E) (hlen : vecs.length = adv.length)
    (hlen' : vecs'.length = adv'.length) {p : Nat} (hm : vecs'.length = p)
    (Q : Matrix (Fin vecs.length) (Fin p) 𝕜) (hQ : Q * Qᴴ = 1)
    (hvecs : ∀ (j' : Fin vecs'.length) (j : Fin p), j'.val = j.val → vecs'.get j' = a • ∑ i, Q i j • vecs.get i)
    (hadv : ∀ (j' : Fin vecs'.length) (j : Fin p), j'.val = j.val →
      adv'.get (Fin.cast hlen' j') = b • ∑ i, Q i j • adv.get (Fin.cast hlen i))
    (hrun : g.computeDecomp lib (fun x y => ip x y) vecs (some adv) (some t) rtol none = (.ok (), g'))
    (hrun' : h.computeDecomp lib' (fun x y => ip x y) vecs' (some adv') (some (‖a‖ ^ 2 * t)) rtol' none = (.ok (), h'))
    (d : DmdDecomp 𝕜 vecs.length) (hd : g'.decomp = some ⟨vecs.length, d⟩)
    (d' : DmdDecomp 𝕜 vecs'.length) (hd' : h'.decomp = some ⟨vecs'.length, d'⟩)
    (heig : EigOfReducedVecs ip lib.eig vecs.get (fun j => adv.get (Fin.cast hlen j)) d)
    (heig' : EigOfReducedVecs ip lib'.eig vecs'.get (fun j => adv'.get (Fin.cast hlen' j)) d')
    (hinj : Function.Injective d.eigvals) (hinj' : Function.Injective d'.eigvals) :
    ∃ (exact proj adjoint : Fin d.r → E) (exact' proj' adjoint' : Fin d'.r → E) (c e : Matrix (Fin d.r) (Fin vecs.length) 𝕜)
      (c' e' : Matrix (Fin d'.r) (Fin vecs'.length) 𝕜),
      ((∀ l num out k, g'.computeExactModes l num none = (.ok out, k) → ChosenVecs exact l out) ∧
        (∀ l num out k, g'.computeProjModes l num none = (.ok out, k) → ChosenVecs proj l out) ∧
        (∀ l num out k, g'.computeAdjointModes l num none = (.ok out, k) → ChosenVecs adjoint l out) ∧
        g'.computeProjCoeffs = .ok (⟨d.r, vecs.length, c⟩, ⟨d.r, vecs.length, e⟩)) ∧
      ((∀ l num out k, h'.computeExactModes l num none = (.ok out, k) → ChosenVecs exact' l out) ∧
        (∀ l num out k, h'.computeProjModes l num none = (.ok out, k) → ChosenVecs proj' l out) ∧
        (∀ l num out k, h'.computeAdjointModes l num none = (.ok out, k) → ChosenVecs adjoint' l out) ∧
        h'.computeProjCoeffs = .ok (⟨d'.r, vecs'.length, c'⟩, ⟨d'.r, vecs'.length, e'⟩)) ∧
      SameDmdOf ip a b Q d.eigvals d'.eigvals exact proj adjoint exact' proj' adjoint' c e c' e' := by
  obtain ⟨_, d1, h1, rfl⟩ := computeDecomp_pairs lib _ g g' vecs adv (some t) rtol none hrun
  obtain ⟨_, d2, h2, rfl⟩ := computeDecomp_pairs lib' _ h h' vecs' adv' _ rtol' none hrun'
  cases hd
  cases hd'
  obtain ⟨s1, s2, s3⟩ := state_pairs vecs adv hlen (handlesIp (fun x y => ip x y) vecs.get vecs.get)
    (handlesIp (fun x y => ip x y) vecs.get fun j => adv.get (Fin.cast hlen j)) d
  obtain ⟨s1', s2', s3'⟩ := state_pairs vecs' adv' hlen' (handlesIp (fun x y => ip x y) vecs'.get vecs'.get)
    (handlesIp (fun x y => ip x y) vecs'.get fun j => adv'.get (Fin.cast hlen' j)) d'
  exact ⟨_, _, _, _, _, _, _, _, _, _, ⟨fun l num out k hk => s1 l num none out k (.inl rfl) hk,
    fun l num out k hk => s2 l num none out k (.inl rfl) hk, fun l num out k hk => s3 l num none out k (.inl rfl) hk,
    computeProjCoeffs_state _ _ _ _ _⟩, ⟨fun l num out k hk => s1' l num none out k (.inl rfl) hk,
    fun l num out k hk => s2' l num none out k (.inl rfl) hk, fun l num out k hk => s3' l num none out k (.inl rfl) hk,
    computeProjCoeffs_state _ _ _ _ _⟩,
    same_dmd_handles hm hlib hlib' hsym hQ ha hb ht hvecs hadv h1 h2 heig heig' hinj hinj'⟩

/-- **C95.** Handles of sequential data in other units. -/
theorem C95_handles_sequential (hlib : lib.Lawful) (hlib' : lib'.Lawful) (hsym : ∀ x y, ip y x = star (ip x y)) (ha : a ≠ 0)
    (ht : 0 ≤ t) (vecs : List E) (hg : g.adv = none) (hh : h.adv = none)
    (hrun : g.computeDecomp lib (fun x y => ip x y) vecs none (some t) rtol none = (.ok (), g'))
    (hrun' : h.computeDecomp lib' (fun x y => ip x y) (vecs.map (a • ·)) none (some (‖a‖ ^ 2 * t)) rtol' none = (.ok (), h'))
    (d : DmdDecomp 𝕜 (vecs.length - 1)) (hd : g'.decomp = some ⟨vecs.length - 1, d⟩)
    (d' : DmdDecomp 𝕜 ((vecs.map (a • ·)).length - 1)) (hd' : h'.decomp = some ⟨(vecs.map (a • ·)).length - 1, d'⟩)
    (heig : EigOfReducedVecs ip lib.eig (seqVecs vecs) (seqAdvVecs vecs) d)
    (heig' : EigOfReducedVecs ip lib'.eig (seqVecs (vecs.map (a • ·))) (seqAdvVecs (vecs.map (a • ·))) d')
    (hinj : Function.Injective d.eigvals) (hinj' : Function.Injective d'.eigvals) :
    ∃ (exact proj adjoint : Fin d.r → E) (exact' proj' adjoint' : Fin d'.r → E)
      (c e : Matrix (Fin d.r) (Fin (vecs.length - 1)) 𝕜) (c' e' : Matrix (Fin d'.r) (Fin ((vecs.map (a • ·)).length - 1)) 𝕜),
      ((∀ l num out k, g'.computeExactModes l num none = (.ok out, k) → ChosenVecs exact l out) ∧
        (∀ l num out k, g'.computeProjModes l num none = (.ok out, k) → ChosenVecs proj l out) ∧
        (∀ l num out k, g'.computeAdjointModes l num none = (.ok out, k) → ChosenVecs adjoint l out) ∧
        g'.computeProjCoeffs = .ok (⟨d.r, _, c⟩, ⟨d.r, _, e⟩)) ∧
      ((∀ l num out k, h'.computeExactModes l num none = (.ok out, k) → ChosenVecs exact' l out) ∧
        (∀ l num out k, h'.computeProjModes l num none = (.ok out, k) → ChosenVecs proj' l out) ∧
        (∀ l num out k, h'.computeAdjointModes l num none = (.ok out, k) → ChosenVecs adjoint' l out) ∧
        h'.computeProjCoeffs = .ok (⟨d'.r, _, c'⟩, ⟨d'.r, _, e'⟩)) ∧
      SameDmdOf (p := vecs.length - 1) ip a a 1 d.eigvals d'.eigvals exact proj adjoint exact' proj' adjoint' c e c' e' := by
  obtain ⟨d1, h1, rfl⟩ := computeDecomp_seq lib _ g g' vecs (some t) rtol none hrun
  obtain ⟨d2, h2, rfl⟩ := computeDecomp_seq lib' _ h h' _ _ rtol' none hrun'
  cases hd
  cases hd'
  obtain ⟨hp, -, -⟩ := handles_modes lib ip t none ht hlib hsym h1 heig
  have hm : (vecs.map (a • ·)).length - 1 = vecs.length - 1 := by rw [List.length_map]
  obtain ⟨s1, s2, s3⟩ := state_seq vecs (handlesIp (fun x y => ip x y) (seqVecs vecs) (seqVecs vecs))
    (handlesIp (fun x y => ip x y) (seqVecs vecs) (seqAdvVecs vecs)) g.adv d hp
  obtain ⟨s1', s2', s3'⟩ := state_seq (vecs.map (a • ·)) (handlesIp (fun x y => ip x y) (seqVecs _) (seqVecs _))
    (handlesIp (fun x y => ip x y) (seqVecs _) (seqAdvVecs _)) h.adv d' (by omega)
  have hQ : (1 : Matrix (Fin (vecs.length - 1)) (Fin (vecs.length - 1)) 𝕜) * 1ᴴ = 1 := by
    rw [conjTranspose_one, Matrix.mul_one]
  have one : ∀ (Z : Fin (vecs.length - 1) → E) (j : Fin (vecs.length - 1)),
      ∑ i, (1 : Matrix (Fin (vecs.length - 1)) (Fin (vecs.length - 1)) 𝕜) i j • Z i = Z j := by
    intro Z j
    simp [Matrix.one_apply, ite_smul]
  refine ⟨_, _, _, _, _, _, _, _, _, _, ⟨fun l num out k hk => s1 l num none out k (.inl ⟨rfl, hg⟩) hk,
    fun l num out k hk => s2 l num none out k (.inl rfl) hk, fun l num out k hk => s3 l num none out k (.inl rfl) hk,
    computeProjCoeffs_state _ _ _ _ _⟩, ⟨fun l num out k hk => s1' l num none out k (.inl ⟨rfl, hh⟩) hk,
    fun l num out k hk => s2' l num none out k (.inl rfl) hk, fun l num out k hk => s3' l num none out k (.inl rfl) hk,
    computeProjCoeffs_state _ _ _ _ _⟩,
    same_dmd_handles hm hlib hlib' hsym hQ ha ha ht ?_ ?_ h1 h2 heig heig' hinj hinj'⟩
  · intro j' j hj
    rw [one]
    unfold seqVecs
    simp only [List.get_eq_getElem, List.getElem_map, hj]
  · intro j' j hj
    rw [one]
    unfold seqAdvVecs
    simp only [List.get_eq_getElem, List.getElem_map, hj]

end Handles

end Modred
