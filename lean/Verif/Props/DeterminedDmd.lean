import Verif.Lemmas.DeterminedDmd
import Verif.Spec.DeterminedDmd
import Verif.Lemmas.Wide
import Verif.Props.LeastSquares

/-!
# Results of dynamic mode decomposition do not depend on the order of the pairs and on units (C95)
-/

namespace Modred

open Matrix
open scoped ComplexOrder

variable {𝕜 : Type*} [RCLike 𝕜] {n m m' : Nat}

/-! ### From the decompositions to the results -/

section Outcome

variable {W : Matrix (Fin n) (Fin n) 𝕜} {X Y : Matrix (Fin n) (Fin m) 𝕜} {a b : 𝕜} {Q : Matrix (Fin m) (Fin m') 𝕜}

theorem gram_mixed (W : Matrix (Fin n) (Fin n) 𝕜) (X Y : Matrix (Fin n) (Fin m) 𝕜) (a b : 𝕜) (Q : Matrix (Fin m) (Fin m') 𝕜) :
    (a • (X * Q))ᴴ * W * (b • (Y * Q)) = (star a * b) • (Qᴴ * (Xᴴ * W * Y) * Q) := by
  rw [conjTranspose_smul, Matrix.smul_mul, Matrix.mul_smul, Matrix.smul_mul, smul_smul, mul_comm b, conjTranspose_mul]
  simp only [Matrix.mul_assoc]

/-- Products with the vectors, in both orders. -/
theorem mixed_products {r r' k k' : Nat} (hQ : Q * Qᴴ = 1) (c e : 𝕜) (Z : Matrix (Fin n) (Fin m) 𝕜)
    {M : Matrix (Fin m) (Fin r) 𝕜} {D : Matrix (Fin r) (Fin r) 𝕜} {N : Matrix (Fin r) (Fin k) 𝕜} {M' : Matrix (Fin m') (Fin r') 𝕜}
    {D' : Matrix (Fin r') (Fin r') 𝕜} {N' : Matrix (Fin r') (Fin k') 𝕜} {P : Matrix (Fin k) (Fin k') 𝕜}
    (h : M' * D' * N' = e • (Qᴴ * (M * D * N) * P)) :
    (c • (Z * Q)) * M' * D' * N' = (c * e) • (Z * M * D * N * P) := by
  rw [show (c • (Z * Q)) * M' * D' * N' = (c • (Z * Q)) * (M' * D' * N') by simp only [Matrix.mul_assoc], h, Matrix.smul_mul,
    Matrix.mul_smul, smul_smul]
  congr 1
  rw [show Z * Q * (Qᴴ * (M * D * N) * P) = Z * (Q * Qᴴ) * (M * D * N) * P by simp only [Matrix.mul_assoc], hQ, Matrix.mul_one]
  simp only [Matrix.mul_assoc]

variable {d : DmdDecomp 𝕜 m} {d' : DmdDecomp 𝕜 m'}

/-- The products of build coefficients of exact and projected modes. -/
theorem dmd_products {C K : Matrix (Fin m) (Fin m) 𝕜} {C' K' : Matrix (Fin m') (Fin m') 𝕜} (hQ : Q * Qᴴ = 1) (ha : a ≠ 0) (hb : b ≠ 0) (hc : DmdCore C K d)
    (hc' : DmdCore C' K' d') (hK : K' = (star a * b) • (Qᴴ * K * Q)) (hLR : d.Lᴴ * d.R = 1) (hLR' : d'.Lᴴ * d'.R = 1)
    (hV : SameSpectrum (‖a‖ ^ 2) Q d d') (F G : 𝕜 → 𝕜) (hFG : ∀ x, G (b / a * x) = F x) :
    d'.buildProj * diagonal (fun i => G (d'.eigvals i)) * d'.buildAdjointᴴ =
      (star a * a)⁻¹ • (Qᴴ * (d.buildProj * diagonal (fun i => F (d.eigvals i)) * d.buildAdjointᴴ) * Q) ∧
    d'.buildExact * diagonal (fun i => G (d'.eigvals i)) * d'.buildAdjointᴴ =
      ((star a * a)⁻¹ * (b / a)⁻¹) • (Qᴴ * (d.buildExact * diagonal (fun i => F (d.eigvals i)) * d.buildAdjointᴴ) * Q) ∧
    d'.buildProj * diagonal (fun i => G (d'.eigvals i)) * (d'.Lᴴ * (diagPow (𝕜 := 𝕜) d'.w 0.5 * d'.Vᴴ)) = (1 : 𝕜) •
      (Qᴴ * (d.buildProj * diagonal (fun i => F (d.eigvals i)) * (d.Lᴴ * (diagPow (𝕜 := 𝕜) d.w 0.5 * d.Vᴴ))) * Q) ∧
    d'.buildExact * diagonal (fun i => G (d'.eigvals i)) * (d'.Lᴴ * (diagPow (𝕜 := 𝕜) d'.w 0.5 * d'.Vᴴ)) = (b / a)⁻¹ •
      (Qᴴ * (d.buildExact * diagonal (fun i => F (d.eigvals i)) * (d.Lᴴ * (diagPow (𝕜 := 𝕜) d.w 0.5 * d.Vᴴ))) * Q) := by
  have hs : 0 < ‖a‖ ^ 2 := pow_pos (norm_pos_iff.mpr ha) 2
  have hB := fun F G hFG => dmd_builds hc hc' hQ hV hs hK rfl hb hLR hLR' F G hFG
  have hinv : ((((‖a‖ ^ 2)⁻¹ : ℝ)) : 𝕜) = (star a * a)⁻¹ := by rw [norm_sq_smul, RCLike.ofReal_inv]
  rw [hinv] at hB
  have hexact : ∀ {p : Nat} (e : DmdDecomp 𝕜 p) (G : 𝕜 → 𝕜), e.buildExact * diagonal (fun i => G (e.eigvals i)) =
      e.buildProj * diagonal (fun i => (e.eigvals i)⁻¹ * G (e.eigvals i)) := by
    intro p e G
    rw [buildExact_eq, Matrix.mul_assoc, diagonal_mul_diagonal]
  have hscale : d.buildProj * diagonal (fun i => (b / a)⁻¹ * ((d.eigvals i)⁻¹ * F (d.eigvals i))) =
      (b / a)⁻¹ • (d.buildExact * diagonal (fun i => F (d.eigvals i))) := by
    rw [hexact, ← Matrix.mul_smul]
    congr 1
    ext i j
    rw [Matrix.smul_apply]
    by_cases hij : i = j
    · subst hij
      simp only [diagonal_apply_eq, smul_eq_mul]
    · simp only [diagonal_apply_ne _ hij, smul_zero]
  have hw := hB (fun x => (b / a)⁻¹ * (x⁻¹ * F x)) (fun y => y⁻¹ * G y) fun x => by rw [hFG, mul_inv, mul_assoc]
  refine ⟨(hB F G hFG).1, ?_, ?_, ?_⟩
  · rw [hexact, hw.1, hscale, Matrix.smul_mul, Matrix.mul_smul, Matrix.smul_mul, smul_smul]
  · rw [one_smul]
    exact (hB F G hFG).2
  · rw [hexact, hw.2, hscale, Matrix.smul_mul, Matrix.mul_smul, Matrix.smul_mul]

theorem same_dmd (hQ : Q * Qᴴ = 1) (ha : a ≠ 0) (hb : b ≠ 0) (hc : DmdCore (Xᴴ * W * X) (Xᴴ * W * Y) d)
    (hc' : DmdCore ((a • (X * Q))ᴴ * W * (a • (X * Q))) ((a • (X * Q))ᴴ * W * (b • (Y * Q))) d')
    (hLR : d.Lᴴ * d.R = 1) (hLR' : d'.Lᴴ * d'.R = 1) (hV : SameSpectrum (‖a‖ ^ 2) Q d d') :
    SameDmd a b Q d.eigvals d'.eigvals (Y * d.buildExact) (X * d.buildProj) (X * d.buildAdjoint)
      ((b • (Y * Q)) * d'.buildExact) ((a • (X * Q)) * d'.buildProj) ((a • (X * Q)) * d'.buildAdjoint)
      (d.Lᴴ * (diagPow (𝕜 := 𝕜) d.w 0.5 * d.Vᴴ))
      (d.Lᴴ * (diagPow (𝕜 := 𝕜) d.w (-0.5) * (d.Vᴴ * (Xᴴ * W * Y))))
      (d'.Lᴴ * (diagPow (𝕜 := 𝕜) d'.w 0.5 * d'.Vᴴ))
      (d'.Lᴴ * (diagPow (𝕜 := 𝕜) d'.w (-0.5) * (d'.Vᴴ * ((a • (X * Q))ᴴ * W * (b • (Y * Q)))))) := by
  have hs : 0 < ‖a‖ ^ 2 := pow_pos (norm_pos_iff.mpr ha) 2
  have hK := gram_mixed W X Y a b Q
  have hB := dmd_products hQ ha hb hc hc' hK hLR hLR' hV
  obtain ⟨h1, h2, -⟩ := dmd_parts hc hc' hQ hV hs hK rfl hb hLR hLR'
  have hself : ∀ {r : Nat} (w : Fin r → ℝ) (p : ℝ), (diagPow (𝕜 := 𝕜) w p)ᴴ = diagPow (𝕜 := 𝕜) w p := by
    intro r w p
    unfold diagPow
    rw [diagonal_conjTranspose]
    congr 1
    ext i
    rw [Pi.star_apply, RCLike.star_def, RCLike.conj_ofReal]
  have hadj : ∀ {p : Nat} (e : DmdDecomp 𝕜 p) (K : Matrix (Fin p) (Fin p) 𝕜),
      e.Lᴴ * (diagPow (𝕜 := 𝕜) e.w (-0.5) * (e.Vᴴ * K)) = e.buildAdjointᴴ * K := by
    intro p e K
    unfold DmdDecomp.buildAdjoint
    rw [conjTranspose_mul, conjTranspose_mul, hself]
    simp only [Matrix.mul_assoc]
  -- with another array behind adjoint modes
  have after : ∀ {r r' : Nat} {M : Matrix (Fin m) (Fin r) 𝕜} {D : Matrix (Fin r) (Fin r) 𝕜} {N : Matrix (Fin r) (Fin m) 𝕜}
      {M' : Matrix (Fin m') (Fin r') 𝕜} {D' : Matrix (Fin r') (Fin r') 𝕜} {N' : Matrix (Fin r') (Fin m') 𝕜} {e : 𝕜},
      M' * D' * N' = e • (Qᴴ * (M * D * N) * Q) →
      M' * D' * (N' * ((a • (X * Q))ᴴ * W * (b • (Y * Q)))) =
        (e * (star a * b)) • (Qᴴ * (M * D * (N * (Xᴴ * W * Y))) * Q) := by
    intro r r' M D N M' D' N' e h
    rw [← Matrix.mul_assoc, h, hK, Matrix.mul_smul, Matrix.smul_mul, smul_smul, mul_comm (star a * b)]
    congr 1
    rw [show Qᴴ * (M * D * N) * Q * (Qᴴ * (Xᴴ * W * Y) * Q) = Qᴴ * (M * D * N) * (Q * Qᴴ) * (Xᴴ * W * Y) * Q by
      simp only [Matrix.mul_assoc], hQ, Matrix.mul_one]
    simp only [Matrix.mul_assoc]
  have behind : ∀ {r r' : Nat} {M : Matrix (Fin m) (Fin r) 𝕜} {D : Matrix (Fin r) (Fin r) 𝕜} {N : Matrix (Fin m) (Fin r) 𝕜}
      {M' : Matrix (Fin m') (Fin r') 𝕜} {D' : Matrix (Fin r') (Fin r') 𝕜} {N' : Matrix (Fin m') (Fin r') 𝕜} {e : 𝕜},
      M' * D' * N'ᴴ = e • (Qᴴ * (M * D * Nᴴ) * Q) →
      M' * D' * ((a • (X * Q)) * N')ᴴ = (e * star a) • (Qᴴ * (M * D * (X * N)ᴴ) * (1 : Matrix (Fin n) (Fin n) 𝕜)) := by
    intro r r' M D N M' D' N' e h
    rw [conjTranspose_mul (a • (X * Q)), ← Matrix.mul_assoc, h, conjTranspose_smul, conjTranspose_mul, Matrix.mul_smul,
      Matrix.smul_mul, smul_smul, mul_comm (star a), Matrix.mul_one]
    congr 1
    rw [show Qᴴ * (M * D * Nᴴ) * Q * (Qᴴ * Xᴴ) = Qᴴ * (M * D * Nᴴ) * (Q * Qᴴ) * Xᴴ by simp only [Matrix.mul_assoc], hQ,
      Matrix.mul_one, conjTranspose_mul]
    simp only [Matrix.mul_assoc]
  have hsta : star a ≠ 0 := star_ne_zero.mpr ha
  refine ⟨h1, fun z => ?_, ?_, ?_, ?_, ?_, ?_, ?_⟩
  · rw [Nat.card_eq_fintype_card, Nat.card_eq_fintype_card]
    exact h2 z
  · intro F G hFG
    rw [mixed_products hQ a _ X (behind (hB F G hFG).1),
      show a * ((star a * a)⁻¹ * star a) = 1 by field_simp, one_smul, Matrix.mul_one]
  · intro F G hFG
    rw [mixed_products hQ b _ Y (behind (hB F G hFG).2.1),
      show b * ((star a * a)⁻¹ * (b / a)⁻¹ * star a) = 1 by field_simp, one_smul, Matrix.mul_one]
  · intro F G hFG
    rw [mixed_products hQ a _ X (hB F G hFG).2.2.1, mul_one]
  · intro F G hFG
    rw [mixed_products hQ b _ Y (hB F G hFG).2.2.2, show b * (b / a)⁻¹ = a by field_simp]
  · intro F G hFG
    rw [hadj, hadj, mixed_products hQ a _ X (after (hB F G hFG).1),
      show a * ((star a * a)⁻¹ * (star a * b)) = b by field_simp]
  · intro F G hFG
    rw [hadj, hadj, mixed_products hQ b _ Y (after (hB F G hFG).2.1),
      show b * ((star a * a)⁻¹ * (b / a)⁻¹ * (star a * b)) = b by field_simp]

end Outcome

/-! ### Decompositions -/

theorem dmdEigendecomp_eigh {eigh : Matrix (Fin m) (Fin m) 𝕜 → EighOut 𝕜 m} {argsort : (Fin m → ℝ) → Equiv.Perm (Fin m)}
    {eig : ∀ {r : Nat}, Matrix (Fin r) (Fin r) 𝕜 → EigOut 𝕜 r} {C K : Matrix (Fin m) (Fin m) 𝕜} {atol rtol : Option ℝ}
    {d : DmdDecomp 𝕜 m} (hd : dmdEigendecomp eigh argsort eig C K atol rtol none = .ok d) :
    ∃ (e : Eigh 𝕜 m) (w : Fin e.r → 𝕜) (R L : Matrix (Fin e.r) (Fin e.r) 𝕜),
      utilEigh eigh argsort C atol rtol true = .ok e ∧ d = ⟨e.r, e.w, e.V, w, R, L⟩ := by
  unfold dmdEigendecomp at hd
  split at hd
  · cases hd
  rename_i e he
  dsimp only at hd
  split at hd
  · cases hd
  rename_i lam R L hlr
  cases hd
  exact ⟨e, lam, R, L, he, rfl⟩

/-- The eigenvectors of the correlation arrays of the snapshot method. -/
theorem snaps_sameEigh {eigh : Matrix (Fin m) (Fin m) 𝕜 → EighOut 𝕜 m} {eigh' : Matrix (Fin m') (Fin m') 𝕜 → EighOut 𝕜 m'}
    {argsort : (Fin m → ℝ) → Equiv.Perm (Fin m)} {argsort' : (Fin m' → ℝ) → Equiv.Perm (Fin m')}
    {eig eig' : ∀ {r : Nat}, Matrix (Fin r) (Fin r) 𝕜 → EigOut 𝕜 r}
    {C K : Matrix (Fin m) (Fin m) 𝕜} {C' K' : Matrix (Fin m') (Fin m') 𝕜} {t s : ℝ} {rtol : Option ℝ} {d : DmdDecomp 𝕜 m}
    {d' : DmdDecomp 𝕜 m'} {Q : Matrix (Fin m) (Fin m') 𝕜}
    (hd : dmdEigendecomp eigh argsort eig C K (some t) rtol none = .ok d)
    (hd' : dmdEigendecomp eigh' argsort' eig' C' K' (some (s * t)) rtol none = .ok d') (h : IsEigh C (eigh C))
    (h' : IsEigh C' (eigh' C')) (hQ : Q * Qᴴ = 1) (hC : C' = (s : 𝕜) • (Qᴴ * C * Q)) (hs0 : 0 < s) (ht : 0 ≤ t)
    (hs : IsArgsort argsort) (hs' : IsArgsort argsort') (hr : ∀ t ∈ rtol, 0 ≤ t) : SameSpectrum s Q d d' := by
  obtain ⟨e, w, R, L, he, rfl⟩ := dmdEigendecomp_eigh hd
  obtain ⟨e', w', R', L', he', rfl⟩ := dmdEigendecomp_eigh hd'
  exact fun f g hfg => (eigh_wide h h' hQ hC hs0 ht hs hs' hr e e' he he').2.2 f g hfg

theorem gram_scaled (W : Matrix (Fin n) (Fin n) 𝕜) (X : Matrix (Fin n) (Fin m) 𝕜) (a : 𝕜) (Q : Matrix (Fin m) (Fin m') 𝕜) :
    (a • (X * Q))ᴴ * W * (a • (X * Q)) = ((‖a‖ ^ 2 : ℝ) : 𝕜) • (Qᴴ * (Xᴴ * W * X) * Q) := by
  rw [gram_mixed, norm_sq_smul]

theorem dmdFinish_decomp {d : DmdDecomp 𝕜 m} {sqrtInv : Matrix (Fin d.r) (Fin d.r) 𝕜} {cross : Matrix (Fin m) (Fin m) 𝕜}
    {X Y : Matrix (Fin n) (Fin m) 𝕜} {modeIndices : Option (List Int)} {res : DmdResult 𝕜 n m}
    (hres : dmdFinish d sqrtInv cross X Y modeIndices = .ok res) : res.decomp = d := by
  unfold dmdFinish at hres
  dsimp only at hres
  split at hres
  · split at hres
    · cases hres
    split at hres
    · cases hres
    split at hres
    · cases hres
    cases hres
    rfl
  · cases hres

theorem dmdDirectRest_svd {lib : PodLib 𝕜 n m} {eig : ∀ {r : Nat}, Matrix (Fin r) (Fin r) 𝕜 → EigOut 𝕜 r}
    {B X Y : Matrix (Fin n) (Fin m) 𝕜} {cross : Svd 𝕜 n m → Matrix (Fin m) (Fin m) 𝕜} {modeIndices : Option (List Int)}
    {atol rtol : Option ℝ} {res : DmdResult 𝕜 n m}
    (hres : dmdDirectRest lib eig B cross X Y modeIndices atol rtol none = .ok res) :
    ∃ (e : Svd 𝕜 n m) (w : Fin e.r → 𝕜) (R L : Matrix (Fin e.r) (Fin e.r) 𝕜),
      utilSvd lib.svd B atol rtol = .ok e ∧ res.decomp = ⟨e.r, fun i => e.S i ^ (2 : ℝ), e.V, w, R, L⟩ := by
  unfold dmdDirectRest at hres
  split at hres
  · cases hres
  rename_i e he
  dsimp only at hres
  split at hres
  · cases hres
  rename_i lam R L hlr
  exact ⟨e, lam, R, L, he, dmdFinish_decomp hres⟩

/-- The right singular vectors of the weighted data of the direct method. -/
theorem direct_sameEigh {lib : PodLib 𝕜 n m} {lib' : PodLib 𝕜 n m'} {eig eig' : ∀ {r : Nat}, Matrix (Fin r) (Fin r) 𝕜 → EigOut 𝕜 r}
    {B X Y : Matrix (Fin n) (Fin m) 𝕜} {B' X' Y' : Matrix (Fin n) (Fin m') 𝕜} {cross : Svd 𝕜 n m → Matrix (Fin m) (Fin m) 𝕜}
    {cross' : Svd 𝕜 n m' → Matrix (Fin m') (Fin m') 𝕜}
    {idx idx' : Option (List Int)} {t : ℝ} {rtol : Option ℝ} {res : DmdResult 𝕜 n m} {res' : DmdResult 𝕜 n m'} {a : 𝕜}
    {Q : Matrix (Fin m) (Fin m') 𝕜} {T : Matrix (Fin n) (Fin n) 𝕜}
    (hres : dmdDirectRest lib eig B cross X Y idx (some t) rtol none = .ok res)
    (hres' : dmdDirectRest lib' eig' B' cross' X' Y' idx' (some (‖a‖ * t)) rtol none = .ok res')
    (h : ∀ B, IsSvd B (lib.svd B)) (h' : ∀ B, IsSvd B (lib'.svd B)) (hT : Tᴴ * T = 1) (hQ : Q * Qᴴ = 1)
    (hB : B' = a • (T * B * Q)) (ha : a ≠ 0) (ht : 0 ≤ t) (hr : ∀ t ∈ rtol, 0 ≤ t) :
    SameSpectrum (‖a‖ ^ 2) Q res.decomp res'.decomp := by
  obtain ⟨e, w, R, L, he, hd⟩ := dmdDirectRest_svd hres
  obtain ⟨e', w', R', L', he', hd'⟩ := dmdDirectRest_svd hres'
  rw [hd, hd']
  intro f g hfg
  refine ((svd_wide (h _) (h' _) hT hQ hB ha ht hr e e' he he').2.2 (fun x => f (x ^ (2 : ℝ))) (fun x => g (x ^ (2 : ℝ)))
    fun x hx => ?_).2
  rw [Real.mul_rpow (norm_nonneg a) hx.le, Real.rpow_two ‖a‖]
  exact hfg _ (Real.rpow_pos_of_pos hx _)

/-! ### Arrays -/

section Snaps

variable (lib : PodLib 𝕜 n m) (lib' : PodLib 𝕜 n m') (eig eig' : ∀ {r : Nat}, Matrix (Fin r) (Fin r) 𝕜 → EigOut 𝕜 r)
  (weights : Option (NdArray 𝕜)) (ws : Weights 𝕜) (t : ℝ) (rtol : Option ℝ) (a b : 𝕜) (Q : Matrix (Fin m) (Fin m') 𝕜)
  (idx idx' : Option (List Int))

/-- **C95.** The snapshot method for pairs of vectors: whatever the libraries choose, and for mixed pairs in other
units, if the absolute tolerance is in the units of the correlation array and the eigenvalues of each result are
distinct. -/
theorem C95_snaps_pairs (ha : a ≠ 0) (hb : b ≠ 0) (hQ : Q * Qᴴ = 1) (ht : 0 ≤ t) (hr : ∀ t ∈ rtol, 0 ≤ t)
    (hs : IsArgsort lib.argsort) (hs' : IsArgsort lib'.argsort) (hws : arraysInit weights = .ok ws) (hfit : ws.Fits n)
    (hW : (ws.matrix n).IsHermitian) (hlib : ∀ C, C.IsHermitian → IsEigh C (lib.eigh C))
    (hlib' : ∀ C, C.IsHermitian → IsEigh C (lib'.eigh C)) (X Y : Matrix (Fin n) (Fin m) 𝕜)
    (res : DmdResult 𝕜 n m) (res' : DmdResult 𝕜 n m')
    (corr cross : Matrix (Fin m) (Fin m) 𝕜) (corr' cross' : Matrix (Fin m') (Fin m') 𝕜)
    (hres : dmdSnapsPairs lib eig X ⟨n, m, Y⟩ idx weights (some t) rtol none = .ok (res, corr, cross))
    (hres' : dmdSnapsPairs lib' eig' (a • (X * Q)) ⟨n, m', b • (Y * Q)⟩ idx' weights (some (‖a‖ ^ 2 * t)) rtol none =
      .ok (res', corr', cross'))
    (heig : EigOfReduced eig (ws.matrix n) X Y res.decomp)
    (heig' : EigOfReduced eig' (ws.matrix n) (a • (X * Q)) (b • (Y * Q)) res'.decomp)
    (hinj : Function.Injective res.decomp.eigvals) (hinj' : Function.Injective res'.decomp.eigvals) :
    ∃ exact proj adjoint exact' proj' adjoint',
      (Chosen exact idx res.exactModes ∧ Chosen proj idx res.projModes ∧ Chosen adjoint idx res.adjointModes) ∧
      (Chosen exact' idx' res'.exactModes ∧ Chosen proj' idx' res'.projModes ∧ Chosen adjoint' idx' res'.adjointModes) ∧
      SameDmd a b Q res.decomp.eigvals res'.decomp.eigvals exact proj adjoint exact' proj' adjoint'
        res.projCoeffs res.advProjCoeffs res'.projCoeffs res'.advProjCoeffs := by
  have na : 0 < ‖a‖ ^ 2 := pow_pos (norm_pos_iff.mpr ha) 2
  obtain ⟨rfl, rfl, hd, ho⟩ := dmdSnapsPairs_ok lib eig idx weights ws _ rtol none hws hfit X Y res _ _ hres
  obtain ⟨rfl, rfl, hd', ho'⟩ := dmdSnapsPairs_ok lib' eig' idx' weights ws _ rtol none hws hfit _ _ res' _ _ hres'
  obtain ⟨hc, hLR⟩ := dmdEigendecomp_core _ _ eig _ _ t rtol none _ hd ht hr hs (gram_hermitian hW _)
    (hlib _ (gram_hermitian hW _)) heig
  obtain ⟨hc', hLR'⟩ := dmdEigendecomp_core _ _ eig' _ _ _ rtol none _ hd' (mul_nonneg na.le ht) hr hs'
    (gram_hermitian hW _) (hlib' _ (gram_hermitian hW _)) heig'
  refine ⟨_, _, _, _, _, _, ⟨ho.exact, ho.proj, ho.adjoint⟩, ⟨ho'.exact, ho'.proj, ho'.adjoint⟩, ?_⟩
  rw [ho.projCoeffs, ho.advProjCoeffs, ho'.projCoeffs, ho'.advProjCoeffs]
  exact same_dmd hQ ha hb hc hc' (hLR hinj) (hLR' hinj') (snaps_sameEigh hd hd' (hlib _ (gram_hermitian hW _))
    (hlib' _ (gram_hermitian hW _)) hQ (gram_scaled _ _ _ _) na ht hs hs' hr)

end Snaps

section SnapsSeq

variable (lib lib' : PodLib 𝕜 n m) (eig eig' : ∀ {r : Nat}, Matrix (Fin r) (Fin r) 𝕜 → EigOut 𝕜 r)
  (weights : Option (NdArray 𝕜)) (ws : Weights 𝕜) (t : ℝ) (rtol : Option ℝ) (a : 𝕜) (idx idx' : Option (List Int))

/-- **C95.** The snapshot method for sequential data in other units. -/
theorem C95_snaps_sequential (ha : a ≠ 0) (ht : 0 ≤ t) (hr : ∀ t ∈ rtol, 0 ≤ t)
    (hs : IsArgsort lib.argsort) (hs' : IsArgsort lib'.argsort) (hws : arraysInit weights = .ok ws) (hfit : ws.Fits n)
    (hW : (ws.matrix n).IsHermitian) (hlib : ∀ C, C.IsHermitian → IsEigh C (lib.eigh C))
    (hlib' : ∀ C, C.IsHermitian → IsEigh C (lib'.eigh C)) (Z : Matrix (Fin n) (Fin (m + 1)) 𝕜) (res res' : DmdResult 𝕜 n m)
    (corr cross corr' cross' : Matrix (Fin m) (Fin m) 𝕜)
    (hres : dmdSnapsSeq lib eig Z idx weights (some t) rtol none = .ok (res, corr, cross))
    (hres' : dmdSnapsSeq lib' eig' (a • Z) idx' weights (some (‖a‖ ^ 2 * t)) rtol none = .ok (res', corr', cross'))
    (heig : EigOfReduced eig (ws.matrix n) (seqFirst Z) (seqNext Z) res.decomp)
    (heig' : EigOfReduced eig' (ws.matrix n) (seqFirst (a • Z)) (seqNext (a • Z)) res'.decomp)
    (hinj : Function.Injective res.decomp.eigvals) (hinj' : Function.Injective res'.decomp.eigvals) :
    ∃ exact proj adjoint exact' proj' adjoint',
      (Chosen exact idx res.exactModes ∧ Chosen proj idx res.projModes ∧ Chosen adjoint idx res.adjointModes) ∧
      (Chosen exact' idx' res'.exactModes ∧ Chosen proj' idx' res'.projModes ∧ Chosen adjoint' idx' res'.adjointModes) ∧
      SameDmd a a 1 res.decomp.eigvals res'.decomp.eigvals exact proj adjoint exact' proj' adjoint'
        res.projCoeffs res.advProjCoeffs res'.projCoeffs res'.advProjCoeffs := by
  have na : 0 < ‖a‖ ^ 2 := pow_pos (norm_pos_iff.mpr ha) 2
  have hX : seqFirst (a • Z) = a • (seqFirst Z * (1 : Matrix (Fin m) (Fin m) 𝕜)) := by rw [Matrix.mul_one]; rfl
  have hY : seqNext (a • Z) = a • (seqNext Z * (1 : Matrix (Fin m) (Fin m) 𝕜)) := by rw [Matrix.mul_one]; rfl
  have hQ : (1 : Matrix (Fin m) (Fin m) 𝕜) * 1ᴴ = 1 := by rw [conjTranspose_one, Matrix.mul_one]
  obtain ⟨h1, h2, hd, ho⟩ := dmdSnapsSeq_ok lib eig idx weights ws _ rtol none hws hfit Z res _ _ hres
  obtain ⟨h1', h2', hd', ho'⟩ := dmdSnapsSeq_ok lib' eig' idx' weights ws _ rtol none hws hfit _ res' _ _ hres'
  change corr' = (seqFirst (a • Z))ᴴ * ws.matrix n * seqFirst (a • Z) at h1'
  change cross' = (seqFirst (a • Z))ᴴ * ws.matrix n * seqNext (a • Z) at h2'
  change DmdOutcome _ (seqFirst (a • Z)) (seqNext (a • Z)) _ _ at ho'
  rw [hX, hY] at h2' ho' heig'
  rw [hX] at h1'
  subst h1 h2 h1' h2'
  obtain ⟨hc, hLR⟩ := dmdEigendecomp_core _ _ eig _ _ t rtol none _ hd ht hr hs (gram_hermitian hW _)
    (hlib _ (gram_hermitian hW _)) heig
  obtain ⟨hc', hLR'⟩ := dmdEigendecomp_core _ _ eig' _ _ _ rtol none _ hd' (mul_nonneg na.le ht) hr hs'
    (gram_hermitian hW _) (hlib' _ (gram_hermitian hW _)) heig'
  refine ⟨_, _, _, _, _, _, ⟨ho.exact, ho.proj, ho.adjoint⟩, ⟨ho'.exact, ho'.proj, ho'.adjoint⟩, ?_⟩
  rw [ho.projCoeffs, ho.advProjCoeffs, ho'.projCoeffs, ho'.advProjCoeffs]
  exact same_dmd hQ ha ha hc hc' (hLR hinj) (hLR' hinj') (snaps_sameEigh hd hd' (hlib _ (gram_hermitian hW _))
    (hlib' _ (gram_hermitian hW _)) hQ (gram_scaled _ _ _ _) na ht hs hs' hr)

end SnapsSeq

section Direct

variable (lib : PodLib 𝕜 n m) (lib' : PodLib 𝕜 n m') (eig eig' : ∀ {r : Nat}, Matrix (Fin r) (Fin r) 𝕜 → EigOut 𝕜 r)
  (ws : DirectWeights 𝕜) (t : ℝ) (rtol : Option ℝ) (a b : 𝕜) (Q : Matrix (Fin m) (Fin m') 𝕜) (idx idx' : Option (List Int))

theorem directWeights_posDef (hfit : ws.Fits n) : (ws.matrix n).PosDef := by
  cases ws with
  | none => exact PosDef.one
  | higher => exact hfit.elim
  | d1 k w =>
    refine PosDef.diagonal fun i => ?_
    exact RCLike.ofReal_pos.mpr (hfit.2 i)
  | d2 p q w => exact hfit.2.2

/-- Two square roots of the weights differ by a unitary array. -/
theorem directRoots (hfit : ws.Fits n) {G G' : Matrix (Fin n) (Fin n) 𝕜} (hG : Gᴴ * G = ws.matrix n)
    (hG' : G'ᴴ * G' = ws.matrix n) : ∃ T : Matrix (Fin n) (Fin n) 𝕜, Tᴴ * T = 1 ∧ G' = T * G := by
  have hu := (directWeights_posDef ws hfit).isUnit
  rw [← hG, isUnit_iff_isUnit_det, det_mul] at hu
  have hdet : IsUnit G.det := isUnit_of_mul_isUnit_right hu
  have hGG : G * G⁻¹ = 1 := mul_nonsing_inv G hdet
  refine ⟨G' * G⁻¹, ?_, ?_⟩
  · rw [conjTranspose_mul, show G⁻¹ᴴ * G'ᴴ * (G' * G⁻¹) = G⁻¹ᴴ * (G'ᴴ * G') * G⁻¹ by simp only [Matrix.mul_assoc], hG', ← hG,
      show G⁻¹ᴴ * (Gᴴ * G) * G⁻¹ = (G * G⁻¹)ᴴ * (G * G⁻¹) by rw [conjTranspose_mul]; simp only [Matrix.mul_assoc], hGG,
      conjTranspose_one, Matrix.mul_one]
  · rw [Matrix.mul_assoc, nonsing_inv_mul G hdet, Matrix.mul_one]

/-- **C95.** The direct method for pairs of vectors; the absolute tolerance is in the units of the vectors. -/
theorem C95_direct_pairs (ha : a ≠ 0) (hb : b ≠ 0) (hQ : Q * Qᴴ = 1) (ht : 0 ≤ t) (hr : ∀ t ∈ rtol, 0 ≤ t) (hfit : ws.Fits n)
    (hchol : ∀ p q w, ws = .d2 p q w → IsCholesky lib.cholesky (ws.matrix n))
    (hchol' : ∀ p q w, ws = .d2 p q w → IsCholesky lib'.cholesky (ws.matrix n))
    (hlib : ∀ B, IsSvd B (lib.svd B)) (hlib' : ∀ B, IsSvd B (lib'.svd B)) (X Y : Matrix (Fin n) (Fin m) 𝕜)
    (res : DmdResult 𝕜 n m) (res' : DmdResult 𝕜 n m')
    (hres : dmdDirectPairs lib eig X ⟨n, m, Y⟩ idx ws (some t) rtol none = .ok res)
    (hres' : dmdDirectPairs lib' eig' (a • (X * Q)) ⟨n, m', b • (Y * Q)⟩ idx' ws (some (‖a‖ * t)) rtol none = .ok res')
    (heig : EigOfReduced eig (ws.matrix n) X Y res.decomp)
    (heig' : EigOfReduced eig' (ws.matrix n) (a • (X * Q)) (b • (Y * Q)) res'.decomp)
    (hinj : Function.Injective res.decomp.eigvals) (hinj' : Function.Injective res'.decomp.eigvals) :
    ∃ exact proj adjoint exact' proj' adjoint',
      (Chosen exact idx res.exactModes ∧ Chosen proj idx res.projModes ∧ Chosen adjoint idx res.adjointModes) ∧
      (Chosen exact' idx' res'.exactModes ∧ Chosen proj' idx' res'.projModes ∧ Chosen adjoint' idx' res'.adjointModes) ∧
      SameDmd a b Q res.decomp.eigvals res'.decomp.eigvals exact proj adjoint exact' proj' adjoint'
        res.projCoeffs res.advProjCoeffs res'.projCoeffs res'.advProjCoeffs := by
  have na : 0 < ‖a‖ := norm_pos_iff.mpr ha
  obtain ⟨hc, hLR, ho⟩ := dmdDirectPairs_ok lib eig idx ws t rtol none hfit hchol ht hr hlib X Y res hres heig
  obtain ⟨hc', hLR', ho'⟩ := dmdDirectPairs_ok lib' eig' idx' ws _ rtol none hfit hchol' (mul_nonneg na.le ht) hr hlib' _ _
    res' hres' heig'
  have hV : SameSpectrum (‖a‖ ^ 2) Q res.decomp res'.decomp := by
    unfold dmdDirectPairs at hres hres'
    split at hres
    · cases hres
    rename_i so hso
    split at hres'
    · cases hres'
    rename_i so' hso'
    simp only [and_self, dite_true] at hres hres'
    obtain ⟨G, hG, hdata⟩ := directSqrtWeights_ok lib.cholesky ws hfit hchol so hso
    obtain ⟨G', hG', hdata'⟩ := directSqrtWeights_ok lib'.cholesky ws hfit hchol' so' hso'
    obtain ⟨T, hT, rfl⟩ := directRoots ws hfit hG hG'
    refine direct_sameEigh hres hres' hlib hlib' hT hQ ?_ ha ht hr
    rw [hdata, hdata', Matrix.mul_smul]
    simp only [Matrix.mul_assoc]
  refine ⟨_, _, _, _, _, _, ⟨ho.exact, ho.proj, ho.adjoint⟩, ⟨ho'.exact, ho'.proj, ho'.adjoint⟩, ?_⟩
  rw [ho.projCoeffs, ho.advProjCoeffs, ho'.projCoeffs, ho'.advProjCoeffs]
  exact same_dmd hQ ha hb hc hc' (hLR hinj) (hLR' hinj') hV

end Direct

section DirectSeq

variable (lib lib' : PodLib 𝕜 n m) (eig eig' : ∀ {r : Nat}, Matrix (Fin r) (Fin r) 𝕜 → EigOut 𝕜 r)
  (ws : DirectWeights 𝕜) (t : ℝ) (rtol : Option ℝ) (a : 𝕜) (idx idx' : Option (List Int))

/-- **C95.** The direct method for sequential data in other units. -/
theorem C95_direct_sequential (ha : a ≠ 0) (ht : 0 ≤ t) (hr : ∀ t ∈ rtol, 0 ≤ t) (hfit : ws.Fits n)
    (hchol : ∀ p q w, ws = .d2 p q w → IsCholesky lib.cholesky (ws.matrix n))
    (hchol' : ∀ p q w, ws = .d2 p q w → IsCholesky lib'.cholesky (ws.matrix n))
    (hlib : ∀ B, IsSvd B (lib.svd B)) (hlib' : ∀ B, IsSvd B (lib'.svd B)) (Z : Matrix (Fin n) (Fin (m + 1)) 𝕜)
    (res res' : DmdResult 𝕜 n m) (hres : dmdDirectSeq lib eig Z idx ws (some t) rtol none = .ok res)
    (hres' : dmdDirectSeq lib' eig' (a • Z) idx' ws (some (‖a‖ * t)) rtol none = .ok res')
    (heig : EigOfReduced eig (ws.matrix n) (seqFirst Z) (seqNext Z) res.decomp)
    (heig' : EigOfReduced eig' (ws.matrix n) (seqFirst (a • Z)) (seqNext (a • Z)) res'.decomp)
    (hinj : Function.Injective res.decomp.eigvals) (hinj' : Function.Injective res'.decomp.eigvals) :
    ∃ exact proj adjoint exact' proj' adjoint',
      (Chosen exact idx res.exactModes ∧ Chosen proj idx res.projModes ∧ Chosen adjoint idx res.adjointModes) ∧
      (Chosen exact' idx' res'.exactModes ∧ Chosen proj' idx' res'.projModes ∧ Chosen adjoint' idx' res'.adjointModes) ∧
      SameDmd a a 1 res.decomp.eigvals res'.decomp.eigvals exact proj adjoint exact' proj' adjoint'
        res.projCoeffs res.advProjCoeffs res'.projCoeffs res'.advProjCoeffs := by
  have na : 0 < ‖a‖ := norm_pos_iff.mpr ha
  have hX : seqFirst (a • Z) = a • (seqFirst Z * (1 : Matrix (Fin m) (Fin m) 𝕜)) := by rw [Matrix.mul_one]; rfl
  have hY : seqNext (a • Z) = a • (seqNext Z * (1 : Matrix (Fin m) (Fin m) 𝕜)) := by rw [Matrix.mul_one]; rfl
  have hQ : (1 : Matrix (Fin m) (Fin m) 𝕜) * 1ᴴ = 1 := by rw [conjTranspose_one, Matrix.mul_one]
  obtain ⟨hc, hLR, ho⟩ := dmdDirectSeq_ok lib eig idx ws t rtol none hfit hchol ht hr hlib Z res hres _ _ rfl rfl heig
  obtain ⟨hc', hLR', ho'⟩ := dmdDirectSeq_ok lib' eig' idx' ws _ rtol none hfit hchol' (mul_nonneg na.le ht) hr hlib' _
    res' hres' (seqFirst (a • Z)) (seqNext (a • Z)) rfl rfl heig'
  rw [hX, hY] at hc' ho'
  have hV : SameSpectrum (‖a‖ ^ 2) 1 res.decomp res'.decomp := by
    unfold dmdDirectSeq at hres hres'
    split at hres
    · cases hres
    rename_i so hso
    split at hres'
    · cases hres'
    rename_i so' hso'
    dsimp only at hres hres'
    obtain ⟨G, hG, hdata⟩ := directSqrtWeights_ok lib.cholesky ws hfit hchol so hso
    obtain ⟨G', hG', hdata'⟩ := directSqrtWeights_ok lib'.cholesky ws hfit hchol' so' hso'
    obtain ⟨T, hT, rfl⟩ := directRoots ws hfit hG hG'
    refine direct_sameEigh hres hres' hlib hlib' hT hQ ?_ ha ht hr
    rw [hdata, hdata', Matrix.mul_smul, Matrix.mul_one, Matrix.mul_assoc]
    rfl
  refine ⟨_, _, _, _, _, _, ⟨ho.exact, ho.proj, ho.adjoint⟩, ⟨ho'.exact, ho'.proj, ho'.adjoint⟩, ?_⟩
  rw [ho.projCoeffs, ho.advProjCoeffs, ho'.projCoeffs, ho'.advProjCoeffs]
  exact same_dmd hQ ha ha hc hc' (hLR hinj) (hLR' hinj') hV

end DirectSeq

/-! ### Single modes -/

/-- If eigenvalues are distinct, corresponding modes are the same up to a factor that is not zero, adjoint modes up to
the inverse of its conjugate, and coefficients up to its inverse. -/
theorem C95_single_modes {r r' : Nat} {a b : 𝕜} {Q : Matrix (Fin m) (Fin m) 𝕜} {eigvals : Fin r → 𝕜} {eigvals' : Fin r' → 𝕜}
    {exact proj adjoint : Matrix (Fin n) (Fin r) 𝕜} {exact' proj' adjoint' : Matrix (Fin n) (Fin r') 𝕜}
    {coeffs adv : Matrix (Fin r) (Fin m) 𝕜} {coeffs' adv' : Matrix (Fin r') (Fin m) 𝕜} (W : Matrix (Fin n) (Fin n) 𝕜)
    (h : SameDmd a b Q eigvals eigvals' exact proj adjoint exact' proj' adjoint' coeffs adv coeffs' adv') (ha : a ≠ 0)
    (hb : b ≠ 0) (hinj : Function.Injective eigvals) (hinj' : Function.Injective eigvals')
    (hdual : adjointᴴ * W * proj = 1) (hdual' : adjoint'ᴴ * W * proj' = 1) (i : Fin r) :
    ∃ i' : Fin r', eigvals' i' = b / a * eigvals i ∧ ∃ c : 𝕜, c ≠ 0 ∧
      (∀ k, proj' k i' = c * proj k i ∧ exact' k i' = c * exact k i ∧ star c * adjoint' k i' = adjoint k i) ∧
      ∀ j, c * coeffs' i' j = a * (coeffs * Q) i j ∧ c * adv' i' j = b * (adv * Q) i j := by
  classical
  have nab : b / a ≠ 0 := div_ne_zero hb ha
  obtain ⟨i', hi'⟩ : ∃ i', eigvals' i' = b / a * eigvals i := by
    have h1 := h.multiplicities (eigvals i)
    have h2 : 0 < Nat.card {j // eigvals j = eigvals i} := Nat.card_pos_iff.mpr ⟨⟨⟨i, rfl⟩⟩, inferInstance⟩
    rw [← h1] at h2
    obtain ⟨⟨⟨i', hi'⟩⟩, -⟩ := Nat.card_pos_iff.mp h2
    exact ⟨i', hi'⟩
  refine ⟨i', hi', ?_⟩
  have hFG : ∀ x : 𝕜, (if b / a * x = eigvals' i' then (1 : 𝕜) else 0) = if x = eigvals i then 1 else 0 := by
    intro x
    rw [hi']
    simp only [mul_right_inj' nab]
  have col : ∀ {s k : Nat} (v : Fin s → 𝕜) (_ : Function.Injective v) (i : Fin s) (Ψ : Matrix (Fin n) (Fin s) 𝕜)
      (Θ : Matrix (Fin s) (Fin k) 𝕜) (p : Fin n) (q : Fin k),
      (Ψ * diagonal (fun j => if v j = v i then (1 : 𝕜) else 0) * Θ) p q = Ψ p i * Θ i q := by
    intro s k v hv i Ψ Θ p q
    rw [Matrix.mul_apply, Finset.sum_eq_single i]
    · rw [mul_diagonal, if_pos rfl, mul_one]
    · intro j _ hj
      rw [mul_diagonal, if_neg fun hc => hj (hv hc), mul_zero, zero_mul]
    · intro hc
      exact absurd (Finset.mem_univ _) hc
  have one : ∀ {s : Nat} (i : Fin s) (Ψ Φ : Matrix (Fin n) (Fin s) 𝕜), Ψᴴ * W * Φ = 1 →
      ∑ q, ∑ l, star (Ψ q i) * W q l * Φ l i = 1 := by
    intro s i Ψ Φ hΨ
    have h1 := congrFun (congrFun hΨ i) i
    rw [Matrix.mul_assoc, Matrix.mul_apply, one_apply_eq] at h1
    rw [← h1]
    refine Finset.sum_congr rfl fun q _ => ?_
    rw [Matrix.mul_apply, Finset.mul_sum, conjTranspose_apply]
    exact Finset.sum_congr rfl fun l _ => mul_assoc _ _ _
  have hF := h.proj_adjoint (fun x => if x = eigvals i then 1 else 0) (fun x => if x = eigvals' i' then 1 else 0) hFG
  have hE := h.exact_adjoint (fun x => if x = eigvals i then 1 else 0) (fun x => if x = eigvals' i' then 1 else 0) hFG
  have hC := h.proj_coeffs (fun x => if x = eigvals i then 1 else 0) (fun x => if x = eigvals' i' then 1 else 0) hFG
  have hA := h.proj_adv (fun x => if x = eigvals i then 1 else 0) (fun x => if x = eigvals' i' then 1 else 0) hFG
  have hpq : ∀ p q, proj' p i' * star (adjoint' q i') = proj p i * star (adjoint q i) := by
    intro p q
    have := congrFun (congrFun hF p) q
    rwa [col _ hinj', col _ hinj] at this
  have heq : ∀ p q, exact' p i' * star (adjoint' q i') = exact p i * star (adjoint q i) := by
    intro p q
    have := congrFun (congrFun hE p) q
    rwa [col _ hinj', col _ hinj] at this
  have hcq : ∀ p j, proj' p i' * coeffs' i' j = a * (proj p i * (coeffs * Q) i j) := by
    intro p j
    have := congrFun (congrFun hC p) j
    rwa [col _ hinj', Matrix.smul_apply, Matrix.mul_assoc, col _ hinj] at this
  have haq : ∀ p j, proj' p i' * adv' i' j = b * (proj p i * (adv * Q) i j) := by
    intro p j
    have := congrFun (congrFun hA p) j
    rwa [col _ hinj', Matrix.smul_apply, Matrix.mul_assoc, col _ hinj] at this
  set c := ∑ q, ∑ l, star (adjoint q i) * W q l * proj' l i' with hc
  have mult : ∀ (x x' : 𝕜), (∀ q, x' * star (adjoint' q i') = x * star (adjoint q i)) → x' = c * x := by
    intro x x' hx
    calc x' = x' * ∑ q, ∑ l, star (adjoint' q i') * W q l * proj' l i' := by rw [one i' _ _ hdual', mul_one]
      _ = ∑ q, ∑ l, (x' * star (adjoint' q i')) * W q l * proj' l i' := by simp only [Finset.mul_sum, mul_assoc]
      _ = ∑ q, ∑ l, (x * star (adjoint q i)) * W q l * proj' l i' := by simp only [hx]
      _ = c * x := by
        rw [hc, mul_comm]
        simp only [Finset.mul_sum, mul_assoc]
  have hk : ∀ k, proj' k i' = c * proj k i := fun k => mult _ _ (hpq k)
  have hpos : ∃ p, proj p i ≠ 0 := by
    by_contra hcon
    push Not at hcon
    have h1 := one i _ _ hdual
    simp only [hcon, mul_zero, Finset.sum_const_zero] at h1
    exact zero_ne_one h1
  have hpos' : ∃ p, proj' p i' ≠ 0 := by
    by_contra hcon
    push Not at hcon
    have h1 := one i' _ _ hdual'
    simp only [hcon, mul_zero, Finset.sum_const_zero] at h1
    exact zero_ne_one h1
  have hc0 : c ≠ 0 := by
    obtain ⟨p, hp⟩ := hpos'
    intro h0
    rw [hk, h0, zero_mul] at hp
    exact hp rfl
  obtain ⟨p, hp⟩ := hpos
  refine ⟨c, hc0, fun k => ⟨hk k, mult _ _ (heq k), ?_⟩, fun j => ⟨?_, ?_⟩⟩
  · have h1 := hpq p k
    rw [hk, mul_assoc, mul_left_comm, mul_right_inj' hp] at h1
    have h2 := congrArg star h1
    rwa [star_mul', star_star, star_star] at h2
  · have h1 := hcq p j
    rw [hk] at h1
    refine mul_left_cancel₀ hp ?_
    linear_combination h1
  · have h1 := haq p j
    rw [hk] at h1
    refine mul_left_cancel₀ hp ?_
    linear_combination h1

/-! ### Examples -/

/-- A library that chooses the eigenvectors `V` of multiples of the identity. -/
theorem exists_choosingLib (V : Matrix (Fin 2) (Fin 2) ℝ) (hV : Vᴴ * V = 1) (c : ℝ) (hc : 0 < c) :
    ∃ lib : PodLib ℝ 2 2, (∀ a, a.IsHermitian → IsEigh a (lib.eigh a)) ∧ IsArgsort lib.argsort ∧
    utilEigh lib.eigh lib.argsort (c • 1) (some (c * (1 / 10))) none true = .ok ⟨2, fun _ => c, V⟩ := by
  classical
  obtain ⟨lib, hsvd, heigh, hs, -⟩ := exists_podLib (𝕜 := ℝ) 2 2
  have hV' : V * Vᴴ = 1 := mul_eq_one_comm.mp hV
  refine ⟨⟨fun a => if a = c • 1 then ⟨fun _ => c, V⟩ else lib.eigh a,
    fun x => if Monotone (x ∘ Fin.revPerm) then Fin.revPerm else lib.argsort x, lib.svd, lib.cholesky⟩, ?_, ?_, ?_⟩
  · intro a ha
    dsimp only
    split
    · rename_i h
      subst h
      refine ⟨hV, ?_⟩
      ext i j
      rw [Matrix.smul_mul, Matrix.one_mul, Matrix.smul_apply, mul_diagonal]
      exact mul_comm _ _
    · exact heigh a ha
  · intro x
    dsimp only
    split
    · rename_i h
      exact h
    · exact hs x
  · have hc' : c * (1 / 10) < |c| := by
      rw [abs_of_pos hc]
      linarith
    have h1 : numRetained (fun _ : Fin 2 => c) (some (c * (1 / 10))) none = .ok 2 := by
      simp only [numRetained, numAbove]
      congr 1
      rw [Finset.filter_true_of_mem]
      · rfl
      · intro i _
        exact hc'
    have h2 : adjustTol (fun _ : Fin 2 => c) (some (c * (1 / 10))) true = .ok (some (c * (1 / 10))) := by
      simp only [adjustTol, npMin, if_true, dif_pos (Nat.zero_lt_two)]
      rw [if_neg]
      exact not_lt.mpr (Finset.le_inf' _ _ fun _ _ => hc.le)
    unfold utilEigh
    simp only [if_true]
    have hm : Monotone ((fun _ : Fin 2 => |c|) ∘ Fin.revPerm) := fun _ _ _ => le_refl _
    simp only [if_pos hm]
    rw [h2]
    dsimp only
    rw [h1]
    dsimp only
    have h3 : (V.submatrix id fun i : Fin 2 => Fin.revPerm i.rev) = V := by
      ext i j
      simp
    rw [h3]
    rfl

/-- The decomposition of orthogonal vectors of length `√c`, and what the program makes of it. -/
theorem snaps_orthogonal (V : Matrix (Fin 2) (Fin 2) ℝ) (hV : Vᴴ * V = 1) (c : ℝ) (hc : 0 < c)
    (eig : ∀ {r : Nat}, Matrix (Fin r) (Fin r) ℝ → EigOut ℝ r) (X Y : Matrix (Fin 2) (Fin 2) ℝ) (hX : Xᴴ * X = c • 1)
    (maxNum : Option Nat) :
    ∃ (lib : PodLib ℝ 2 2) (res : DmdResult ℝ 2 2) (corr cross : Matrix (Fin 2) (Fin 2) ℝ),
      (∀ a, a.IsHermitian → IsEigh a (lib.eigh a)) ∧ IsArgsort lib.argsort ∧
      dmdSnapsPairs lib eig X ⟨2, 2, Y⟩ none none (some (c * (1 / 10))) none maxNum = .ok (res, corr, cross) ∧
      let e := (⟨2, fun _ => c, V⟩ : Eigh ℝ 2).truncate maxNum
      let o := eig (lowOrderMap (diagPow (𝕜 := ℝ) e.w (-0.5)) e.V (Xᴴ * Y))
      res.decomp = ⟨e.r, e.w, e.V, o.w, o.R, Matrix.of fun i j => o.L i j / star ((o.Lᴴ * o.R).diag j)⟩ := by
  obtain ⟨lib, heigh, hs, hu⟩ := exists_choosingLib V hV c hc
  obtain ⟨⟨res, corr, cross⟩, hres⟩ := (C26_snaps_no_error lib eig (c * (1 / 10)) none maxNum Nat.zero_lt_two none .none rfl
    trivial (Matrix.of fun _ _ => 0) X Y).2
  obtain ⟨h1, h2, hd, -⟩ := dmdSnapsPairs_ok lib eig none none .none _ none maxNum rfl trivial X Y res _ _ hres
  have h1' : corr = c • 1 := by
    rw [h1, show (Weights.none : Weights ℝ).matrix 2 = 1 from rfl, Matrix.mul_one, hX]
  have h2' : cross = Xᴴ * Y := by
    rw [h2, show (Weights.none : Weights ℝ).matrix 2 = 1 from rfl, Matrix.mul_one]
  refine ⟨lib, res, corr, cross, heigh, hs, hres, ?_⟩
  rw [h1', h2'] at hd
  unfold dmdEigendecomp at hd
  rw [hu] at hd
  exact (Except.ok.inj hd).symm

/-- Two vectors in the other order. -/
def swapTwo : Matrix (Fin 2) (Fin 2) ℝ := !![0, 1; 1, 0]

theorem swapTwo_mul : swapTwo * swapTwo = 1 := by
  ext i j
  fin_cases i <;> fin_cases j <;> simp [swapTwo, Matrix.mul_apply]

theorem swapTwo_conj : swapTwoᴴ = swapTwo := by
  ext i j
  fin_cases i <;> fin_cases j <;> simp [swapTwo]

theorem lowOrderMap_four (K : Matrix (Fin 2) (Fin 2) ℝ) :
    lowOrderMap (diagPow (𝕜 := ℝ) (fun _ : Fin 2 => (4 : ℝ)) (-0.5)) swapTwo K = (1 / 4 : ℝ) • (swapTwo * K * swapTwo) := by
  have h : diagPow (𝕜 := ℝ) (fun _ : Fin 2 => (4 : ℝ)) (-0.5) = (1 / 2 : ℝ) • (1 : Matrix (Fin 2) (Fin 2) ℝ) := by
    have h4 : (4 : ℝ) ^ (-0.5 : ℝ) = 1 / 2 := by
      rw [show (4 : ℝ) = 2 ^ (2 : ℝ) by norm_num, ← Real.rpow_mul (by norm_num)]
      norm_num [Real.rpow_neg_one]
    ext i j
    simp only [diagPow, diagonal_apply, Matrix.smul_apply, Matrix.one_apply, smul_eq_mul, mul_ite, mul_one, mul_zero]
    split
    · exact_mod_cast h4
    · rfl
  unfold lowOrderMap
  rw [h, swapTwo_conj]
  simp only [Matrix.smul_mul, Matrix.mul_smul, Matrix.one_mul, Matrix.mul_one, smul_smul]
  rw [Matrix.mul_assoc]
  norm_num

/-- Eigenvalues and eigenvectors of twice the map with rows (0, -2) and (1, 3). -/
noncomputable def exampleTwiceEig : ∀ {r : Nat}, Matrix (Fin r) (Fin r) ℝ → EigOut ℝ r
  | 2, _ => ⟨![2, 4], !![1, 1; 1, 2], !![-2, -1; 1, 1]⟩
  | _, _ => ⟨0, 0, 0⟩

theorem exampleTwiceEig_isEig : IsEig ((2 : ℝ) • !![0, -2; 1, 3] : Matrix (Fin 2) (Fin 2) ℝ)
    (exampleTwiceEig ((2 : ℝ) • !![0, -2; 1, 3])) where
  right := by
    ext i j
    rw [mul_diagonal]
    fin_cases i <;> fin_cases j <;> simp [exampleTwiceEig, Matrix.mul_apply, Fin.sum_univ_two] <;> norm_num
  left := by
    ext i j
    rw [diagonal_mul]
    fin_cases i <;> fin_cases j <;> simp [exampleTwiceEig, Matrix.mul_apply, Fin.sum_univ_two] <;> norm_num
  right_nonzero := by
    intro j h
    have h0 := congrFun h j
    fin_cases j <;> simp [exampleTwiceEig] at h0
  left_nonzero := by
    intro j h
    have h0 := congrFun h j
    fin_cases j <;> simp [exampleTwiceEig] at h0

/-- Two pairs of vectors in the other order, the vectors in half and the advanced ones in a quarter of the unit, and a
library that chooses other eigenvectors: the eigenvalues 2 and 4 replace 1 and 2, and the modes are the same. -/
example : ∃ (lib lib' : PodLib ℝ 2 2) (res res' : DmdResult ℝ 2 2) (corr cross corr' cross' : Matrix (Fin 2) (Fin 2) ℝ),
    dmdSnapsPairs lib exampleSeqEig 1 ⟨2, 2, !![0, -2; 1, 3]⟩ none none (some (1 * (1 / 10))) none none = .ok (res, corr, cross) ∧
    dmdSnapsPairs lib' exampleTwiceEig ((2 : ℝ) • (1 * swapTwo)) ⟨2, 2, (4 : ℝ) • (!![0, -2; 1, 3] * swapTwo)⟩ none none
      (some (‖(2 : ℝ)‖ ^ 2 * (1 * (1 / 10)))) none none = .ok (res', corr', cross') ∧
    res.decomp.r = 2 ∧ res'.decomp.r = 2 ∧
    ∃ exact proj adjoint exact' proj' adjoint', SameDmd 2 4 swapTwo res.decomp.eigvals res'.decomp.eigvals
      (n := 2) exact proj adjoint exact' proj' adjoint' res.projCoeffs res.advProjCoeffs res'.projCoeffs res'.advProjCoeffs := by
  obtain ⟨lib, res, corr, cross, heigh, hs, hres, hd⟩ := snaps_orthogonal 1 (by simp) 1 one_pos exampleSeqEig 1
    !![0, -2; 1, 3] (by simp) none
  have hX : ((2 : ℝ) • (1 * swapTwo))ᴴ * ((2 : ℝ) • (1 * swapTwo)) = (4 : ℝ) • (1 : Matrix (Fin 2) (Fin 2) ℝ) := by
    rw [Matrix.one_mul, conjTranspose_smul, swapTwo_conj, Matrix.smul_mul, Matrix.mul_smul, swapTwo_mul, smul_smul]
    norm_num
  obtain ⟨lib', res', corr', cross', heigh', hs', hres', hd'⟩ := snaps_orthogonal swapTwo
    (by rw [swapTwo_conj, swapTwo_mul]) 4 four_pos exampleTwiceEig ((2 : ℝ) • (1 * swapTwo)) ((4 : ℝ) • (!![0, -2; 1, 3] * swapTwo))
    hX none
  rw [show (4 : ℝ) * (1 / 10) = ‖(2 : ℝ)‖ ^ 2 * (1 * (1 / 10)) by norm_num] at hres'
  have e1 : ((1 : Matrix (Fin 2) (Fin 2) ℝ))ᴴ * 1 * !![0, -2; 1, 3] = !![0, -2; 1, 3] := by simp
  have hlow : lowOrderMap (diagPow (𝕜 := ℝ) (fun _ : Fin 2 => (1 : ℝ)) (-0.5)) (1 : Matrix (Fin 2) (Fin 2) ℝ)
      ((1 : Matrix (Fin 2) (Fin 2) ℝ)ᴴ * 1 * !![0, -2; 1, 3]) = !![0, -2; 1, 3] := by
    rw [exampleSeq_low _ _ (exampleSeq_diagPow _) rfl, e1]
  have hlow' : lowOrderMap (diagPow (𝕜 := ℝ) (fun _ : Fin 2 => (4 : ℝ)) (-0.5)) swapTwo
      (((2 : ℝ) • ((1 : Matrix (Fin 2) (Fin 2) ℝ) * swapTwo))ᴴ * 1 * ((4 : ℝ) • (!![0, -2; 1, 3] * swapTwo))) =
        (2 : ℝ) • !![0, -2; 1, 3] := by
    rw [lowOrderMap_four, Matrix.one_mul, conjTranspose_smul, swapTwo_conj, Matrix.mul_one]
    simp only [Matrix.smul_mul, Matrix.mul_smul, smul_smul]
    rw [show swapTwo * (swapTwo * (!![0, -2; 1, 3] * swapTwo)) * swapTwo =
      (swapTwo * swapTwo) * !![0, -2; 1, 3] * (swapTwo * swapTwo) by simp only [Matrix.mul_assoc], swapTwo_mul, Matrix.one_mul,
      Matrix.mul_one]
    norm_num
  have heig : EigOfReduced exampleSeqEig ((Weights.none : Weights ℝ).matrix 2) 1 !![0, -2; 1, 3] res.decomp := by
    rw [hd]
    unfold EigOfReduced
    change IsEig (lowOrderMap (diagPow (𝕜 := ℝ) (fun _ : Fin 2 => (1 : ℝ)) (-0.5)) (1 : Matrix (Fin 2) (Fin 2) ℝ)
      ((1 : Matrix (Fin 2) (Fin 2) ℝ)ᴴ * 1 * !![0, -2; 1, 3])) (exampleSeqEig (lowOrderMap _ _ _))
    rw [hlow]
    exact exampleSeqEig_isEig
  have heig' : EigOfReduced exampleTwiceEig ((Weights.none : Weights ℝ).matrix 2) ((2 : ℝ) • (1 * swapTwo))
      ((4 : ℝ) • (!![0, -2; 1, 3] * swapTwo)) res'.decomp := by
    rw [hd']
    unfold EigOfReduced
    change IsEig (lowOrderMap (diagPow (𝕜 := ℝ) (fun _ : Fin 2 => (4 : ℝ)) (-0.5)) swapTwo
      (((2 : ℝ) • ((1 : Matrix (Fin 2) (Fin 2) ℝ) * swapTwo))ᴴ * 1 * ((4 : ℝ) • (!![0, -2; 1, 3] * swapTwo))))
      (exampleTwiceEig (lowOrderMap _ _ _))
    rw [hlow']
    exact exampleTwiceEig_isEig
  have hinj : Function.Injective res.decomp.eigvals := by
    rw [hd]
    refine (?_ : Function.Injective (![1, 2] : Fin 2 → ℝ))
    intro i j hij
    fin_cases i <;> fin_cases j <;> simp at hij ⊢
  have hinj' : Function.Injective res'.decomp.eigvals := by
    rw [hd']
    refine (?_ : Function.Injective (![2, 4] : Fin 2 → ℝ))
    intro i j hij
    fin_cases i <;> fin_cases j <;> simp at hij ⊢
  obtain ⟨exact, proj, adjoint, exact', proj', adjoint', -, -, h⟩ := C95_snaps_pairs lib lib' exampleSeqEig exampleTwiceEig
    none .none _ none 2 4 swapTwo none none two_ne_zero four_ne_zero (by rw [swapTwo_conj, swapTwo_mul]) (by norm_num) (by simp) hs
    hs' rfl trivial (by simp [Weights.matrix, Matrix.IsHermitian]) heigh heigh' _ _ res res' _ _ _ _ hres hres' heig heig' hinj
    hinj'
  exact ⟨lib, lib', res, res', corr, cross, corr', cross', hres, hres', by rw [hd]; rfl, by rw [hd']; rfl, exact, proj, adjoint,
    exact', proj', adjoint', h⟩

/-- A library for eigenvalues that is correct for diagonal arrays. -/
noncomputable def diagEig : ∀ {r : Nat}, Matrix (Fin r) (Fin r) ℝ → EigOut ℝ r := fun a => ⟨a.diag, 1, 1⟩

theorem diagEig_isEig (a : Matrix (Fin 1) (Fin 1) ℝ) : IsEig a (diagEig a) where
  right := by
    ext i j
    obtain rfl := Subsingleton.elim (α := Fin 1) i j
    rw [mul_diagonal]
    simp [diagEig]
  left := by
    ext i j
    obtain rfl := Subsingleton.elim (α := Fin 1) i j
    rw [diagonal_mul]
    simp [diagEig]
  right_nonzero := by
    intro j h
    have h0 := congrFun h j
    simp [diagEig] at h0
  left_nonzero := by
    intro j h
    have h0 := congrFun h j
    simp [diagEig] at h0

/-- **C95, violated.** If `max_num_eigvals` leaves out some of the eigenvectors with the same eigenvalue, results depend
on which ones the library puts first.  The two unit vectors are advanced to once and twice themselves; the only
eigenvalue is 1 or 2. -/
theorem C95_truncation_violation :
    ∃ (lib lib' : PodLib ℝ 2 2) (eig : ∀ {r : Nat}, Matrix (Fin r) (Fin r) ℝ → EigOut ℝ r) (res res' : DmdResult ℝ 2 2)
      (corr cross corr' cross' : Matrix (Fin 2) (Fin 2) ℝ),
      (∀ a, a.IsHermitian → IsEigh a (lib.eigh a)) ∧ IsArgsort lib.argsort ∧
      (∀ a, a.IsHermitian → IsEigh a (lib'.eigh a)) ∧ IsArgsort lib'.argsort ∧
      (∀ a : Matrix (Fin 1) (Fin 1) ℝ, IsEig a (eig a)) ∧
      dmdSnapsPairs lib eig 1 ⟨2, 2, diagonal ![1, 2]⟩ none none (some (1 * (1 / 10))) none (some 1) = .ok (res, corr, cross) ∧
      dmdSnapsPairs lib' eig 1 ⟨2, 2, diagonal ![1, 2]⟩ none none (some (1 * (1 / 10))) none (some 1) =
        .ok (res', corr', cross') ∧
      (res.decomp.r = 1 ∧ ∀ i, res.decomp.eigvals i = 1) ∧ (res'.decomp.r = 1 ∧ ∀ i, res'.decomp.eigvals i = 2) := by
  obtain ⟨lib, res, corr, cross, heigh, hs, hres, hd⟩ := snaps_orthogonal 1 (by simp) 1 one_pos diagEig 1
    (diagonal ![1, 2]) (by simp) (some 1)
  obtain ⟨lib', res', corr', cross', heigh', hs', hres', hd'⟩ := snaps_orthogonal swapTwo
    (by rw [swapTwo_conj, swapTwo_mul]) 1 one_pos diagEig 1 (diagonal ![1, 2]) (by simp) (some 1)
  have hp : diagPow (𝕜 := ℝ) (fun _ : Fin 1 => (1 : ℝ)) (-0.5) = 1 := by
    ext i j
    simp [diagPow, Matrix.one_apply, diagonal_apply]
  refine ⟨lib, lib', diagEig, res, res', corr, cross, corr', cross', heigh, hs, heigh', hs', diagEig_isEig, hres, hres',
    ⟨by rw [hd]; rfl, ?_⟩, ⟨by rw [hd']; rfl, ?_⟩⟩
  · rw [hd]
    intro i
    change (lowOrderMap (diagPow (𝕜 := ℝ) (fun _ : Fin 1 => (1 : ℝ)) (-0.5))
      ((1 : Matrix (Fin 2) (Fin 2) ℝ).submatrix id (Fin.castLE (by omega : 1 ≤ 2))) (1ᴴ * diagonal ![1, 2])).diag i = 1
    change Fin 1 at i
    obtain rfl := Subsingleton.elim (α := Fin 1) i 0
    rw [hp]
    simp [lowOrderMap, Matrix.mul_apply, Fin.sum_univ_two]
    exact (by simp : (1 : Matrix (Fin 2) (Fin 2) ℝ) 0 0 * (1 : Matrix (Fin 2) (Fin 2) ℝ) 0 0 = 1)
  · rw [hd']
    intro i
    change (lowOrderMap (diagPow (𝕜 := ℝ) (fun _ : Fin 1 => (1 : ℝ)) (-0.5))
      (swapTwo.submatrix id (Fin.castLE (by omega : 1 ≤ 2))) (1ᴴ * diagonal ![1, 2])).diag i = 2
    change Fin 1 at i
    obtain rfl := Subsingleton.elim (α := Fin 1) i 0
    rw [hp]
    simp [lowOrderMap, Matrix.mul_apply, Fin.sum_univ_two, swapTwo]

end Modred
