import Verif.Spec.ApproxDmd
import Verif.Props.Approx
import Verif.Props.DmdHandles
import Mathlib.Algebra.Order.Chebyshev

/-!
# Dynamic mode decomposition with errors (C91)
-/

namespace Modred

open Matrix
open scoped ComplexOrder

variable {𝕜 : Type*} [RCLike 𝕜]

/-! ### Decompositions -/

/-- What is known of the decompositions. -/
structure DmdApprox {m : Nat} (ε ε' c : ℝ) (C K : Matrix (Fin m) (Fin m) 𝕜) (d : DmdDecomp 𝕜 m) : Prop where
  herm : Cᴴ = C
  pos : ∀ i, 0 < d.w i
  diag : EntriesWithin ε (d.Vᴴ * C * d.V) (diagonal fun i => (d.w i : 𝕜))
  eigen : EntriesWithin ε (C * d.V) (d.V * diagonal fun i => (d.w i : 𝕜))
  one : ∀ i, (d.Lᴴ * d.R) i i = 1
  off : ∀ i j, d.eigvals i ≠ d.eigvals j → ‖(d.Lᴴ * d.R) i j‖ ≤ 2 * ε' / (‖d.eigvals i - d.eigvals j‖ * c)
  map : ∀ i j, ‖(d.Lᴴ * (lowOrderMap (diagPow (𝕜 := 𝕜) d.w (-0.5)) d.V K * d.R)) i j - (d.Lᴴ * d.R) i j * d.eigvals j‖ ≤ ε' / c

theorem truncate_within {m : Nat} {ε : ℝ} {C : Matrix (Fin m) (Fin m) 𝕜} (e : Eigh 𝕜 m) (maxNum : Option Nat)
    (hd : EntriesWithin ε (e.Vᴴ * C * e.V) (diagonal fun i => (e.w i : 𝕜)))
    (hCV : EntriesWithin ε (C * e.V) (e.V * diagonal fun i => (e.w i : 𝕜))) (hw : ∀ i, 0 < e.w i) :
    EntriesWithin ε ((e.truncate maxNum).Vᴴ * C * (e.truncate maxNum).V)
      (diagonal fun i => ((e.truncate maxNum).w i : 𝕜)) ∧
    EntriesWithin ε (C * (e.truncate maxNum).V)
      ((e.truncate maxNum).V * diagonal fun i => ((e.truncate maxNum).w i : 𝕜)) ∧
    ∀ i, 0 < (e.truncate maxNum).w i := by
  cases maxNum with
  | none => exact ⟨hd, hCV, hw⟩
  | some k =>
    by_cases hk : k < e.r
    · rw [show e.truncate (some k) = ⟨min k e.r, firstEntries e.w k, firstCols e.V k⟩ from if_pos hk]
      refine ⟨fun i j => ?_, fun i j => ?_, fun i => hw _⟩
      · have := hd (Fin.castLE (Nat.min_le_right k e.r) i) (Fin.castLE (Nat.min_le_right k e.r) j)
        rw [diagonal_comp (Fin.castLE_injective _)] at this
        exact this
      · have := hCV i (Fin.castLE (Nat.min_le_right k e.r) j)
        rw [mul_diagonal] at this ⊢
        exact this
    · rw [show e.truncate (some k) = e from if_neg hk]
      exact ⟨hd, hCV, hw⟩

/-- Scaling the left eigenvectors. -/
theorem eigBiorthog_scaled {n : Nat} (lib : Matrix (Fin n) (Fin n) 𝕜 → EigOut 𝕜 n) (a : Matrix (Fin n) (Fin n) 𝕜)
    (w : Fin n → 𝕜) (R L : Matrix (Fin n) (Fin n) 𝕜) (hres : eigBiorthog lib a scaleLeft = .ok (w, R, L)) :
    w = (lib a).w ∧ R = (lib a).R ∧ ∀ (M : Matrix (Fin n) (Fin n) 𝕜) i j,
      (Lᴴ * M) i j = ((lib a).Lᴴ * M) i j / ((lib a).Lᴴ * (lib a).R) i i := by
  unfold eigBiorthog at hres
  dsimp only at hres
  generalize lib a = o at *
  rw [if_pos (by decide)] at hres
  cases hres
  refine ⟨rfl, rfl, fun M i j => ?_⟩
  rw [Matrix.mul_apply, Matrix.mul_apply (M := o.Lᴴ) (N := M) (i := i) (k := j)]
  simp only [conjTranspose_apply, of_apply, star_div₀, star_star, diag_apply]
  rw [Finset.sum_div]
  exact Finset.sum_congr rfl fun k _ => by ring

/-- `scipy.linalg.eig` returned eigenvalues and eigenvectors of an array up to `ε`, and inner products of left and right
eigenvectors for the same eigenvalue are at least `c`. -/
structure EigWithin {r : Nat} (ε c : ℝ) (a : Matrix (Fin r) (Fin r) 𝕜) (o : EigOut 𝕜 r) : Prop where
  upTo : IsEigUpTo ε a o
  scale : ∀ i, c ≤ ‖(o.Lᴴ * o.R) i i‖

/-- What is known of the eigenvectors of the reduced map. -/
theorem eig_within {n : Nat} {ε c : ℝ} (lib : Matrix (Fin n) (Fin n) 𝕜 → EigOut 𝕜 n) (a : Matrix (Fin n) (Fin n) 𝕜)
    (hc : 0 < c) (heig : EigWithin ε c a (lib a)) (w : Fin n → 𝕜) (R L : Matrix (Fin n) (Fin n) 𝕜)
    (hres : eigBiorthog lib a scaleLeft = .ok (w, R, L)) :
    (∀ i, (Lᴴ * R) i i = 1) ∧ (∀ i j, w i ≠ w j → ‖(Lᴴ * R) i j‖ ≤ 2 * ε / (‖w i - w j‖ * c)) ∧
    ∀ i j, ‖(Lᴴ * (a * R)) i j - (Lᴴ * R) i j * w j‖ ≤ ε / c := by
  obtain ⟨h4, h5, h6⟩ := eigBiorthog_scaled _ _ _ _ _ hres
  have hne : ∀ i, ((lib a).Lᴴ * (lib a).R) i i ≠ 0 := fun i => norm_pos_iff.mp (hc.trans_le (heig.scale i))
  refine ⟨fun i => C67_eig_biorthog_diagonal _ _ _ _ _ _ hres i (hne i),
    fun i j => C67_eig_biorthog_offdiagonal _ _ heig.upTo _ _ _ _ hres c hc heig.scale i j, fun i j => ?_⟩
  rw [h6, h6, h4, h5]
  generalize lib a = o at *
  have h7 := heig.upTo.right i j
  rw [← Matrix.mul_assoc o.Lᴴ o.R, mul_diagonal] at h7
  rw [div_mul_eq_mul_div, ← sub_div, norm_div]
  exact div_le_div₀ ((norm_nonneg _).trans h7) h7 hc (heig.scale i)

theorem dmdEigendecomp_within {m : Nat} {ε η ε' c : ℝ} (eigh : Matrix (Fin m) (Fin m) 𝕜 → EighOut 𝕜 m)
    (argsort : (Fin m → ℝ) → Equiv.Perm (Fin m)) (eig : ∀ {r : Nat}, Matrix (Fin r) (Fin r) 𝕜 → EigOut 𝕜 r)
    (C K : Matrix (Fin m) (Fin m) 𝕜) (t : ℝ) (rtol : Option ℝ) (maxNum : Option Nat) (d : DmdDecomp 𝕜 m)
    (hd : dmdEigendecomp eigh argsort eig C K (some t) rtol maxNum = .ok d) (ht : 0 ≤ t) (hr : ∀ t ∈ rtol, 0 ≤ t)
    (hs : IsArgsort argsort) (hC : Cᴴ = C) (hlib : IsEighUpTo ε η C (eigh C)) (hc : 0 < c)
    (heig : EigWithin ε' c (lowOrderMap (diagPow (𝕜 := 𝕜) d.w (-0.5)) d.V K)
      (eig (lowOrderMap (diagPow (𝕜 := 𝕜) d.w (-0.5)) d.V K))) :
    DmdApprox ε ε' c C K d := by
  unfold dmdEigendecomp at hd
  split at hd
  · cases hd
  rename_i e he
  dsimp only at hd
  obtain ⟨-, h1, h2⟩ := utilEigh_within _ _ _ _ _ _ hlib e he
  have hw := C20_positive_partial _ _ _ _ t ht hs hr e he
  obtain ⟨h1, h2, h3⟩ := truncate_within e maxNum h1 h2 hw
  generalize e.truncate maxNum = e at *
  split at hd
  · cases hd
  rename_i lam R L hlr
  cases hd
  dsimp only at heig ⊢
  obtain ⟨h4, h5, h6⟩ := eig_within _ _ hc heig _ _ _ hlr
  exact ⟨hC, h3, h1, h2, h4, h5, h6⟩

section

variable {m : Nat} {ε ε' c : ℝ} {C K : Matrix (Fin m) (Fin m) 𝕜} {d : DmdDecomp 𝕜 m}

theorem DmdApprox.pair (h : DmdApprox ε ε' c C K d) (hinj : Function.Injective d.eigvals) (i j : Fin d.r) :
    ‖(d.Lᴴ * d.R) i j - if i = j then 1 else 0‖ ≤ pairBound ε' c d.eigvals i j := by
  unfold pairBound
  by_cases hij : i = j
  · subst hij
    rw [if_pos rfl, if_pos rfl, h.one, sub_self, norm_zero]
  · rw [if_neg hij, if_neg hij, sub_zero]
    exact h.off i j fun he => hij (hinj he)

theorem DmdApprox.adjoint_proj (h : DmdApprox ε ε' c C K d) (i j : Fin d.r) :
    ‖(d.buildAdjointᴴ * C * d.buildProj) i j - (d.Lᴴ * d.R) i j‖ ≤ ε * (scaledSum d.w d.L i * scaledSum d.w d.R j) := by
  set N := diagPow (𝕜 := 𝕜) d.w (-0.5) * (d.Vᴴ * C * d.V) * diagPow (𝕜 := 𝕜) d.w (-0.5) with hN
  have e1 : d.buildAdjointᴴ * C * d.buildProj - d.Lᴴ * d.R = d.Lᴴ * (N - 1) * d.R := by
    unfold DmdDecomp.buildAdjoint DmdDecomp.buildProj
    rw [hN, Matrix.mul_sub, Matrix.sub_mul, Matrix.mul_one, conjTranspose_mul, conjTranspose_mul, diagPow_conjTranspose]
    simp only [Matrix.mul_assoc]
  rw [← Matrix.sub_apply, e1, Matrix.mul_assoc, Matrix.mul_apply]
  unfold scaledSum
  rw [Finset.sum_mul_sum, Finset.mul_sum]
  refine (norm_sum_le _ _).trans (Finset.sum_le_sum fun k _ => ?_)
  rw [Matrix.mul_apply, Finset.mul_sum, Finset.mul_sum]
  refine (norm_sum_le _ _).trans (Finset.sum_le_sum fun l _ => ?_)
  have h1 := scaled_within h.pos h.diag k l
  rw [← hN] at h1
  rw [norm_mul, norm_mul, conjTranspose_apply, norm_star, Matrix.sub_apply, Matrix.one_apply]
  rw [Real.sqrt_mul (h.pos k).le] at h1
  calc ‖d.L k i‖ * (‖N k l - if k = l then 1 else 0‖ * ‖d.R l j‖)
      ≤ ‖d.L k i‖ * (ε / (Real.sqrt (d.w k) * Real.sqrt (d.w l)) * ‖d.R l j‖) := by gcongr
    _ = ε * (‖d.L k i‖ / Real.sqrt (d.w k) * (‖d.R l j‖ / Real.sqrt (d.w l))) := by
      rw [div_mul_div_comm]
      ring

theorem DmdApprox.adjoint_exact (h : DmdApprox ε ε' c C K d) (h0 : ∀ i, d.eigvals i ≠ 0) (i j : Fin d.r) :
    ‖(d.buildAdjointᴴ * K * d.buildExact) i j - (d.Lᴴ * d.R) i j‖ ≤ ε' / (‖d.eigvals j‖ * c) := by
  have e1 : d.buildAdjointᴴ * K * d.buildExact =
      (d.Lᴴ * (lowOrderMap (diagPow (𝕜 := 𝕜) d.w (-0.5)) d.V K * d.R)) * diagonal fun i => (d.eigvals i)⁻¹ := by
    rw [buildExact_eq]
    unfold DmdDecomp.buildAdjoint DmdDecomp.buildProj lowOrderMap
    rw [conjTranspose_mul, conjTranspose_mul, diagPow_conjTranspose]
    simp only [Matrix.mul_assoc]
  have h1 := h.map i j
  rw [e1, mul_diagonal]
  generalize (d.Lᴴ * (lowOrderMap (diagPow (𝕜 := 𝕜) d.w (-0.5)) d.V K * d.R)) i j = x at *
  generalize (d.Lᴴ * d.R) i j = y at *
  rw [show x * (d.eigvals j)⁻¹ - y = (x - y * d.eigvals j) / d.eigvals j by
    rw [sub_div, mul_div_cancel_right₀ _ (h0 j), div_eq_mul_inv], norm_div, mul_comm ‖d.eigvals j‖, ← div_div]
  exact div_le_div_of_nonneg_right h1 (norm_nonneg (d.eigvals j))

theorem DmdApprox.coeffs (h : DmdApprox ε ε' c C K d) (i : Fin d.r) (j : Fin m) :
    ‖(d.Lᴴ * (diagPow (𝕜 := 𝕜) d.w 0.5 * d.Vᴴ)) i j - (d.buildAdjointᴴ * C) i j‖ ≤ ε * scaledSum d.w d.L i := by
  have h1 := h.eigen.conjTranspose
  rw [conjTranspose_mul, conjTranspose_mul d.V, h.herm, diagonal_real_conjTranspose] at h1
  rw [show d.buildAdjointᴴ * C = d.Lᴴ * (diagPow (𝕜 := 𝕜) d.w (-0.5) * (d.Vᴴ * C)) from adjoint_cross d C,
    norm_sub_rev ((d.Lᴴ * (diagPow (𝕜 := 𝕜) d.w 0.5 * d.Vᴴ)) i j), ← Matrix.sub_apply, ← Matrix.mul_sub, Matrix.mul_apply]
  unfold scaledSum
  rw [Finset.mul_sum]
  refine (norm_sum_le _ _).trans (Finset.sum_le_sum fun k _ => ?_)
  have h2 := scaled_left_within h.pos h1 k j
  rw [norm_mul, conjTranspose_apply, norm_star, Matrix.sub_apply]
  refine (mul_le_mul_of_nonneg_left h2 (norm_nonneg _)).trans (le_of_eq ?_)
  ring

theorem DmdApprox.modes (h : DmdApprox ε ε' c C K d) (hinj : Function.Injective d.eigvals) (h0 : ∀ i, d.eigvals i ≠ 0) :
    DmdModesWithin ε ε' c d.w d.eigvals d.R d.L (d.buildAdjointᴴ * C * d.buildProj)
      (d.buildAdjointᴴ * K * d.buildExact) := by
  refine ⟨fun i j => ?_, fun i j => ?_⟩
  · rw [← sub_add_sub_cancel _ ((d.Lᴴ * d.R) i j)]
    exact (norm_add_le _ _).trans (add_le_add (h.adjoint_proj i j) (h.pair hinj i j))
  · rw [← sub_add_sub_cancel _ ((d.Lᴴ * d.R) i j)]
    exact (norm_add_le _ _).trans (add_le_add (h.adjoint_exact h0 i j) (h.pair hinj i j))

end

/-! ### Arrays -/

section Arrays

variable {n m : Nat} {ε η ε' c : ℝ} (lib : PodLib 𝕜 n m) (eig : ∀ {r : Nat}, Matrix (Fin r) (Fin r) 𝕜 → EigOut 𝕜 r)
  (modeIndices : Option (List Int)) (weights : Option (NdArray 𝕜)) (ws : Weights 𝕜) (ws' : DirectWeights 𝕜) (t : ℝ) (rtol : Option ℝ)
  (maxNum : Option Nat)

/-- `scipy.linalg.eig` returned eigenvalues and eigenvectors of the reduced map of the result up to `ε`, and inner products
of left and right eigenvectors for the same eigenvalue are at least `c`. -/
def EigOfReducedWithin (ε c : ℝ) (W : Matrix (Fin n) (Fin n) 𝕜) (X Y : Matrix (Fin n) (Fin m) 𝕜) (d : DmdDecomp 𝕜 m) : Prop :=
  EigWithin ε c (lowOrderMap (diagPow (𝕜 := 𝕜) d.w (-0.5)) d.V (Xᴴ * W * Y))
    (eig (lowOrderMap (diagPow (𝕜 := 𝕜) d.w (-0.5)) d.V (Xᴴ * W * Y)))

theorem DmdOutcome.within {W : Matrix (Fin n) (Fin n) 𝕜} {X Y : Matrix (Fin n) (Fin m) 𝕜} {modeIndices : Option (List Int)}
    {res : DmdResult 𝕜 n m} (ho : DmdOutcome W X Y modeIndices res)
    (h : DmdApprox ε ε' c (Xᴴ * W * X) (Xᴴ * W * Y) res.decomp) (hinj : Function.Injective res.decomp.eigvals)
    (h0 : ∀ i, res.decomp.eigvals i ≠ 0) :
    ∃ exact proj adjoint, Chosen exact modeIndices res.exactModes ∧ Chosen proj modeIndices res.projModes ∧
      Chosen adjoint modeIndices res.adjointModes ∧
      DmdModesWithin ε ε' c res.decomp.w res.decomp.eigvals res.decomp.R res.decomp.L (adjointᴴ * W * proj)
        (adjointᴴ * W * exact) ∧
      DmdCoeffsWithin ε res.decomp.w res.decomp.L res.projCoeffs res.advProjCoeffs (adjointᴴ * W * X)
        (adjointᴴ * W * Y) := by
  have e : ∀ {p q : Nat} (A : Matrix (Fin m) (Fin p) 𝕜) (Z : Matrix (Fin n) (Fin m) 𝕜) (B : Matrix (Fin m) (Fin q) 𝕜),
      (X * A)ᴴ * W * (Z * B) = Aᴴ * (Xᴴ * W * Z) * B := by
    intro p q A Z B
    rw [conjTranspose_mul]
    simp only [Matrix.mul_assoc]
  refine ⟨_, _, _, ho.exact, ho.proj, ho.adjoint, ?_, ⟨fun i j => ?_, ?_⟩⟩
  · rw [e, e]
    exact h.modes hinj h0
  · rw [ho.projCoeffs]
    refine le_of_eq_of_le ?_ (h.coeffs i j)
    rw [conjTranspose_mul]
    simp only [Matrix.mul_assoc]
  · rw [ho.advProjCoeffs, ← adjoint_cross, conjTranspose_mul]
    simp only [Matrix.mul_assoc]

/-- **C91.** Snapshot method, sequential data: bounds for inner products of modes and for coefficients, if both
eigendecompositions are correct only up to errors. -/
theorem C91_snaps_sequential (ht : 0 ≤ t) (hr : ∀ t ∈ rtol, 0 ≤ t) (hs : IsArgsort lib.argsort)
    (hws : arraysInit weights = .ok ws) (hfit : ws.Fits n) (hW : (ws.matrix n).IsHermitian)
    (Z : Matrix (Fin n) (Fin (m + 1)) 𝕜) (res : DmdResult 𝕜 n m) (corr cross : Matrix (Fin m) (Fin m) 𝕜)
    (hres : dmdSnapsSeq lib eig Z modeIndices weights (some t) rtol maxNum = .ok (res, corr, cross))
    (hlib : IsEighUpTo ε η corr (lib.eigh corr)) (hc : 0 < c)
    (heig : EigOfReducedWithin eig ε' c (ws.matrix n) (seqFirst Z) (seqNext Z) res.decomp)
    (hinj : Function.Injective res.decomp.eigvals) (h0 : ∀ i, res.decomp.eigvals i ≠ 0) :
    ∃ exact proj adjoint, Chosen exact modeIndices res.exactModes ∧ Chosen proj modeIndices res.projModes ∧
      Chosen adjoint modeIndices res.adjointModes ∧
      DmdModesWithin ε ε' c res.decomp.w res.decomp.eigvals res.decomp.R res.decomp.L (adjointᴴ * ws.matrix n * proj)
        (adjointᴴ * ws.matrix n * exact) ∧
      DmdCoeffsWithin ε res.decomp.w res.decomp.L res.projCoeffs res.advProjCoeffs (adjointᴴ * ws.matrix n * seqFirst Z)
        (adjointᴴ * ws.matrix n * seqNext Z) := by
  obtain ⟨rfl, rfl, hd, ho⟩ := dmdSnapsSeq_ok lib eig modeIndices weights ws _ rtol maxNum hws hfit Z res corr cross hres
  exact ho.within (dmdEigendecomp_within _ _ eig _ _ t rtol maxNum _ hd ht hr hs (gram_hermitian hW _) hlib hc heig) hinj h0

/-- **C91.** Snapshot method, pairs of vectors. -/
theorem C91_snaps_pairs (ht : 0 ≤ t) (hr : ∀ t ∈ rtol, 0 ≤ t) (hs : IsArgsort lib.argsort)
    (hws : arraysInit weights = .ok ws) (hfit : ws.Fits n) (hW : (ws.matrix n).IsHermitian)
    (X Y : Matrix (Fin n) (Fin m) 𝕜) (res : DmdResult 𝕜 n m) (corr cross : Matrix (Fin m) (Fin m) 𝕜)
    (hres : dmdSnapsPairs lib eig X ⟨n, m, Y⟩ modeIndices weights (some t) rtol maxNum = .ok (res, corr, cross))
    (hlib : IsEighUpTo ε η corr (lib.eigh corr)) (hc : 0 < c)
    (heig : EigOfReducedWithin eig ε' c (ws.matrix n) X Y res.decomp)
    (hinj : Function.Injective res.decomp.eigvals) (h0 : ∀ i, res.decomp.eigvals i ≠ 0) :
    ∃ exact proj adjoint, Chosen exact modeIndices res.exactModes ∧ Chosen proj modeIndices res.projModes ∧
      Chosen adjoint modeIndices res.adjointModes ∧
      DmdModesWithin ε ε' c res.decomp.w res.decomp.eigvals res.decomp.R res.decomp.L (adjointᴴ * ws.matrix n * proj)
        (adjointᴴ * ws.matrix n * exact) ∧
      DmdCoeffsWithin ε res.decomp.w res.decomp.L res.projCoeffs res.advProjCoeffs (adjointᴴ * ws.matrix n * X)
        (adjointᴴ * ws.matrix n * Y) := by
  obtain ⟨rfl, rfl, hd, ho⟩ := dmdSnapsPairs_ok lib eig modeIndices weights ws _ rtol maxNum hws hfit X Y res corr cross hres
  exact ho.within (dmdEigendecomp_within _ _ eig _ _ t rtol maxNum _ hd ht hr hs (gram_hermitian hW _) hlib hc heig) hinj h0

/-- Eigendecomposition of `aᴴ a` from a singular value decomposition of `a` with errors. -/
theorem svd_gram_within {k : Nat} {α σ : ℝ} (hε : 0 ≤ ε) (a : Matrix (Fin n) (Fin m) 𝕜) (U : Matrix (Fin n) (Fin k) 𝕜)
    (V : Matrix (Fin m) (Fin k) 𝕜) (S : Fin k → ℝ) (hS : ∀ i, 0 < S i) (hσ : ∀ i, S i ≤ σ)
    (hα : ∀ i, ∑ l, ‖a l i‖ ≤ α) (hβ : ∀ j, ∑ l, ‖(a * V) l j‖ ≤ α)
    (hd : EntriesWithin ε (Uᴴ * a * V) (diagonal fun i => (S i : 𝕜)))
    (hR : EntriesWithin ε (a * V) (U * diagonal fun i => (S i : 𝕜)))
    (hL : EntriesWithin ε (aᴴ * U) (V * diagonal fun i => (S i : 𝕜))) :
    EntriesWithin (ε * (σ + α)) (Vᴴ * (aᴴ * a) * V) (diagonal fun i => ((S i ^ (2 : ℝ) : ℝ) : 𝕜)) ∧
    EntriesWithin (ε * (σ + α)) (aᴴ * a * V) (V * diagonal fun i => ((S i ^ (2 : ℝ) : ℝ) : 𝕜)) := by
  have hsq : (diagonal fun i => ((S i ^ (2 : ℝ) : ℝ) : 𝕜)) = (diagonal fun i => (S i : 𝕜)) * diagonal fun i => (S i : 𝕜) := by
    rw [diagonal_mul_diagonal]
    congr 1
    ext i
    rw [Real.rpow_two, sq, RCLike.ofReal_mul]
  have hSd : (diagonal fun i => (S i : 𝕜))ᴴ = diagonal fun i => (S i : 𝕜) := diagonal_real_conjTranspose _
  have hnS : ∀ i, ‖(S i : 𝕜)‖ ≤ σ := fun i => by
    rw [RCLike.norm_ofReal, abs_of_pos (hS i)]
    exact hσ i
  rw [hsq]
  set D : Matrix (Fin k) (Fin k) 𝕜 := diagonal fun i => (S i : 𝕜) with hD
  constructor
  · intro i j
    have e1 : Vᴴ * (aᴴ * a) * V - D * D = D * (Uᴴ * a * V - D) + (a * V - U * D)ᴴ * (a * V) := by
      rw [conjTranspose_sub, conjTranspose_mul, conjTranspose_mul, hSd, Matrix.mul_sub, Matrix.sub_mul]
      simp only [Matrix.mul_assoc]
      abel
    rw [← Matrix.sub_apply, e1, Matrix.add_apply, mul_add]
    refine (norm_add_le _ _).trans (add_le_add ?_ ?_)
    · rw [hD, diagonal_mul, norm_mul, mul_comm]
      exact mul_le_mul (hd i j) (hnS i) (norm_nonneg _) hε
    · rw [Matrix.mul_apply]
      refine (norm_sum_le _ _).trans ((Finset.sum_le_sum fun l _ => ?_).trans (b := ∑ l, ε * ‖(a * V) l j‖) ?_)
      · rw [norm_mul, conjTranspose_apply, norm_star]
        exact mul_le_mul_of_nonneg_right (hR l i) (norm_nonneg _)
      · rw [← Finset.mul_sum]
        exact mul_le_mul_of_nonneg_left (hβ j) hε
  · intro i j
    have e1 : aᴴ * a * V - V * (D * D) = (aᴴ * U - V * D) * D + aᴴ * (a * V - U * D) := by
      rw [Matrix.mul_sub, Matrix.sub_mul]
      simp only [Matrix.mul_assoc]
      abel
    rw [← Matrix.sub_apply, e1, Matrix.add_apply, mul_add]
    refine (norm_add_le _ _).trans (add_le_add ?_ ?_)
    · rw [hD, mul_diagonal, norm_mul]
      exact mul_le_mul (hL i j) (hnS j) (norm_nonneg _) hε
    · rw [Matrix.mul_apply]
      refine (norm_sum_le _ _).trans ((Finset.sum_le_sum fun l _ => ?_).trans (b := ∑ l, ε * ‖a l i‖) ?_)
      · rw [norm_mul, conjTranspose_apply, norm_star, mul_comm]
        exact mul_le_mul_of_nonneg_right (hR l j) (norm_nonneg _)
      · rw [← Finset.mul_sum]
        exact mul_le_mul_of_nonneg_left (hα i) hε

theorem column_sum_le {k : Nat} {α : ℝ} (G W : Matrix (Fin n) (Fin n) 𝕜) (hG : Gᴴ * G = W) (Z : Matrix (Fin n) (Fin k) 𝕜)
    (i : Fin k) (hα : 0 ≤ α) (h : n * RCLike.re ((Zᴴ * W * Z) i i) ≤ α ^ 2) : ∑ l, ‖(G * Z) l i‖ ≤ α := by
  have h1 : RCLike.re ((Zᴴ * W * Z) i i) = ∑ l, ‖(G * Z) l i‖ ^ 2 := by
    rw [← hG, show Zᴴ * (Gᴴ * G) * Z = (G * Z)ᴴ * (G * Z) by simp only [conjTranspose_mul, Matrix.mul_assoc],
      Matrix.mul_apply, map_sum]
    refine Finset.sum_congr rfl fun l _ => ?_
    rw [conjTranspose_apply, RCLike.star_def, RCLike.conj_mul, ← RCLike.ofReal_pow, RCLike.ofReal_re]
  rw [h1] at h
  have h2 := sq_sum_le_card_mul_sum_sq (s := Finset.univ) (f := fun l => ‖(G * Z) l i‖)
  rw [Finset.card_univ, Fintype.card_fin] at h2
  exact (sq_le_sq₀ (Finset.sum_nonneg fun l _ => norm_nonneg _) hα).mp (h2.trans h)

theorem truncate_svd_within {a : Matrix (Fin n) (Fin m) 𝕜} (s : Svd 𝕜 n m) (maxNum : Option Nat)
    (hd : EntriesWithin ε (s.Uᴴ * a * s.V) (diagonal fun i => (s.S i : 𝕜)))
    (hAV : EntriesWithin ε (a * s.V) (s.U * diagonal fun i => (s.S i : 𝕜)))
    (hAU : EntriesWithin ε (aᴴ * s.U) (s.V * diagonal fun i => (s.S i : 𝕜))) (hS : ∀ i, 0 < s.S i) :
    EntriesWithin ε ((s.truncate maxNum).Uᴴ * a * (s.truncate maxNum).V)
      (diagonal fun i => ((s.truncate maxNum).S i : 𝕜)) ∧
    EntriesWithin ε (a * (s.truncate maxNum).V)
      ((s.truncate maxNum).U * diagonal fun i => ((s.truncate maxNum).S i : 𝕜)) ∧
    EntriesWithin ε (aᴴ * (s.truncate maxNum).U)
      ((s.truncate maxNum).V * diagonal fun i => ((s.truncate maxNum).S i : 𝕜)) ∧
    ∀ i, 0 < (s.truncate maxNum).S i := by
  cases maxNum with
  | none => exact ⟨hd, hAV, hAU, hS⟩
  | some k =>
    by_cases hk : k < s.r
    · rw [show s.truncate (some k) = ⟨min k s.r, firstCols s.U k, firstEntries s.S k, firstCols s.V k⟩ from if_pos hk]
      refine ⟨fun i j => ?_, fun i j => ?_, fun i j => ?_, fun i => hS _⟩
      · have := hd (Fin.castLE (Nat.min_le_right k s.r) i) (Fin.castLE (Nat.min_le_right k s.r) j)
        rw [diagonal_comp (Fin.castLE_injective _)] at this
        exact this
      · have := hAV i (Fin.castLE (Nat.min_le_right k s.r) j)
        rw [mul_diagonal] at this ⊢
        exact this
      · have := hAU i (Fin.castLE (Nat.min_le_right k s.r) j)
        rw [mul_diagonal] at this ⊢
        exact this
    · rw [show s.truncate (some k) = s from if_neg hk]
      exact ⟨hd, hAV, hAU, hS⟩

/-- **C91.** Direct method, pairs of vectors.  The error of the singular value decomposition of the weighted vectors is
multiplied by the sum of the largest singular value and the largest norm of the vectors times the square root of their
dimension. -/
theorem C91_direct_pairs {α σ : ℝ} (so : Option (Matrix (Fin n) (Fin n) 𝕜)) (hw : directSqrtWeights lib.cholesky ws' = .ok so) (hfit : ws'.Fits n)
    (hchol : ∀ p q w, ws' = .d2 p q w → IsCholesky lib.cholesky (ws'.matrix n)) (ht : 0 ≤ t) (hr : ∀ t ∈ rtol, 0 ≤ t)
    (X Y : Matrix (Fin n) (Fin m) 𝕜) (hε : 0 ≤ ε) (hlib : IsSvdUpTo ε η (weightData so X) (lib.svd (weightData so X)))
    (res : DmdResult 𝕜 n m) (hres : dmdDirectPairs lib eig X ⟨n, m, Y⟩ modeIndices ws' (some t) rtol maxNum = .ok res)
    (hσ : ∀ i, Real.sqrt (res.decomp.w i) ≤ σ) (hα : 0 ≤ α) (hX : ∀ i, n * RCLike.re ((Xᴴ * ws'.matrix n * X) i i) ≤ α ^ 2)
    (hXV : ∀ i, n * RCLike.re (((X * res.decomp.V)ᴴ * ws'.matrix n * (X * res.decomp.V)) i i) ≤ α ^ 2) (hc : 0 < c)
    (heig : EigOfReducedWithin eig ε' c (ws'.matrix n) X Y res.decomp)
    (hinj : Function.Injective res.decomp.eigvals) (h0 : ∀ i, res.decomp.eigvals i ≠ 0) :
    ∃ exact proj adjoint, Chosen exact modeIndices res.exactModes ∧ Chosen proj modeIndices res.projModes ∧
      Chosen adjoint modeIndices res.adjointModes ∧
      DmdModesWithin (ε * (σ + α)) ε' c res.decomp.w res.decomp.eigvals res.decomp.R res.decomp.L
        (adjointᴴ * ws'.matrix n * proj) (adjointᴴ * ws'.matrix n * exact) ∧
      DmdCoeffsWithin (ε * (σ + α)) res.decomp.w res.decomp.L res.projCoeffs res.advProjCoeffs
        (adjointᴴ * ws'.matrix n * X) (adjointᴴ * ws'.matrix n * Y) := by
  unfold dmdDirectPairs at hres
  rw [hw] at hres
  simp only [and_self, dite_true] at hres
  obtain ⟨G, hG, hdata⟩ := directSqrtWeights_ok lib.cholesky ws' hfit hchol so hw
  have hherm : (ws'.matrix n).IsHermitian := directWeights_hermitian ws' hfit
  rw [hdata] at hlib
  rw [hdata, hdata] at hres
  generalize ws'.matrix n = W at *
  unfold dmdDirectRest at hres
  split at hres
  · cases hres
  rename_i s hs
  dsimp only at hres
  obtain ⟨-, -, h1, h2, h3⟩ := utilSvd_within _ _ _ _ hlib s hs
  have h4 : ∀ i, 0 < s.S i := fun i =>
    ht.trans_lt ((utilSvd_lower _ _ _ _ hlib.nonneg hlib.sorted hr s hs i).1 t rfl)
  obtain ⟨h1, h2, h3, h4⟩ := truncate_svd_within s maxNum h1 h2 h3 h4
  generalize s.truncate maxNum = s at *
  have e1 : (G * X)ᴴ * (G * Y) = Xᴴ * W * Y := by rw [← hG]; simp only [conjTranspose_mul, Matrix.mul_assoc]
  have e2 : (G * X)ᴴ * (G * X) = Xᴴ * W * X := by rw [← hG]; simp only [conjTranspose_mul, Matrix.mul_assoc]
  have hlow : lowOrderMap (diagPow (𝕜 := 𝕜) s.S (-1)) s.V ((G * X)ᴴ * (G * Y)) =
      lowOrderMap (diagPow (𝕜 := 𝕜) (fun i => s.S i ^ (2 : ℝ)) (-0.5)) s.V (Xᴴ * W * Y) := by
    rw [diagPow_inv_sq h4, e1]
  split at hres
  · cases hres
  rename_i lam R L hlr
  obtain ⟨hdec, ho⟩ := dmdFinish_ok _ _ _ W X Y modeIndices res hres (diagPow_inv_sq h4) (congrArg _ e1)
  refine ho.within ?_ hinj h0
  rw [hdec]
  unfold EigOfReducedWithin at heig
  rw [hdec] at heig
  change eigBiorthog eig (lowOrderMap (diagPow (𝕜 := 𝕜) s.S (-1)) s.V ((G * X)ᴴ * (G * Y))) scaleLeft = _ at hlr
  rw [hlow] at hlr
  obtain ⟨h5, h6, h7⟩ := eig_within _ _ hc heig _ _ _ hlr
  have hσ' : ∀ i, s.S i ≤ σ := by
    rw [hdec] at hσ
    intro i
    have := hσ i
    dsimp only at this
    rwa [Real.rpow_two, Real.sqrt_sq (h4 i).le] at this
  have hV : ∀ j, ∑ l, ‖(G * X * s.V) l j‖ ≤ α := by
    rw [hdec] at hXV
    intro j
    rw [Matrix.mul_assoc]
    exact column_sum_le G W hG (X * s.V) j hα (hXV j)
  obtain ⟨h8, h9⟩ := svd_gram_within hε (G * X) s.U s.V s.S h4 hσ' (fun i => column_sum_le G W hG X i hα (hX i)) hV h1 h2 h3
  rw [e2] at h8 h9
  exact ⟨gram_hermitian hherm X, fun i => Real.rpow_pos_of_pos (h4 i) _, h8, h9, h5, h6, h7⟩

end Arrays

/-! ### Handles -/

section Handles

variable {E : Type*} [AddCommGroup E] [Module 𝕜 E] {ε η ε' c : ℝ} (lib : DmdLib 𝕜) (ip : E →ₗ⋆[𝕜] E →ₗ[𝕜] 𝕜)
  (g g' : DmdHandles 𝕜 E) (t : ℝ) (rtol : Option ℝ) (maxNum : Option Nat)

/-- The same for vectors of any space. -/
def EigOfReducedVecsWithin {m : Nat} (ε c : ℝ) (eig : ∀ {r : Nat}, Matrix (Fin r) (Fin r) 𝕜 → EigOut 𝕜 r) (X Y : Fin m → E)
    (d : DmdDecomp 𝕜 m) : Prop :=
  EigWithin ε c (lowOrderMap (diagPow (𝕜 := 𝕜) d.w (-0.5)) d.V (gram ip X Y))
    (eig (lowOrderMap (diagPow (𝕜 := 𝕜) d.w (-0.5)) d.V (gram ip X Y)))

theorem DmdApprox.handles {m : Nat} {X Y : Fin m → E} {d : DmdDecomp 𝕜 m}
    (h : DmdApprox ε ε' c (gram ip X X) (gram ip X Y) d) (hinj : Function.Injective d.eigvals)
    (h0 : ∀ i, d.eigvals i ≠ 0) :
    DmdModesWithin ε ε' c d.w d.eigvals d.R d.L
      (Matrix.of fun i j => ip (combine X d.buildAdjoint i) (combine X d.buildProj j))
      (Matrix.of fun i j => ip (combine X d.buildAdjoint i) (combine Y d.buildExact j)) ∧
    DmdCoeffsWithin ε d.w d.L (d.Lᴴ * (diagPow (𝕜 := 𝕜) d.w 0.5 * d.Vᴴ))
      (d.Lᴴ * (diagPow (𝕜 := 𝕜) d.w (-0.5) * (d.Vᴴ * gram ip X Y)))
      (Matrix.of fun i j => ip (combine X d.buildAdjoint i) (X j))
      (Matrix.of fun i j => ip (combine X d.buildAdjoint i) (Y j)) := by
  have e : ∀ {p q : Nat} (A : Fin p → E) (B : Fin q → E), (Matrix.of fun i j => ip (A i) (B j)) = gram ip A B :=
    fun A B => rfl
  rw [e, e, e, e, gram_combine, gram_combine, gram_combine_left, gram_combine_left]
  exact ⟨h.modes hinj h0, h.coeffs, (adjoint_cross d _).symm⟩

/-- **C91.** `DMDHandles`, sequential data: the modes that all methods put, and the coefficients that they return. -/
theorem C91_handles_sequential (ht : 0 ≤ t) (hs : ∀ n, IsArgsort (@DmdLib.argsort 𝕜 lib n)) (hsym : ∀ x y, ip y x = star (ip x y))
    (vecs : List E) (hrun : g.computeDecomp lib (fun x y => ip x y) vecs none (some t) rtol maxNum = (.ok (), g'))
    (hlib : IsEighUpTo ε η (gram ip (seqVecs vecs) (seqVecs vecs)) (lib.eigh (gram ip (seqVecs vecs) (seqVecs vecs))))
    (d : DmdDecomp 𝕜 (vecs.length - 1)) (hd : g'.decomp = some ⟨vecs.length - 1, d⟩) (hc : 0 < c)
    (heig : EigOfReducedVecsWithin ip ε' c lib.eig (seqVecs vecs) (seqAdvVecs vecs) d)
    (hinj : Function.Injective d.eigvals) (h0 : ∀ i, d.eigvals i ≠ 0) :
    ∃ exact proj adjoint : Fin d.r → E,
      (∀ l num a out g'', (a = none ∧ g.adv = none ∨ a = some vecs.tail) →
        g'.computeExactModes l num a = (.ok out, g'') → ChosenVecs exact l out) ∧
      (∀ l num a out g'', (a = none ∨ a = some vecs) →
        g'.computeProjModes l num a = (.ok out, g'') → ChosenVecs proj l out) ∧
      (∀ l num a out g'', (a = none ∨ a = some vecs) →
        g'.computeAdjointModes l num a = (.ok out, g'') → ChosenVecs adjoint l out) ∧
      DmdModesWithin ε ε' c d.w d.eigvals d.R d.L (Matrix.of fun i j => ip (adjoint i) (proj j))
        (Matrix.of fun i j => ip (adjoint i) (exact j)) ∧
      ∃ coeffs advCoeffs,
        g'.computeProjCoeffs = .ok (⟨d.r, vecs.length - 1, coeffs⟩, ⟨d.r, vecs.length - 1, advCoeffs⟩) ∧
        DmdCoeffsWithin ε d.w d.L coeffs advCoeffs (Matrix.of fun i j => ip (adjoint i) (seqVecs vecs j))
          (Matrix.of fun i j => ip (adjoint i) (seqAdvVecs vecs j)) := by
  obtain ⟨d', hd', rfl⟩ := computeDecomp_seq lib _ g g' vecs (some t) rtol maxNum hrun
  cases hd
  have h := dmdEigendecomp_within _ _ _ _ _ t none maxNum d hd' ht (by simp) (hs _) (gram_herm ip hsym _) hlib hc heig
  obtain ⟨h1, h2, h3⟩ := state_seq vecs (handlesIp (fun x y => ip x y) (seqVecs vecs) (seqVecs vecs))
    (handlesIp (fun x y => ip x y) (seqVecs vecs) (seqAdvVecs vecs)) g.adv d (dmdEigendecomp_pos lib maxNum hd')
  obtain ⟨h4, h5⟩ := DmdApprox.handles ip h hinj h0
  exact ⟨_, _, _, h1, h2, h3, h4, _, _, computeProjCoeffs_state _ _ _ _ _, h5⟩

/-- **C91.** `DMDHandles`, pairs of vectors. -/
theorem C91_handles_pairs (ht : 0 ≤ t) (hs : ∀ n, IsArgsort (@DmdLib.argsort 𝕜 lib n)) (hsym : ∀ x y, ip y x = star (ip x y))
    (vecs adv : List E) (hrun : g.computeDecomp lib (fun x y => ip x y) vecs (some adv) (some t) rtol maxNum = (.ok (), g'))
    (hlib : IsEighUpTo ε η (gram ip vecs.get vecs.get) (lib.eigh (gram ip vecs.get vecs.get)))
    (d : DmdDecomp 𝕜 vecs.length) (hd : g'.decomp = some ⟨vecs.length, d⟩) (hlen : vecs.length = adv.length) (hc : 0 < c)
    (heig : EigOfReducedVecsWithin ip ε' c lib.eig vecs.get (fun j => adv.get (Fin.cast hlen j)) d)
    (hinj : Function.Injective d.eigvals) (h0 : ∀ i, d.eigvals i ≠ 0) :
    ∃ exact proj adjoint : Fin d.r → E,
      (∀ l num a out g'', (a = none ∨ a = some adv) →
        g'.computeExactModes l num a = (.ok out, g'') → ChosenVecs exact l out) ∧
      (∀ l num a out g'', (a = none ∨ a = some vecs) →
        g'.computeProjModes l num a = (.ok out, g'') → ChosenVecs proj l out) ∧
      (∀ l num a out g'', (a = none ∨ a = some vecs) →
        g'.computeAdjointModes l num a = (.ok out, g'') → ChosenVecs adjoint l out) ∧
      DmdModesWithin ε ε' c d.w d.eigvals d.R d.L (Matrix.of fun i j => ip (adjoint i) (proj j))
        (Matrix.of fun i j => ip (adjoint i) (exact j)) ∧
      ∃ coeffs advCoeffs,
        g'.computeProjCoeffs = .ok (⟨d.r, vecs.length, coeffs⟩, ⟨d.r, vecs.length, advCoeffs⟩) ∧
        DmdCoeffsWithin ε d.w d.L coeffs advCoeffs (Matrix.of fun i j => ip (adjoint i) (vecs.get j))
          (Matrix.of fun i j => ip (adjoint i) (adv.get (Fin.cast hlen j))) := by
  obtain ⟨_, d', hd', rfl⟩ := computeDecomp_pairs lib _ g g' vecs adv (some t) rtol maxNum hrun
  cases hd
  have h := dmdEigendecomp_within _ _ _ _ _ t none maxNum d hd' ht (by simp) (hs _) (gram_herm ip hsym _) hlib hc heig
  obtain ⟨h1, h2, h3⟩ := state_pairs vecs adv hlen (handlesIp (fun x y => ip x y) vecs.get vecs.get)
    (handlesIp (fun x y => ip x y) vecs.get fun j => adv.get (Fin.cast hlen j)) d
  obtain ⟨h4, h5⟩ := DmdApprox.handles ip h hinj h0
  exact ⟨_, _, _, h1, h2, h3, h4, _, _, computeProjCoeffs_state _ _ _ _ _, h5⟩

end Handles

/-! ### Tolerances -/

theorem scaledSum_le {r : Nat} {θ : ℝ} {w : Fin r → ℝ} (hθ : 0 < θ) (hw : ∀ k, θ ≤ w k) (M : Matrix (Fin r) (Fin r) 𝕜)
    (i : Fin r) : scaledSum w M i ≤ (∑ k, ‖M k i‖) / Real.sqrt θ := by
  unfold scaledSum
  rw [Finset.sum_div]
  exact Finset.sum_le_sum fun k _ =>
    div_le_div_of_nonneg_left (norm_nonneg _) (Real.sqrt_pos.mpr hθ) (Real.sqrt_le_sqrt (hw k))

/-- **C91.** All retained eigenvalues of the correlation array are larger than the tolerance, so that the error of its
eigendecomposition is multiplied by at most the sums of the absolute values of the eigenvectors of the reduced map, over
the tolerance. -/
theorem C91_tolerance {m : Nat} {ε ε' c : ℝ} (eigh : Matrix (Fin m) (Fin m) 𝕜 → EighOut 𝕜 m)
    (argsort : (Fin m → ℝ) → Equiv.Perm (Fin m)) (eig : ∀ {r : Nat}, Matrix (Fin r) (Fin r) 𝕜 → EigOut 𝕜 r)
    (C K : Matrix (Fin m) (Fin m) 𝕜) (t : ℝ) (rtol : Option ℝ) (maxNum : Option Nat) (d : DmdDecomp 𝕜 m)
    (hd : dmdEigendecomp eigh argsort eig C K (some t) rtol maxNum = .ok d) (ht : 0 < t) (hr : ∀ t ∈ rtol, 0 ≤ t)
    (hs : IsArgsort argsort) (hε : 0 ≤ ε) (adjProj adjExact : Matrix (Fin d.r) (Fin d.r) 𝕜)
    (h : DmdModesWithin ε ε' c d.w d.eigvals d.R d.L adjProj adjExact) (i j : Fin d.r) :
    ‖adjProj i j - if i = j then 1 else 0‖ ≤
      ε / t * ((∑ k, ‖d.L k i‖) * ∑ k, ‖d.R k j‖) + pairBound ε' c d.eigvals i j := by
  have hw : ∀ k, t ≤ d.w k := by
    unfold dmdEigendecomp at hd
    split at hd
    · cases hd
    rename_i e he
    dsimp only at hd
    have h1 : ∀ k, t ≤ (e.truncate maxNum).w k := by
      have h2 := utilEigh_lower _ _ _ _ t ht.le hr hs e he
      cases maxNum with
      | none => exact fun k => (h2 k).1.le
      | some n =>
        by_cases hn : n < e.r
        · rw [show e.truncate (some n) = ⟨min n e.r, firstEntries e.w n, firstCols e.V n⟩ from if_pos hn]
          exact fun k => (h2 _).1.le
        · rw [show e.truncate (some n) = e from if_neg hn]
          exact fun k => (h2 k).1.le
    split at hd
    · cases hd
    · cases hd
      exact h1
  refine (h.proj i j).trans (add_le_add ?_ le_rfl)
  have h0 : ∀ (M : Matrix (Fin d.r) (Fin d.r) 𝕜) k, 0 ≤ scaledSum d.w M k := fun M k =>
    Finset.sum_nonneg fun l _ => div_nonneg (norm_nonneg _) (Real.sqrt_nonneg _)
  have h1 := mul_le_mul (scaledSum_le ht hw d.L i) (scaledSum_le ht hw d.R j) (h0 _ _)
    (div_nonneg (Finset.sum_nonneg fun l _ => norm_nonneg _) (Real.sqrt_nonneg _))
  rw [div_mul_div_comm, Real.mul_self_sqrt ht.le] at h1
  refine (mul_le_mul_of_nonneg_left h1 hε).trans (le_of_eq ?_)
  ring

/-! ### How sharp the bounds are -/

/-- Eigenvalues and eigenvectors of diagonal arrays. -/
def diagonalEig : ∀ {r : Nat}, Matrix (Fin r) (Fin r) ℝ → EigOut ℝ r := fun a => ⟨fun i => a i i, 1, 1⟩

/-- **C91.** The bound for projected modes is attained: for any error `ε` and larger eigenvalue `c`, and any smaller
tolerance, there are a pair of numbers and an eigendecomposition of their correlation array with error `ε`, such that the
inner product of the adjoint mode and the projected mode differs from one by as much as the bound, `ε / c`.  So the
tolerance has to be large compared to the errors of the eigendecomposition. -/
theorem C91_bound_attained (c ε t : ℝ) (hε : 0 ≤ ε) (hc : ε < c) (htc : t < c) :
    ∃ (lib : DmdLib ℝ) (x y : ℝ) (g' : DmdHandles ℝ ℝ) (d : DmdDecomp ℝ 1),
      (∀ n, IsArgsort (@DmdLib.argsort ℝ lib n)) ∧
      DmdHandles.new.computeDecomp lib (fun x y => LinearMap.mul ℝ ℝ x y) [x] (some [y]) (some t) none none = (.ok (), g') ∧
      g'.decomp = some ⟨1, d⟩ ∧
      IsEighUpTo ε 0 (gram (LinearMap.mul ℝ ℝ) [x].get [x].get) (lib.eigh (gram (LinearMap.mul ℝ ℝ) [x].get [x].get)) ∧
      EigOfReducedVecsWithin (LinearMap.mul ℝ ℝ) 0 1 lib.eig [x].get [y].get d ∧
      Function.Injective d.eigvals ∧ (∀ i, d.eigvals i ≠ 0) ∧
      ∃ (proj adjoint : Vecs ℝ) (i : Fin proj.k) (j : Fin adjoint.k) (k : Fin d.r),
        (g'.computeProjModes [0] 1 none).1 = .ok proj ∧ (g'.computeAdjointModes [0] 1 none).1 = .ok adjoint ∧
        ε * (scaledSum d.w d.L k * scaledSum d.w d.R k) + pairBound 0 1 d.eigvals k k = ε / c ∧
        |LinearMap.mul ℝ ℝ (adjoint.v j) (proj.v i) - 1| = ε / c := by
  have hc0 : 0 < c := lt_of_le_of_lt hε hc
  set x : ℝ := Real.sqrt (c - ε) with hx
  have hxx : x * x = c - ε := Real.mul_self_sqrt (by linarith)
  have hx0 : x ≠ 0 := (Real.sqrt_pos.mpr (by linarith)).ne'
  set lib : DmdLib ℝ := ⟨fun _ => ⟨fun _ => c, 1⟩, fun x => Tuple.sort x, diagonalEig⟩ with hlib
  set C : Matrix (Fin 1) (Fin 1) ℝ := handlesIp (fun x y => LinearMap.mul ℝ ℝ x y) [x].get [x].get with hC
  have hentry : ∀ i j, C i j = c - ε := by
    intro i j
    rw [Subsingleton.elim i 0, Subsingleton.elim j 0]
    exact hxx
  have hu : utilEigh lib.eigh lib.argsort C (some t) none true = .ok ⟨1, fun _ => c, 1⟩ := by
    obtain ⟨⟨r, w, V⟩, he⟩ := C20_no_error lib.eigh lib.argsort C none true t (by norm_num)
    obtain ⟨p, hp, hle, hk, hv⟩ := C20_kept_iff _ _ _ _ _ _ (sort_isArgsort 1) (by simp) _ he
    dsimp only at hle hk hv
    have h0 : 0 < r := by
      refine (hk 0).mpr ⟨⟨fun s hs => ?_, by simp⟩, fun _ j hj => ?_⟩
      · obtain rfl := Option.some.inj hs
        show t < |c|
        rwa [abs_of_pos hc0]
      · exact absurd hj (not_lt.mpr hc0.le)
    obtain rfl : r = 1 := by omega
    rw [he]
    congr 2
    · ext i
      exact (hv i i rfl).1
    · ext k i
      refine ((hv i i rfl).2 k).trans ?_
      rw [Subsingleton.elim k (p i), Subsingleton.elim (p i) i]
  set A : Matrix (Fin 1) (Fin 1) ℝ := lowOrderMap (diagPow (𝕜 := ℝ) (fun _ => c) (-0.5)) 1 C with hA
  have hA0 : A 0 0 = (c - ε) / c := by
    rw [hA]
    unfold lowOrderMap diagPow
    rw [diagonal_mul, conjTranspose_one, Matrix.one_mul, Matrix.one_mul, mul_diagonal, hentry, rpow_neg_half hc0,
      show ∀ a b : ℝ, RCLike.ofReal a⁻¹ * (b * RCLike.ofReal a⁻¹) = b / (a * a) by
        intro a b
        rw [div_eq_mul_inv, mul_inv]
        simp only [RCLike.ofReal_real_eq_id, id]
        ring, Real.mul_self_sqrt hc0.le]
  have hbi : eigBiorthog diagonalEig A scaleLeft = .ok (fun i => A i i, 1, 1) := by
    unfold eigBiorthog
    rw [if_pos (by decide)]
    unfold diagonalEig
    dsimp only
    rw [conjTranspose_one, Matrix.mul_one]
    congr 3
    ext i j
    simp
  set d : DmdDecomp ℝ 1 := ⟨1, fun _ => c, 1, fun i => A i i, 1, 1⟩ with hd
  have hdec : dmdEigendecomp lib.eigh lib.argsort lib.eig C C (some t) none none = .ok d := by
    unfold dmdEigendecomp
    rw [hu]
    dsimp only [Eigh.truncate]
    rw [← hA]
    have hbi' : eigBiorthog lib.eig A scaleLeft = .ok (fun i => A i i, 1, 1) := hbi
    rw [hbi']
  set g' : DmdHandles ℝ ℝ := ⟨some [x], some [x], some ⟨1, C, C⟩, some ⟨1, d⟩⟩ with hg'
  have hrun : DmdHandles.new.computeDecomp lib (fun x y => LinearMap.mul ℝ ℝ x y) [x] (some [x]) (some t) none none =
      (.ok (), g') := by
    obtain ⟨g1, d1, hrun, -⟩ := (C26_handles_pairs_no_error lib DmdHandles.new t none none (fun x y => LinearMap.mul ℝ ℝ x y)
      [x] [x]).2 rfl (by simp)
    obtain ⟨_, d2, hd2, rfl⟩ := computeDecomp_pairs lib _ _ _ _ _ _ _ _ hrun
    have : d2 = d := Except.ok.inj (hd2.symm.trans hdec)
    rw [hrun, this]
    rfl
  have hmode : ∀ B : Matrix (Fin 1) (Fin 1) ℝ, B = diagPow (𝕜 := ℝ) (fun _ => c) (-0.5) →
      combine (𝕜 := ℝ) [x].get B = fun _ => (Real.sqrt c)⁻¹ * x := by
    rintro B rfl
    ext i
    show ∑ k : Fin 1, diagPow (𝕜 := ℝ) (fun _ => c) (-0.5) k i • [x].get k = _
    rw [Fin.sum_univ_one, Subsingleton.elim i 0]
    unfold diagPow
    rw [diagonal_apply_eq, rpow_neg_half hc0]
    rfl
  have hsum : ∀ k, scaledSum d.w (1 : Matrix (Fin 1) (Fin 1) ℝ) k = (Real.sqrt c)⁻¹ := by
    intro k
    unfold scaledSum
    rw [Fin.sum_univ_one, Subsingleton.elim k 0]
    simp only [one_apply_eq, norm_one, one_div]
    rfl
  have hvalid : ValidIndices 1 [(0 : Int)] := by
    intro i hi
    simp at hi
    subst hi
    norm_num
  obtain ⟨g1, d1, hrun1, hd1, hm⟩ := (C26_handles_pairs_no_error lib DmdHandles.new t none none
    (fun x y => LinearMap.mul ℝ ℝ x y) [x] [x]).2 rfl (by simp)
  obtain rfl : g' = g1 := (Prod.ext_iff.mp (hrun.symm.trans hrun1)).2
  obtain rfl : d = d1 := by
    cases hd1
    rfl
  obtain ⟨-, ⟨proj, hproj⟩, adjoint, hadj⟩ := hm [0] hvalid
  obtain ⟨-, hP, hQ⟩ := state_pairs [x] [x] rfl C C d
  obtain ⟨hk, sel, -, hv⟩ := hP [0] 1 none proj _ (.inl rfl) (Prod.ext hproj rfl)
  obtain ⟨hk', sel', -, hv'⟩ := hQ [0] 1 none adjoint _ (.inl rfl) (Prod.ext hadj rfl)
  refine ⟨lib, x, x, g', d, fun n => sort_isArgsort n, hrun, rfl, ⟨?_, ?_, ?_⟩, ⟨⟨?_, ?_⟩, ?_⟩, ?_, ?_, proj, adjoint,
    ⟨0, by rw [hk]; simp⟩, ⟨0, by rw [hk']; simp⟩, 0, hproj, hadj, ?_, ?_⟩
  · exact .of_eq (by simp [hlib])
  · intro i j
    change ‖((1 : Matrix (Fin 1) (Fin 1) ℝ)ᴴ * C * (1 : Matrix (Fin 1) (Fin 1) ℝ)) i j - diagonal (fun _ : Fin 1 => c) i j‖ ≤ ε
    rw [Subsingleton.elim (α := Fin 1) i 0, Subsingleton.elim (α := Fin 1) j 0, conjTranspose_one, Matrix.one_mul, Matrix.mul_one,
      hentry, diagonal_apply_eq]
    show |c - ε - c| ≤ ε
    rw [show c - ε - c = -ε by ring, abs_neg, abs_of_nonneg hε]
  · intro i j
    change ‖(C * (1 : Matrix (Fin 1) (Fin 1) ℝ)) i j - ((1 : Matrix (Fin 1) (Fin 1) ℝ) * diagonal fun _ : Fin 1 => c) i j‖ ≤ ε
    rw [Subsingleton.elim (α := Fin 1) i 0, Subsingleton.elim (α := Fin 1) j 0, Matrix.one_mul, Matrix.mul_one,
      hentry, diagonal_apply_eq]
    show |c - ε - c| ≤ ε
    rw [show c - ε - c = -ε by ring, abs_neg, abs_of_nonneg hε]
  · change EntriesWithin 0 ((1 : Matrix (Fin 1) (Fin 1) ℝ)ᴴ * (A * 1)) ((1 : Matrix (Fin 1) (Fin 1) ℝ)ᴴ * (1 * diagonal fun i => A i i))
    refine .of_eq ?_
    ext i j
    simp [Subsingleton.elim i 0, Subsingleton.elim j 0]
  · change EntriesWithin 0 ((1 : Matrix (Fin 1) (Fin 1) ℝ)ᴴ * A * 1) ((diagonal fun i => A i i) * (1 : Matrix (Fin 1) (Fin 1) ℝ)ᴴ * 1)
    refine .of_eq ?_
    ext i j
    simp [Subsingleton.elim i 0, Subsingleton.elim j 0]
  · intro i
    change 1 ≤ ‖((1 : Matrix (Fin 1) (Fin 1) ℝ)ᴴ * (1 : Matrix (Fin 1) (Fin 1) ℝ)) i i‖
    simp
  · intro i j _
    exact Subsingleton.elim (α := Fin 1) i j
  · intro i
    change A i i ≠ 0
    rw [Subsingleton.elim i (0 : Fin 1), hA0]
    exact (div_pos (by linarith) hc0).ne'
  · change ε * (scaledSum d.w (1 : Matrix (Fin 1) (Fin 1) ℝ) 0 * scaledSum d.w (1 : Matrix (Fin 1) (Fin 1) ℝ) 0) + _ = _
    unfold pairBound
    rw [if_pos rfl, add_zero, hsum, ← mul_inv, Real.mul_self_sqrt hc0.le, div_eq_mul_inv]
  · rw [hv, hv', hmode _ ?_, hmode _ ?_]
    · change |(Real.sqrt c)⁻¹ * x * ((Real.sqrt c)⁻¹ * x) - 1| = ε / c
      rw [show (Real.sqrt c)⁻¹ * x * ((Real.sqrt c)⁻¹ * x) = (x * x) / (Real.sqrt c * Real.sqrt c) by
          rw [div_eq_mul_inv, mul_inv]; ring, hxx, Real.mul_self_sqrt hc0.le, sub_div, div_self hc0.ne',
        show 1 - ε / c - 1 = -(ε / c) by ring, abs_neg, abs_of_nonneg (by positivity)]
    · show (1 : Matrix (Fin 1) (Fin 1) ℝ) * (diagPow (𝕜 := ℝ) (fun _ => c) (-0.5) * 1) = _
      rw [Matrix.one_mul, Matrix.mul_one]
    · show (1 : Matrix (Fin 1) (Fin 1) ℝ) * (diagPow (𝕜 := ℝ) (fun _ => c) (-0.5) * 1) = _
      rw [Matrix.one_mul, Matrix.mul_one]

/-! ### Examples -/

/-- Exact decompositions have errors zero. -/
theorem IsEig.upTo {n : Nat} {a : Matrix (Fin n) (Fin n) 𝕜} {o : EigOut 𝕜 n} (h : IsEig a o) : IsEigUpTo 0 a o where
  right := .of_eq (by rw [h.right])
  left := .of_eq (by rw [h.left])

theorem exampleSeqDecomp_within : EigOfReducedWithin exampleSeqEig 0 1 (1 : Matrix (Fin 2) (Fin 2) ℝ) (seqFirst exampleSeq)
    (seqNext exampleSeq) exampleSeqDecomp := by
  have h : ∀ i : Fin 2,
      (1 : ℝ) ≤ ‖((!![1, 1; 1, 2] : Matrix (Fin 2) (Fin 2) ℝ)ᴴ * (!![-2, -1; 1, 1] : Matrix (Fin 2) (Fin 2) ℝ)) i i‖ := by
    intro i
    rw [Matrix.mul_apply, Fin.sum_univ_two]
    fin_cases i <;> norm_num [conjTranspose_apply]
  exact ⟨exampleSeqDecomp_eig.upTo, h⟩

/-- The hypotheses hold for sequential data with errors zero; so do those with any larger errors. -/
example : ∃ (lib : PodLib ℝ 2 2) (res : DmdResult ℝ 2 2) (corr cross : Matrix (Fin 2) (Fin 2) ℝ),
    dmdSnapsSeq lib exampleSeqEig exampleSeq none none (some (1 / 10)) none none = .ok (res, corr, cross) ∧
    res.decomp.r = 2 ∧ ∃ proj adjoint : Matrix (Fin 2) (Fin res.decomp.r) ℝ, Chosen proj none res.projModes ∧
      Chosen adjoint none res.adjointModes ∧ adjointᴴ * (1 : Matrix (Fin 2) (Fin 2) ℝ) * proj = 1 := by
  obtain ⟨lib, res, corr, cross, heigh, hs, hres, hd⟩ := exampleSeq_snaps
  have hW : (Weights.matrix 2 (.none : Weights ℝ)).IsHermitian := by simp [Weights.matrix, Matrix.IsHermitian]
  obtain ⟨hcorr, -, -, -⟩ := dmdSnapsSeq_ok lib exampleSeqEig none none .none (some (1 / 10)) none none rfl trivial exampleSeq
    res corr cross hres
  obtain ⟨exact, proj, adjoint, -, hp, ha, hm, -⟩ := C91_snaps_sequential (ε := 0) (η := 0) (ε' := 0) (c := 1) lib exampleSeqEig
    none none .none (1 / 10) none none (by norm_num) (by simp) hs rfl trivial hW exampleSeq res corr cross hres
    (heigh _ (by rw [hcorr]; exact gram_hermitian hW _)).upTo one_pos (by rw [hd]; exact exampleSeqDecomp_within)
    (by rw [hd]; exact exampleSeqDecomp_distinct.1) (by rw [hd]; exact exampleSeqDecomp_distinct.2)
  refine ⟨lib, res, corr, cross, hres, by rw [hd]; rfl, proj, adjoint, hp, ha, ?_⟩
  ext i j
  have h1 := hm.proj i j
  have h2 : pairBound 0 1 res.decomp.eigvals i j = 0 := by
    unfold pairBound
    split <;> simp
  rw [h2, zero_mul, add_zero] at h1
  rw [Matrix.one_apply]
  exact sub_eq_zero.mp (norm_le_zero_iff.mp h1)

/-- The hypotheses for the direct method hold, with the largest singular value 1 and vectors of norm 1. -/
example : ∃ (lib : PodLib ℝ 2 2) (res : DmdResult ℝ 2 2),
    dmdDirectPairs lib exampleSeqEig (1 : Matrix (Fin 2) (Fin 2) ℝ) ⟨2, 2, !![0, -2; 1, 3]⟩ none .none (some (1 / 10)) none none =
      .ok res ∧ IsSvdUpTo 0 0 (1 : Matrix (Fin 2) (Fin 2) ℝ) (lib.svd (weightData none 1)) ∧
    (∀ i, Real.sqrt (res.decomp.w i) ≤ 1) ∧
    (∀ i, (2 : ℝ) * (((1 : Matrix (Fin 2) (Fin 2) ℝ)ᴴ * DirectWeights.matrix 2 (.none : DirectWeights ℝ) *
      (1 : Matrix (Fin 2) (Fin 2) ℝ)) i i) ≤ 2 ^ 2) ∧
    EigOfReducedWithin exampleSeqEig 0 1 1 (seqFirst exampleSeq) (seqNext exampleSeq) res.decomp ∧
    Function.Injective res.decomp.eigvals ∧ ∀ i, res.decomp.eigvals i ≠ 0 := by
  obtain ⟨lib, hsvd, -, -, -, hu⟩ := exists_exampleLib
  refine ⟨lib, ?_⟩
  unfold dmdDirectPairs
  generalize hg : directSqrtWeights lib.cholesky (.none : DirectWeights ℝ) = z
  obtain rfl : z = .ok none := hg.symm
  simp only [and_self, dite_true]
  have h2 : (weightData none (1 : Matrix (Fin 2) (Fin 2) ℝ)) = 1 := rfl
  rw [h2]
  unfold dmdDirectRest
  rw [hu]
  have hw : (fun _ : Fin 2 => (1 : ℝ) ^ (2 : ℝ)) = exampleSeqDecomp.w := by
    ext i
    simp [exampleSeqDecomp]
  refine ⟨_, rfl, (hsvd _).upTo, ?_, ?_, ?_, ?_⟩
  · intro i
    simp [Svd.truncate]
  · intro i
    simp [DirectWeights.matrix]
    norm_num
  · have := exampleSeqDecomp_within
    unfold EigOfReducedWithin at this ⊢
    rw [← hw] at this
    exact this
  · exact exampleSeqDecomp_distinct

end Modred
