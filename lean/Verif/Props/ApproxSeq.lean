import Verif.Props.ApproxDmd

/-!
# Errors of the direct method of DMD for sequential data

The direct method takes all but the last column of the cross-correlation array from the singular value decomposition of the
vectors, after truncation.  What is left out, and errors of the decomposition, change that array; both disappear, up to
errors, when it is multiplied by the right singular vectors.
-/

namespace Modred

open Matrix

variable {𝕜 : Type*} [RCLike 𝕜]

theorem dmdFinish_any {n m : Nat} (d : DmdDecomp 𝕜 m) (sqrtInv : Matrix (Fin d.r) (Fin d.r) 𝕜)
    (cross : Matrix (Fin m) (Fin m) 𝕜) (X Y : Matrix (Fin n) (Fin m) 𝕜)
    (modeIndices : Option (List Int)) (res : DmdResult 𝕜 n m)
    (hres : dmdFinish d sqrtInv cross X Y modeIndices = .ok res) (hD : sqrtInv = diagPow (𝕜 := 𝕜) d.w (-0.5)) :
    res.decomp = d ∧ Chosen (Y * res.decomp.buildExact) modeIndices res.exactModes ∧
    Chosen (X * res.decomp.buildProj) modeIndices res.projModes ∧
    Chosen (X * res.decomp.buildAdjoint) modeIndices res.adjointModes ∧
    res.projCoeffs = res.decomp.Lᴴ * (diagPow (𝕜 := 𝕜) res.decomp.w 0.5 * res.decomp.Vᴴ) ∧
    res.advProjCoeffs = res.decomp.Lᴴ * (diagPow (𝕜 := 𝕜) res.decomp.w (-0.5) * (res.decomp.Vᴴ * cross)) := by
  unfold dmdFinish at hres
  dsimp only at hres
  split at hres
  · rename_i hm
    split at hres
    · cases hres
    rename_i e he
    split at hres
    · cases hres
    rename_i p hp
    split at hres
    · cases hres
    rename_i a ha
    cases hres
    subst hD
    refine ⟨rfl, ?_, linCombineArrays_ok _ _ _ _ hp, linCombineArrays_ok _ _ _ _ ha, rfl, rfl⟩
    dsimp only
    rw [buildExact_eq]
    exact linCombineArrays_ok _ _ _ _ he
  · cases hres

section

variable {m : Nat} {ε ε' c δ β : ℝ} {C K K' : Matrix (Fin m) (Fin m) 𝕜} {d : DmdDecomp 𝕜 m}

/-- Entries of the left factor of all coefficients. -/
theorem scaled_left_sum {q : Nat} (hpos : ∀ i, 0 < d.w i) (E : Matrix (Fin d.r) (Fin q) 𝕜) (hE : ∀ i j, ‖E i j‖ ≤ δ) (i : Fin d.r)
    (j : Fin q) : ‖(d.Lᴴ * (diagPow (𝕜 := 𝕜) d.w (-0.5) * E)) i j‖ ≤ δ * scaledSum d.w d.L i := by
  rw [Matrix.mul_apply]
  unfold scaledSum
  rw [Finset.mul_sum]
  refine (norm_sum_le _ _).trans (Finset.sum_le_sum fun k _ => ?_)
  unfold diagPow
  rw [diagonal_mul, norm_mul, norm_mul, conjTranspose_apply, norm_star, RCLike.norm_ofReal,
    abs_of_nonneg (Real.rpow_nonneg (hpos k).le _), Real.sqrt_eq_rpow, show (-0.5 : ℝ) = -(1 / 2) by norm_num,
    Real.rpow_neg (hpos k).le, div_eq_mul_inv, ← mul_assoc, mul_comm]
  exact mul_le_mul_of_nonneg_right (hE k j) (mul_nonneg (norm_nonneg _) (inv_nonneg.mpr (Real.rpow_nonneg (hpos k).le _)))

theorem buildProj_le (hpos : ∀ i, 0 < d.w i) (hV : ∀ i l, ‖d.V i l‖ ≤ β) (i : Fin m) (j : Fin d.r) :
    ‖d.buildProj i j‖ ≤ β * scaledSum d.w d.R j := by
  unfold DmdDecomp.buildProj scaledSum
  rw [Matrix.mul_apply, Finset.mul_sum]
  refine (norm_sum_le _ _).trans (Finset.sum_le_sum fun k _ => ?_)
  unfold diagPow
  rw [diagonal_mul, norm_mul, norm_mul, RCLike.norm_ofReal,
    abs_of_nonneg (Real.rpow_nonneg (hpos k).le _), Real.sqrt_eq_rpow, show (-0.5 : ℝ) = -(1 / 2) by norm_num,
    Real.rpow_neg (hpos k).le, div_eq_mul_inv, mul_comm (_⁻¹)]
  exact mul_le_mul_of_nonneg_right (hV i k) (mul_nonneg (norm_nonneg _) (inv_nonneg.mpr (Real.rpow_nonneg (hpos k).le _)))

/-- Modes and coefficients computed with another cross-correlation array. -/
theorem DmdApprox.cross (h : DmdApprox ε ε' c C K' d) (hinj : Function.Injective d.eigvals) (h0 : ∀ i, d.eigvals i ≠ 0)
    (hV : ∀ i l, ‖d.V i l‖ ≤ β) (hδ : EntriesWithin δ (d.Vᴴ * K) (d.Vᴴ * K')) :
    DmdWithinCross ε ε' c δ β d.w d.eigvals d.R d.L (d.buildAdjointᴴ * C * d.buildProj) (d.buildAdjointᴴ * K * d.buildExact)
      (d.Lᴴ * (diagPow (𝕜 := 𝕜) d.w 0.5 * d.Vᴴ)) (d.Lᴴ * (diagPow (𝕜 := 𝕜) d.w (-0.5) * (d.Vᴴ * K')))
      (d.buildAdjointᴴ * C) (d.buildAdjointᴴ * K) := by
  have hm := h.modes hinj h0
  have hadv : ∀ i j, ‖(d.buildAdjointᴴ * K) i j - (d.buildAdjointᴴ * K') i j‖ ≤ δ * scaledSum d.w d.L i := by
    intro i j
    rw [← Matrix.sub_apply, adjoint_cross, adjoint_cross, ← Matrix.mul_sub, ← Matrix.mul_sub]
    exact scaled_left_sum h.pos _ (fun i j => by rw [Matrix.sub_apply]; exact hδ i j) i j
  refine ⟨hm.proj, fun i j => ?_, h.coeffs, fun i j => ?_⟩
  · have e1 : (d.buildAdjointᴴ * K * d.buildExact) i j - (d.buildAdjointᴴ * K' * d.buildExact) i j =
        (∑ k, ((d.buildAdjointᴴ * K) i k - (d.buildAdjointᴴ * K') i k) * d.buildProj k j) * (d.eigvals j)⁻¹ := by
      rw [buildExact_eq, ← Matrix.mul_assoc, ← Matrix.mul_assoc, mul_diagonal, mul_diagonal, ← sub_mul, Matrix.mul_apply,
        Matrix.mul_apply, ← Finset.sum_sub_distrib]
      simp only [sub_mul]
    have h1 : ‖(d.buildAdjointᴴ * K * d.buildExact) i j - (d.buildAdjointᴴ * K' * d.buildExact) i j‖ ≤
        m * β * δ * (scaledSum d.w d.L i * scaledSum d.w d.R j) / ‖d.eigvals j‖ := by
      rw [e1, norm_mul, norm_inv, ← div_eq_mul_inv]
      refine div_le_div_of_nonneg_right ?_ (norm_nonneg _)
      refine (norm_sum_le _ _).trans ((Finset.sum_le_sum fun k _ => ?_).trans (b := ∑ _k : Fin m,
        (δ * scaledSum d.w d.L i) * (β * scaledSum d.w d.R j)) (le_of_eq ?_))
      · rw [norm_mul]
        exact mul_le_mul (hadv i k) (buildProj_le h.pos hV k j) (norm_nonneg _) ((norm_nonneg _).trans (hadv i k))
      · rw [Finset.sum_const, Finset.card_univ, Fintype.card_fin, nsmul_eq_mul]
        ring
    rw [← sub_add_sub_cancel _ ((d.buildAdjointᴴ * K' * d.buildExact) i j), add_assoc]
    exact (norm_add_le _ _).trans (add_le_add h1 (hm.exact i j))
  · rw [norm_sub_rev, ← adjoint_cross]
    exact hadv i j

/-- Entries of arrays with nearly orthonormal columns. -/
theorem entry_le_of_orthonormal {r : Nat} {η : ℝ} (V : Matrix (Fin m) (Fin r) 𝕜) (h : EntriesWithin η (Vᴴ * V) 1) (i : Fin m)
    (l : Fin r) : ‖V i l‖ ≤ 1 + η := by
  have h1 := h l l
  rw [one_apply_eq] at h1
  have hη : 0 ≤ η := (norm_nonneg _).trans h1
  have h2 : RCLike.re ((Vᴴ * V) l l) = ∑ k, ‖V k l‖ ^ 2 := by
    rw [Matrix.mul_apply, map_sum]
    refine Finset.sum_congr rfl fun k _ => ?_
    rw [conjTranspose_apply, RCLike.star_def, RCLike.conj_mul, ← RCLike.ofReal_pow, RCLike.ofReal_re]
  have h3 : ‖V i l‖ ^ 2 ≤ 1 + η := by
    calc ‖V i l‖ ^ 2 ≤ ∑ k, ‖V k l‖ ^ 2 := Finset.single_le_sum (f := fun k => ‖V k l‖ ^ 2) (fun k _ => sq_nonneg _) (Finset.mem_univ i)
      _ = RCLike.re ((Vᴴ * V) l l - 1) + 1 := by rw [← h2, map_sub, RCLike.one_re]; ring
      _ ≤ 1 + η := by linarith [(RCLike.re_le_norm ((Vᴴ * V) l l - 1)).trans h1]
  nlinarith [norm_nonneg (V i l)]

/-- The product of the singular vectors with the array of the direct method. -/
theorem seqCross_within {r : Nat} {η σ : ℝ} (V : Matrix (Fin m) (Fin r) 𝕜) (w : Fin r → ℝ) (hw : ∀ i, 0 ≤ w i) (hσ : ∀ i, w i ≤ σ ^ 2)
    (hV : EntriesWithin η (Vᴴ * V) 1) (hC : Cᴴ = C) (hCV : EntriesWithin ε (C * V) (V * diagonal fun i => (w i : 𝕜)))
    (hK : ∀ (i j : Fin m) (h : j.val + 1 < m), K i j = C i ⟨j.val + 1, h⟩) (hε : 0 ≤ ε) (hη : 0 ≤ η) :
    EntriesWithin (r * (η * σ ^ 2 * (1 + η)) + ε) (Vᴴ * K) (Vᴴ * seqCross V w K) := by
  have hb : 0 ≤ (r : ℝ) * (η * σ ^ 2 * (1 + η)) := by positivity
  intro i j
  by_cases hj : j.val + 1 < m
  · set D : Matrix (Fin r) (Fin r) 𝕜 := diagonal fun i => (w i : 𝕜) with hD
    have e1 : (Vᴴ * K) i j = (Vᴴ * C) i ⟨j.val + 1, hj⟩ := by
      rw [Matrix.mul_apply, Matrix.mul_apply]
      exact Finset.sum_congr rfl fun k _ => by rw [hK k j hj]
    have e2 : (Vᴴ * seqCross V w K) i j = (Vᴴ * (V * (D * Vᴴ))) i ⟨j.val + 1, hj⟩ := by
      rw [Matrix.mul_apply, Matrix.mul_apply]
      refine Finset.sum_congr rfl fun k _ => ?_
      unfold seqCross
      rw [of_apply, dif_pos hj]
    have h1 := hCV.conjTranspose
    rw [conjTranspose_mul, conjTranspose_mul V, hC, diagonal_real_conjTranspose, ← hD] at h1
    rw [e1, e2]
    generalize (⟨j.val + 1, hj⟩ : Fin m) = k
    have e3 : (Vᴴ * C) i k - (Vᴴ * (V * (D * Vᴴ))) i k = ((Vᴴ * C) i k - (D * Vᴴ) i k) - ((Vᴴ * V - (1 : Matrix (Fin r) (Fin r) 𝕜)) * (D * Vᴴ)) i k := by
      rw [Matrix.sub_mul, Matrix.one_mul, Matrix.sub_apply, Matrix.mul_assoc]
      ring
    rw [e3, add_comm]
    refine (norm_sub_le _ _).trans (add_le_add (h1 i k) ?_)
    rw [Matrix.mul_apply]
    refine (norm_sum_le _ _).trans ((Finset.sum_le_sum fun l _ => ?_).trans (b := ∑ _l : Fin r, η * σ ^ 2 * (1 + η)) (le_of_eq ?_))
    · rw [norm_mul, hD, diagonal_mul, norm_mul, conjTranspose_apply, norm_star, RCLike.norm_ofReal, abs_of_nonneg (hw l),
        ← mul_assoc]
      refine mul_le_mul (mul_le_mul ?_ (hσ l) (hw l) hη) (entry_le_of_orthonormal V hV k l) (norm_nonneg _) (by positivity)
      rw [Matrix.sub_apply]
      exact hV i l
    · rw [Finset.sum_const, Finset.card_univ, Fintype.card_fin, nsmul_eq_mul]
  · have e1 : (Vᴴ * seqCross V w K) i j = (Vᴴ * K) i j := by
      rw [Matrix.mul_apply, Matrix.mul_apply]
      refine Finset.sum_congr rfl fun k _ => ?_
      unfold seqCross
      rw [of_apply, dif_neg hj]
    rw [e1, sub_self, norm_zero]
    exact add_nonneg hb hε

end

theorem truncate_right_within {n m : Nat} {η : ℝ} (s : Svd 𝕜 n m) (maxNum : Option Nat) (h : EntriesWithin η (s.Vᴴ * s.V) 1) :
    EntriesWithin η ((s.truncate maxNum).Vᴴ * (s.truncate maxNum).V) 1 := by
  cases maxNum with
  | none => exact h
  | some k =>
    by_cases hk : k < s.r
    · rw [show s.truncate (some k) = ⟨min k s.r, firstCols s.U k, firstEntries s.S k, firstCols s.V k⟩ from if_pos hk]
      intro i j
      have := h (Fin.castLE (Nat.min_le_right k s.r) i) (Fin.castLE (Nat.min_le_right k s.r) j)
      rw [one_comp (Fin.castLE_injective _)] at this
      exact this
    · rw [show s.truncate (some k) = s from if_neg hk]
      exact h

/-- **C91.** Direct method, sequential data.  In addition to errors as for pairs of vectors, the cross-correlation array,
reconstructed from the singular value decomposition after truncation, brings errors to exact modes and to coefficients of
advanced vectors: `η` is how far singular vectors are from orthonormal. -/
theorem C91_direct_sequential {n m : Nat} {ε η ε' c α σ : ℝ} (lib : PodLib 𝕜 n m)
    (eig : ∀ {r : Nat}, Matrix (Fin r) (Fin r) 𝕜 → EigOut 𝕜 r) (modeIndices : Option (List Int)) (ws : DirectWeights 𝕜) (t : ℝ)
    (rtol : Option ℝ) (maxNum : Option Nat) (so : Option (Matrix (Fin n) (Fin n) 𝕜))
    (hw : directSqrtWeights lib.cholesky ws = .ok so) (hfit : ws.Fits n)
    (hchol : ∀ p q w, ws = .d2 p q w → IsCholesky lib.cholesky (ws.matrix n)) (ht : 0 ≤ t) (hr : ∀ t ∈ rtol, 0 ≤ t)
    (Z : Matrix (Fin n) (Fin (m + 1)) 𝕜) (hε : 0 ≤ ε) (hη : 0 ≤ η)
    (hlib : IsSvdUpTo ε η (weightData so (seqFirst Z)) (lib.svd (weightData so (seqFirst Z))))
    (res : DmdResult 𝕜 n m) (hres : dmdDirectSeq lib eig Z modeIndices ws (some t) rtol maxNum = .ok res)
    (hσ : ∀ i, Real.sqrt (res.decomp.w i) ≤ σ) (hα : 0 ≤ α)
    (hX : ∀ i, n * RCLike.re (((seqFirst Z)ᴴ * ws.matrix n * seqFirst Z) i i) ≤ α ^ 2)
    (hXV : ∀ i, n * RCLike.re (((seqFirst Z * res.decomp.V)ᴴ * ws.matrix n * (seqFirst Z * res.decomp.V)) i i) ≤ α ^ 2)
    (hc : 0 < c)
    (heig : EigWithin ε' c
      (lowOrderMap (diagPow (𝕜 := 𝕜) res.decomp.w (-0.5)) res.decomp.V
        (seqCross res.decomp.V res.decomp.w ((seqFirst Z)ᴴ * ws.matrix n * seqNext Z)))
      (eig (lowOrderMap (diagPow (𝕜 := 𝕜) res.decomp.w (-0.5)) res.decomp.V
        (seqCross res.decomp.V res.decomp.w ((seqFirst Z)ᴴ * ws.matrix n * seqNext Z)))))
    (hinj : Function.Injective res.decomp.eigvals) (h0 : ∀ i, res.decomp.eigvals i ≠ 0) :
    ∃ exact proj adjoint, Chosen exact modeIndices res.exactModes ∧ Chosen proj modeIndices res.projModes ∧
      Chosen adjoint modeIndices res.adjointModes ∧
      DmdWithinCross (ε * (σ + α)) ε' c (res.decomp.r * (η * σ ^ 2 * (1 + η)) + ε * (σ + α)) (1 + η) res.decomp.w
        res.decomp.eigvals res.decomp.R res.decomp.L (adjointᴴ * ws.matrix n * proj) (adjointᴴ * ws.matrix n * exact)
        res.projCoeffs res.advProjCoeffs (adjointᴴ * ws.matrix n * seqFirst Z) (adjointᴴ * ws.matrix n * seqNext Z) := by
  unfold dmdDirectSeq at hres
  rw [hw] at hres
  dsimp only at hres
  obtain ⟨G, hG, hdata⟩ := directSqrtWeights_ok lib.cholesky ws hfit hchol so hw
  have hherm : (ws.matrix n).IsHermitian := directWeights_hermitian ws hfit
  rw [hdata] at hlib
  rw [hdata] at hres
  generalize ws.matrix n = W at *
  have hK : ∀ (i j : Fin m) (h : j.val + 1 < m), ((seqFirst Z)ᴴ * W * seqNext Z) i j =
      ((seqFirst Z)ᴴ * W * seqFirst Z) i ⟨j.val + 1, h⟩ := fun i j h => rfl
  have hlast : ∀ (i j : Fin m), ¬ j.val + 1 < m →
      ((G * seqFirst Z)ᴴ *ᵥ fun k => (G * Z) k (Fin.last m)) i = ((seqFirst Z)ᴴ * W * seqNext Z) i j := by
    intro i j hj
    have hjl : j.succ = Fin.last m := by ext; simp; omega
    rw [← hG, show (seqFirst Z)ᴴ * (Gᴴ * G) * seqNext Z = (G * seqFirst Z)ᴴ * (G * seqNext Z) by
      simp only [conjTranspose_mul, Matrix.mul_assoc], Matrix.mul_apply, mulVec, dotProduct]
    refine Finset.sum_congr rfl fun l _ => ?_
    congr 1
    rw [← hjl]
    rfl
  rw [show (G * Z).submatrix id Fin.castSucc = G * seqFirst Z from rfl,
    show Z.submatrix id Fin.castSucc = seqFirst Z from rfl, show Z.submatrix id Fin.succ = seqNext Z from rfl] at hres
  have hcross : (fun s : Svd 𝕜 n m => Matrix.of fun i j => if h : j.val + 1 < m then directCorr s i ⟨j.val + 1, h⟩
      else ((G * seqFirst Z)ᴴ *ᵥ fun k => (G * Z) k (Fin.last m)) i) =
      fun s => seqCross s.V (fun i => s.S i ^ (2 : ℝ)) ((seqFirst Z)ᴴ * W * seqNext Z) := by
    funext s
    ext i j
    unfold seqCross
    rw [of_apply, of_apply]
    split
    · rfl
    · rename_i hj
      exact hlast i j hj
  rw [hcross] at hres
  generalize seqFirst Z = X at *
  generalize seqNext Z = Y at *
  unfold dmdDirectRest at hres
  split at hres
  · cases hres
  rename_i s hs
  dsimp only at hres
  obtain ⟨-, hVV, h1, h2, h3⟩ := utilSvd_within _ _ _ _ hlib s hs
  have h4 : ∀ i, 0 < s.S i := fun i =>
    ht.trans_lt ((utilSvd_lower _ _ _ _ hlib.nonneg hlib.sorted hr s hs i).1 t rfl)
  obtain ⟨h1, h2, h3, h4⟩ := truncate_svd_within s maxNum h1 h2 h3 h4
  replace hVV := truncate_right_within s maxNum hVV
  generalize s.truncate maxNum = s at *
  have e2 : (G * X)ᴴ * (G * X) = Xᴴ * W * X := by rw [← hG]; simp only [conjTranspose_mul, Matrix.mul_assoc]
  have hlow : lowOrderMap (diagPow (𝕜 := 𝕜) s.S (-1)) s.V (seqCross s.V (fun i => s.S i ^ (2 : ℝ)) (Xᴴ * W * Y)) =
      lowOrderMap (diagPow (𝕜 := 𝕜) (fun i => s.S i ^ (2 : ℝ)) (-0.5)) s.V
        (seqCross s.V (fun i => s.S i ^ (2 : ℝ)) (Xᴴ * W * Y)) := by
    rw [diagPow_inv_sq h4]
  split at hres
  · cases hres
  rename_i lam R L hlr
  obtain ⟨hdec, hex, hpr, had, hco, hav⟩ := dmdFinish_any _ _ _ X Y modeIndices res hres (diagPow_inv_sq h4)
  change eigBiorthog eig (lowOrderMap (diagPow (𝕜 := 𝕜) s.S (-1)) s.V _) scaleLeft = _ at hlr
  rw [hlow] at hlr
  have hσ' : ∀ i, s.S i ≤ σ := by
    rw [hdec] at hσ
    intro i
    have := hσ i
    dsimp only at this
    rwa [Real.rpow_two, Real.sqrt_sq (h4 i).le] at this
  have hV : ∀ j, ∑ l, ‖(G * X * s.V) l j‖ ≤ α := by
    rw [hdec] at hXV
    intro j
    rw [Matrix.mul_assoc]
    exact column_sum_le G W hG (X * s.V) j hα (hXV j)
  obtain ⟨h8, h9⟩ := svd_gram_within hε (G * X) s.U s.V s.S h4 hσ' (fun i => column_sum_le G W hG X i hα (hX i)) hV h1 h2 h3
  rw [e2] at h8 h9
  refine ⟨_, _, _, hex, hpr, had, ?_⟩
  have e : ∀ {p q : Nat} (A : Matrix (Fin m) (Fin p) 𝕜) (Z : Matrix (Fin n) (Fin m) 𝕜) (B : Matrix (Fin m) (Fin q) 𝕜),
      (X * A)ᴴ * W * (Z * B) = Aᴴ * (Xᴴ * W * Z) * B := by
    intro p q A Z B
    rw [conjTranspose_mul]
    simp only [Matrix.mul_assoc]
  have e' : ∀ {p : Nat} (A : Matrix (Fin m) (Fin p) 𝕜) (Z : Matrix (Fin n) (Fin m) 𝕜),
      (X * A)ᴴ * W * Z = Aᴴ * (Xᴴ * W * Z) := by
    intro p A Z
    rw [conjTranspose_mul]
    simp only [Matrix.mul_assoc]
  rw [e, e, e', e', hco, hav]
  rw [hdec] at heig hinj h0
  rw [hdec]
  dsimp only at heig
  obtain ⟨h5, h6, h7⟩ := eig_within _ _ hc heig _ _ _ hlr
  have hsq : ∀ i, s.S i ^ (2 : ℝ) ≤ σ ^ 2 := fun i => by
    rw [Real.rpow_two]
    exact pow_le_pow_left₀ (h4 i).le (hσ' i) 2
  have hmain : 0 ≤ ε * (σ + α) ∨ s.r = 0 := by
    by_cases h : s.r = 0
    · exact .inr h
    · have : 0 ≤ σ := (h4 ⟨0, Nat.pos_of_ne_zero h⟩).le.trans (hσ' _)
      exact .inl (by positivity)
  refine DmdApprox.cross ⟨gram_hermitian hherm X, fun i => Real.rpow_pos_of_pos (h4 i) _, h8, h9, h5, h6, h7⟩ hinj h0
    (entry_le_of_orthonormal s.V hVV) ?_
  rcases hmain with hp | hz
  · exact seqCross_within s.V _ (fun i => (Real.rpow_pos_of_pos (h4 i) _).le) hsq hVV (gram_hermitian hherm X) h9 hK hp hη
  · intro i
    exact absurd i.isLt (by dsimp only; omega)

/-- The array of the direct method is the cross-correlation array in the example. -/
theorem exampleSeq_seqCross : seqCross exampleSeqDecomp.V exampleSeqDecomp.w
    ((seqFirst exampleSeq)ᴴ * (1 : Matrix (Fin 2) (Fin 2) ℝ) * seqNext exampleSeq) =
    (seqFirst exampleSeq)ᴴ * (1 : Matrix (Fin 2) (Fin 2) ℝ) * seqNext exampleSeq := by
  rw [exampleSeq_first, exampleSeq_next, show ((1 : Matrix (Fin 2) (Fin 2) ℝ)ᴴ * 1 * !![0, -2; 1, 3]) = !![0, -2; 1, 3] by simp]
  have h : (1 : Matrix (Fin 2) (Fin 2) ℝ) * (diagonal (fun _ : Fin 2 => ((1 : ℝ) : ℝ)) * (1 : Matrix (Fin 2) (Fin 2) ℝ)ᴴ) = 1 := by
    simp
  ext i j
  change (if h : j.val + 1 < 2 then
    ((1 : Matrix (Fin 2) (Fin 2) ℝ) * (diagonal (fun _ : Fin 2 => ((1 : ℝ) : ℝ)) * (1 : Matrix (Fin 2) (Fin 2) ℝ)ᴴ)) i ⟨j.val + 1, h⟩
    else _) = _
  rw [h]
  fin_cases i <;> fin_cases j
  · exact one_apply_ne (by decide)
  · rfl
  · exact one_apply_eq (1 : Fin 2)
  · rfl

theorem exampleSeq_direct_decomp : ∃ (lib : PodLib ℝ 2 2) (res : DmdResult ℝ 2 2), (∀ a, IsSvd a (lib.svd a)) ∧
    dmdDirectSeq lib exampleSeqEig exampleSeq none .none (some (1 / 10)) none none = .ok res ∧ res.decomp = exampleSeqDecomp := by
  obtain ⟨lib, hsvd, -, -, -, hu⟩ := exists_exampleLib
  refine ⟨lib, ?_⟩
  unfold dmdDirectSeq
  generalize hg : directSqrtWeights lib.cholesky (.none : DirectWeights ℝ) = z
  obtain rfl : z = .ok none := hg.symm
  dsimp only
  have h2 : (weightData none exampleSeq : Matrix (Fin 2) (Fin 3) ℝ).submatrix id Fin.castSucc = 1 := exampleSeq_first
  rw [h2]
  unfold dmdDirectRest
  rw [hu]
  have hw : (fun _ : Fin 2 => (1 : ℝ) ^ (2 : ℝ)) = exampleSeqDecomp.w := by
    ext i
    simp [exampleSeqDecomp]
  refine ⟨_, hsvd, rfl, ?_⟩
  have h3 : ∀ w : Fin 2 → ℝ, w = exampleSeqDecomp.w → (⟨2, w, exampleSeqDecomp.V, exampleSeqDecomp.eigvals, exampleSeqDecomp.R,
      exampleSeqDecomp.L⟩ : DmdDecomp ℝ 2) = exampleSeqDecomp := by
    rintro w rfl
    rfl
  exact h3 _ hw

/-- All hypotheses hold for sequential data, with the largest singular value 1 and vectors of norm 1. -/
example : ∃ (lib : PodLib ℝ 2 2) (res : DmdResult ℝ 2 2),
    dmdDirectSeq lib exampleSeqEig exampleSeq none .none (some (1 / 10)) none none = .ok res ∧ res.decomp.r = 2 ∧
    ∃ exact proj adjoint : Matrix (Fin 2) (Fin res.decomp.r) ℝ, Chosen exact none res.exactModes ∧ Chosen proj none res.projModes ∧
      Chosen adjoint none res.adjointModes ∧ adjointᴴ * (1 : Matrix (Fin 2) (Fin 2) ℝ) * proj = 1 ∧
      adjointᴴ * (1 : Matrix (Fin 2) (Fin 2) ℝ) * exact = 1 := by
  obtain ⟨lib, res, hsvd, hres, hd⟩ := exampleSeq_direct_decomp
  have hr2 : res.decomp.r = 2 := by rw [hd]; rfl
  have hσ : ∀ i, Real.sqrt (res.decomp.w i) ≤ 1 := by
    rw [hd]
    intro i
    change Real.sqrt 1 ≤ 1
    rw [Real.sqrt_one]
  have hXV : ∀ i, ((2 : Nat) : ℝ) * RCLike.re (((seqFirst exampleSeq * res.decomp.V)ᴴ * DirectWeights.matrix 2 (.none : DirectWeights ℝ) *
      (seqFirst exampleSeq * res.decomp.V)) i i) ≤ 2 ^ 2 := by
    rw [hd, exampleSeq_first]
    intro i
    have h : (((1 : Matrix (Fin 2) (Fin 2) ℝ) * 1)ᴴ * DirectWeights.matrix 2 (.none : DirectWeights ℝ) *
      ((1 : Matrix (Fin 2) (Fin 2) ℝ) * 1)) = 1 := by simp [DirectWeights.matrix]
    have h4 : ∀ M : Matrix (Fin 2) (Fin 2) ℝ, M = 1 → ∀ i, ((2 : Nat) : ℝ) * RCLike.re (M i i) ≤ 2 ^ 2 := by
      rintro M rfl i
      rw [one_apply_eq]
      norm_num
    exact h4 _ h i
  have hinj : Function.Injective res.decomp.eigvals := by rw [hd]; exact exampleSeqDecomp_distinct.1
  have h0 : ∀ i, res.decomp.eigvals i ≠ 0 := by rw [hd]; exact exampleSeqDecomp_distinct.2
  have heig := exampleSeqDecomp_within
  unfold EigOfReducedWithin at heig
  rw [← exampleSeq_seqCross, ← hd] at heig
  obtain ⟨exact, proj, adjoint, he, hp, ha, hm⟩ := C91_direct_sequential (ε := 0) (η := 0) (ε' := 0) (c := 1) (α := 2) (σ := 1) lib
    exampleSeqEig none .none (1 / 10) none none none rfl trivial (fun _ _ _ h => by cases h) (by norm_num) (by simp) exampleSeq
    le_rfl le_rfl (hsvd _).upTo res hres hσ (by norm_num)
    (fun i => by
      rw [exampleSeq_first]
      simp [DirectWeights.matrix]
      norm_num)
    hXV one_pos heig hinj h0
  have hpair : ∀ i j, pairBound 0 1 res.decomp.eigvals i j = 0 := by
    intro i j
    unfold pairBound
    split <;> simp
  refine ⟨lib, res, hres, hr2, exact, proj, adjoint, he, hp, ha, ?_, ?_⟩
  · ext i j
    have h1 := hm.proj i j
    rw [hpair, zero_mul, zero_mul, add_zero] at h1
    rw [Matrix.one_apply]
    exact sub_eq_zero.mp (norm_le_zero_iff.mp h1)
  · ext i j
    have h1 := hm.exact i j
    rw [hpair] at h1
    simp only [zero_mul, mul_zero, zero_div, add_zero] at h1
    rw [Matrix.one_apply]
    exact sub_eq_zero.mp (norm_le_zero_iff.mp h1)

end Modred
