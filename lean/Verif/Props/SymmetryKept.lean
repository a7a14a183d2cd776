import Verif.Spec.SymmetryKept
import Verif.Props.Lengths
import Verif.Props.PredictionGrowth

/-!
# C128: dynamic modes keep the symmetry of the data
-/

namespace Modred

open Matrix
open scoped ComplexOrder

variable {𝕜 : Type*} [RCLike 𝕜]

/-- Eigenvectors of length one of a normal map with different eigenvalues are orthonormal. -/
theorem orthonormal_of_normal {r : Nat} {M R : Matrix (Fin r) (Fin r) 𝕜} {z : Fin r → 𝕜} (h1 : M * R = R * diagonal z)
    (h2 : Mᴴ * R = R * diagonal (star z)) (hinj : Function.Injective z) (hR : ∀ i, (Rᴴ * R) i i = 1) : Rᴴ * R = 1 := by
  have h3 : diagonal z * (Rᴴ * R) = Rᴴ * R * diagonal z := by
    have h4 := congrArg conjTranspose h2
    rw [conjTranspose_mul, conjTranspose_mul, conjTranspose_conjTranspose, diagonal_conjTranspose, star_star] at h4
    rw [← Matrix.mul_assoc, ← h4, Matrix.mul_assoc, h1, Matrix.mul_assoc]
  ext i j
  by_cases hij : i = j
  · subst hij
    rw [hR, one_apply_eq]
  · rw [one_apply_ne hij]
    have h4 := congrFun (congrFun h3 i) j
    rw [diagonal_mul, mul_diagonal] at h4
    have h5 : (z i - z j) * (Rᴴ * R) i j = 0 := by
      rw [sub_mul, h4]
      ring
    rcases mul_eq_zero.mp h5 with h6 | h6
    · exact absurd (hinj (sub_eq_zero.mp h6)) hij
    · exact h6

section Vectors

variable {E : Type*} [AddCommGroup E] [Module 𝕜 E] {ip : E →ₗ⋆[𝕜] E →ₗ[𝕜] 𝕜} {m : Nat} {X Y : Fin m → E} {d : DmdDecomp 𝕜 m}

/-- Modes from orthonormal eigenvectors are their own adjoint modes. -/
theorem DmdCore.ownAdjoint (h : DmdCore (gram ip X X) (gram ip X Y) d) (hLR : d.Lᴴ * d.R = 1) (hR : d.Rᴴ * d.R = 1) :
    OwnAdjoint ip (combine X d.buildProj) (combine X d.buildAdjoint) := by
  have hL : d.L = d.R := by
    have h1 : d.Lᴴ = d.Rᴴ := by
      rw [← Matrix.mul_one d.Lᴴ, ← mul_eq_one_comm.mp hR, ← Matrix.mul_assoc, hLR, Matrix.one_mul]
    have h2 := congrArg conjTranspose h1
    rwa [conjTranspose_conjTranspose, conjTranspose_conjTranspose] at h2
  refine ⟨fun i j => ?_, ?_⟩
  · have h1 : gram ip (combine X d.buildProj) (combine X d.buildProj) = 1 := by
      rw [gram_combine, h.proj_gram, hR]
    have h2 := congrFun (congrFun h1 i) j
    rw [one_apply] at h2
    exact h2
  · rw [DmdDecomp.buildAdjoint, DmdDecomp.buildProj, hL]

theorem lowOrderMap_conjTranspose (w : Fin d.r → ℝ) (K : Matrix (Fin m) (Fin m) 𝕜) :
    (lowOrderMap (diagPow (𝕜 := 𝕜) w (-0.5)) d.V K)ᴴ = lowOrderMap (diagPow (𝕜 := 𝕜) w (-0.5)) d.V Kᴴ := by
  unfold lowOrderMap
  simp only [conjTranspose_mul, conjTranspose_conjTranspose, diagPow_conjTranspose, Matrix.mul_assoc]

theorem DmdCore.symmetry (hsym : ∀ x y, ip y x = star (ip x y)) (h : DmdCore (gram ip X X) (gram ip X Y) d) (hLR : d.Lᴴ * d.R = 1)
    (hinj : Function.Injective d.eigvals) (hR : ∀ i, (d.Rᴴ * d.R) i i = 1) :
    SymmetryKept ip X Y d.eigvals (combine X d.buildProj) (combine X d.buildAdjoint) := by
  set M := lowOrderMap (diagPow (𝕜 := 𝕜) d.w (-0.5)) d.V (gram ip X Y) with hM
  have hr : M * d.R = d.R * diagonal d.eigvals := h.right
  have hK : (gram ip X Y)ᴴ = gram ip Y X := by
    ext i j
    exact (hsym (X j) (Y i)).symm
  have hdiag : ∀ i, (d.Rᴴ * M * d.R) i i = d.eigvals i := fun i => by
    rw [Matrix.mul_assoc, hr, ← Matrix.mul_assoc, mul_diagonal, hR, one_mul]
  refine ⟨fun hs => ?_, fun hs => ?_⟩
  · have hMM : Mᴴ = M := by
      rw [hM, lowOrderMap_conjTranspose, hK]
      congr 1
      ext i j
      exact (hs i j).symm
    have hz : ∀ i, star (d.eigvals i) = d.eigvals i := fun i => by
      rw [← hdiag, ← conjTranspose_apply]
      simp only [conjTranspose_mul, conjTranspose_conjTranspose, hMM, Matrix.mul_assoc]
    refine ⟨fun i => RCLike.conj_eq_iff_im.mp (hz i), h.ownAdjoint hLR (orthonormal_of_normal hr ?_ hinj hR)⟩
    rw [hMM, hr]
    congr 2
    exact (funext hz).symm
  · have hMM : Mᴴ = -M := by
      rw [hM, lowOrderMap_conjTranspose, hK]
      have : gram ip Y X = -gram ip X Y := by
        ext i j
        have := hs i j
        change ip (Y i) (X j) = -ip (X i) (Y j)
        rw [this, neg_neg]
      rw [this]
      unfold lowOrderMap
      simp only [Matrix.mul_neg, Matrix.neg_mul]
    have hz : ∀ i, star (d.eigvals i) = -d.eigvals i := fun i => by
      rw [← hdiag, ← conjTranspose_apply]
      simp only [conjTranspose_mul, conjTranspose_conjTranspose, hMM, Matrix.mul_assoc, Matrix.mul_neg, Matrix.neg_mul, Matrix.neg_apply]
    refine ⟨fun i => ?_, h.ownAdjoint hLR (orthonormal_of_normal hr ?_ hinj hR)⟩
    · have h1 := congrArg RCLike.re (hz i)
      rw [RCLike.star_def, RCLike.conj_re, map_neg] at h1
      linarith
    · rw [hMM, Matrix.neg_mul, hr, ← Matrix.mul_neg]
      congr 1
      ext i j
      by_cases hij : i = j
      · subst hij
        simp only [Matrix.neg_apply, diagonal_apply_eq, Pi.star_apply, hz]
      · simp [diagonal_apply_ne _ hij]

theorem DmdCore.lengthsKept (h : DmdCore (gram ip X X) (gram ip X Y) d) (hLR : d.Lᴴ * d.R = 1)
    (hinj : Function.Injective d.eigvals) (hR : ∀ i, (d.Rᴴ * d.R) i i = 1) :
    LengthsKept ip X Y d.eigvals (combine X d.buildProj) (combine X d.buildAdjoint) := by
  intro hs hY hrank
  change d.r = (gram ip X X).rank at hrank
  have hg : gram ip Y Y = gram ip X X := by
    ext i j
    exact hs i j
  obtain ⟨G, rfl⟩ : ∃ G : Matrix (Fin m) (Fin m) 𝕜, Y = combine X G := by
    have h1 : ∀ j, ∃ c : Fin m → 𝕜, ∑ i, c i • X i = Y j := fun j => (Submodule.mem_span_range_iff_exists_fun 𝕜).mp (hY j)
    choose c hc using h1
    exact ⟨Matrix.of fun i j => c j i, funext fun j => (hc j).symm⟩
  have hr := h.right
  rw [gram_combine_right] at hr
  rw [gram_combine] at hg
  set C := gram ip X X with hC
  have hV : d.V = Cᴴ * (d.V * diagPow (𝕜 := 𝕜) d.w (-1)) := by
    rw [h.herm, ← Matrix.mul_assoc, h.eigen, Matrix.mul_assoc, diagPow_mul _ h.pos,
      show (1 : ℝ) + -1 = 0 by norm_num, diagPow_zero, Matrix.mul_one]
  have hspan : C * d.V * d.Vᴴ = C := span_of_rank h.orth hV hrank
  have hCC : C * (d.V * (diagPow (𝕜 := 𝕜) d.w (-0.5) * (diagPow (𝕜 := 𝕜) d.w (-0.5) * (d.Vᴴ * C)))) = C := by
    have h1 : d.Vᴴ * C = diagPow (𝕜 := 𝕜) d.w 1 * d.Vᴴ := by
      have h2 := congrArg conjTranspose h.eigen
      rwa [conjTranspose_mul, conjTranspose_mul, h.herm, diagPow_conjTranspose] at h2
    rw [h1, ← Matrix.mul_assoc (diagPow (𝕜 := 𝕜) d.w (-0.5)) (diagPow (𝕜 := 𝕜) d.w 1), diagPow_mul _ h.pos, ← Matrix.mul_assoc (diagPow (𝕜 := 𝕜) d.w (-0.5)), diagPow_mul _ h.pos,
      show (-0.5 + (-0.5 + 1) : ℝ) = 0 by norm_num, diagPow_zero, Matrix.one_mul, ← Matrix.mul_assoc, hspan]
  set M := lowOrderMap (diagPow (𝕜 := 𝕜) d.w (-0.5)) d.V (C * G) with hM
  have hMM : Mᴴ * M = 1 := by
    rw [hM, lowOrderMap_conjTranspose, conjTranspose_mul, h.herm]
    unfold lowOrderMap
    have h1 : ∀ S : Matrix (Fin m) (Fin d.r) 𝕜, C * (d.V * (diagPow (𝕜 := 𝕜) d.w (-0.5) * (diagPow (𝕜 := 𝕜) d.w (-0.5) * (d.Vᴴ * (C * S))))) =
        C * S := by
      intro S
      conv_rhs => rw [← hCC]
      simp only [Matrix.mul_assoc]
    have h2 : ∀ S : Matrix (Fin m) (Fin d.r) 𝕜, Gᴴ * (C * (G * S)) = C * S := by
      intro S
      conv_rhs => rw [← hg]
      simp only [Matrix.mul_assoc]
    simp only [Matrix.mul_assoc]
    rw [h1, h2, ← Matrix.mul_assoc C, h.eigen, Matrix.mul_assoc, ← Matrix.mul_assoc d.Vᴴ, h.orth, Matrix.one_mul, diagPow_mul _ h.pos,
      diagPow_mul _ h.pos, show (-0.5 + (1 + -0.5) : ℝ) = 0 by norm_num, diagPow_zero]
  clear_value M
  have hz : ∀ i, star (d.eigvals i) * d.eigvals i = 1 := fun i => by
    have h1 : diagonal (star d.eigvals) * (d.Rᴴ * d.R) * diagonal d.eigvals = d.Rᴴ * d.R := by
      have h2 := congrArg conjTranspose hr
      rw [conjTranspose_mul, conjTranspose_mul, diagonal_conjTranspose] at h2
      rw [← Matrix.mul_assoc, ← h2, Matrix.mul_assoc, ← hr, Matrix.mul_assoc, ← Matrix.mul_assoc Mᴴ, hMM, Matrix.one_mul]
    have h3 := congrFun (congrFun h1 i) i
    rwa [mul_diagonal, diagonal_mul, hR, mul_one] at h3
  refine ⟨fun i => ?_, h.ownAdjoint hLR (orthonormal_of_normal hr ?_ hinj hR)⟩
  · have h1 := congrArg norm (hz i)
    rw [norm_mul, norm_star, norm_one] at h1
    exact (mul_self_eq_one_iff.mp h1).resolve_right (by linarith [norm_nonneg (d.eigvals i)])
  · have h1 : Mᴴ * d.R * diagonal d.eigvals = d.R := by
      rw [Matrix.mul_assoc, ← hr, ← Matrix.mul_assoc, hMM, Matrix.one_mul]
    have h2 : diagonal d.eigvals * diagonal (star d.eigvals) = 1 := by
      rw [diagonal_mul_diagonal, ← diagonal_one]
      congr 1
      ext i
      rw [mul_comm]
      exact hz i
    conv_rhs => rw [← h1, Matrix.mul_assoc, h2, Matrix.mul_one]

theorem SymmetryKept.of_combine {k r : Nat} {P : Matrix (Fin m) (Fin k) 𝕜} {eigvals : Fin r → 𝕜} {proj adjoint : Fin r → E}
    (h : SymmetryKept ip (combine X P) (combine Y P) eigvals proj adjoint) : SymmetryKept ip X Y eigvals proj adjoint := by
  refine ⟨fun hs => h.symmetric fun i j => ?_, fun hs => h.skew fun i j => ?_⟩
  · have h1 : gram ip X Y = gram ip Y X := by
      ext i j
      exact hs i j
    have h2 : gram ip (combine X P) (combine Y P) = gram ip (combine Y P) (combine X P) := by
      rw [gram_combine, gram_combine, h1]
    exact congrFun (congrFun h2 i) j
  · have h1 : gram ip X Y = -gram ip Y X := by
      ext i j
      exact hs i j
    have h2 : gram ip (combine X P) (combine Y P) = -gram ip (combine Y P) (combine X P) := by
      rw [gram_combine, gram_combine, h1, Matrix.mul_neg, Matrix.neg_mul]
    exact congrFun (congrFun h2 i) j

theorem TlsCore.symmetry (hsym : ∀ x y, ip y x = star (ip x y)) {t : TlsDecomp 𝕜 m}
    (h : TlsCore (gram ip X X) (gram ip Y Y) (gram ip X Y) t) (hLR : t.d.Lᴴ * t.d.R = 1) (hinj : Function.Injective t.d.eigvals)
    (hR : ∀ i, (t.d.Rᴴ * t.d.R) i i = 1) :
    SymmetryKept ip X Y t.d.eigvals (combine X t.buildProj) (combine X t.buildAdjoint) := by
  have hcore := h.core
  rw [← gram_proj_vecs, ← gram_proj_vecs] at hcore
  obtain ⟨r1, -, r3⟩ := h.range
  rw [show combine X t.buildProj = combine (combine X t.proj) t.d.buildProj by rw [h.buildProj, combine_combine, r1],
    show combine X t.buildAdjoint = combine (combine X t.proj) t.d.buildAdjoint by rw [h.buildAdjoint, combine_combine, r3]]
  exact (hcore.symmetry hsym hLR hinj hR).of_combine

theorem TlsCore.lengthsKept (hsym : ∀ x y, ip y x = star (ip x y)) {t : TlsDecomp 𝕜 m}
    (h : TlsCore (gram ip X X) (gram ip Y Y) (gram ip X Y) t) (hLR : t.d.Lᴴ * t.d.R = 1) (hinj : Function.Injective t.d.eigvals)
    (hR : ∀ i, (t.d.Rᴴ * t.d.R) i i = 1) :
    LengthsKept ip X Y t.d.eigvals (combine X t.buildProj) (combine X t.buildAdjoint) := by
  intro hs hY hrank
  change t.d.r = (gram ip X X).rank at hrank
  have hg : gram ip Y Y = gram ip X X := by
    ext i j
    exact hs i j
  obtain ⟨G, hG⟩ : ∃ G : Matrix (Fin m) (Fin m) 𝕜, Y = combine X G := by
    have h1 : ∀ j, ∃ c : Fin m → 𝕜, ∑ i, c i • X i = Y j := fun j => (Submodule.mem_span_range_iff_exists_fun 𝕜).mp (hY j)
    choose c hc using h1
    exact ⟨Matrix.of fun i j => c j i, funext fun j => (hc j).symm⟩
  have hK : gram ip X Y = gram ip X X * G := by rw [hG, gram_combine_right]
  have hGG : Gᴴ * gram ip X X * G = gram ip X X := by rw [← gram_combine, ← hG, hg]
  have hCh := gram_herm ip hsym X
  have hsum := h.sum
  have hcore := h.core
  rw [hg] at hsum
  suffices hfix : t.proj * gram ip X X * t.proj = gram ip X X ∧ t.proj * gram ip X Y * t.proj = gram ip X Y by
    rw [hfix.1, hfix.2] at hcore
    rw [h.buildProj, h.buildAdjoint]
    exact hcore.lengthsKept hLR hinj hR hs hY hrank
  have hfixed := h.fixed
  clear h
  rw [hK] at hcore ⊢
  generalize gram ip X X = C at *
  have hVS : t.sumV = Cᴴ * (t.sumV * diagPow (𝕜 := 𝕜) t.sumW (-1) + t.sumV * diagPow (𝕜 := 𝕜) t.sumW (-1)) := by
    rw [hCh, Matrix.mul_add, ← Matrix.add_mul, ← Matrix.mul_assoc, hsum.eigen, ← diagPow_one, Matrix.mul_assoc,
      diagPow_mul _ hsum.pos, show (1 : ℝ) + -1 = 0 by norm_num, diagPow_zero, Matrix.mul_one]
  have hq1 : t.q ≤ C.rank := by
    calc t.q = (t.sumVᴴ * t.sumV).rank := by rw [hsum.orthonormal, Matrix.rank_one, Fintype.card_fin]
      _ ≤ t.sumV.rank := Matrix.rank_mul_le_right _ _
      _ ≤ Cᴴ.rank := by
        conv_lhs => rw [hVS]
        exact Matrix.rank_mul_le_left _ _
      _ = C.rank := by rw [hCh]
  have hq2 : t.d.r ≤ t.q := by
    calc t.d.r = (t.d.Vᴴ * t.d.V).rank := by rw [hcore.orth, Matrix.rank_one, Fintype.card_fin]
      _ = (t.d.Vᴴ * t.sumV * (t.sumVᴴ * t.d.V)).rank := by
        congr 1
        conv_lhs => rw [← hfixed, TlsDecomp.proj]
        simp only [Matrix.mul_assoc, conjTranspose_mul, conjTranspose_conjTranspose]
        rw [← Matrix.mul_assoc t.sumVᴴ t.sumV, hsum.orthonormal, Matrix.one_mul]
      _ ≤ (t.d.Vᴴ * t.sumV).rank := Matrix.rank_mul_le_left _ _
      _ ≤ t.q := Matrix.rank_le_width _
  have hSV : C * t.sumV * t.sumVᴴ = C := span_of_rank hsum.orthonormal hVS (le_antisymm hq1 (hrank ▸ hq2))
  have hCP : C * t.proj = C := by rw [TlsDecomp.proj, ← Matrix.mul_assoc, hSV]
  have hPC : t.proj * C = C := by
    have h1 := congrArg conjTranspose hCP
    rwa [conjTranspose_mul, t.proj_herm, hCh] at h1
  rw [hPC, hCP] at hcore
  have hV : t.d.V = Cᴴ * (t.d.V * diagPow (𝕜 := 𝕜) t.d.w (-1)) := by
    rw [hCh, ← Matrix.mul_assoc, hcore.eigen, Matrix.mul_assoc, diagPow_mul _ hcore.pos,
      show (1 : ℝ) + -1 = 0 by norm_num, diagPow_zero, Matrix.mul_one]
  have hspan : C * t.d.V * t.d.Vᴴ = C := span_of_rank hcore.orth hV hrank
  have hroot : C = (diagPow (𝕜 := 𝕜) t.d.w 0.5 * t.d.Vᴴ)ᴴ * (diagPow (𝕜 := 𝕜) t.d.w 0.5 * t.d.Vᴴ) := by
    rw [conjTranspose_mul, conjTranspose_conjTranspose, diagPow_conjTranspose, Matrix.mul_assoc, ← Matrix.mul_assoc (diagPow _ _) (diagPow _ _),
      diagPow_mul _ hcore.pos, show (0.5 : ℝ) + 0.5 = 1 by norm_num, ← Matrix.mul_assoc, ← hcore.eigen, hspan]
  have hN : C * (G * (1 - t.proj)) = 0 := by
    have h1 : (diagPow (𝕜 := 𝕜) t.d.w 0.5 * t.d.Vᴴ * (G * (1 - t.proj)))ᴴ * (diagPow (𝕜 := 𝕜) t.d.w 0.5 * t.d.Vᴴ * (G * (1 - t.proj))) = 0 := by
      rw [conjTranspose_mul, Matrix.mul_assoc, ← Matrix.mul_assoc _ (diagPow (𝕜 := 𝕜) t.d.w 0.5 * t.d.Vᴴ), ← hroot, conjTranspose_mul,
        Matrix.mul_assoc, ← Matrix.mul_assoc C, ← Matrix.mul_assoc Gᴴ, ← Matrix.mul_assoc Gᴴ, hGG, Matrix.mul_sub, Matrix.mul_one, hCP,
        sub_self, Matrix.mul_zero]
    have h2 := Matrix.conjTranspose_mul_self_eq_zero.mp h1
    rw [hroot, Matrix.mul_assoc, h2, Matrix.mul_zero]
  refine ⟨by rw [hPC, hCP], ?_⟩
  rw [← Matrix.mul_assoc, hPC]
  rw [Matrix.mul_sub, Matrix.mul_one, Matrix.mul_sub, sub_eq_zero, ← Matrix.mul_assoc C G t.proj] at hN
  exact hN.symm

end Vectors

/-! ### Arrays -/

theorem DmdOutcome.symmetry {n m : Nat} {W : Matrix (Fin n) (Fin n) 𝕜} {X Y : Matrix (Fin n) (Fin m) 𝕜}
    {modeIndices : Option (List Int)} {res : DmdResult 𝕜 n m} (h : DmdOutcome W X Y modeIndices res)
    (hc : DmdCore (Xᴴ * W * X) (Xᴴ * W * Y) res.decomp) (hW : W.PosSemidef) (hLR : res.decomp.Lᴴ * res.decomp.R = 1)
    (hinj : Function.Injective res.decomp.eigvals) (hR : ∀ i, (res.decomp.Rᴴ * res.decomp.R) i i = 1) :
    ∃ proj adjoint, Chosen proj modeIndices res.projModes ∧ Chosen adjoint modeIndices res.adjointModes ∧
      SymmetryKept (weightedIp W) X.col Y.col res.decomp.eigvals proj.col adjoint.col ∧
      LengthsKept (weightedIp W) X.col Y.col res.decomp.eigvals proj.col adjoint.col := by
  have hc' : DmdCore (gram (weightedIp W) X.col X.col) (gram (weightedIp W) X.col Y.col) res.decomp := by
    rw [gram_weighted, gram_weighted]
    exact hc
  refine ⟨_, _, h.proj, h.adjoint, ?_⟩
  rw [col_mul, col_mul]
  exact ⟨hc'.symmetry (weightedIp_symm hW) hLR hinj hR, hc'.lengthsKept hLR hinj hR⟩

theorem TlsOutcome.symmetry {n m : Nat} {W : Matrix (Fin n) (Fin n) 𝕜} {K : Matrix (Fin m) (Fin m) 𝕜} {X Y : Matrix (Fin n) (Fin m) 𝕜}
    {modeIndices : Option (List Int)} {res : TlsResult 𝕜 n m} (h : TlsOutcome K X Y modeIndices res)
    (hc : TlsCore (Xᴴ * W * X) (Yᴴ * W * Y) (Xᴴ * W * Y) res.decomp) (hW : W.PosSemidef) (hLR : res.decomp.d.Lᴴ * res.decomp.d.R = 1)
    (hinj : Function.Injective res.decomp.d.eigvals) (hR : ∀ i, (res.decomp.d.Rᴴ * res.decomp.d.R) i i = 1) :
    ∃ proj adjoint, Chosen proj modeIndices res.projModes ∧ Chosen adjoint modeIndices res.adjointModes ∧
      SymmetryKept (weightedIp W) X.col Y.col res.decomp.d.eigvals proj.col adjoint.col ∧
      LengthsKept (weightedIp W) X.col Y.col res.decomp.d.eigvals proj.col adjoint.col := by
  refine ⟨_, _, h.proj, h.adjoint, ?_⟩
  rw [col_mul, col_mul]
  have hc' : TlsCore (gram (weightedIp W) X.col X.col) (gram (weightedIp W) Y.col Y.col) (gram (weightedIp W) X.col Y.col) res.decomp := by
    rw [gram_weighted, gram_weighted, gram_weighted]
    exact hc
  exact ⟨hc'.symmetry (weightedIp_symm hW) hLR hinj hR, hc'.lengthsKept (weightedIp_symm hW) hLR hinj hR⟩

section Snaps

variable {n m : Nat} (lib : PodLib 𝕜 n m) (eig : ∀ {r : Nat}, Matrix (Fin r) (Fin r) 𝕜 → EigOut 𝕜 r)
  (modeIndices : Option (List Int)) (weights : Option (NdArray 𝕜)) (ws : Weights 𝕜) (t : ℝ) (rtol : Option ℝ)
  (maxNum : Option Nat)

/-- **C128.** The snapshot method for sequential data. -/
theorem C128_snaps_sequential (hu : UnitEigenvectors eig) (ht : 0 ≤ t) (hr : ∀ t ∈ rtol, 0 ≤ t) (hs : IsArgsort lib.argsort)
    (hws : arraysInit weights = .ok ws) (hfit : ws.Fits n) (hW : (ws.matrix n).PosSemidef)
    (hlib : ∀ C : Matrix (Fin m) (Fin m) 𝕜, C.IsHermitian → IsEigh C (lib.eigh C)) (Z : Matrix (Fin n) (Fin (m + 1)) 𝕜)
    (res : DmdResult 𝕜 n m) (corr cross : Matrix (Fin m) (Fin m) 𝕜)
    (hres : dmdSnapsSeq lib eig Z modeIndices weights (some t) rtol maxNum = .ok (res, corr, cross))
    (heig : EigOfReduced eig (ws.matrix n) (seqFirst Z) (seqNext Z) res.decomp)
    (hinj : Function.Injective res.decomp.eigvals) :
    ∃ proj adjoint, Chosen proj modeIndices res.projModes ∧ Chosen adjoint modeIndices res.adjointModes ∧
      SymmetryKept (weightedIp (ws.matrix n)) (seqFirst Z).col (seqNext Z).col res.decomp.eigvals proj.col adjoint.col ∧
      LengthsKept (weightedIp (ws.matrix n)) (seqFirst Z).col (seqNext Z).col res.decomp.eigvals proj.col adjoint.col := by
  obtain ⟨rfl, rfl, hd, ho⟩ := dmdSnapsSeq_ok lib eig modeIndices weights ws _ rtol maxNum hws hfit Z res corr cross hres
  obtain ⟨hc, hLR⟩ := dmdEigendecomp_core _ _ eig _ _ t rtol maxNum _ hd ht hr hs (gram_hermitian hW.1 _)
    (hlib _ (gram_hermitian hW.1 _)) heig
  exact ho.symmetry hc hW (hLR hinj) hinj (dmdEigendecomp_unit hu hd)

/-- **C128.** The snapshot method for pairs of vectors. -/
theorem C128_snaps_pairs (hu : UnitEigenvectors eig) (ht : 0 ≤ t) (hr : ∀ t ∈ rtol, 0 ≤ t) (hs : IsArgsort lib.argsort)
    (hws : arraysInit weights = .ok ws) (hfit : ws.Fits n) (hW : (ws.matrix n).PosSemidef)
    (hlib : ∀ C : Matrix (Fin m) (Fin m) 𝕜, C.IsHermitian → IsEigh C (lib.eigh C)) (X Y : Matrix (Fin n) (Fin m) 𝕜)
    (res : DmdResult 𝕜 n m) (corr cross : Matrix (Fin m) (Fin m) 𝕜)
    (hres : dmdSnapsPairs lib eig X ⟨n, m, Y⟩ modeIndices weights (some t) rtol maxNum = .ok (res, corr, cross))
    (heig : EigOfReduced eig (ws.matrix n) X Y res.decomp) (hinj : Function.Injective res.decomp.eigvals) :
    ∃ proj adjoint, Chosen proj modeIndices res.projModes ∧ Chosen adjoint modeIndices res.adjointModes ∧
      SymmetryKept (weightedIp (ws.matrix n)) X.col Y.col res.decomp.eigvals proj.col adjoint.col ∧
      LengthsKept (weightedIp (ws.matrix n)) X.col Y.col res.decomp.eigvals proj.col adjoint.col := by
  obtain ⟨rfl, rfl, hd, ho⟩ := dmdSnapsPairs_ok lib eig modeIndices weights ws _ rtol maxNum hws hfit X Y res corr cross hres
  obtain ⟨hc, hLR⟩ := dmdEigendecomp_core _ _ eig _ _ t rtol maxNum _ hd ht hr hs (gram_hermitian hW.1 _)
    (hlib _ (gram_hermitian hW.1 _)) heig
  exact ho.symmetry hc hW (hLR hinj) hinj (dmdEigendecomp_unit hu hd)

/-- **C128.** The snapshot method with total least squares for sequential data. -/
theorem C128_tls_snaps_sequential (hu : UnitEigenvectors eig) (ht : 0 ≤ t) (hr : ∀ t ∈ rtol, 0 ≤ t)
    (hs : IsArgsort lib.argsort) (hws : arraysInit weights = .ok ws) (hfit : ws.Fits n) (hW : (ws.matrix n).PosSemidef)
    (hlib : ∀ C : Matrix (Fin m) (Fin m) 𝕜, C.IsHermitian → IsEigh C (lib.eigh C)) (Z : Matrix (Fin n) (Fin (m + 1)) 𝕜)
    (res : TlsResult 𝕜 n m) (c : TlsCorr 𝕜 m)
    (hres : tlsSnapsSeq lib eig Z modeIndices weights (some t) rtol maxNum = .ok (res, c))
    (heig : EigOfProjected eig ((seqFirst Z)ᴴ * ws.matrix n * seqNext Z) res.decomp)
    (hinj : Function.Injective res.decomp.d.eigvals) :
    ∃ proj adjoint, Chosen proj modeIndices res.projModes ∧ Chosen adjoint modeIndices res.adjointModes ∧
      SymmetryKept (weightedIp (ws.matrix n)) (seqFirst Z).col (seqNext Z).col res.decomp.d.eigvals proj.col adjoint.col ∧
      LengthsKept (weightedIp (ws.matrix n)) (seqFirst Z).col (seqNext Z).col res.decomp.d.eigvals proj.col adjoint.col := by
  obtain ⟨rfl, hd, ho⟩ := tlsSnapsSeq_ok lib eig modeIndices weights ws _ rtol maxNum hws hfit Z res c hres
  obtain ⟨hc, hLR⟩ := tlsEigendecomp_core _ _ eig _ _ _ t rtol none maxNum _ hd ht hr (by simp) hs (gram_hermitian hW.1 _)
    (gram_hermitian hW.1 _) hlib heig
  exact ho.symmetry hc hW (hLR hinj) hinj (tlsEigendecomp_unit eig hu hd)

/-- **C128.** The snapshot method with total least squares for pairs of vectors. -/
theorem C128_tls_snaps_pairs (hu : UnitEigenvectors eig) (ht : 0 ≤ t) (hr : ∀ t ∈ rtol, 0 ≤ t)
    (hs : IsArgsort lib.argsort) (hws : arraysInit weights = .ok ws) (hfit : ws.Fits n) (hW : (ws.matrix n).PosSemidef)
    (hlib : ∀ C : Matrix (Fin m) (Fin m) 𝕜, C.IsHermitian → IsEigh C (lib.eigh C)) (X Y : Matrix (Fin n) (Fin m) 𝕜)
    (res : TlsResult 𝕜 n m) (c : TlsCorr 𝕜 m)
    (hres : tlsSnapsPairs lib eig X ⟨n, m, Y⟩ modeIndices weights (some t) rtol maxNum = .ok (res, c))
    (heig : EigOfProjected eig (Xᴴ * ws.matrix n * Y) res.decomp) (hinj : Function.Injective res.decomp.d.eigvals) :
    ∃ proj adjoint, Chosen proj modeIndices res.projModes ∧ Chosen adjoint modeIndices res.adjointModes ∧
      SymmetryKept (weightedIp (ws.matrix n)) X.col Y.col res.decomp.d.eigvals proj.col adjoint.col ∧
      LengthsKept (weightedIp (ws.matrix n)) X.col Y.col res.decomp.d.eigvals proj.col adjoint.col := by
  obtain ⟨rfl, hd, ho⟩ := tlsSnapsPairs_ok lib eig modeIndices weights ws _ rtol maxNum hws hfit X Y res c hres
  obtain ⟨hc, hLR⟩ := tlsEigendecomp_core _ _ eig _ _ _ t rtol none maxNum _ hd ht hr (by simp) hs (gram_hermitian hW.1 _)
    (gram_hermitian hW.1 _) hlib heig
  exact ho.symmetry hc hW (hLR hinj) hinj (tlsEigendecomp_unit eig hu hd)

end Snaps

section Direct

variable {n m : Nat} (lib : PodLib 𝕜 n m) (eig : ∀ {r : Nat}, Matrix (Fin r) (Fin r) 𝕜 → EigOut 𝕜 r)
  (modeIndices : Option (List Int)) (ws : DirectWeights 𝕜) (t : ℝ) (rtol : Option ℝ) (maxNum : Option Nat)

/-- **C128.** The direct method for sequential data. -/
theorem C128_direct_sequential (hu : UnitEigenvectors eig) (ht : 0 ≤ t) (hr : ∀ t ∈ rtol, 0 ≤ t) (hfit : ws.Fits n)
    (hchol : ∀ p q w, ws = .d2 p q w → IsCholesky lib.cholesky (ws.matrix n)) (hlib : ∀ a, IsSvd a (lib.svd a))
    (Z : Matrix (Fin n) (Fin (m + 1)) 𝕜) (res : DmdResult 𝕜 n m)
    (hres : dmdDirectSeq lib eig Z modeIndices ws (some t) rtol maxNum = .ok res)
    (heig : EigOfReduced eig (ws.matrix n) (seqFirst Z) (seqNext Z) res.decomp)
    (hinj : Function.Injective res.decomp.eigvals) :
    ∃ proj adjoint, Chosen proj modeIndices res.projModes ∧ Chosen adjoint modeIndices res.adjointModes ∧
      SymmetryKept (weightedIp (ws.matrix n)) (seqFirst Z).col (seqNext Z).col res.decomp.eigvals proj.col adjoint.col ∧
      LengthsKept (weightedIp (ws.matrix n)) (seqFirst Z).col (seqNext Z).col res.decomp.eigvals proj.col adjoint.col := by
  obtain ⟨hc, hLR, ho⟩ := dmdDirectSeq_ok lib eig modeIndices ws t rtol maxNum hfit hchol ht hr hlib Z res hres _ _ rfl rfl heig
  refine ho.symmetry hc (directWeights_posDef ws hfit).posSemidef (hLR hinj) hinj ?_
  unfold dmdDirectSeq at hres
  split at hres
  · cases hres
  exact dmdDirectRest_unit hu hres

/-- **C128.** The direct method for pairs of vectors. -/
theorem C128_direct_pairs (hu : UnitEigenvectors eig) (ht : 0 ≤ t) (hr : ∀ t ∈ rtol, 0 ≤ t) (hfit : ws.Fits n)
    (hchol : ∀ p q w, ws = .d2 p q w → IsCholesky lib.cholesky (ws.matrix n)) (hlib : ∀ a, IsSvd a (lib.svd a))
    (X Y : Matrix (Fin n) (Fin m) 𝕜) (res : DmdResult 𝕜 n m)
    (hres : dmdDirectPairs lib eig X ⟨n, m, Y⟩ modeIndices ws (some t) rtol maxNum = .ok res)
    (heig : EigOfReduced eig (ws.matrix n) X Y res.decomp) (hinj : Function.Injective res.decomp.eigvals) :
    ∃ proj adjoint, Chosen proj modeIndices res.projModes ∧ Chosen adjoint modeIndices res.adjointModes ∧
      SymmetryKept (weightedIp (ws.matrix n)) X.col Y.col res.decomp.eigvals proj.col adjoint.col ∧
      LengthsKept (weightedIp (ws.matrix n)) X.col Y.col res.decomp.eigvals proj.col adjoint.col := by
  obtain ⟨hc, hLR, ho⟩ := dmdDirectPairs_ok lib eig modeIndices ws t rtol maxNum hfit hchol ht hr hlib X Y res hres heig
  exact ho.symmetry hc (directWeights_posDef ws hfit).posSemidef (hLR hinj) hinj
    (dmdDirectPairs_unit lib eig modeIndices ws rtol maxNum hu hres)

variable (svd : Matrix (Fin (n + n)) (Fin m) 𝕜 → SvdOut 𝕜 (n + n) m)

theorem tlsDirectRest_symmetry (hu : UnitEigenvectors eig) (so : Option (Matrix (Fin n) (Fin n) 𝕜)) (hfit : ws.Fits n)
    (hchol : ∀ p q w, ws = .d2 p q w → IsCholesky lib.cholesky (ws.matrix n))
    (hso : directSqrtWeights lib.cholesky ws = .ok so) (ht : 0 ≤ t) (hr : ∀ t ∈ rtol, 0 ≤ t)
    (hlib : ∀ a, IsSvd a (lib.svd a)) (hlib' : ∀ a, IsSvd a (svd a)) (X Y : Matrix (Fin n) (Fin m) 𝕜) (res : TlsResult 𝕜 n m)
    (hres : tlsDirectRest lib eig svd so X Y modeIndices ws (some t) rtol maxNum = .ok res)
    (heig : EigOfProjected eig (Xᴴ * ws.matrix n * Y) res.decomp) (hinj : Function.Injective res.decomp.d.eigvals) :
    ∃ proj adjoint, Chosen proj modeIndices res.projModes ∧ Chosen adjoint modeIndices res.adjointModes ∧
      SymmetryKept (weightedIp (ws.matrix n)) X.col Y.col res.decomp.d.eigvals proj.col adjoint.col ∧
      LengthsKept (weightedIp (ws.matrix n)) X.col Y.col res.decomp.d.eigvals proj.col adjoint.col := by
  obtain ⟨hp, hc, hLR, ho⟩ := tlsDirectRest_core lib eig svd modeIndices ws t rtol maxNum so hfit hchol hso ht hr hlib hlib' X Y
    res hres heig
  obtain ⟨-, hd⟩ := tlsDirectRest_ok lib eig svd modeIndices ws rtol maxNum so _ X Y res hres
  have hW := (directWeights_posDef ws hfit).posSemidef
  have hu' := dmdDirectPairs_unit lib eig modeIndices ws rtol maxNum hu hd
  have hc' : TlsCore (gram (weightedIp (ws.matrix n)) X.col X.col) (gram (weightedIp (ws.matrix n)) Y.col Y.col)
      (gram (weightedIp (ws.matrix n)) X.col Y.col) res.decomp := by
    rw [gram_weighted, gram_weighted, gram_weighted]
    rw [gram_proj, gram_proj] at hc
    exact ⟨hp, hc⟩
  obtain ⟨r1, -, r3⟩ := hc'.range
  have h1 := ho.proj
  have h2 := ho.adjoint
  dsimp only at h1 h2
  rw [Matrix.mul_assoc, r1, ← hc'.buildProj] at h1
  rw [Matrix.mul_assoc, r3, ← hc'.buildAdjoint] at h2
  refine ⟨_, _, h1, h2, ?_⟩
  rw [col_mul, col_mul]
  exact ⟨hc'.symmetry (weightedIp_symm hW) (hLR hinj) hinj hu', hc'.lengthsKept (weightedIp_symm hW) (hLR hinj) hinj hu'⟩

/-- **C128.** The direct method with total least squares for sequential data. -/
theorem C128_tls_direct_sequential (hu : UnitEigenvectors eig) (ht : 0 ≤ t) (hr : ∀ t ∈ rtol, 0 ≤ t) (hfit : ws.Fits n)
    (hchol : ∀ p q w, ws = .d2 p q w → IsCholesky lib.cholesky (ws.matrix n)) (hlib : ∀ a, IsSvd a (lib.svd a))
    (hlib' : ∀ a, IsSvd a (svd a)) (Z : Matrix (Fin n) (Fin (m + 1)) 𝕜) (res : TlsResult 𝕜 n m)
    (hres : tlsDirectSeq lib eig svd Z modeIndices ws (some t) rtol maxNum = .ok res)
    (heig : EigOfProjected eig ((seqFirst Z)ᴴ * ws.matrix n * seqNext Z) res.decomp)
    (hinj : Function.Injective res.decomp.d.eigvals) :
    ∃ proj adjoint, Chosen proj modeIndices res.projModes ∧ Chosen adjoint modeIndices res.adjointModes ∧
      SymmetryKept (weightedIp (ws.matrix n)) (seqFirst Z).col (seqNext Z).col res.decomp.d.eigvals proj.col adjoint.col ∧
      LengthsKept (weightedIp (ws.matrix n)) (seqFirst Z).col (seqNext Z).col res.decomp.d.eigvals proj.col adjoint.col := by
  unfold tlsDirectSeq at hres
  split at hres
  · cases hres
  rename_i so hso
  exact tlsDirectRest_symmetry lib eig modeIndices ws t rtol maxNum svd hu so hfit hchol hso ht hr hlib hlib' _ _ res hres heig hinj

/-- **C128.** The direct method with total least squares for pairs of vectors. -/
theorem C128_tls_direct_pairs (hu : UnitEigenvectors eig) (ht : 0 ≤ t) (hr : ∀ t ∈ rtol, 0 ≤ t) (hfit : ws.Fits n)
    (hchol : ∀ p q w, ws = .d2 p q w → IsCholesky lib.cholesky (ws.matrix n)) (hlib : ∀ a, IsSvd a (lib.svd a))
    (hlib' : ∀ a, IsSvd a (svd a)) (X Y : Matrix (Fin n) (Fin m) 𝕜) (res : TlsResult 𝕜 n m)
    (hres : tlsDirectPairs lib eig svd X ⟨n, m, Y⟩ modeIndices ws (some t) rtol maxNum = .ok res)
    (heig : EigOfProjected eig (Xᴴ * ws.matrix n * Y) res.decomp) (hinj : Function.Injective res.decomp.d.eigvals) :
    ∃ proj adjoint, Chosen proj modeIndices res.projModes ∧ Chosen adjoint modeIndices res.adjointModes ∧
      SymmetryKept (weightedIp (ws.matrix n)) X.col Y.col res.decomp.d.eigvals proj.col adjoint.col ∧
      LengthsKept (weightedIp (ws.matrix n)) X.col Y.col res.decomp.d.eigvals proj.col adjoint.col := by
  unfold tlsDirectPairs at hres
  split at hres
  · cases hres
  rename_i so hso
  simp only [and_self, dite_true] at hres
  exact tlsDirectRest_symmetry lib eig modeIndices ws t rtol maxNum svd hu so hfit hchol hso ht hr hlib hlib' _ _ res hres heig hinj

end Direct

/-! ### Handles -/

section Handles

variable {E : Type*} [AddCommGroup E] [Module 𝕜 E] (lib : DmdLib 𝕜) (ip : E →ₗ⋆[𝕜] E →ₗ[𝕜] 𝕜) (t : ℝ) (rtol : Option ℝ)
  (maxNum : Option Nat)

/-- **C128.** `DMDHandles` for sequential data. -/
theorem C128_handles_sequential (g g' : DmdHandles 𝕜 E) (hu : UnitEigenvectors lib.eig) (ht : 0 ≤ t) (hlib : lib.Lawful)
    (hsym : ∀ x y, ip y x = star (ip x y)) (vecs : List E)
    (hrun : g.computeDecomp lib (fun x y => ip x y) vecs none (some t) rtol maxNum = (.ok (), g'))
    (d : DmdDecomp 𝕜 (vecs.length - 1)) (hd : g'.decomp = some ⟨vecs.length - 1, d⟩)
    (heig : EigOfReducedVecs ip lib.eig (seqVecs vecs) (seqAdvVecs vecs) d) (hinj : Function.Injective d.eigvals) :
    ∃ proj adjoint : Fin d.r → E,
      (∀ l num a out g'', (a = none ∨ a = some vecs) →
        g'.computeProjModes l num a = (.ok out, g'') → ChosenVecs proj l out) ∧
      (∀ l num a out g'', (a = none ∨ a = some vecs) →
        g'.computeAdjointModes l num a = (.ok out, g'') → ChosenVecs adjoint l out) ∧
      SymmetryKept ip (seqVecs vecs) (seqAdvVecs vecs) d.eigvals proj adjoint ∧
      LengthsKept ip (seqVecs vecs) (seqAdvVecs vecs) d.eigvals proj adjoint := by
  obtain ⟨d', hd', rfl⟩ := computeDecomp_seq lib _ g g' vecs (some t) rtol maxNum hrun
  cases hd
  obtain ⟨hm, hc, hLR⟩ := handles_modes lib ip t maxNum ht hlib hsym hd' heig
  obtain ⟨-, h2, h3⟩ := state_seq vecs (handlesIp (fun x y => ip x y) (seqVecs vecs) (seqVecs vecs))
    (handlesIp (fun x y => ip x y) (seqVecs vecs) (seqAdvVecs vecs)) g.adv d hm
  exact ⟨_, _, h2, h3, hc.symmetry hsym (hLR hinj) hinj (dmdEigendecomp_unit hu hd'), hc.lengthsKept (hLR hinj) hinj (dmdEigendecomp_unit hu hd')⟩

/-- **C128.** `DMDHandles` for pairs of vectors. -/
theorem C128_handles_pairs (g g' : DmdHandles 𝕜 E) (hu : UnitEigenvectors lib.eig) (ht : 0 ≤ t) (hlib : lib.Lawful)
    (hsym : ∀ x y, ip y x = star (ip x y)) (vecs adv : List E)
    (hrun : g.computeDecomp lib (fun x y => ip x y) vecs (some adv) (some t) rtol maxNum = (.ok (), g'))
    (d : DmdDecomp 𝕜 vecs.length) (hd : g'.decomp = some ⟨vecs.length, d⟩) (hlen : vecs.length = adv.length)
    (heig : EigOfReducedVecs ip lib.eig vecs.get (fun j => adv.get (Fin.cast hlen j)) d)
    (hinj : Function.Injective d.eigvals) :
    ∃ proj adjoint : Fin d.r → E,
      (∀ l num a out g'', (a = none ∨ a = some vecs) →
        g'.computeProjModes l num a = (.ok out, g'') → ChosenVecs proj l out) ∧
      (∀ l num a out g'', (a = none ∨ a = some vecs) →
        g'.computeAdjointModes l num a = (.ok out, g'') → ChosenVecs adjoint l out) ∧
      SymmetryKept ip vecs.get (fun j => adv.get (Fin.cast hlen j)) d.eigvals proj adjoint ∧
      LengthsKept ip vecs.get (fun j => adv.get (Fin.cast hlen j)) d.eigvals proj adjoint := by
  obtain ⟨_, d', hd', rfl⟩ := computeDecomp_pairs lib _ g g' vecs adv (some t) rtol maxNum hrun
  cases hd
  obtain ⟨hm, hc, hLR⟩ := handles_modes lib ip t maxNum ht hlib hsym hd' heig
  obtain ⟨-, h2, h3⟩ := state_pairs vecs adv hlen (handlesIp (fun x y => ip x y) vecs.get vecs.get)
    (handlesIp (fun x y => ip x y) vecs.get fun j => adv.get (Fin.cast hlen j)) d
  exact ⟨_, _, h2, h3, hc.symmetry hsym (hLR hinj) hinj (dmdEigendecomp_unit hu hd'), hc.lengthsKept (hLR hinj) hinj (dmdEigendecomp_unit hu hd')⟩

theorem tls_handles_symmetry {m : Nat} {X Y : Fin m → E} {d : TlsDecomp 𝕜 m} (hu : UnitEigenvectors lib.eig) (ht : 0 ≤ t)
    (hlib : lib.Lawful) (hsym : ∀ x y, ip y x = star (ip x y))
    (hd : tlsEigendecomp lib.eigh lib.argsort lib.eig (gram ip X X) (gram ip Y Y) (gram ip X Y) (some t) none none maxNum = .ok d)
    (heig : EigOfProjected lib.eig (gram ip X Y) d) (hinj : Function.Injective d.d.eigvals) :
    SymmetryKept ip X Y d.d.eigvals (combine X d.buildProj) (combine X d.buildAdjoint) ∧
      LengthsKept ip X Y d.d.eigvals (combine X d.buildProj) (combine X d.buildAdjoint) := by
  obtain ⟨hc, hLR⟩ := tlsEigendecomp_core _ _ lib.eig _ _ _ t none none maxNum d hd ht (by simp) (by simp) hlib.argsort
    (gram_herm ip hsym X) (gram_herm ip hsym Y) hlib.eigh heig
  exact ⟨hc.symmetry hsym (hLR hinj) hinj (tlsEigendecomp_unit lib.eig hu hd), hc.lengthsKept hsym (hLR hinj) hinj (tlsEigendecomp_unit lib.eig hu hd)⟩

/-- **C128.** `TLSqrDMDHandles` for sequential data. -/
theorem C128_tls_handles_sequential (g g' : TlsHandles 𝕜 E) (hu : UnitEigenvectors lib.eig) (ht : 0 ≤ t) (hlib : lib.Lawful)
    (hsym : ∀ x y, ip y x = star (ip x y)) (vecs : List E)
    (hrun : g.computeDecomp lib (fun x y => ip x y) vecs none (some t) rtol maxNum = (.ok (), g'))
    (d : TlsDecomp 𝕜 (vecs.length - 1)) (hd : g'.decomp = some ⟨vecs.length - 1, d⟩)
    (heig : EigOfProjected lib.eig (gram ip (seqVecs vecs) (seqAdvVecs vecs)) d) (hinj : Function.Injective d.d.eigvals) :
    ∃ proj adjoint : Fin d.d.r → E,
      (∀ l num a out g'', (a = none ∨ a = some vecs) →
        g'.computeProjModes l num a = (.ok out, g'') → ChosenVecs proj l out) ∧
      (∀ l num a out g'', (a = none ∨ a = some vecs) →
        g'.computeAdjointModes l num a = (.ok out, g'') → ChosenVecs adjoint l out) ∧
      SymmetryKept ip (seqVecs vecs) (seqAdvVecs vecs) d.d.eigvals proj adjoint ∧
      LengthsKept ip (seqVecs vecs) (seqAdvVecs vecs) d.d.eigvals proj adjoint := by
  obtain ⟨d', hd', rfl⟩ := tlsComputeDecomp_seq lib _ g g' vecs (some t) rtol maxNum hrun
  cases hd
  have hm := tlsEigendecomp_pos lib maxNum hd'
  exact ⟨_, _, (tls_state_seq vecs _ g.adv d hm).2.1,
    (tls_state_seq vecs _ g.adv d hm).2.2, tls_handles_symmetry lib ip t maxNum hu ht hlib hsym hd' heig hinj⟩

/-- **C128.** `TLSqrDMDHandles` for pairs of vectors. -/
theorem C128_tls_handles_pairs (g g' : TlsHandles 𝕜 E) (hu : UnitEigenvectors lib.eig) (ht : 0 ≤ t) (hlib : lib.Lawful)
    (hsym : ∀ x y, ip y x = star (ip x y)) (vecs adv : List E)
    (hrun : g.computeDecomp lib (fun x y => ip x y) vecs (some adv) (some t) rtol maxNum = (.ok (), g'))
    (d : TlsDecomp 𝕜 vecs.length) (hd : g'.decomp = some ⟨vecs.length, d⟩) (hlen : vecs.length = adv.length)
    (heig : EigOfProjected lib.eig (gram ip vecs.get (fun j => adv.get (Fin.cast hlen j))) d)
    (hinj : Function.Injective d.d.eigvals) :
    ∃ proj adjoint : Fin d.d.r → E,
      (∀ l num a out g'', (a = none ∨ a = some vecs) →
        g'.computeProjModes l num a = (.ok out, g'') → ChosenVecs proj l out) ∧
      (∀ l num a out g'', (a = none ∨ a = some vecs) →
        g'.computeAdjointModes l num a = (.ok out, g'') → ChosenVecs adjoint l out) ∧
      SymmetryKept ip vecs.get (fun j => adv.get (Fin.cast hlen j)) d.d.eigvals proj adjoint ∧
      LengthsKept ip vecs.get (fun j => adv.get (Fin.cast hlen j)) d.d.eigvals proj adjoint := by
  obtain ⟨_, d', hd', rfl⟩ := tlsComputeDecomp_pairs lib _ g g' vecs adv (some t) rtol maxNum hrun
  cases hd
  exact ⟨_, _, (tls_state_pairs vecs adv hlen _ d).2.1,
    (tls_state_pairs vecs adv hlen _ d).2.2, tls_handles_symmetry lib ip t maxNum hu ht hlib hsym hd' heig hinj⟩

end Handles

/-! ### Example -/

/-- Eigenvalues 1 and -1 of the map that exchanges two coordinates, with eigenvectors of length one. -/
noncomputable def exchangeEig : ∀ {r : Nat}, Matrix (Fin r) (Fin r) ℝ → EigOut ℝ r
  | 2, _ => ⟨![1, -1], !![1, 1; 1, -1], !![1 / √2, 1 / √2; 1 / √2, -(1 / √2)]⟩
  | _, _ => ⟨0, 1, 1⟩

theorem exchangeEig_unit : UnitEigenvectors exchangeEig := by
  intro r a i
  match r, a, i with
  | 0, _, i => exact i.elim0
  | 1, _, i => exact (by simp : ((1 : Matrix (Fin 1) (Fin 1) ℝ)ᴴ * (1 : Matrix (Fin 1) (Fin 1) ℝ)) i i = 1)
  | 2, _, i =>
    have h2 : (√2)⁻¹ * (√2)⁻¹ = (1 / 2 : ℝ) := by
      rw [← mul_inv, Real.mul_self_sqrt (by norm_num)]
      norm_num
    rw [Matrix.mul_apply, Fin.sum_univ_two]
    fin_cases i <;> simp [exchangeEig] <;> linarith
  | r + 3, _, i => exact (by simp : ((1 : Matrix (Fin (r + 3)) (Fin (r + 3)) ℝ)ᴴ * (1 : Matrix (Fin (r + 3)) (Fin (r + 3)) ℝ)) i i = 1)

theorem exchangeEig_isEig : IsEig (!![0, 1; 1, 0] : Matrix (Fin 2) (Fin 2) ℝ) (exchangeEig !![0, 1; 1, 0]) where
  right := by
    ext i j
    rw [mul_diagonal]
    fin_cases i <;> fin_cases j <;> simp [exchangeEig, Matrix.mul_apply, Fin.sum_univ_two]
  left := by
    ext i j
    rw [diagonal_mul]
    fin_cases i <;> fin_cases j <;> simp [exchangeEig, Matrix.mul_apply, Fin.sum_univ_two]
  right_nonzero := by
    intro j h
    have h0 := congrFun h 0
    fin_cases j <;> simp [exchangeEig] at h0
  left_nonzero := by
    intro j h
    have h0 := congrFun h 0
    fin_cases j <;> simp [exchangeEig] at h0

/-- Two unit vectors that are exchanged keep their inner products. -/
theorem exchange_lengths :
    (∀ i j, weightedIp ((Weights.none : Weights ℝ).matrix 2) ((!![0, 1; 1, 0] : Matrix (Fin 2) (Fin 2) ℝ).col i)
      ((!![0, 1; 1, 0] : Matrix (Fin 2) (Fin 2) ℝ).col j) =
        weightedIp ((Weights.none : Weights ℝ).matrix 2) ((1 : Matrix (Fin 2) (Fin 2) ℝ).col i) ((1 : Matrix (Fin 2) (Fin 2) ℝ).col j)) ∧
    (∀ j, (!![0, 1; 1, 0] : Matrix (Fin 2) (Fin 2) ℝ).col j ∈ Submodule.span ℝ (Set.range (1 : Matrix (Fin 2) (Fin 2) ℝ).col)) ∧
    2 = (gram (weightedIp ((Weights.none : Weights ℝ).matrix 2)) (1 : Matrix (Fin 2) (Fin 2) ℝ).col
      (1 : Matrix (Fin 2) (Fin 2) ℝ).col).rank := by
  refine ⟨?_, ?_, ?_⟩
  · intro i j
    have h : ∀ A : Matrix (Fin 2) (Fin 2) ℝ, Aᴴ * A = 1 → ∀ i j,
        weightedIp ((Weights.none : Weights ℝ).matrix 2) (A.col i) (A.col j) = (1 : Matrix (Fin 2) (Fin 2) ℝ) i j := by
      intro A hA i j
      rw [← hA]
      have := congrFun (congrFun (gram_weighted (W := (1 : Matrix (Fin 2) (Fin 2) ℝ)) A A) i) j
      rw [Matrix.mul_one] at this
      exact this
    rw [h _ (by ext i j; fin_cases i <;> fin_cases j <;> simp [Matrix.mul_apply, Fin.sum_univ_two]), h _ (by simp)]
  · intro j
    rw [Submodule.mem_span_range_iff_exists_fun]
    refine ⟨(!![0, 1; 1, 0] : Matrix (Fin 2) (Fin 2) ℝ).col j, ?_⟩
    ext i
    rw [Finset.sum_apply, Fin.sum_univ_two]
    fin_cases i <;> fin_cases j <;> simp
  · rw [gram_weighted]
    have : ((1 : Matrix (Fin 2) (Fin 2) ℝ)ᴴ * (Weights.none : Weights ℝ).matrix 2 * (1 : Matrix (Fin 2) (Fin 2) ℝ)) = 1 := by
      simp [Weights.matrix]
    rw [this, rank_one]
    rfl

/-- Two vectors that are exchanged, which is symmetric and keeps all lengths. -/
example : ∃ (lib : PodLib ℝ 2 2) (res : DmdResult ℝ 2 2) (corr cross : Matrix (Fin 2) (Fin 2) ℝ),
    dmdSnapsPairs lib exchangeEig 1 ⟨2, 2, !![0, 1; 1, 0]⟩ none none (some (1 * (1 / 10))) none none = .ok (res, corr, cross) ∧
    res.decomp.r = 2 ∧ (∀ i, ‖res.decomp.eigvals i‖ = 1) ∧ ∃ proj adjoint : Matrix (Fin 2) (Fin res.decomp.r) ℝ, Chosen proj none res.projModes ∧
      Chosen adjoint none res.adjointModes ∧ (∀ i j, proj.col i ⬝ᵥ proj.col j = if i = j then 1 else 0) ∧ adjoint = proj := by
  obtain ⟨lib, res, corr, cross, heigh, hs, hres, hd⟩ := snaps_orthogonal 1 (by simp) 1 one_pos exchangeEig 1
    !![0, 1; 1, 0] (by simp) none
  have hr2 : res.decomp.r = 2 := by rw [hd]; rfl
  have hE : EigOfReduced exchangeEig ((Weights.none : Weights ℝ).matrix 2) 1 !![0, 1; 1, 0] res.decomp := by
    rw [hd]
    unfold EigOfReduced
    have hlow : lowOrderMap (diagPow (𝕜 := ℝ) (fun _ : Fin 2 => (1 : ℝ)) (-0.5)) (1 : Matrix (Fin 2) (Fin 2) ℝ)
        ((1 : Matrix (Fin 2) (Fin 2) ℝ)ᴴ * 1 * !![0, 1; 1, 0]) = !![0, 1; 1, 0] := by
      rw [exampleSeq_low _ _ (exampleSeq_diagPow _) rfl]
      simp
    change IsEig (lowOrderMap (diagPow (𝕜 := ℝ) (fun _ : Fin 2 => (1 : ℝ)) (-0.5)) (1 : Matrix (Fin 2) (Fin 2) ℝ)
      ((1 : Matrix (Fin 2) (Fin 2) ℝ)ᴴ * 1 * !![0, 1; 1, 0])) (exchangeEig (lowOrderMap _ _ _))
    rw [hlow]
    exact exchangeEig_isEig
  have hinj : Function.Injective res.decomp.eigvals := by
    rw [hd]
    refine (?_ : Function.Injective (![1, -1] : Fin 2 → ℝ))
    intro i j hij
    fin_cases i <;> fin_cases j <;> simp at hij ⊢ <;> linarith
  obtain ⟨proj, adjoint, h1, h2, -, h3⟩ := C128_snaps_pairs lib exchangeEig none none .none _ none none exchangeEig_unit (by norm_num)
    (by simp) hs rfl trivial PosSemidef.one heigh _ _ res corr cross hres hE hinj
  obtain ⟨h4, h5⟩ := h3 exchange_lengths.1 exchange_lengths.2.1 (by rw [hr2]; exact exchange_lengths.2.2)
  refine ⟨lib, res, corr, cross, hres, hr2, h4, proj, adjoint, h1, h2, fun i j => ?_, ?_⟩
  · have := h5.orthonormal i j
    rw [← this]
    have h6 := congrFun (congrFun (gram_weighted (W := (1 : Matrix (Fin 2) (Fin 2) ℝ)) proj proj) i) j
    rw [Matrix.mul_one] at h6
    exact h6.symm
  · ext i j
    exact congrFun (congrFun h5.adjoint j) i

/-- The same with total least squares. -/
theorem exchange_tls : ∃ (lib : PodLib ℝ 2 2) (res : TlsResult ℝ 2 2) (c : TlsCorr ℝ 2),
    (∀ a, a.IsHermitian → IsEigh a (lib.eigh a)) ∧ IsArgsort lib.argsort ∧
    tlsSnapsPairs lib exchangeEig 1 ⟨2, 2, !![0, 1; 1, 0]⟩ none none (some (1 / 10)) none none = .ok (res, c) ∧
    res.decomp.d.r = 2 ∧ Function.Injective res.decomp.d.eigvals ∧
    EigOfProjected exchangeEig ((1 : Matrix (Fin 2) (Fin 2) ℝ)ᴴ * 1 * !![0, 1; 1, 0]) res.decomp := by
  obtain ⟨lib, -, heigh, hs, hu, -⟩ := exists_exampleLib
  obtain ⟨-, ⟨res, c⟩, hres⟩ := C31_snaps_no_error lib exchangeEig (1 / 10) none none (by norm_num) none .none rfl trivial
    0 (1 : Matrix (Fin 2) (Fin 2) ℝ) !![0, 1; 1, 0]
  obtain ⟨rfl, hd, -⟩ := tlsSnapsPairs_ok lib exchangeEig none none .none _ none none rfl trivial _ _ res c hres
  obtain ⟨⟨s, hs1, hs2⟩, ⟨p, hp1, hp2⟩, hlr⟩ := tlsEigendecomp_ok _ _ _ _ _ _ _ _ _ _ _ hd
  change _ = s at hs2
  change _ = p at hp2
  dsimp only at hs1 hp1 hlr
  have hYY : (!![0, 1; 1, 0] : Matrix (Fin 2) (Fin 2) ℝ)ᴴ * 1 * !![0, 1; 1, 0] = 1 := by
    ext i j
    fin_cases i <;> fin_cases j <;> simp [Matrix.mul_apply, Fin.sum_univ_two]
  have hXX : (1 : Matrix (Fin 2) (Fin 2) ℝ)ᴴ * 1 * (1 : Matrix (Fin 2) (Fin 2) ℝ) = 1 := by simp
  have hXY : (1 : Matrix (Fin 2) (Fin 2) ℝ)ᴴ * 1 * !![0, 1; 1, 0] = !![0, 1; 1, 0] := by simp
  change utilEigh lib.eigh lib.argsort ((1 : Matrix (Fin 2) (Fin 2) ℝ)ᴴ * 1 * (1 : Matrix (Fin 2) (Fin 2) ℝ) +
    (!![0, 1; 1, 0] : Matrix (Fin 2) (Fin 2) ℝ)ᴴ * 1 * !![0, 1; 1, 0]) _ _ _ = _ at hs1
  rw [hXX, hYY] at hs1
  have hpd : ((1 : Matrix (Fin 2) (Fin 2) ℝ) + 1 - (1 / 10 : ℝ) • 1).PosDef := by
    have h1 : (1 : Matrix (Fin 2) (Fin 2) ℝ) + 1 - (1 / 10 : ℝ) • 1 = diagonal fun _ => (19 / 10 : ℝ) := by
      ext i j
      fin_cases i <;> fin_cases j <;> simp <;> norm_num
    rw [h1, posDef_diagonal_iff]
    intro i
    norm_num
  obtain ⟨-, hP⟩ := eigh_posDef lib.eigh lib.argsort hs _ (1 / 10) (by norm_num) hpd
    (heigh _ (IsHermitian.add isHermitian_one isHermitian_one)) s hs1
  rw [← hs2] at hP
  have hproj : res.decomp.proj = 1 := hP
  have e1 : res.decomp.proj * ((1 : Matrix (Fin 2) (Fin 2) ℝ)ᴴ * Weights.matrix 2 Weights.none * 1) * res.decomp.proj =
      (1 : Matrix (Fin 2) (Fin 2) ℝ) := by
    rw [hproj, Matrix.one_mul, Matrix.mul_one]
    exact hXX
  have e2 : res.decomp.proj * ((1 : Matrix (Fin 2) (Fin 2) ℝ)ᴴ * Weights.matrix 2 Weights.none * !![0, 1; 1, 0]) * res.decomp.proj =
      (!![0, 1; 1, 0] : Matrix (Fin 2) (Fin 2) ℝ) := by
    rw [hproj, Matrix.one_mul, Matrix.mul_one]
    exact hXY
  rw [e1, hu] at hp1
  cases hp1
  rw [e2] at hlr
  have hdd : res.decomp.d = ⟨2, fun _ => 1, 1, ![1, -1], !![1 / √2, 1 / √2; 1 / √2, -(1 / √2)], Matrix.of fun i j =>
      (!![1, 1; 1, -1] : Matrix (Fin 2) (Fin 2) ℝ) i j /
        star (((!![1, 1; 1, -1] : Matrix (Fin 2) (Fin 2) ℝ)ᴴ * !![1 / √2, 1 / √2; 1 / √2, -(1 / √2)]).diag j)⟩ := by
    obtain ⟨⟨q, sumW, sumV, ⟨r, w, V, lam, R, L⟩⟩, _, _, _, _, _, _⟩ := res
    dsimp only at hp2 hlr ⊢
    cases hp2
    have : (Except.ok ((![1, -1] : Fin 2 → ℝ), (!![1 / √2, 1 / √2; 1 / √2, -(1 / √2)] : Matrix (Fin 2) (Fin 2) ℝ), Matrix.of fun i j =>
      (!![1, 1; 1, -1] : Matrix (Fin 2) (Fin 2) ℝ) i j /
        star (((!![1, 1; 1, -1] : Matrix (Fin 2) (Fin 2) ℝ)ᴴ * !![1 / √2, 1 / √2; 1 / √2, -(1 / √2)]).diag j)) : Except Err _) =
          .ok (lam, R, L) := hlr
    cases this
    rfl
  refine ⟨lib, res, _, heigh, hs, hres, by rw [hdd], ?_, ?_⟩
  · rw [hdd]
    refine (?_ : Function.Injective (![1, -1] : Fin 2 → ℝ))
    intro i j hij
    fin_cases i <;> fin_cases j <;> simp at hij ⊢ <;> linarith
  · unfold EigOfProjected
    rw [hproj, Matrix.one_mul, Matrix.mul_one, hXY, hdd]
    change IsEig (lowOrderMap (diagPow (𝕜 := ℝ) (fun _ : Fin 2 => (1 : ℝ)) (-0.5)) (1 : Matrix (Fin 2) (Fin 2) ℝ) !![0, 1; 1, 0])
      (exchangeEig (lowOrderMap _ _ _))
    rw [exampleSeq_low _ _ (exampleSeq_diagPow _) rfl]
    exact exchangeEig_isEig

example : ∃ (lib : PodLib ℝ 2 2) (res : TlsResult ℝ 2 2) (c : TlsCorr ℝ 2),
    tlsSnapsPairs lib exchangeEig 1 ⟨2, 2, !![0, 1; 1, 0]⟩ none none (some (1 / 10)) none none = .ok (res, c) ∧
    res.decomp.d.r = 2 ∧ (∀ i, ‖res.decomp.d.eigvals i‖ = 1) ∧
    ∃ proj adjoint : Matrix (Fin 2) (Fin res.decomp.d.r) ℝ, Chosen proj none res.projModes ∧
      Chosen adjoint none res.adjointModes ∧ OwnAdjoint (weightedIp (1 : Matrix (Fin 2) (Fin 2) ℝ)) proj.col adjoint.col := by
  obtain ⟨lib, res, c, heigh, hs, hres, hr2, hinj, hE⟩ := exchange_tls
  obtain ⟨proj, adjoint, h1, h2, -, h3⟩ := C128_tls_snaps_pairs lib exchangeEig none none .none _ none none exchangeEig_unit
    (by norm_num) (by simp) hs rfl trivial PosSemidef.one heigh _ _ res c hres hE hinj
  obtain ⟨h4, h5⟩ := h3 exchange_lengths.1 exchange_lengths.2.1 (by rw [hr2]; exact exchange_lengths.2.2)
  exact ⟨lib, res, c, hres, hr2, h4, proj, adjoint, h1, h2, h5⟩

end Modred
