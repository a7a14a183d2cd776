import Verif.Spec.Growth
import Verif.Props.LeastSquares
import Verif.Props.PredictTls
import Verif.Props.Continuity

/-!
# C124: dynamic eigenvalues are growth rates of linear combinations of the data
-/

namespace Modred

open Matrix
open scoped ComplexOrder

variable {𝕜 : Type*} [RCLike 𝕜]

section Vectors

variable {E : Type*} [AddCommGroup E] [Module 𝕜 E] {ip : E →ₗ⋆[𝕜] E →ₗ[𝕜] 𝕜} {m : Nat} {X Y : Fin m → E}

theorem ip_lift (c c' : Fin m → 𝕜) : ip (lift X c) (lift Y c') = star c ⬝ᵥ (gram ip X Y *ᵥ c') := by
  unfold lift gram
  simp only [map_sum, LinearMap.map_smulₛₗ, LinearMap.sum_apply, LinearMap.smul_apply, smul_eq_mul, RingHom.id_apply, dotProduct,
    Matrix.mulVec, Matrix.of_apply, Finset.mul_sum, Pi.star_apply]
  rw [Finset.sum_comm]
  refine Finset.sum_congr rfl fun i _ => Finset.sum_congr rfl fun j _ => ?_
  rw [RCLike.star_def]
  ring

theorem lift_linear {E' : Type*} [AddCommGroup E'] [Module 𝕜 E'] (A : E →ₗ[𝕜] E') {Y : Fin m → E'} (hA : ∀ j, A (X j) = Y j) (c : Fin m → 𝕜) :
    A (lift X c) = lift Y c := by
  unfold lift
  rw [map_sum]
  exact Finset.sum_congr rfl fun j _ => by rw [map_smul, hA]

/-- All statements follow from the first. -/
theorem GrowthRate.of_attained (hsym : ∀ x y, ip y x = star (ip x y)) (hnn : ∀ x, 0 ≤ RCLike.re (ip x x)) {z : 𝕜}
    (h : ∃ c : Fin m → 𝕜, 0 < ipEnergy ip (lift X c) ∧ ip (lift X c) (lift Y c) = z * ip (lift X c) (lift X c)) : GrowthRate ip X Y z := by
  obtain ⟨c, hc, e⟩ := h
  have hreal : ∀ x, ip x x = ((ipEnergy ip x : ℝ) : 𝕜) := fun x => by
    have h2 := hsym x x
    rw [RCLike.star_def] at h2
    exact (RCLike.conj_eq_iff_re.mp h2.symm).symm
  have hre : RCLike.re (ip (lift X c) (lift Y c)) = RCLike.re z * ipEnergy ip (lift X c) := by
    rw [e, hreal, mul_comm, RCLike.re_ofReal_mul, mul_comm]
  have hb : ∀ q : ℝ, 0 ≤ q → ipEnergy ip (lift Y c) ≤ q ^ 2 * ipEnergy ip (lift X c) → ‖z‖ ≤ q := by
    intro q hq h1
    have h2 := hnn (lift Y c - z • lift X c)
    have h3 : ip (lift Y c - z • lift X c) (lift Y c - z • lift X c) =
        ((ipEnergy ip (lift Y c) - ‖z‖ ^ 2 * ipEnergy ip (lift X c) : ℝ) : 𝕜) := by
      have e' : ip (lift Y c) (lift X c) = star z * ip (lift X c) (lift X c) := by
        rw [hsym, e, star_mul', ← hsym]
      have hz : ((‖z‖ ^ 2 : ℝ) : 𝕜) = star z * z := by
        rw [RCLike.star_def, RCLike.conj_mul]
        push_cast
        rfl
      rw [RCLike.ofReal_sub, RCLike.ofReal_mul, hz]
      simp only [map_sub, LinearMap.sub_apply, LinearMap.map_smulₛₗ, LinearMap.smul_apply, smul_eq_mul, RingHom.id_apply]
      rw [e, e', hreal (lift X c), hreal (lift Y c), RCLike.star_def]
      ring
    rw [h3, RCLike.ofReal_re] at h2
    have h4 : ‖z‖ ^ 2 ≤ q ^ 2 := le_of_mul_le_mul_right (by linarith) hc
    exact le_of_sq_le_sq h4 hq
  refine ⟨⟨c, hc, ?_⟩, fun q hq h => hb q hq (h c), fun q h => ?_, fun q h => ?_, fun h => ?_, fun A hA => ⟨lift X c, hc, ?_⟩, fun A hA h => ?_⟩
  · rw [map_sub, e, map_smul, smul_eq_mul, sub_self]
  · have h1 := h c
    rw [hre] at h1
    exact le_of_mul_le_mul_right h1 hc
  · have h1 := h c
    rw [hre] at h1
    exact le_of_mul_le_mul_right h1 hc
  · have h1 : gram ip X Y = gram ip Y X := by
      ext i j
      exact h i j
    have h2 : ip (lift X c) (lift Y c) = star (ip (lift X c) (lift Y c)) := by
      rw [← hsym, ip_lift, ip_lift, h1]
    rw [e, hreal, star_mul', RCLike.star_def, RCLike.conj_ofReal] at h2
    have h3 := mul_right_cancel₀ (RCLike.ofReal_ne_zero.mpr hc.ne') h2
    exact RCLike.conj_eq_iff_im.mp h3.symm
  · rw [lift_linear A hA, e]
  · refine hb 1 zero_le_one ?_
    rw [one_pow, one_mul, ← lift_linear A hA]
    exact h _

/-- What the decompositions give. -/
theorem DmdCore.growth (hsym : ∀ x y, ip y x = star (ip x y)) (hnn : ∀ x, 0 ≤ RCLike.re (ip x x)) {k : Nat} {d : DmdDecomp 𝕜 k}
    (P : Matrix (Fin m) (Fin k) 𝕜) (h : DmdCore (Pᴴ * gram ip X X * P) (Pᴴ * gram ip X Y * P) d) (i : Fin d.r) :
    GrowthRate ip X Y (d.eigvals i) := by
  obtain ⟨x, hx, e⟩ := h.eigenvalue i
  set B := P * d.V * diagPow (𝕜 := 𝕜) d.w (-0.5) with hB
  have hBH : Bᴴ = diagPow (𝕜 := 𝕜) d.w (-0.5) * (d.Vᴴ * Pᴴ) := by
    rw [hB, conjTranspose_mul, conjTranspose_mul, diagPow_conjTranspose]
  have quad : ∀ Z : Fin m → E, ip (lift X (B *ᵥ x)) (lift Z (B *ᵥ x)) = star x ⬝ᵥ ((Bᴴ * gram ip X Z * B) *ᵥ x) := by
    intro Z
    rw [ip_lift, star_mulVec, ← dotProduct_mulVec, mulVec_mulVec, mulVec_mulVec, Matrix.mul_assoc]
  have hXX : Bᴴ * gram ip X X * B = 1 := by
    have h1 : Bᴴ * gram ip X X * B = diagPow (𝕜 := 𝕜) d.w (-0.5) * (d.Vᴴ * ((Pᴴ * gram ip X X * P) * d.V)) * diagPow (𝕜 := 𝕜) d.w (-0.5) := by
      rw [hBH, hB]
      simp only [Matrix.mul_assoc]
    rw [h1, h.eigen, ← Matrix.mul_assoc d.Vᴴ, h.orth, Matrix.one_mul, diagPow_mul _ h.pos, diagPow_mul _ h.pos,
      show (-0.5 + 1 + -0.5 : ℝ) = 0 by norm_num]
    simp [diagPow]
  have hXY : Bᴴ * gram ip X Y * B = lowOrderMap (diagPow (𝕜 := 𝕜) d.w (-0.5)) d.V (Pᴴ * gram ip X Y * P) := by
    rw [hBH, hB, lowOrderMap]
    simp only [Matrix.mul_assoc]
  refine .of_attained hsym hnn ⟨B *ᵥ x, ?_, ?_⟩
  · unfold ipEnergy
    rw [quad, hXX, one_mulVec]
    exact (RCLike.pos_iff.mp (dotProduct_star_self_pos_iff.mpr hx)).1
  · rw [quad, quad, hXX, hXY, e, one_mulVec, dotProduct_smul, smul_eq_mul]

end Vectors

section Arrays

variable {n m : Nat} {W : Matrix (Fin n) (Fin n) 𝕜} {X Y : Matrix (Fin n) (Fin m) 𝕜}

theorem gram_weighted (A B : Matrix (Fin n) (Fin m) 𝕜) : gram (weightedIp W) A.col B.col = Aᴴ * W * B := by
  ext i j
  rw [Matrix.mul_assoc]
  rfl

theorem DmdCore.growth_arrays (hW : W.PosSemidef) {d : DmdDecomp 𝕜 m} (h : DmdCore (Xᴴ * W * X) (Xᴴ * W * Y) d) (i : Fin d.r) :
    GrowthRate (weightedIp W) X.col Y.col (d.eigvals i) :=
  DmdCore.growth (weightedIp_symm hW) (weightedIp_nonneg hW) 1
    (by rw [gram_weighted, gram_weighted, conjTranspose_one, Matrix.one_mul, Matrix.mul_one, Matrix.one_mul, Matrix.mul_one]; exact h) i

theorem TlsDecomp.growth_arrays (hW : W.PosSemidef) {t : TlsDecomp 𝕜 m} (h : DmdCore (t.proj * (Xᴴ * W * X) * t.proj) (t.proj * (Xᴴ * W * Y) * t.proj) t.d)
    (i : Fin t.d.r) : GrowthRate (weightedIp W) X.col Y.col (t.d.eigvals i) :=
  DmdCore.growth (weightedIp_symm hW) (weightedIp_nonneg hW) t.proj
    (by rw [gram_weighted, gram_weighted, t.proj_herm]; exact h) i

end Arrays

section Snaps

variable {n m : Nat} (lib : PodLib 𝕜 n m) (eig : ∀ {r : Nat}, Matrix (Fin r) (Fin r) 𝕜 → EigOut 𝕜 r)
  (modeIndices : Option (List Int)) (weights : Option (NdArray 𝕜)) (ws : Weights 𝕜)
  (t : ℝ) (rtol : Option ℝ) (maxNum : Option Nat)

/-- **C124** for the snapshot method and sequential data. -/
theorem C124_snaps_sequential (ht : 0 ≤ t) (hr : ∀ t ∈ rtol, 0 ≤ t) (hs : IsArgsort lib.argsort)
    (hws : arraysInit weights = .ok ws) (hfit : ws.Fits n) (hW : (ws.matrix n).PosSemidef)
    (hlib : ∀ C : Matrix (Fin m) (Fin m) 𝕜, C.IsHermitian → IsEigh C (lib.eigh C)) (Z : Matrix (Fin n) (Fin (m + 1)) 𝕜)
    (res : DmdResult 𝕜 n m) (corr cross : Matrix (Fin m) (Fin m) 𝕜)
    (hres : dmdSnapsSeq lib eig Z modeIndices weights (some t) rtol maxNum = .ok (res, corr, cross))
    (heig : EigOfReduced eig (ws.matrix n) (seqFirst Z) (seqNext Z) res.decomp) (i : Fin res.decomp.r) :
    GrowthRate (weightedIp (ws.matrix n)) (seqFirst Z).col (seqNext Z).col (res.decomp.eigvals i) := by
  obtain ⟨rfl, rfl, hd, ho⟩ := dmdSnapsSeq_ok lib eig modeIndices weights ws _ rtol maxNum hws hfit Z res corr cross hres
  obtain ⟨hc, hLR⟩ := dmdEigendecomp_core _ _ eig _ _ t rtol maxNum _ hd ht hr hs (gram_hermitian hW.isHermitian _)
    (hlib _ (gram_hermitian hW.isHermitian _)) heig
  exact hc.growth_arrays hW i

/-- **C124** for the snapshot method and pairs of vectors. -/
theorem C124_snaps_pairs (ht : 0 ≤ t) (hr : ∀ t ∈ rtol, 0 ≤ t) (hs : IsArgsort lib.argsort)
    (hws : arraysInit weights = .ok ws) (hfit : ws.Fits n) (hW : (ws.matrix n).PosSemidef)
    (hlib : ∀ C : Matrix (Fin m) (Fin m) 𝕜, C.IsHermitian → IsEigh C (lib.eigh C)) (X Y : Matrix (Fin n) (Fin m) 𝕜)
    (res : DmdResult 𝕜 n m) (corr cross : Matrix (Fin m) (Fin m) 𝕜)
    (hres : dmdSnapsPairs lib eig X ⟨n, m, Y⟩ modeIndices weights (some t) rtol maxNum = .ok (res, corr, cross))
    (heig : EigOfReduced eig (ws.matrix n) X Y res.decomp) (i : Fin res.decomp.r) :
    GrowthRate (weightedIp (ws.matrix n)) X.col Y.col (res.decomp.eigvals i) := by
  obtain ⟨rfl, rfl, hd, ho⟩ := dmdSnapsPairs_ok lib eig modeIndices weights ws _ rtol maxNum hws hfit X Y res corr cross hres
  obtain ⟨hc, hLR⟩ := dmdEigendecomp_core _ _ eig _ _ t rtol maxNum _ hd ht hr hs (gram_hermitian hW.isHermitian _)
    (hlib _ (gram_hermitian hW.isHermitian _)) heig
  exact hc.growth_arrays hW i

/-- **C124** for total least squares, the snapshot method and sequential data. -/
theorem C124_tls_snaps_sequential (ht : 0 ≤ t) (hr : ∀ t ∈ rtol, 0 ≤ t) (hs : IsArgsort lib.argsort)
    (hws : arraysInit weights = .ok ws) (hfit : ws.Fits n) (hW : (ws.matrix n).PosSemidef)
    (hlib : ∀ C : Matrix (Fin m) (Fin m) 𝕜, C.IsHermitian → IsEigh C (lib.eigh C)) (Z : Matrix (Fin n) (Fin (m + 1)) 𝕜)
    (res : TlsResult 𝕜 n m) (c : TlsCorr 𝕜 m)
    (hres : tlsSnapsSeq lib eig Z modeIndices weights (some t) rtol maxNum = .ok (res, c))
    (heig : EigOfProjected eig ((seqFirst Z)ᴴ * ws.matrix n * seqNext Z) res.decomp) (i : Fin res.decomp.d.r) :
    GrowthRate (weightedIp (ws.matrix n)) (seqFirst Z).col (seqNext Z).col (res.decomp.d.eigvals i) := by
  obtain ⟨rfl, hd, ho⟩ := tlsSnapsSeq_ok lib eig modeIndices weights ws _ rtol maxNum hws hfit Z res c hres
  obtain ⟨hc, -⟩ := tlsEigendecomp_core _ _ eig _ _ _ t rtol none maxNum _ hd ht hr (by simp) hs (gram_hermitian hW.isHermitian _)
    (gram_hermitian hW.isHermitian _) hlib heig
  exact TlsDecomp.growth_arrays hW hc.core i

/-- **C124** for total least squares, the snapshot method and pairs of vectors. -/
theorem C124_tls_snaps_pairs (ht : 0 ≤ t) (hr : ∀ t ∈ rtol, 0 ≤ t) (hs : IsArgsort lib.argsort)
    (hws : arraysInit weights = .ok ws) (hfit : ws.Fits n) (hW : (ws.matrix n).PosSemidef)
    (hlib : ∀ C : Matrix (Fin m) (Fin m) 𝕜, C.IsHermitian → IsEigh C (lib.eigh C)) (X Y : Matrix (Fin n) (Fin m) 𝕜)
    (res : TlsResult 𝕜 n m) (c : TlsCorr 𝕜 m)
    (hres : tlsSnapsPairs lib eig X ⟨n, m, Y⟩ modeIndices weights (some t) rtol maxNum = .ok (res, c))
    (heig : EigOfProjected eig (Xᴴ * ws.matrix n * Y) res.decomp) (i : Fin res.decomp.d.r) :
    GrowthRate (weightedIp (ws.matrix n)) X.col Y.col (res.decomp.d.eigvals i) := by
  obtain ⟨rfl, hd, ho⟩ := tlsSnapsPairs_ok lib eig modeIndices weights ws _ rtol maxNum hws hfit X Y res c hres
  obtain ⟨hc, -⟩ := tlsEigendecomp_core _ _ eig _ _ _ t rtol none maxNum _ hd ht hr (by simp) hs (gram_hermitian hW.isHermitian _)
    (gram_hermitian hW.isHermitian _) hlib heig
  exact TlsDecomp.growth_arrays hW hc.core i

end Snaps

section Direct

variable {n m : Nat} (lib : PodLib 𝕜 n m) (eig : ∀ {r : Nat}, Matrix (Fin r) (Fin r) 𝕜 → EigOut 𝕜 r)
  (svd : Matrix (Fin (n + n)) (Fin m) 𝕜 → SvdOut 𝕜 (n + n) m)
  (modeIndices : Option (List Int)) (ws : DirectWeights 𝕜) (t : ℝ) (rtol : Option ℝ) (maxNum : Option Nat)

/-- **C124** for the direct method and sequential data. -/
theorem C124_direct_sequential (ht : 0 ≤ t) (hr : ∀ t ∈ rtol, 0 ≤ t) (hfit : ws.Fits n)
    (hchol : ∀ p q w, ws = .d2 p q w → IsCholesky lib.cholesky (ws.matrix n)) (hlib : ∀ a, IsSvd a (lib.svd a))
    (Z : Matrix (Fin n) (Fin (m + 1)) 𝕜) (res : DmdResult 𝕜 n m)
    (hres : dmdDirectSeq lib eig Z modeIndices ws (some t) rtol maxNum = .ok res)
    (heig : EigOfReduced eig (ws.matrix n) (seqFirst Z) (seqNext Z) res.decomp) (i : Fin res.decomp.r) :
    GrowthRate (weightedIp (ws.matrix n)) (seqFirst Z).col (seqNext Z).col (res.decomp.eigvals i) := by
  obtain ⟨hc, hLR, ho⟩ := dmdDirectSeq_ok lib eig modeIndices ws t rtol maxNum hfit hchol ht hr hlib Z res hres _ _ rfl rfl heig
  exact hc.growth_arrays (directWeights_posSemidef ws hfit) i

/-- **C124** for the direct method and pairs of vectors. -/
theorem C124_direct_pairs (ht : 0 ≤ t) (hr : ∀ t ∈ rtol, 0 ≤ t) (hfit : ws.Fits n)
    (hchol : ∀ p q w, ws = .d2 p q w → IsCholesky lib.cholesky (ws.matrix n)) (hlib : ∀ a, IsSvd a (lib.svd a))
    (X Y : Matrix (Fin n) (Fin m) 𝕜) (res : DmdResult 𝕜 n m)
    (hres : dmdDirectPairs lib eig X ⟨n, m, Y⟩ modeIndices ws (some t) rtol maxNum = .ok res)
    (heig : EigOfReduced eig (ws.matrix n) X Y res.decomp) (i : Fin res.decomp.r) :
    GrowthRate (weightedIp (ws.matrix n)) X.col Y.col (res.decomp.eigvals i) := by
  obtain ⟨hc, hLR, ho⟩ := dmdDirectPairs_ok lib eig modeIndices ws t rtol maxNum hfit hchol ht hr hlib X Y res hres heig
  exact hc.growth_arrays (directWeights_posSemidef ws hfit) i

/-- **C124** for total least squares, the direct method and sequential data. -/
theorem C124_tls_direct_sequential (ht : 0 ≤ t) (hr : ∀ t ∈ rtol, 0 ≤ t) (hfit : ws.Fits n)
    (hchol : ∀ p q w, ws = .d2 p q w → IsCholesky lib.cholesky (ws.matrix n)) (hlib : ∀ a, IsSvd a (lib.svd a))
    (hlib' : ∀ a, IsSvd a (svd a)) (Z : Matrix (Fin n) (Fin (m + 1)) 𝕜) (res : TlsResult 𝕜 n m)
    (hres : tlsDirectSeq lib eig svd Z modeIndices ws (some t) rtol maxNum = .ok res)
    (heig : EigOfProjected eig ((seqFirst Z)ᴴ * ws.matrix n * seqNext Z) res.decomp) (i : Fin res.decomp.d.r) :
    GrowthRate (weightedIp (ws.matrix n)) (seqFirst Z).col (seqNext Z).col (res.decomp.d.eigvals i) := by
  unfold tlsDirectSeq at hres
  split at hres
  · cases hres
  rename_i so hso
  obtain ⟨-, h2, -, -⟩ := tlsDirectRest_core lib eig svd modeIndices ws t rtol maxNum so hfit hchol hso ht hr hlib hlib' _ _
    res hres heig
  rw [gram_proj, gram_proj] at h2
  exact TlsDecomp.growth_arrays (directWeights_posSemidef ws hfit) h2 i

/-- **C124** for total least squares, the direct method and pairs of vectors. -/
theorem C124_tls_direct_pairs (ht : 0 ≤ t) (hr : ∀ t ∈ rtol, 0 ≤ t) (hfit : ws.Fits n)
    (hchol : ∀ p q w, ws = .d2 p q w → IsCholesky lib.cholesky (ws.matrix n)) (hlib : ∀ a, IsSvd a (lib.svd a))
    (hlib' : ∀ a, IsSvd a (svd a)) (X Y : Matrix (Fin n) (Fin m) 𝕜) (res : TlsResult 𝕜 n m)
    (hres : tlsDirectPairs lib eig svd X ⟨n, m, Y⟩ modeIndices ws (some t) rtol maxNum = .ok res)
    (heig : EigOfProjected eig (Xᴴ * ws.matrix n * Y) res.decomp) (i : Fin res.decomp.d.r) :
    GrowthRate (weightedIp (ws.matrix n)) X.col Y.col (res.decomp.d.eigvals i) := by
  unfold tlsDirectPairs at hres
  split at hres
  · cases hres
  rename_i so hso
  simp only [and_self, dite_true] at hres
  obtain ⟨-, h2, -, -⟩ := tlsDirectRest_core lib eig svd modeIndices ws t rtol maxNum so hfit hchol hso ht hr hlib hlib' _ _
    res hres heig
  rw [gram_proj, gram_proj] at h2
  exact TlsDecomp.growth_arrays (directWeights_posSemidef ws hfit) h2 i

end Direct

section Handles

variable {E : Type*} [AddCommGroup E] [Module 𝕜 E] (lib : DmdLib 𝕜) (ip : E →ₗ⋆[𝕜] E →ₗ[𝕜] 𝕜) (t : ℝ) (rtol : Option ℝ)
  (maxNum : Option Nat)

/-- **C124** for `DMDHandles` and a sequence of vectors. -/
theorem C124_handles_sequential (g g' : DmdHandles 𝕜 E) (ht : 0 ≤ t) (hlib : lib.Lawful) (hsym : ∀ x y, ip y x = star (ip x y))
    (hnn : ∀ x, 0 ≤ RCLike.re (ip x x)) (vecs : List E)
    (hrun : g.computeDecomp lib (fun x y => ip x y) vecs none (some t) rtol maxNum = (.ok (), g'))
    (d : DmdDecomp 𝕜 (vecs.length - 1)) (hd : g'.decomp = some ⟨vecs.length - 1, d⟩)
    (heig : EigOfReducedVecs ip lib.eig (seqVecs vecs) (seqAdvVecs vecs) d) (i : Fin d.r) :
    GrowthRate ip (seqVecs vecs) (seqAdvVecs vecs) (d.eigvals i) := by
  obtain ⟨d', hd', rfl⟩ := computeDecomp_seq lib _ g g' vecs (some t) rtol maxNum hrun
  cases hd
  obtain ⟨hm, hc, hLR⟩ := handles_modes lib ip t maxNum ht hlib hsym hd' heig
  exact DmdCore.growth hsym hnn 1 (by rw [conjTranspose_one, Matrix.one_mul, Matrix.mul_one, Matrix.one_mul, Matrix.mul_one]; exact hc) i

/-- **C124** for `DMDHandles` and pairs of vectors. -/
theorem C124_handles_pairs (g g' : DmdHandles 𝕜 E) (ht : 0 ≤ t) (hlib : lib.Lawful) (hsym : ∀ x y, ip y x = star (ip x y))
    (hnn : ∀ x, 0 ≤ RCLike.re (ip x x)) (vecs adv : List E)
    (hrun : g.computeDecomp lib (fun x y => ip x y) vecs (some adv) (some t) rtol maxNum = (.ok (), g'))
    (d : DmdDecomp 𝕜 vecs.length) (hd : g'.decomp = some ⟨vecs.length, d⟩) (hlen : vecs.length = adv.length)
    (heig : EigOfReducedVecs ip lib.eig vecs.get (fun j => adv.get (Fin.cast hlen j)) d) (i : Fin d.r) :
    GrowthRate ip vecs.get (fun j => adv.get (Fin.cast hlen j)) (d.eigvals i) := by
  obtain ⟨_, d', hd', rfl⟩ := computeDecomp_pairs lib _ g g' vecs adv (some t) rtol maxNum hrun
  cases hd
  obtain ⟨hm, hc, hLR⟩ := handles_modes lib ip t maxNum ht hlib hsym hd' heig
  exact DmdCore.growth hsym hnn 1 (by rw [conjTranspose_one, Matrix.one_mul, Matrix.mul_one, Matrix.one_mul, Matrix.mul_one]; exact hc) i

/-- **C124** for `TLSqrDMDHandles` and a sequence of vectors. -/
theorem C124_tls_handles_sequential (g g' : TlsHandles 𝕜 E) (ht : 0 ≤ t) (hlib : lib.Lawful) (hsym : ∀ x y, ip y x = star (ip x y))
    (hnn : ∀ x, 0 ≤ RCLike.re (ip x x)) (vecs : List E)
    (hrun : g.computeDecomp lib (fun x y => ip x y) vecs none (some t) rtol maxNum = (.ok (), g'))
    (d : TlsDecomp 𝕜 (vecs.length - 1)) (hd : g'.decomp = some ⟨vecs.length - 1, d⟩)
    (heig : EigOfProjected lib.eig (gram ip (seqVecs vecs) (seqAdvVecs vecs)) d) (i : Fin d.d.r) :
    GrowthRate ip (seqVecs vecs) (seqAdvVecs vecs) (d.d.eigvals i) := by
  obtain ⟨d', hd', rfl⟩ := tlsComputeDecomp_seq lib _ g g' vecs (some t) rtol maxNum hrun
  cases hd
  obtain ⟨hc, -⟩ := tlsEigendecomp_core _ _ lib.eig _ _ _ t none none maxNum d hd' ht (by simp) (by simp) hlib.argsort
    (gram_herm ip hsym _) (gram_herm ip hsym _) hlib.eigh heig
  exact DmdCore.growth hsym hnn d.proj (by rw [d.proj_herm]; exact hc.core) i

/-- **C124** for `TLSqrDMDHandles` and pairs of vectors. -/
theorem C124_tls_handles_pairs (g g' : TlsHandles 𝕜 E) (ht : 0 ≤ t) (hlib : lib.Lawful) (hsym : ∀ x y, ip y x = star (ip x y))
    (hnn : ∀ x, 0 ≤ RCLike.re (ip x x)) (vecs adv : List E)
    (hrun : g.computeDecomp lib (fun x y => ip x y) vecs (some adv) (some t) rtol maxNum = (.ok (), g'))
    (d : TlsDecomp 𝕜 vecs.length) (hd : g'.decomp = some ⟨vecs.length, d⟩) (hlen : vecs.length = adv.length)
    (heig : EigOfProjected lib.eig (gram ip vecs.get (fun j => adv.get (Fin.cast hlen j))) d) (i : Fin d.d.r) :
    GrowthRate ip vecs.get (fun j => adv.get (Fin.cast hlen j)) (d.d.eigvals i) := by
  obtain ⟨_, d', hd', rfl⟩ := tlsComputeDecomp_pairs lib _ g g' vecs adv (some t) rtol maxNum hrun
  cases hd
  obtain ⟨hc, -⟩ := tlsEigendecomp_core _ _ lib.eig _ _ _ t none none maxNum d hd' ht (by simp) (by simp) hlib.argsort
    (gram_herm ip hsym _) (gram_herm ip hsym _) hlib.eigh heig
  exact DmdCore.growth hsym hnn d.proj (by rw [d.proj_herm]; exact hc.core) i

end Handles

/-! ### Examples -/

/-- A sequence with eigenvalues 1 and 2, and bounds for them that follow from the data. -/
example : ∃ (lib : PodLib ℝ 2 2) (res : DmdResult ℝ 2 2) (corr cross : Matrix (Fin 2) (Fin 2) ℝ),
    dmdSnapsSeq lib exampleSeqEig exampleSeq none none (some (1 / 10)) none none = .ok (res, corr, cross) ∧
    (∀ i, GrowthRate (weightedIp 1) (seqFirst exampleSeq).col (seqNext exampleSeq).col (res.decomp.eigvals i)) ∧ 0 < res.decomp.r := by
  obtain ⟨lib, res, corr, cross, heigh, hs, hres, hd⟩ := exampleSeq_snaps
  refine ⟨lib, res, corr, cross, hres, fun i => C124_snaps_sequential lib exampleSeqEig none none .none (1 / 10) none none
    (by norm_num) (by simp) hs rfl trivial PosSemidef.one heigh exampleSeq res corr cross hres
    (by rw [hd]; exact exampleSeqDecomp_eig) i, ?_⟩
  rw [hd]
  exact Nat.two_pos

/-- The direct method. -/
example : ∃ (lib : PodLib ℝ 2 2) (res : DmdResult ℝ 2 2),
    dmdDirectSeq lib exampleSeqEig exampleSeq none .none (some (1 / 10)) none none = .ok res ∧
    ∀ i, GrowthRate (weightedIp 1) (seqFirst exampleSeq).col (seqNext exampleSeq).col (res.decomp.eigvals i) := by
  obtain ⟨lib, res, hsvd, hres, heig, hi, h0⟩ := exampleSeq_direct
  exact ⟨lib, res, hres, fun i => C124_direct_sequential lib exampleSeqEig none .none (1 / 10) none none
    (by norm_num) (by simp) trivial (fun _ _ _ h => by cases h) hsvd exampleSeq res hres heig i⟩

/-- Handles. -/
example : ∃ (lib : DmdLib ℝ) (g' : DmdHandles ℝ (Fin 2 → ℝ)),
    DmdHandles.new.computeDecomp lib (fun x y => dotIp x y) exampleVecs none (some (1 / 10)) none none = (.ok (), g') ∧
    ∀ i, GrowthRate dotIp (seqVecs exampleVecs) (seqAdvVecs exampleVecs) (exampleSeqDecomp.eigvals i) := by
  obtain ⟨lib, hlaw, heig, hu⟩ := exists_exampleDmdLib
  obtain ⟨g', hrun, hd⟩ := exampleVecs_decomp lib heig hu DmdHandles.new
  exact ⟨lib, g', hrun, fun i => C124_handles_sequential lib dotIp (1 / 10) none none DmdHandles.new g' (by norm_num) hlaw dotIp_symm
    (fun x => by rw [dotIp_apply]; exact add_nonneg (mul_self_nonneg (x 0)) (mul_self_nonneg (x 1))) exampleVecs hrun
    exampleSeqDecomp hd (exampleVecs_eig lib heig) i⟩

/-- Total least squares. -/
example : ∃ (lib : PodLib ℝ 2 2) (res : TlsResult ℝ 2 2) (c : TlsCorr ℝ 2),
    tlsSnapsSeq lib exampleSeqEig exampleSeq none none (some (1 / 10)) none none = .ok (res, c) ∧
    ∀ i, GrowthRate (weightedIp 1) (seqFirst exampleSeq).col (seqNext exampleSeq).col (res.decomp.d.eigvals i) := by
  obtain ⟨lib, res, c, heigh, hs, hres, hq, hproj, hd, heig⟩ := exampleSeq_tls
  exact ⟨lib, res, c, hres, fun i => C124_tls_snaps_sequential lib exampleSeqEig none none .none (1 / 10) none none
    (by norm_num) (by simp) hs rfl trivial PosSemidef.one heigh exampleSeq res c hres heig i⟩

/-- Total least squares with handles. -/
example : ∃ (lib : DmdLib ℝ) (g' : TlsHandles ℝ (Fin 2 → ℝ)) (d : TlsDecomp ℝ 2),
    TlsHandles.new.computeDecomp lib (fun x y => dotIp x y) exampleVecs none (some (1 / 10)) none none = (.ok (), g') ∧
    g'.decomp = some ⟨2, d⟩ ∧ ∀ i, GrowthRate dotIp (seqVecs exampleVecs) (seqAdvVecs exampleVecs) (d.d.eigvals i) := by
  obtain ⟨lib, hlaw, heig, hu⟩ := exists_exampleDmdLib
  obtain ⟨g', d, hrun, hd, hproj, hdd, hE⟩ := exampleVecs_tls_decomp lib hlaw heig hu TlsHandles.new
  exact ⟨lib, g', d, hrun, hd, fun i => C124_tls_handles_sequential lib dotIp (1 / 10) none none TlsHandles.new g' (by norm_num) hlaw
    dotIp_symm (fun x => by rw [dotIp_apply]; exact add_nonneg (mul_self_nonneg (x 0)) (mul_self_nonneg (x 1))) exampleVecs hrun d hd hE i⟩

end Modred
