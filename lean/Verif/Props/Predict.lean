import Verif.Props.LeastSquares
import Verif.Spec.Predict

/-!
# C111: modes of data of a linear system predict its future
-/

namespace Modred

open Matrix
open scoped ComplexOrder

variable {𝕜 : Type*} [RCLike 𝕜]

section Matrices

variable {n m r : Nat} {W : Matrix (Fin n) (Fin n) 𝕜} {X Y : Matrix (Fin n) (Fin m) 𝕜}
  {w : Fin r → ℝ} {V : Matrix (Fin m) (Fin r) 𝕜} {eigvals : Fin r → 𝕜} {exact proj adjoint : Matrix (Fin n) (Fin r) 𝕜}

theorem DmdModes.predicts (h : DmdModes W X Y w V eigvals exact proj adjoint) (hr : r = X.rank)
    (h0 : ∀ i, eigvals i ≠ 0) (coeffs : Matrix (Fin r) (Fin m) 𝕜) (hX : proj * coeffs = X)
    (A : Matrix (Fin n) (Fin n) 𝕜) (M : Matrix (Fin m) (Fin m) 𝕜) (hA : A * X = Y) (hM : Y = X * M) :
    exact = proj ∧ ∀ k, A ^ k * X = exact * diagonal (fun i => eigvals i ^ k) * coeffs := by
  have hE : A * exact = exact * diagonal eigvals := h.invariant_data hr A M hA hM
  have hΛ : diagonal eigvals * diagonal (fun i => (eigvals i)⁻¹) = (1 : Matrix (Fin r) (Fin r) 𝕜) := by
    rw [diagonal_mul_diagonal, ← diagonal_one]
    congr 1
    funext i
    exact mul_inv_cancel₀ (h0 i)
  have h1 : exact = proj * (coeffs * (M * truncatedPinv W X w V * exact * diagonal (fun i => (eigvals i)⁻¹))) := by
    have h2 := congrArg (· * diagonal (fun i => (eigvals i)⁻¹)) h.exact_eigen
    rw [Matrix.mul_assoc exact, hΛ, Matrix.mul_one, hM] at h2
    rw [← Matrix.mul_assoc proj, hX]
    refine h2.symm.trans ?_
    simp only [Matrix.mul_assoc]
  have h3 : exact = proj := by
    have h4 := congrArg (adjointᴴ * W * ·) h1
    rw [h.adjoint_exact, ← Matrix.mul_assoc, h.adjoint_proj, Matrix.one_mul] at h4
    rw [← h4, Matrix.mul_one] at h1
    exact h1
  refine ⟨h3, fun k => ?_⟩
  induction k with
  | zero =>
    rw [pow_zero, Matrix.one_mul]
    simp only [pow_zero]
    rw [diagonal_one, Matrix.mul_one, h3, hX]
  | succ k ih =>
    have h5 : diagonal (fun i => eigvals i ^ (k + 1)) = diagonal eigvals * diagonal (fun i => eigvals i ^ k) := by
      rw [diagonal_mul_diagonal]
      congr 1
      funext i
      rw [pow_succ']
    rw [pow_succ', Matrix.mul_assoc, ih, h5, ← Matrix.mul_assoc, ← Matrix.mul_assoc, hE]
    simp only [Matrix.mul_assoc]

end Matrices

section Vectors

variable {E : Type*} [AddCommGroup E] [Module 𝕜 E] {ip : E →ₗ⋆[𝕜] E →ₗ[𝕜] 𝕜} {m r : Nat} {X Y : Fin m → E}
  {w : Fin r → ℝ} {V : Matrix (Fin m) (Fin r) 𝕜} {eigvals : Fin r → 𝕜} {exact proj adjoint : Fin r → E}

theorem DmdHandleModes.predicts (h : DmdHandleModes ip X Y w V eigvals exact proj adjoint)
    (hr : r = (gram ip X X).rank) (hdef : ∀ v, ip v v = 0 → v = 0) (h0 : ∀ i, eigvals i ≠ 0)
    (coeffs : Matrix (Fin r) (Fin m) 𝕜) (hX : ∀ j, ∑ i, coeffs i j • proj i = X j)
    (A : E →ₗ[𝕜] E) (hA : ∀ j, A (X j) = Y j) (hY : ∀ j, Y j ∈ Submodule.span 𝕜 (Set.range X)) :
    exact = proj ∧ ∀ k j, (A ^ k) (X j) = ∑ i, (eigvals i ^ k * coeffs i j) • exact i := by
  have hE := h.invariant_data hr hdef A hA hY
  have hspan : Submodule.span 𝕜 (Set.range X) ≤ Submodule.span 𝕜 (Set.range proj) := by
    rw [Submodule.span_le]
    rintro _ ⟨j, rfl⟩
    rw [← hX j]
    exact Submodule.sum_mem _ fun i _ => Submodule.smul_mem _ _ (Submodule.subset_span ⟨i, rfl⟩)
  have h3 : exact = proj := by
    funext l
    have h1 : exact l ∈ Submodule.span 𝕜 (Set.range proj) := by
      have h2 : exact l = (eigvals l)⁻¹ • dmdMap ip X Y w V (exact l) := by
        rw [h.exact_eigen, smul_smul, inv_mul_cancel₀ (h0 l), one_smul]
      rw [h2]
      refine Submodule.smul_mem _ _ (Submodule.sum_mem _ fun j _ => Submodule.smul_mem _ _ (hspan (hY j)))
    obtain ⟨b, hb⟩ := (Submodule.mem_span_range_iff_exists_fun 𝕜).mp h1
    have h4 : ∀ i, b i = if i = l then 1 else 0 := by
      intro i
      rw [← h.adjoint_exact i l, ← hb, map_sum]
      simp only [map_smul, smul_eq_mul, h.adjoint_proj]
      simp
    rw [← hb]
    simp [h4]
  refine ⟨h3, fun k => ?_⟩
  induction k with
  | zero =>
    intro j
    simp only [pow_zero, one_mul]
    rw [h3, hX]
    rfl
  | succ k ih =>
    intro j
    rw [pow_succ', Module.End.mul_apply, ih, map_sum]
    refine Finset.sum_congr rfl fun i _ => ?_
    rw [map_smul, hE, smul_smul]
    congr 1
    ring

end Vectors

theorem DmdOutcome.predicts {n m : Nat} {W : Matrix (Fin n) (Fin n) 𝕜} {X Y : Matrix (Fin n) (Fin m) 𝕜}
    {modeIndices : Option (List Int)} {res : DmdResult 𝕜 n m} (h : DmdOutcome W X Y modeIndices res)
    (hc : DmdCore (Xᴴ * W * X) (Xᴴ * W * Y) res.decomp) (hW : W.PosSemidef)
    (hLR : Function.Injective res.decomp.eigvals → res.decomp.Lᴴ * res.decomp.R = 1)
    (hinj : Function.Injective res.decomp.eigvals) (h0 : ∀ i, res.decomp.eigvals i ≠ 0) (hrank : res.decomp.r = X.rank)
    (A : Matrix (Fin n) (Fin n) 𝕜) (M : Matrix (Fin m) (Fin m) 𝕜) (hA : A * X = Y) (hM : Y = X * M) :
    ∃ modes, Chosen modes modeIndices res.exactModes ∧ Chosen modes modeIndices res.projModes ∧
      Predicts A X res.decomp.eigvals modes res.projCoeffs res.spectralCoeffs := by
  have hm := hc.modes hW.isHermitian.eq (hLR hinj) h0
  have hco : DmdCoeffs W X Y (X * res.decomp.buildAdjoint) res.projCoeffs res.advProjCoeffs res.spectralCoeffs := by
    rw [h.projCoeffs, h.advProjCoeffs, h.spectral]
    exact hc.coeffs h.pos
  have hb := (hc.best hW hLR).data hinj hrank
  rw [← h.projCoeffs] at hb
  obtain ⟨h1, h2⟩ := hm.predicts hrank h0 _ hb A M hA hM
  refine ⟨_, h.exact, ?_, h2, fun i j hj => ?_⟩
  · rw [h1]
    exact h.proj
  · rw [hco.spectral i j hj, hco.proj]

section Snaps

variable {n m : Nat} (lib : PodLib 𝕜 n m) (eig : ∀ {r : Nat}, Matrix (Fin r) (Fin r) 𝕜 → EigOut 𝕜 r)
  (modeIndices : Option (List Int)) (weights : Option (NdArray 𝕜)) (ws : Weights 𝕜)
  (t : ℝ) (rtol : Option ℝ) (maxNum : Option Nat)

/-- **C111** for the snapshot method and sequential data: if the vectors are those of a linear system, the last is a
linear combination of the others, and no direction is dropped, exact and projected modes are the same, and with the
eigenvalues and coefficients they give all vectors of the system, also those that follow. -/
theorem C111_snaps_sequential (ht : 0 ≤ t) (hr : ∀ t ∈ rtol, 0 ≤ t) (hs : IsArgsort lib.argsort)
    (hws : arraysInit weights = .ok ws) (hfit : ws.Fits n) (hW : (ws.matrix n).PosSemidef)
    (hlib : ∀ C : Matrix (Fin m) (Fin m) 𝕜, C.IsHermitian → IsEigh C (lib.eigh C)) (Z : Matrix (Fin n) (Fin (m + 1)) 𝕜)
    (res : DmdResult 𝕜 n m) (corr cross : Matrix (Fin m) (Fin m) 𝕜)
    (hres : dmdSnapsSeq lib eig Z modeIndices weights (some t) rtol maxNum = .ok (res, corr, cross))
    (heig : EigOfReduced eig (ws.matrix n) (seqFirst Z) (seqNext Z) res.decomp)
    (hinj : Function.Injective res.decomp.eigvals) (h0 : ∀ i, res.decomp.eigvals i ≠ 0)
    (hrank : res.decomp.r = (seqFirst Z).rank) (A : Matrix (Fin n) (Fin n) 𝕜) (M : Matrix (Fin m) (Fin m) 𝕜)
    (hA : A * seqFirst Z = seqNext Z) (hM : seqNext Z = seqFirst Z * M) :
    ∃ modes, Chosen modes modeIndices res.exactModes ∧ Chosen modes modeIndices res.projModes ∧
      Predicts A (seqFirst Z) res.decomp.eigvals modes res.projCoeffs res.spectralCoeffs := by
  obtain ⟨rfl, rfl, hd, ho⟩ := dmdSnapsSeq_ok lib eig modeIndices weights ws _ rtol maxNum hws hfit Z res corr cross hres
  obtain ⟨hc, hLR⟩ := dmdEigendecomp_core _ _ eig _ _ t rtol maxNum _ hd ht hr hs (gram_hermitian hW.isHermitian _)
    (hlib _ (gram_hermitian hW.isHermitian _)) heig
  exact ho.predicts hc hW hLR hinj h0 hrank A M hA hM

/-- **C111** for the snapshot method and pairs of vectors. -/
theorem C111_snaps_pairs (ht : 0 ≤ t) (hr : ∀ t ∈ rtol, 0 ≤ t) (hs : IsArgsort lib.argsort)
    (hws : arraysInit weights = .ok ws) (hfit : ws.Fits n) (hW : (ws.matrix n).PosSemidef)
    (hlib : ∀ C : Matrix (Fin m) (Fin m) 𝕜, C.IsHermitian → IsEigh C (lib.eigh C)) (X Y : Matrix (Fin n) (Fin m) 𝕜)
    (res : DmdResult 𝕜 n m) (corr cross : Matrix (Fin m) (Fin m) 𝕜)
    (hres : dmdSnapsPairs lib eig X ⟨n, m, Y⟩ modeIndices weights (some t) rtol maxNum = .ok (res, corr, cross))
    (heig : EigOfReduced eig (ws.matrix n) X Y res.decomp)
    (hinj : Function.Injective res.decomp.eigvals) (h0 : ∀ i, res.decomp.eigvals i ≠ 0)
    (hrank : res.decomp.r = X.rank) (A : Matrix (Fin n) (Fin n) 𝕜) (M : Matrix (Fin m) (Fin m) 𝕜)
    (hA : A * X = Y) (hM : Y = X * M) :
    ∃ modes, Chosen modes modeIndices res.exactModes ∧ Chosen modes modeIndices res.projModes ∧
      Predicts A X res.decomp.eigvals modes res.projCoeffs res.spectralCoeffs := by
  obtain ⟨rfl, rfl, hd, ho⟩ := dmdSnapsPairs_ok lib eig modeIndices weights ws _ rtol maxNum hws hfit X Y res corr cross hres
  obtain ⟨hc, hLR⟩ := dmdEigendecomp_core _ _ eig _ _ t rtol maxNum _ hd ht hr hs (gram_hermitian hW.isHermitian _)
    (hlib _ (gram_hermitian hW.isHermitian _)) heig
  exact ho.predicts hc hW hLR hinj h0 hrank A M hA hM

end Snaps

section Direct

variable {n m : Nat} (lib : PodLib 𝕜 n m) (eig : ∀ {r : Nat}, Matrix (Fin r) (Fin r) 𝕜 → EigOut 𝕜 r)
  (modeIndices : Option (List Int)) (ws : DirectWeights 𝕜) (t : ℝ) (rtol : Option ℝ) (maxNum : Option Nat)

/-- **C111** for the direct method and sequential data. -/
theorem C111_direct_sequential (ht : 0 ≤ t) (hr : ∀ t ∈ rtol, 0 ≤ t) (hfit : ws.Fits n)
    (hchol : ∀ p q w, ws = .d2 p q w → IsCholesky lib.cholesky (ws.matrix n)) (hlib : ∀ a, IsSvd a (lib.svd a))
    (Z : Matrix (Fin n) (Fin (m + 1)) 𝕜) (res : DmdResult 𝕜 n m)
    (hres : dmdDirectSeq lib eig Z modeIndices ws (some t) rtol maxNum = .ok res)
    (heig : EigOfReduced eig (ws.matrix n) (seqFirst Z) (seqNext Z) res.decomp)
    (hinj : Function.Injective res.decomp.eigvals) (h0 : ∀ i, res.decomp.eigvals i ≠ 0)
    (hrank : res.decomp.r = (seqFirst Z).rank) (A : Matrix (Fin n) (Fin n) 𝕜) (M : Matrix (Fin m) (Fin m) 𝕜)
    (hA : A * seqFirst Z = seqNext Z) (hM : seqNext Z = seqFirst Z * M) :
    ∃ modes, Chosen modes modeIndices res.exactModes ∧ Chosen modes modeIndices res.projModes ∧
      Predicts A (seqFirst Z) res.decomp.eigvals modes res.projCoeffs res.spectralCoeffs := by
  obtain ⟨hc, hLR, ho⟩ := dmdDirectSeq_ok lib eig modeIndices ws t rtol maxNum hfit hchol ht hr hlib Z res hres _ _ rfl rfl heig
  exact ho.predicts hc (directWeights_posSemidef ws hfit) hLR hinj h0 hrank A M hA hM

/-- **C111** for the direct method and pairs of vectors. -/
theorem C111_direct_pairs (ht : 0 ≤ t) (hr : ∀ t ∈ rtol, 0 ≤ t) (hfit : ws.Fits n)
    (hchol : ∀ p q w, ws = .d2 p q w → IsCholesky lib.cholesky (ws.matrix n)) (hlib : ∀ a, IsSvd a (lib.svd a))
    (X Y : Matrix (Fin n) (Fin m) 𝕜) (res : DmdResult 𝕜 n m)
    (hres : dmdDirectPairs lib eig X ⟨n, m, Y⟩ modeIndices ws (some t) rtol maxNum = .ok res)
    (heig : EigOfReduced eig (ws.matrix n) X Y res.decomp)
    (hinj : Function.Injective res.decomp.eigvals) (h0 : ∀ i, res.decomp.eigvals i ≠ 0)
    (hrank : res.decomp.r = X.rank) (A : Matrix (Fin n) (Fin n) 𝕜) (M : Matrix (Fin m) (Fin m) 𝕜)
    (hA : A * X = Y) (hM : Y = X * M) :
    ∃ modes, Chosen modes modeIndices res.exactModes ∧ Chosen modes modeIndices res.projModes ∧
      Predicts A X res.decomp.eigvals modes res.projCoeffs res.spectralCoeffs := by
  obtain ⟨hc, hLR, ho⟩ := dmdDirectPairs_ok lib eig modeIndices ws t rtol maxNum hfit hchol ht hr hlib X Y res hres heig
  exact ho.predicts hc (directWeights_posSemidef ws hfit) hLR hinj h0 hrank A M hA hM

end Direct

/-- **C111, sequences.** The vectors of the sequence are the sums of the modes, with powers of the eigenvalues and the
coefficients of the first vector, whose magnitudes are the spectral coefficients; so are all vectors that follow. -/
theorem C111_sequence {n m r : Nat} (Z : Matrix (Fin n) (Fin (m + 1)) 𝕜) (hm : 0 < m) (A : Matrix (Fin n) (Fin n) 𝕜)
    (hA : A * seqFirst Z = seqNext Z) (eigvals : Fin r → 𝕜) (modes : Matrix (Fin n) (Fin r) 𝕜)
    (coeffs : Matrix (Fin r) (Fin m) 𝕜) (spectral : NdArray ℝ)
    (h : Predicts A (seqFirst Z) eigvals modes coeffs spectral) :
    (∀ i : Fin r, spectral.data i = ‖coeffs i ⟨0, hm⟩‖) ∧
    (∀ k i, (A ^ k *ᵥ Z.col 0) i = ∑ l, modes i l * (eigvals l ^ k * coeffs l ⟨0, hm⟩)) ∧
    ∀ j : Fin (m + 1), A ^ j.val *ᵥ Z.col 0 = Z.col j := by
  have h0 : (seqFirst Z).col ⟨0, hm⟩ = Z.col 0 := rfl
  refine ⟨fun i => h.spectral i _ rfl, fun k i => ?_, fun j => ?_⟩
  · have h1 := congrFun (congrFun (h.powers k) i) ⟨0, hm⟩
    rw [Matrix.mul_assoc, Matrix.mul_apply, Matrix.mul_apply] at h1
    rw [mulVec, dotProduct]
    refine h1.trans (Finset.sum_congr rfl fun l _ => ?_)
    rw [diagonal_mul]
  · obtain ⟨j, hj⟩ := j
    induction j with
    | zero => rw [pow_zero, one_mulVec]; rfl
    | succ j ih =>
      have h2 := ih (by omega)
      dsimp only at h2 ⊢
      rw [pow_succ', ← mulVec_mulVec, h2]
      funext i
      exact congrFun (congrFun hA i) ⟨j, by omega⟩

section Handles

variable {E : Type*} [AddCommGroup E] [Module 𝕜 E] (lib : DmdLib 𝕜) (ip : E →ₗ⋆[𝕜] E →ₗ[𝕜] 𝕜) (g g' : DmdHandles 𝕜 E)
  (t : ℝ) (rtol : Option ℝ) (maxNum : Option Nat)

/-- **C111** for `DMDHandles` and a sequence of vectors. -/
theorem C111_handles_sequential (ht : 0 ≤ t) (hlib : lib.Lawful) (hsym : ∀ x y, ip y x = star (ip x y))
    (hnn : ∀ x, 0 ≤ RCLike.re (ip x x)) (hdef : ∀ v, ip v v = 0 → v = 0) (vecs : List E)
    (hrun : g.computeDecomp lib (fun x y => ip x y) vecs none (some t) rtol maxNum = (.ok (), g'))
    (d : DmdDecomp 𝕜 (vecs.length - 1)) (hd : g'.decomp = some ⟨vecs.length - 1, d⟩)
    (heig : EigOfReducedVecs ip lib.eig (seqVecs vecs) (seqAdvVecs vecs) d)
    (hinj : Function.Injective d.eigvals) (h0 : ∀ i, d.eigvals i ≠ 0)
    (hrank : d.r = (gram ip (seqVecs vecs) (seqVecs vecs)).rank) (A : E →ₗ[𝕜] E)
    (hA : ∀ j, A (seqVecs vecs j) = seqAdvVecs vecs j)
    (hY : ∀ j, seqAdvVecs vecs j ∈ Submodule.span 𝕜 (Set.range (seqVecs vecs))) :
    ∃ modes : Fin d.r → E,
      (∀ l num a out g'', (a = none ∧ g.adv = none ∨ a = some vecs.tail) →
        g'.computeExactModes l num a = (.ok out, g'') → ChosenVecs modes l out) ∧
      (∀ l num a out g'', (a = none ∨ a = some vecs) →
        g'.computeProjModes l num a = (.ok out, g'') → ChosenVecs modes l out) ∧
      ∃ c c', g'.computeProjCoeffs = .ok (⟨d.r, vecs.length - 1, c⟩, ⟨d.r, vecs.length - 1, c'⟩) ∧
        ∀ k j, (A ^ k) (seqVecs vecs j) = ∑ i, (d.eigvals i ^ k * c i j) • modes i := by
  obtain ⟨d', hd', rfl⟩ := computeDecomp_seq lib _ g g' vecs (some t) rtol maxNum hrun
  cases hd
  obtain ⟨hm, hc, hLR⟩ := handles_modes lib ip t maxNum ht hlib hsym hd' heig
  obtain ⟨h1, h2, -⟩ := state_seq vecs (handlesIp (fun x y => ip x y) (seqVecs vecs) (seqVecs vecs))
    (handlesIp (fun x y => ip x y) (seqVecs vecs) (seqAdvVecs vecs)) g.adv d hm
  obtain ⟨h3, h4⟩ := (hc.handleModes (hLR hinj) h0).predicts hrank hdef h0 _
    ((hc.handleBest hsym hnn hLR).data hinj hrank hdef) A hA hY
  rw [← h3] at h2
  exact ⟨_, h1, h2, _, _, computeProjCoeffs_state _ _ _ _ _, h4⟩

/-- **C111** for `DMDHandles` and pairs of vectors. -/
theorem C111_handles_pairs (ht : 0 ≤ t) (hlib : lib.Lawful) (hsym : ∀ x y, ip y x = star (ip x y))
    (hnn : ∀ x, 0 ≤ RCLike.re (ip x x)) (hdef : ∀ v, ip v v = 0 → v = 0) (vecs adv : List E)
    (hrun : g.computeDecomp lib (fun x y => ip x y) vecs (some adv) (some t) rtol maxNum = (.ok (), g'))
    (d : DmdDecomp 𝕜 vecs.length) (hd : g'.decomp = some ⟨vecs.length, d⟩) (hlen : vecs.length = adv.length)
    (heig : EigOfReducedVecs ip lib.eig vecs.get (fun j => adv.get (Fin.cast hlen j)) d)
    (hinj : Function.Injective d.eigvals) (h0 : ∀ i, d.eigvals i ≠ 0)
    (hrank : d.r = (gram ip vecs.get vecs.get).rank) (A : E →ₗ[𝕜] E)
    (hA : ∀ j, A (vecs.get j) = adv.get (Fin.cast hlen j))
    (hY : ∀ j, adv.get (Fin.cast hlen j) ∈ Submodule.span 𝕜 (Set.range vecs.get)) :
    ∃ modes : Fin d.r → E,
      (∀ l num a out g'', (a = none ∨ a = some adv) →
        g'.computeExactModes l num a = (.ok out, g'') → ChosenVecs modes l out) ∧
      (∀ l num a out g'', (a = none ∨ a = some vecs) →
        g'.computeProjModes l num a = (.ok out, g'') → ChosenVecs modes l out) ∧
      ∃ c c', g'.computeProjCoeffs = .ok (⟨d.r, vecs.length, c⟩, ⟨d.r, vecs.length, c'⟩) ∧
        ∀ k j, (A ^ k) (vecs.get j) = ∑ i, (d.eigvals i ^ k * c i j) • modes i := by
  obtain ⟨_, d', hd', rfl⟩ := computeDecomp_pairs lib _ g g' vecs adv (some t) rtol maxNum hrun
  cases hd
  obtain ⟨hm, hc, hLR⟩ := handles_modes lib ip t maxNum ht hlib hsym hd' heig
  obtain ⟨h1, h2, -⟩ := state_pairs vecs adv hlen (handlesIp (fun x y => ip x y) vecs.get vecs.get)
    (handlesIp (fun x y => ip x y) vecs.get fun j => adv.get (Fin.cast hlen j)) d
  obtain ⟨h3, h4⟩ := (hc.handleModes (hLR hinj) h0).predicts hrank hdef h0 _
    ((hc.handleBest hsym hnn hLR).data hinj hrank hdef) A hA hY
  rw [← h3] at h2
  exact ⟨_, h1, h2, _, _, computeProjCoeffs_state _ _ _ _ _, h4⟩

end Handles

/-- The hypotheses can be met: for the sequence of the example, in which each vector is `[[0, -2], [1, 3]]` times the one
before, modes and eigenvalues give the vectors after any number of steps. -/
example : ∃ (lib : PodLib ℝ 2 2) (res : DmdResult ℝ 2 2) (corr cross : Matrix (Fin 2) (Fin 2) ℝ),
    dmdSnapsSeq lib exampleSeqEig exampleSeq none none (some (1 / 10)) none none = .ok (res, corr, cross) ∧
    ∃ modes : Matrix (Fin 2) (Fin res.decomp.r) ℝ, Chosen modes none res.exactModes ∧
      Predicts !![0, -2; 1, 3] (seqFirst exampleSeq) res.decomp.eigvals modes res.projCoeffs res.spectralCoeffs := by
  obtain ⟨lib, res, corr, cross, heigh, hs, hres, hd⟩ := exampleSeq_snaps
  obtain ⟨modes, h1, -, h2⟩ := C111_snaps_sequential lib exampleSeqEig none none .none (1 / 10) none none
    (by norm_num) (by simp) hs rfl trivial PosSemidef.one heigh exampleSeq res corr cross hres
    (by rw [hd]; exact exampleSeqDecomp_eig) (by rw [hd]; exact exampleSeqDecomp_distinct.1)
    (by rw [hd]; exact exampleSeqDecomp_distinct.2) (by rw [exampleSeq_first, rank_one, hd]; rfl)
    !![0, -2; 1, 3] !![0, -2; 1, 3] (by rw [exampleSeq_first, exampleSeq_next, Matrix.mul_one])
    (by rw [exampleSeq_first, exampleSeq_next, Matrix.one_mul])
  exact ⟨lib, res, corr, cross, hres, modes, h1, h2⟩

/-- The same with handles. -/
example : ∃ (lib : DmdLib ℝ) (g' : DmdHandles ℝ (Fin 2 → ℝ)) (modes : Fin 2 → Fin 2 → ℝ) (c c' : Matrix (Fin 2) (Fin 2) ℝ),
    DmdHandles.new.computeDecomp lib (fun x y => dotIp x y) exampleVecs none (some (1 / 10)) none none = (.ok (), g') ∧
    g'.computeProjCoeffs = .ok (⟨2, 2, c⟩, ⟨2, 2, c'⟩) ∧
    (∀ l num out g'', g'.computeExactModes l num none = (.ok out, g'') → ChosenVecs modes l out) ∧
    ∀ k j, ((!![0, -2; 1, 3] : Matrix (Fin 2) (Fin 2) ℝ).mulVecLin ^ k) (seqVecs exampleVecs j) =
      ∑ i, (exampleSeqDecomp.eigvals i ^ k * c i j) • modes i := by
  obtain ⟨lib, hlaw, heig, hu⟩ := exists_exampleDmdLib
  obtain ⟨g', hrun, hd⟩ := exampleVecs_decomp lib heig hu DmdHandles.new
  obtain ⟨modes, hex, -, c, c', hc, hb⟩ := C111_handles_sequential lib dotIp DmdHandles.new g' (1 / 10) none none
    (by norm_num) hlaw dotIp_symm
    (fun x => by rw [dotIp_apply]; exact add_nonneg (mul_self_nonneg (x 0)) (mul_self_nonneg (x 1)))
    (by
      intro v hv
      rw [dotIp_apply] at hv
      ext i
      fin_cases i
      · simp; nlinarith [mul_self_nonneg (v 0), mul_self_nonneg (v 1)]
      · simp; nlinarith [mul_self_nonneg (v 0), mul_self_nonneg (v 1)])
    exampleVecs hrun exampleSeqDecomp hd (exampleVecs_eig lib heig) exampleSeqDecomp_distinct.1
    exampleSeqDecomp_distinct.2
    (by
      rw [exampleVecs_corr]
      exact (Matrix.rank_one (n := Fin 2) (R := ℝ)).symm)
    (!![0, -2; 1, 3] : Matrix (Fin 2) (Fin 2) ℝ).mulVecLin
    (by
      intro j
      fin_cases j <;> ext i <;> fin_cases i <;>
        simp [seqVecs, seqAdvVecs, exampleVecs, Matrix.mulVec, dotProduct, Fin.sum_univ_two])
    (by
      intro j
      rw [Submodule.mem_span_range_iff_exists_fun]
      refine ⟨seqAdvVecs exampleVecs j, ?_⟩
      have : ∀ c : Fin 2 → ℝ, ∑ i : Fin 2, c i • seqVecs exampleVecs i = c := by
        intro c
        ext i
        fin_cases i <;> simp [seqVecs, exampleVecs, Fin.sum_univ_two]
      exact this _)
  exact ⟨lib, g', modes, c, c', hrun, hc, fun l num out g'' h => hex l num none out g'' (Or.inl ⟨rfl, rfl⟩) h, hb⟩

end Modred
