import Verif.Lemmas.Tlsqr
import Verif.Props.DmdHandles

/-!
# Total-least-squares dynamic mode decomposition on arrays (C30, C31, C58, C59)
-/

namespace Modred

open Matrix
open scoped ComplexOrder

variable {𝕜 : Type*} [RCLike 𝕜]

/-! ### Decompositions -/

/-- `scipy.linalg.eig` returned eigenvalues and eigenvectors of the reduced map of the projected cross-correlation
array. -/
def EigOfProjected {m : Nat} (eig : ∀ {r : Nat}, Matrix (Fin r) (Fin r) 𝕜 → EigOut 𝕜 r) (K : Matrix (Fin m) (Fin m) 𝕜)
    (t : TlsDecomp 𝕜 m) : Prop :=
  IsEig (lowOrderMap (diagPow (𝕜 := 𝕜) t.d.w (-0.5)) t.d.V (t.proj * K * t.proj))
    (eig (lowOrderMap (diagPow (𝕜 := 𝕜) t.d.w (-0.5)) t.d.V (t.proj * K * t.proj)))

/-- The results of the steps. -/
theorem tlsEigendecomp_ok {m : Nat} (eigh : Matrix (Fin m) (Fin m) 𝕜 → EighOut 𝕜 m)
    (argsort : (Fin m → ℝ) → Equiv.Perm (Fin m)) (eig : ∀ {r : Nat}, Matrix (Fin r) (Fin r) 𝕜 → EigOut 𝕜 r)
    (C C' K : Matrix (Fin m) (Fin m) 𝕜) (atol sumRtol projRtol : Option ℝ) (maxNum : Option Nat) (t : TlsDecomp 𝕜 m)
    (ht : tlsEigendecomp eigh argsort eig C C' K atol sumRtol projRtol maxNum = .ok t) :
    (∃ s, utilEigh eigh argsort (C + C') atol sumRtol true = .ok s ∧
      (⟨t.q, t.sumW, t.sumV⟩ : Eigh 𝕜 m) = s.truncate maxNum) ∧
    (∃ p, utilEigh eigh argsort (t.proj * C * t.proj) atol projRtol true = .ok p ∧
      (⟨t.d.r, t.d.w, t.d.V⟩ : Eigh 𝕜 m) = p.truncate maxNum) ∧
    eigBiorthog eig (lowOrderMap (diagPow (𝕜 := 𝕜) t.d.w (-0.5)) t.d.V (t.proj * K * t.proj)) scaleLeft =
      .ok (t.d.eigvals, t.d.R, t.d.L) := by
  unfold tlsEigendecomp at ht
  split at ht
  · cases ht
  rename_i s hs
  dsimp only at ht
  split at ht
  · cases ht
  rename_i p hp
  split at ht
  · cases ht
  rename_i lam R L hlr
  cases ht
  refine ⟨⟨s, hs, rfl⟩, ⟨p, ?_, rfl⟩, ?_⟩
  · rw [← TlsDecomp.projCorr]
    exact hp
  · rw [← TlsDecomp.lowOrder]
    exact hlr

theorem tlsEigendecomp_core {m : Nat} (eigh : Matrix (Fin m) (Fin m) 𝕜 → EighOut 𝕜 m)
    (argsort : (Fin m → ℝ) → Equiv.Perm (Fin m)) (eig : ∀ {r : Nat}, Matrix (Fin r) (Fin r) 𝕜 → EigOut 𝕜 r)
    (C C' K : Matrix (Fin m) (Fin m) 𝕜) (a : ℝ) (sumRtol projRtol : Option ℝ) (maxNum : Option Nat) (t : TlsDecomp 𝕜 m)
    (ht : tlsEigendecomp eigh argsort eig C C' K (some a) sumRtol projRtol maxNum = .ok t) (ha : 0 ≤ a)
    (hr : ∀ t ∈ sumRtol, 0 ≤ t) (hr' : ∀ t ∈ projRtol, 0 ≤ t) (hs : IsArgsort argsort) (hC : C.IsHermitian)
    (hC' : C'.IsHermitian) (hlib : ∀ a, a.IsHermitian → IsEigh a (eigh a)) (heig : EigOfProjected eig K t) :
    TlsCore C C' K t ∧ (Function.Injective t.d.eigvals → t.d.Lᴴ * t.d.R = 1) := by
  obtain ⟨⟨s, hs1, hs2⟩, ⟨p, hp1, hp2⟩, hlr⟩ := tlsEigendecomp_ok _ _ _ _ _ _ _ _ _ _ _ ht
  have hP : (t.proj * C * t.proj).IsHermitian := by
    unfold Matrix.IsHermitian
    rw [conjTranspose_mul, conjTranspose_mul, t.proj_herm, hC.eq, Matrix.mul_assoc]
  obtain ⟨h1, h2, -⟩ := C20_eigenpairs _ _ _ _ _ _ (hlib _ (hC.add hC')) hs s hs1
  obtain ⟨h3, h4, h5⟩ := truncate_eigh s maxNum h1 h2 (C20_positive_partial _ _ _ _ a ha hs hr s hs1)
  rw [← hs2] at h3 h4 h5
  obtain ⟨k1, k2, -⟩ := C20_eigenpairs _ _ _ _ _ _ (hlib _ hP) hs p hp1
  obtain ⟨k3, k4, k5⟩ := truncate_eigh p maxNum k1 k2 (C20_positive_partial _ _ _ _ a ha hs hr' p hp1)
  rw [← hp2] at k3 k4 k5
  obtain ⟨e1, e2, e3⟩ := C21_eigenvectors _ _ heig _ _ _ _ hlr
  refine ⟨⟨⟨h3, h4, h5⟩, ⟨hP, k3, by rw [diagPow_one]; exact k4, k5, ?_, ?_, ?_⟩⟩,
    fun hinj => C21_biorthonormal _ _ heig (by rw [← e1]; exact hinj) _ _ _ _ hlr⟩
  · exact e2
  · exact e3
  · rw [e1]
    exact heig.eigenvalue

/-- The results, in terms of the decompositions. -/
structure TlsOutcome {n m : Nat} (K : Matrix (Fin m) (Fin m) 𝕜) (X Y : Matrix (Fin n) (Fin m) 𝕜)
    (modeIndices : Option (List Int)) (res : TlsResult 𝕜 n m) : Prop where
  pos : 0 < m
  exact : Chosen (Y * res.decomp.buildExact) modeIndices res.exactModes
  proj : Chosen (X * res.decomp.buildProj) modeIndices res.projModes
  adjoint : Chosen (X * res.decomp.buildAdjoint) modeIndices res.adjointModes
  projCoeffs : res.projCoeffs = res.decomp.d.Lᴴ * (diagPow (𝕜 := 𝕜) res.decomp.d.w 0.5 * res.decomp.d.Vᴴ)
  advProjCoeffs : res.advProjCoeffs = res.decomp.d.Lᴴ * (diagPow (𝕜 := 𝕜) res.decomp.d.w (-0.5) *
    (res.decomp.d.Vᴴ * (res.decomp.proj * K * res.decomp.proj)))
  spectral : res.spectralCoeffs = tlsSpectralCoeffs res.decomp.d.w res.decomp.d.V res.decomp.d.L ⟨0, pos⟩

theorem tlsFinish_ok {n m : Nat} (t : TlsDecomp 𝕜 m) (K : Matrix (Fin m) (Fin m) 𝕜) (X Y : Matrix (Fin n) (Fin m) 𝕜)
    (modeIndices : Option (List Int)) (res : TlsResult 𝕜 n m) (hres : tlsFinish t K X Y modeIndices = .ok res) :
    res.decomp = t ∧ TlsOutcome K X Y modeIndices res := by
  unfold tlsFinish at hres
  dsimp only at hres
  split at hres
  · rename_i hm
    split at hres
    · cases hres
    rename_i e he
    split at hres
    · cases hres
    rename_i p hp
    split at hres
    · cases hres
    rename_i a ha
    cases hres
    refine ⟨rfl, hm, ?_, linCombineArrays_ok _ _ _ _ hp, linCombineArrays_ok _ _ _ _ ha, rfl, TlsCore.advCoeffs _ _, rfl⟩
    dsimp only
    rw [TlsDecomp.buildExact_eq]
    exact linCombineArrays_ok _ _ _ _ he
  · cases hres

theorem TlsOutcome.modes {n m : Nat} {W : Matrix (Fin n) (Fin n) 𝕜} {X Y : Matrix (Fin n) (Fin m) 𝕜}
    {modeIndices : Option (List Int)} {res : TlsResult 𝕜 n m} (h : TlsOutcome (Xᴴ * W * Y) X Y modeIndices res)
    (hc : TlsCore (Xᴴ * W * X) (Yᴴ * W * Y) (Xᴴ * W * Y) res.decomp) (hW : W.IsHermitian)
    (hLR : res.decomp.d.Lᴴ * res.decomp.d.R = 1) (h0 : ∀ i, res.decomp.d.eigvals i ≠ 0) :
    ∃ exact proj adjoint, Chosen exact modeIndices res.exactModes ∧ Chosen proj modeIndices res.projModes ∧
      Chosen adjoint modeIndices res.adjointModes ∧
      DmdModes W (X * res.decomp.proj) (Y * res.decomp.proj) res.decomp.d.w res.decomp.d.V res.decomp.d.eigvals exact proj
        adjoint ∧
      res.projCoeffs = adjointᴴ * W * (X * res.decomp.proj) ∧ res.advProjCoeffs = adjointᴴ * W * (Y * res.decomp.proj) := by
  have hcore := hc.core
  rw [← gram_proj, ← gram_proj] at hcore
  obtain ⟨r1, r2, r3⟩ := hc.range
  have e1 : Y * res.decomp.buildExact = Y * res.decomp.proj * res.decomp.d.buildExact := by
    rw [hc.buildExact, Matrix.mul_assoc, r2]
  have e2 : X * res.decomp.buildProj = X * res.decomp.proj * res.decomp.d.buildProj := by
    rw [hc.buildProj, Matrix.mul_assoc, r1]
  have e3 : X * res.decomp.buildAdjoint = X * res.decomp.proj * res.decomp.d.buildAdjoint := by
    rw [hc.buildAdjoint, Matrix.mul_assoc, r3]
  have h1 := h.exact
  have h2 := h.proj
  have h3 := h.adjoint
  rw [e1] at h1
  rw [e2] at h2
  rw [e3] at h3
  have hco := hcore.coeffs h.pos
  refine ⟨_, _, _, h1, h2, h3, hcore.modes hW.eq hLR h0, ?_, ?_⟩
  · rw [h.projCoeffs]
    exact hco.proj
  · rw [h.advProjCoeffs, ← gram_proj]
    exact hco.adv

/-! ### Snapshot method -/

section Snaps

variable {n m : Nat} (lib : PodLib 𝕜 n m) (eig : ∀ {r : Nat}, Matrix (Fin r) (Fin r) 𝕜 → EigOut 𝕜 r)
  (modeIndices : Option (List Int)) (weights : Option (NdArray 𝕜)) (ws : Weights 𝕜)
  (atol rtol : Option ℝ) (maxNum : Option Nat)

theorem tlsSnapsRest_ok (c c' : TlsCorr 𝕜 m) (X Y : Matrix (Fin n) (Fin m) 𝕜) (res : TlsResult 𝕜 n m)
    (hres : tlsSnapsRest lib eig c X Y modeIndices atol rtol maxNum = .ok (res, c')) :
    c' = c ∧ tlsEigendecomp lib.eigh lib.argsort eig c.corr c.adv c.cross atol rtol none maxNum = .ok res.decomp ∧
      TlsOutcome c.cross X Y modeIndices res := by
  unfold tlsSnapsRest at hres
  split at hres
  · cases hres
  rename_i t ht
  split at hres
  · cases hres
  rename_i r hr
  cases hres
  obtain ⟨rfl, h⟩ := tlsFinish_ok _ _ _ _ _ _ hr
  exact ⟨rfl, ht, h⟩

theorem tlsSnapsSeq_ok (hws : arraysInit weights = .ok ws) (hfit : ws.Fits n) (Z : Matrix (Fin n) (Fin (m + 1)) 𝕜)
    (res : TlsResult 𝕜 n m) (c : TlsCorr 𝕜 m)
    (hres : tlsSnapsSeq lib eig Z modeIndices weights atol rtol maxNum = .ok (res, c)) :
    c = ⟨(seqFirst Z)ᴴ * ws.matrix n * seqFirst Z, (seqNext Z)ᴴ * ws.matrix n * seqNext Z,
      (seqFirst Z)ᴴ * ws.matrix n * seqNext Z⟩ ∧
    tlsEigendecomp lib.eigh lib.argsort eig c.corr c.adv c.cross atol rtol none maxNum = .ok res.decomp ∧
    TlsOutcome c.cross (seqFirst Z) (seqNext Z) modeIndices res := by
  unfold tlsSnapsSeq at hres
  rw [hws] at hres
  dsimp only at hres
  unfold symmIpArray at hres
  rw [C45_formula ws hfit] at hres
  dsimp only at hres
  obtain ⟨rfl, h1, h2⟩ := tlsSnapsRest_ok lib eig modeIndices atol rtol maxNum _ _ _ _ res hres
  exact ⟨rfl, h1, h2⟩

theorem tlsSnapsPairs_ok (hws : arraysInit weights = .ok ws) (hfit : ws.Fits n) (X Y : Matrix (Fin n) (Fin m) 𝕜)
    (res : TlsResult 𝕜 n m) (c : TlsCorr 𝕜 m)
    (hres : tlsSnapsPairs lib eig X ⟨n, m, Y⟩ modeIndices weights atol rtol maxNum = .ok (res, c)) :
    c = ⟨Xᴴ * ws.matrix n * X, Yᴴ * ws.matrix n * Y, Xᴴ * ws.matrix n * Y⟩ ∧
    tlsEigendecomp lib.eigh lib.argsort eig c.corr c.adv c.cross atol rtol none maxNum = .ok res.decomp ∧
    TlsOutcome c.cross X Y modeIndices res := by
  unfold tlsSnapsPairs at hres
  rw [hws] at hres
  simp only [and_self, dite_true] at hres
  unfold symmIpArray at hres
  rw [C45_formula ws hfit] at hres
  dsimp only at hres
  rw [C45_formula ws hfit] at hres
  dsimp only at hres
  rw [C45_formula ws hfit] at hres
  dsimp only at hres
  obtain ⟨rfl, h1, h2⟩ := tlsSnapsRest_ok lib eig modeIndices atol rtol maxNum _ _ _ _ res hres
  exact ⟨rfl, h1, h2⟩

variable (a : ℝ)

/-- **C31.** Modes and projection coefficients of the snapshot method for sequential data are those of dynamic mode
decomposition of the projected data: in particular adjoint modes are biorthonormal to exact and projected modes. -/
theorem C31_snaps_sequential (ha : 0 ≤ a) (hr : ∀ t ∈ rtol, 0 ≤ t) (hs : IsArgsort lib.argsort)
    (hws : arraysInit weights = .ok ws) (hfit : ws.Fits n) (hW : (ws.matrix n).IsHermitian)
    (hlib : ∀ C : Matrix (Fin m) (Fin m) 𝕜, C.IsHermitian → IsEigh C (lib.eigh C)) (Z : Matrix (Fin n) (Fin (m + 1)) 𝕜)
    (res : TlsResult 𝕜 n m) (c : TlsCorr 𝕜 m)
    (hres : tlsSnapsSeq lib eig Z modeIndices weights (some a) rtol maxNum = .ok (res, c))
    (heig : EigOfProjected eig ((seqFirst Z)ᴴ * ws.matrix n * seqNext Z) res.decomp)
    (hinj : Function.Injective res.decomp.d.eigvals) (h0 : ∀ i, res.decomp.d.eigvals i ≠ 0) :
    c.corr = (seqFirst Z)ᴴ * ws.matrix n * seqFirst Z ∧ c.adv = (seqNext Z)ᴴ * ws.matrix n * seqNext Z ∧
    c.cross = (seqFirst Z)ᴴ * ws.matrix n * seqNext Z ∧
    TlsProjection ((seqFirst Z)ᴴ * ws.matrix n * seqFirst Z) ((seqNext Z)ᴴ * ws.matrix n * seqNext Z) res.decomp.sumW
      res.decomp.sumV ∧
    ∃ exact proj adjoint, Chosen exact modeIndices res.exactModes ∧ Chosen proj modeIndices res.projModes ∧
      Chosen adjoint modeIndices res.adjointModes ∧
      DmdModes (ws.matrix n) (seqFirst Z * res.decomp.proj) (seqNext Z * res.decomp.proj) res.decomp.d.w res.decomp.d.V
        res.decomp.d.eigvals exact proj adjoint ∧
      res.projCoeffs = adjointᴴ * ws.matrix n * (seqFirst Z * res.decomp.proj) ∧
      res.advProjCoeffs = adjointᴴ * ws.matrix n * (seqNext Z * res.decomp.proj) := by
  obtain ⟨rfl, hd, ho⟩ := tlsSnapsSeq_ok lib eig modeIndices weights ws _ rtol maxNum hws hfit Z res c hres
  obtain ⟨hc, hLR⟩ := tlsEigendecomp_core _ _ eig _ _ _ a rtol none maxNum _ hd ha hr (by simp) hs (gram_hermitian hW _)
    (gram_hermitian hW _) hlib heig
  exact ⟨rfl, rfl, rfl, hc.sum, ho.modes hc hW (hLR hinj) h0⟩

/-- **C31.** The same for pairs of vectors. -/
theorem C31_snaps_pairs (ha : 0 ≤ a) (hr : ∀ t ∈ rtol, 0 ≤ t) (hs : IsArgsort lib.argsort)
    (hws : arraysInit weights = .ok ws) (hfit : ws.Fits n) (hW : (ws.matrix n).IsHermitian)
    (hlib : ∀ C : Matrix (Fin m) (Fin m) 𝕜, C.IsHermitian → IsEigh C (lib.eigh C)) (X Y : Matrix (Fin n) (Fin m) 𝕜)
    (res : TlsResult 𝕜 n m) (c : TlsCorr 𝕜 m)
    (hres : tlsSnapsPairs lib eig X ⟨n, m, Y⟩ modeIndices weights (some a) rtol maxNum = .ok (res, c))
    (heig : EigOfProjected eig (Xᴴ * ws.matrix n * Y) res.decomp)
    (hinj : Function.Injective res.decomp.d.eigvals) (h0 : ∀ i, res.decomp.d.eigvals i ≠ 0) :
    c.corr = Xᴴ * ws.matrix n * X ∧ c.adv = Yᴴ * ws.matrix n * Y ∧ c.cross = Xᴴ * ws.matrix n * Y ∧
    TlsProjection (Xᴴ * ws.matrix n * X) (Yᴴ * ws.matrix n * Y) res.decomp.sumW res.decomp.sumV ∧
    ∃ exact proj adjoint, Chosen exact modeIndices res.exactModes ∧ Chosen proj modeIndices res.projModes ∧
      Chosen adjoint modeIndices res.adjointModes ∧
      DmdModes (ws.matrix n) (X * res.decomp.proj) (Y * res.decomp.proj) res.decomp.d.w res.decomp.d.V
        res.decomp.d.eigvals exact proj adjoint ∧
      res.projCoeffs = adjointᴴ * ws.matrix n * (X * res.decomp.proj) ∧
      res.advProjCoeffs = adjointᴴ * ws.matrix n * (Y * res.decomp.proj) := by
  obtain ⟨rfl, hd, ho⟩ := tlsSnapsPairs_ok lib eig modeIndices weights ws _ rtol maxNum hws hfit X Y res c hres
  obtain ⟨hc, hLR⟩ := tlsEigendecomp_core _ _ eig _ _ _ a rtol none maxNum _ hd ha hr (by simp) hs (gram_hermitian hW _)
    (gram_hermitian hW _) hlib heig
  exact ⟨rfl, rfl, rfl, hc.sum, ho.modes hc hW (hLR hinj) h0⟩

/-- Advanced vectors of another shape are refused, whatever else is given. -/
theorem C31_wrong_shape (hws : arraysInit weights = .ok ws) (X : Matrix (Fin n) (Fin m) 𝕜) (Y : Arr 𝕜)
    (h : ¬(Y.m = n ∧ Y.n = m)) :
    tlsSnapsPairs lib eig X Y modeIndices weights atol rtol maxNum = .error .valueError := by
  unfold tlsSnapsPairs
  rw [hws]
  dsimp only
  rw [dif_neg h]

/-- What the spectral coefficients of the snapshot method are: the row of eigenvectors is not conjugated, so they are
the magnitudes of the first column of the projection coefficients times `V V^T`. -/
theorem spectral_of_outcome {K : Matrix (Fin m) (Fin m) 𝕜} {X Y : Matrix (Fin n) (Fin m) 𝕜} {res : TlsResult 𝕜 n m}
    (h : TlsOutcome K X Y modeIndices res) (hV : res.decomp.d.Vᴴ * res.decomp.d.V = 1) :
    res.spectralCoeffs.shape = (if res.decomp.d.r = 1 then [] else [res.decomp.d.r]) ∧
    ∀ (i : Fin res.decomp.d.r) (j : Fin m), j.val = 0 →
      res.spectralCoeffs.data i = ‖(res.projCoeffs * (res.decomp.d.V * res.decomp.d.Vᵀ)) i j‖ ∧
      ((∀ k, star (res.decomp.d.V j k) = res.decomp.d.V j k) → res.spectralCoeffs.data i = ‖res.projCoeffs i j‖) := by
  obtain ⟨h1, h2⟩ := tlsSpectral_shape res.decomp.d.w res.decomp.d.V res.decomp.d.L ⟨0, h.pos⟩
  rw [h.spectral]
  refine ⟨h1, fun i j hj => ?_⟩
  have ej : (⟨0, h.pos⟩ : Fin m) = j := by ext; exact hj.symm
  rw [h2 i, h.projCoeffs, ej]
  constructor
  · congr 2
    rw [show res.decomp.d.Lᴴ * (diagPow (𝕜 := 𝕜) res.decomp.d.w 0.5 * res.decomp.d.Vᴴ) * (res.decomp.d.V * res.decomp.d.Vᵀ) =
      res.decomp.d.Lᴴ * (diagPow (𝕜 := 𝕜) res.decomp.d.w 0.5 * (res.decomp.d.Vᴴ * res.decomp.d.V * res.decomp.d.Vᵀ)) by
        simp only [Matrix.mul_assoc], hV, Matrix.one_mul]
  · intro hreal
    have : (fun k => res.decomp.d.Vᵀ k j) = fun k => res.decomp.d.Vᴴ k j := by
      ext k
      rw [transpose_apply, conjTranspose_apply, hreal]
    congr 1
    rw [← Matrix.mul_assoc, ← Matrix.mul_assoc, Matrix.mul_apply, Matrix.mul_apply]
    refine Finset.sum_congr rfl fun k _ => ?_
    rw [congrFun this k]

/-- **C30, partial.** The spectral coefficients of the snapshot method are the magnitudes of the first column of the
projection coefficients times `V V^T`, where `V` are the retained eigenvectors; if the first row of `V` is real they
are those of the projection coefficients.  Other arrays `V` are missing. -/
theorem C30_snaps_partial (ha : 0 ≤ a) (hr : ∀ t ∈ rtol, 0 ≤ t) (hs : IsArgsort lib.argsort)
    (hws : arraysInit weights = .ok ws) (hfit : ws.Fits n) (hW : (ws.matrix n).IsHermitian)
    (hlib : ∀ C : Matrix (Fin m) (Fin m) 𝕜, C.IsHermitian → IsEigh C (lib.eigh C)) (res : TlsResult 𝕜 n m) (c : TlsCorr 𝕜 m)
    (hres : (∃ (X Y : Matrix (Fin n) (Fin m) 𝕜), EigOfProjected eig (Xᴴ * ws.matrix n * Y) res.decomp ∧
        tlsSnapsPairs lib eig X ⟨n, m, Y⟩ modeIndices weights (some a) rtol maxNum = .ok (res, c)) ∨
      ∃ Z : Matrix (Fin n) (Fin (m + 1)) 𝕜, EigOfProjected eig ((seqFirst Z)ᴴ * ws.matrix n * seqNext Z) res.decomp ∧
        tlsSnapsSeq lib eig Z modeIndices weights (some a) rtol maxNum = .ok (res, c)) :
    res.spectralCoeffs.shape = (if res.decomp.d.r = 1 then [] else [res.decomp.d.r]) ∧
    ∀ (i : Fin res.decomp.d.r) (j : Fin m), j.val = 0 →
      res.spectralCoeffs.data i = ‖(res.projCoeffs * (res.decomp.d.V * res.decomp.d.Vᵀ)) i j‖ ∧
      ((∀ k, star (res.decomp.d.V j k) = res.decomp.d.V j k) → res.spectralCoeffs.data i = ‖res.projCoeffs i j‖) := by
  rcases hres with ⟨X, Y, heig, hres⟩ | ⟨Z, heig, hres⟩
  · obtain ⟨rfl, hd, ho⟩ := tlsSnapsPairs_ok lib eig modeIndices weights ws _ rtol maxNum hws hfit X Y res c hres
    obtain ⟨hc, -⟩ := tlsEigendecomp_core _ _ eig _ _ _ a rtol none maxNum _ hd ha hr (by simp) hs (gram_hermitian hW _)
      (gram_hermitian hW _) hlib heig
    exact spectral_of_outcome modeIndices ho hc.core.orth
  · obtain ⟨rfl, hd, ho⟩ := tlsSnapsSeq_ok lib eig modeIndices weights ws _ rtol maxNum hws hfit Z res c hres
    obtain ⟨hc, -⟩ := tlsEigendecomp_core _ _ eig _ _ _ a rtol none maxNum _ hd ha hr (by simp) hs (gram_hermitian hW _)
      (gram_hermitian hW _) hlib heig
    exact spectral_of_outcome modeIndices ho hc.core.orth

end Snaps

/-- **C30, partial.** For real data the spectral coefficients are the magnitudes of the first column of the projection
coefficients.  Complex data are missing. -/
theorem C30_snaps_real_partial {n m : Nat} (lib : PodLib ℝ n m) (eig : ∀ {r : Nat}, Matrix (Fin r) (Fin r) ℝ → EigOut ℝ r)
    (modeIndices : Option (List Int)) (weights : Option (NdArray ℝ)) (ws : Weights ℝ) (a : ℝ) (rtol : Option ℝ)
    (maxNum : Option Nat) (ha : 0 ≤ a) (hr : ∀ t ∈ rtol, 0 ≤ t) (hs : IsArgsort lib.argsort)
    (hws : arraysInit weights = .ok ws) (hfit : ws.Fits n) (hW : (ws.matrix n).IsHermitian)
    (hlib : ∀ C : Matrix (Fin m) (Fin m) ℝ, C.IsHermitian → IsEigh C (lib.eigh C)) (res : TlsResult ℝ n m) (c : TlsCorr ℝ m)
    (hres : (∃ (X Y : Matrix (Fin n) (Fin m) ℝ), EigOfProjected eig (Xᴴ * ws.matrix n * Y) res.decomp ∧
        tlsSnapsPairs lib eig X ⟨n, m, Y⟩ modeIndices weights (some a) rtol maxNum = .ok (res, c)) ∨
      ∃ Z : Matrix (Fin n) (Fin (m + 1)) ℝ, EigOfProjected eig ((seqFirst Z)ᴴ * ws.matrix n * seqNext Z) res.decomp ∧
        tlsSnapsSeq lib eig Z modeIndices weights (some a) rtol maxNum = .ok (res, c))
    (i : Fin res.decomp.d.r) (j : Fin m) (hj : j.val = 0) : res.spectralCoeffs.data i = ‖res.projCoeffs i j‖ :=
  ((C30_snaps_partial lib eig modeIndices weights ws rtol maxNum a ha hr hs hws hfit hW hlib res c hres).2 i j hj).2
    fun _ => star_trivial _

/-! ### Direct method -/

section Direct

variable {n m : Nat} (lib : PodLib 𝕜 n m) (eig : ∀ {r : Nat}, Matrix (Fin r) (Fin r) 𝕜 → EigOut 𝕜 r)
  (svd : Matrix (Fin (n + n)) (Fin m) 𝕜 → SvdOut 𝕜 (n + n) m)
  (modeIndices : Option (List Int)) (ws : DirectWeights 𝕜) (t : ℝ) (rtol : Option ℝ) (maxNum : Option Nat)

/-- The projection of the direct method. -/
theorem direct_projection {G : Matrix (Fin n) (Fin n) 𝕜} {X Y : Matrix (Fin n) (Fin m) 𝕜} (ht : 0 ≤ t) (hr : ∀ t ∈ rtol, 0 ≤ t)
    (hlib : ∀ a, IsSvd a (svd a)) (s : Svd 𝕜 (n + n) m)
    (hs : utilSvd svd (stackRows (G * X) (G * Y)) (some t) rtol = .ok s) :
    TlsProjection (Xᴴ * (Gᴴ * G) * X) (Yᴴ * (Gᴴ * G) * Y) (fun i => (s.truncate maxNum).S i ^ (2 : ℝ)) (s.truncate maxNum).V := by
  obtain ⟨hU, hV, hAV, hAU, hS, -⟩ := C19_singular_triples _ _ _ _ (hlib _) s hs
  obtain ⟨hle, hk, hkeep⟩ := C19_kept_iff _ _ _ _ (hlib _) hr s hs
  have hpos : ∀ i, 0 < s.S i := by
    intro i
    have hi := i.isLt
    have h1 := ((hk ⟨i, by omega⟩).mp hi).1 t rfl
    rw [(hkeep i ⟨i, by omega⟩ rfl).1]
    rw [abs_of_nonneg ((hlib _).nonneg _)] at h1
    exact lt_of_le_of_lt ht h1
  obtain ⟨h1, h2, h3, h4⟩ := truncate_svd s maxNum hV hAV hAU hpos
  generalize s.truncate maxNum = s at *
  refine ⟨h1, ?_, fun i => Real.rpow_pos_of_pos (h4 i) _⟩
  rw [show Xᴴ * (Gᴴ * G) * X + Yᴴ * (Gᴴ * G) * Y = (G * X)ᴴ * (G * X) + (G * Y)ᴴ * (G * Y) by
    simp only [conjTranspose_mul, Matrix.mul_assoc], ← stackRows_gram, Matrix.mul_assoc, h2, ← Matrix.mul_assoc, h3,
    Matrix.mul_assoc, diagonal_mul_diagonal]
  congr 2
  ext i
  rw [← RCLike.ofReal_mul, Real.rpow_two, sq]

/-- The steps of the direct method. -/
theorem tlsDirectRest_ok (so : Option (Matrix (Fin n) (Fin n) 𝕜)) (atol : Option ℝ) (X Y : Matrix (Fin n) (Fin m) 𝕜)
    (res : TlsResult 𝕜 n m) (hres : tlsDirectRest lib eig svd so X Y modeIndices ws atol rtol maxNum = .ok res) :
    (∃ s, utilSvd svd (stackRows (weightData so X) (weightData so Y)) atol rtol = .ok s ∧
      res.decomp.q = (s.truncate maxNum).r ∧ HEq res.decomp.sumV (s.truncate maxNum).V ∧
      HEq res.decomp.sumW fun i => (s.truncate maxNum).S i ^ (2 : ℝ)) ∧
    dmdDirectPairs lib eig (X * res.decomp.proj) ⟨n, m, Y * res.decomp.proj⟩ modeIndices ws atol rtol maxNum =
      .ok ⟨res.decomp.d, res.spectralCoeffs, res.exactModes, res.projModes, res.adjointModes, res.projCoeffs,
        res.advProjCoeffs⟩ := by
  unfold tlsDirectRest at hres
  split at hres
  · cases hres
  rename_i s hs
  dsimp only at hres
  split at hres
  · cases hres
  rename_i r hr
  cases hres
  exact ⟨⟨s, hs, rfl, HEq.rfl, HEq.rfl⟩, hr⟩

theorem tlsDirectRest_core (so : Option (Matrix (Fin n) (Fin n) 𝕜)) (hfit : ws.Fits n)
    (hchol : ∀ p q w, ws = .d2 p q w → IsCholesky lib.cholesky (ws.matrix n))
    (hso : directSqrtWeights lib.cholesky ws = .ok so) (ht : 0 ≤ t) (hr : ∀ t ∈ rtol, 0 ≤ t)
    (hlib : ∀ a, IsSvd a (lib.svd a)) (hlib' : ∀ a, IsSvd a (svd a)) (X Y : Matrix (Fin n) (Fin m) 𝕜) (res : TlsResult 𝕜 n m)
    (hres : tlsDirectRest lib eig svd so X Y modeIndices ws (some t) rtol maxNum = .ok res)
    (heig : EigOfProjected eig (Xᴴ * ws.matrix n * Y) res.decomp) :
    TlsProjection (Xᴴ * ws.matrix n * X) (Yᴴ * ws.matrix n * Y) res.decomp.sumW res.decomp.sumV ∧
    DmdCore ((X * res.decomp.proj)ᴴ * ws.matrix n * (X * res.decomp.proj))
      ((X * res.decomp.proj)ᴴ * ws.matrix n * (Y * res.decomp.proj)) res.decomp.d ∧
    (Function.Injective res.decomp.d.eigvals → res.decomp.d.Lᴴ * res.decomp.d.R = 1) ∧
    DmdOutcome (ws.matrix n) (X * res.decomp.proj) (Y * res.decomp.proj) modeIndices
      ⟨res.decomp.d, res.spectralCoeffs, res.exactModes, res.projModes, res.adjointModes, res.projCoeffs,
        res.advProjCoeffs⟩ := by
  obtain ⟨G, hG, hdata⟩ := directSqrtWeights_ok lib.cholesky ws hfit hchol so hso
  obtain ⟨⟨s, hs, hq, hV, hw⟩, hd⟩ := tlsDirectRest_ok lib eig svd modeIndices ws rtol maxNum so _ X Y res hres
  have h1 := dmdDirectPairs_ok lib eig modeIndices ws t rtol maxNum hfit hchol ht hr hlib _ _ _ hd
    (by rw [gram_proj]; exact heig)
  refine ⟨?_, h1⟩
  rw [hdata, hdata] at hs
  have h2 := direct_projection svd t rtol maxNum ht hr hlib' s hs
  rw [hG] at h2
  obtain ⟨⟨q, sumW, sumV, d⟩, _, _, _, _, _, _⟩ := res
  dsimp only at hq hV hw ⊢
  subst hq
  cases hV
  cases hw
  exact h2

/-- **C30, C31.** Modes and coefficients, including the spectral coefficients, of the direct method for sequential data
are those of dynamic mode decomposition of the projected data. -/
theorem C31_direct_sequential (ht : 0 ≤ t) (hr : ∀ t ∈ rtol, 0 ≤ t) (hfit : ws.Fits n)
    (hchol : ∀ p q w, ws = .d2 p q w → IsCholesky lib.cholesky (ws.matrix n)) (hlib : ∀ a, IsSvd a (lib.svd a))
    (hlib' : ∀ a, IsSvd a (svd a)) (Z : Matrix (Fin n) (Fin (m + 1)) 𝕜) (res : TlsResult 𝕜 n m)
    (hres : tlsDirectSeq lib eig svd Z modeIndices ws (some t) rtol maxNum = .ok res)
    (heig : EigOfProjected eig ((seqFirst Z)ᴴ * ws.matrix n * seqNext Z) res.decomp)
    (hinj : Function.Injective res.decomp.d.eigvals) (h0 : ∀ i, res.decomp.d.eigvals i ≠ 0) :
    TlsProjection ((seqFirst Z)ᴴ * ws.matrix n * seqFirst Z) ((seqNext Z)ᴴ * ws.matrix n * seqNext Z) res.decomp.sumW
      res.decomp.sumV ∧
    ∃ exact proj adjoint, Chosen exact modeIndices res.exactModes ∧ Chosen proj modeIndices res.projModes ∧
      Chosen adjoint modeIndices res.adjointModes ∧
      DmdModes (ws.matrix n) (seqFirst Z * res.decomp.proj) (seqNext Z * res.decomp.proj) res.decomp.d.w res.decomp.d.V
        res.decomp.d.eigvals exact proj adjoint ∧
      DmdCoeffs (ws.matrix n) (seqFirst Z * res.decomp.proj) (seqNext Z * res.decomp.proj) adjoint res.projCoeffs
        res.advProjCoeffs res.spectralCoeffs := by
  unfold tlsDirectSeq at hres
  split at hres
  · cases hres
  rename_i so hso
  obtain ⟨h1, h2, h3, h4⟩ := tlsDirectRest_core lib eig svd modeIndices ws t rtol maxNum so hfit hchol hso ht hr hlib hlib' _ _
    res hres heig
  exact ⟨h1, h4.modes h2 (directWeights_hermitian ws hfit) (h3 hinj) h0⟩

/-- **C30, C31.** The same for pairs of vectors. -/
theorem C31_direct_pairs (ht : 0 ≤ t) (hr : ∀ t ∈ rtol, 0 ≤ t) (hfit : ws.Fits n)
    (hchol : ∀ p q w, ws = .d2 p q w → IsCholesky lib.cholesky (ws.matrix n)) (hlib : ∀ a, IsSvd a (lib.svd a))
    (hlib' : ∀ a, IsSvd a (svd a)) (X Y : Matrix (Fin n) (Fin m) 𝕜) (res : TlsResult 𝕜 n m)
    (hres : tlsDirectPairs lib eig svd X ⟨n, m, Y⟩ modeIndices ws (some t) rtol maxNum = .ok res)
    (heig : EigOfProjected eig (Xᴴ * ws.matrix n * Y) res.decomp)
    (hinj : Function.Injective res.decomp.d.eigvals) (h0 : ∀ i, res.decomp.d.eigvals i ≠ 0) :
    TlsProjection (Xᴴ * ws.matrix n * X) (Yᴴ * ws.matrix n * Y) res.decomp.sumW res.decomp.sumV ∧
    ∃ exact proj adjoint, Chosen exact modeIndices res.exactModes ∧ Chosen proj modeIndices res.projModes ∧
      Chosen adjoint modeIndices res.adjointModes ∧
      DmdModes (ws.matrix n) (X * res.decomp.proj) (Y * res.decomp.proj) res.decomp.d.w res.decomp.d.V
        res.decomp.d.eigvals exact proj adjoint ∧
      DmdCoeffs (ws.matrix n) (X * res.decomp.proj) (Y * res.decomp.proj) adjoint res.projCoeffs res.advProjCoeffs
        res.spectralCoeffs := by
  unfold tlsDirectPairs at hres
  split at hres
  · cases hres
  rename_i so hso
  simp only [and_self, dite_true] at hres
  obtain ⟨h1, h2, h3, h4⟩ := tlsDirectRest_core lib eig svd modeIndices ws t rtol maxNum so hfit hchol hso ht hr hlib hlib' X Y
    res hres heig
  exact ⟨h1, h4.modes h2 (directWeights_hermitian ws hfit) (h3 hinj) h0⟩

/-- **C30.** Coefficients of the direct method, whether or not the eigenvalues are distinct: spectral coefficients are
the magnitudes of the first column of the projection coefficients. -/
theorem C30_direct (ht : 0 ≤ t) (hr : ∀ t ∈ rtol, 0 ≤ t) (hfit : ws.Fits n)
    (hchol : ∀ p q w, ws = .d2 p q w → IsCholesky lib.cholesky (ws.matrix n)) (hlib : ∀ a, IsSvd a (lib.svd a))
    (hlib' : ∀ a, IsSvd a (svd a)) (res : TlsResult 𝕜 n m)
    (hres : (∃ X Y : Matrix (Fin n) (Fin m) 𝕜, EigOfProjected eig (Xᴴ * ws.matrix n * Y) res.decomp ∧
        tlsDirectPairs lib eig svd X ⟨n, m, Y⟩ modeIndices ws (some t) rtol maxNum = .ok res) ∨
      ∃ Z : Matrix (Fin n) (Fin (m + 1)) 𝕜, EigOfProjected eig ((seqFirst Z)ᴴ * ws.matrix n * seqNext Z) res.decomp ∧
        tlsDirectSeq lib eig svd Z modeIndices ws (some t) rtol maxNum = .ok res) :
    res.spectralCoeffs.shape = (if res.decomp.d.r = 1 then [] else [res.decomp.d.r]) ∧
    ∀ (i : Fin res.decomp.d.r) (j : Fin m), j.val = 0 → res.spectralCoeffs.data i = ‖res.projCoeffs i j‖ := by
  have key : ∀ (so : Option (Matrix (Fin n) (Fin n) 𝕜)) (X Y : Matrix (Fin n) (Fin m) 𝕜),
      directSqrtWeights lib.cholesky ws = .ok so → EigOfProjected eig (Xᴴ * ws.matrix n * Y) res.decomp →
      tlsDirectRest lib eig svd so X Y modeIndices ws (some t) rtol maxNum = .ok res →
      res.spectralCoeffs.shape = (if res.decomp.d.r = 1 then [] else [res.decomp.d.r]) ∧
      ∀ (i : Fin res.decomp.d.r) (j : Fin m), j.val = 0 → res.spectralCoeffs.data i = ‖res.projCoeffs i j‖ := by
    intro so X Y hso heig hres
    obtain ⟨h1, h2, h3, h4⟩ := tlsDirectRest_core lib eig svd modeIndices ws t rtol maxNum so hfit hchol hso ht hr hlib hlib'
      X Y res hres heig
    obtain ⟨adjoint, -, hc⟩ := h4.coeffs h2
    refine ⟨hc.shape, fun i j hj => ?_⟩
    have := hc.spectral i j hj
    rw [← hc.proj] at this
    exact this
  rcases hres with ⟨X, Y, heig, hres⟩ | ⟨Z, heig, hres⟩
  · unfold tlsDirectPairs at hres
    split at hres
    · cases hres
    rename_i so hso
    simp only [and_self, dite_true] at hres
    exact key so X Y hso heig hres
  · unfold tlsDirectSeq at hres
    split at hres
    · cases hres
    rename_i so hso
    exact key so _ _ hso heig hres

end Direct

end Modred
