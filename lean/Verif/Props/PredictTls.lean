import Verif.Props.Predict
import Verif.Props.TlsqrLimits
import Verif.Props.TlsqrHandles

/-!
# C111: modes of total least squares of data of a linear system predict its future
-/

namespace Modred

open Matrix
open scoped ComplexOrder

variable {𝕜 : Type*} [RCLike 𝕜]

section Matrices

variable {n m : Nat} {W : Matrix (Fin n) (Fin n) 𝕜} {X Y : Matrix (Fin n) (Fin m) 𝕜}

/-- If data of a linear system lose no direction of the data, the projection changes neither data nor advanced data. -/
theorem proj_linear {q : Nat} {sumW : Fin q → ℝ} {sumV : Matrix (Fin m) (Fin q) 𝕜}
    (h : TlsProjection (Xᴴ * W * X) (Yᴴ * W * Y) sumW sumV) (hq : q = X.rank) (A : Matrix (Fin n) (Fin n) 𝕜) (hA : A * X = Y) :
    X * (sumV * sumVᴴ) = X ∧ Y * (sumV * sumVᴴ) = Y := by
  have hX : X * sumV * sumVᴴ = X := by
    refine span_of_rank (Z := (W * X + Aᴴ * W * Y) * (sumV * diagPow (𝕜 := 𝕜) sumW (-1))) h.orthonormal ?_ hq
    have e : Xᴴ * (W * X + Aᴴ * W * Y) = Xᴴ * W * X + Yᴴ * W * Y := by
      rw [Matrix.mul_add, ← hA, conjTranspose_mul]
      simp only [Matrix.mul_assoc]
    rw [← Matrix.mul_assoc, e, ← Matrix.mul_assoc, h.eigen, ← diagPow_one, Matrix.mul_assoc, diagPow_mul _ h.pos,
      show (1 : ℝ) + -1 = 0 by norm_num, diagPow_zero, Matrix.mul_one]
  rw [Matrix.mul_assoc] at hX
  refine ⟨hX, ?_⟩
  rw [← hA, Matrix.mul_assoc, hX]

/-- If no direction is dropped, projected modes and coefficients give the data. -/
theorem DmdModes.represents {r : Nat} {w : Fin r → ℝ} {V : Matrix (Fin m) (Fin r) 𝕜} {eigvals : Fin r → 𝕜}
    {exact proj adjoint : Matrix (Fin n) (Fin r) 𝕜} (h : DmdModes W X Y w V eigvals exact proj adjoint) (hr : r = X.rank) :
    proj * (adjointᴴ * W * X) = X := by
  set K := diagonal (fun i => (((w i)⁻¹ : ℝ) : 𝕜)) * Vᴴ * Xᴴ * W with hK
  have hG : truncatedPinv W X w V = V * K := by
    rw [truncatedPinv, hK]
    simp only [Matrix.mul_assoc]
  have h1 : X * V * (K * X) = X := by
    have := (h.pinv hr).outer
    rw [hG] at this
    simpa only [Matrix.mul_assoc] using this
  have h2 : proj = X * V * (K * exact) := by
    have := h.proj_of_exact
    rw [hG] at this
    rw [← this]
    simp only [Matrix.mul_assoc]
  have h3 : K * exact * (adjointᴴ * W * (X * V)) = 1 := by
    refine mul_eq_one_comm.mp ?_
    have := h.adjoint_proj
    rw [h2] at this
    simpa only [Matrix.mul_assoc] using this
  calc proj * (adjointᴴ * W * X) = X * V * (K * exact) * (adjointᴴ * W * (X * V * (K * X))) := by rw [h1, ← h2]
    _ = X * V * (K * exact * (adjointᴴ * W * (X * V))) * (K * X) := by simp only [Matrix.mul_assoc]
    _ = X := by rw [h3, Matrix.mul_one, h1]

/-- What total least squares gives for data of a linear system. -/
theorem tls_predicts {t : TlsDecomp 𝕜 m} {exact proj adjoint : Matrix (Fin n) (Fin t.d.r) 𝕜}
    (h : TlsProjection (Xᴴ * W * X) (Yᴴ * W * Y) t.sumW t.sumV)
    (hm : DmdModes W (X * t.proj) (Y * t.proj) t.d.w t.d.V t.d.eigvals exact proj adjoint)
    (h0 : ∀ i, t.d.eigvals i ≠ 0) (hq : t.q = X.rank) (hrank : t.d.r = X.rank) (A : Matrix (Fin n) (Fin n) 𝕜)
    (M : Matrix (Fin m) (Fin m) 𝕜) (hA : A * X = Y) (hM : Y = X * M) :
    X * t.proj = X ∧ Y * t.proj = Y ∧ exact = proj ∧
      ∀ k, A ^ k * X = exact * diagonal (fun i => t.d.eigvals i ^ k) * (adjointᴴ * W * X) := by
  obtain ⟨e1, e2⟩ := proj_linear h hq A hA
  change X * t.proj = X at e1
  change Y * t.proj = Y at e2
  rw [e1, e2] at hm
  obtain ⟨h1, h2⟩ := hm.predicts hrank h0 _ (hm.represents hrank) A M hA hM
  exact ⟨e1, e2, h1, h2⟩

end Matrices

section Snaps

variable {n m : Nat} (lib : PodLib 𝕜 n m) (eig : ∀ {r : Nat}, Matrix (Fin r) (Fin r) 𝕜 → EigOut 𝕜 r)
  (modeIndices : Option (List Int)) (weights : Option (NdArray 𝕜)) (ws : Weights 𝕜)
  (t : ℝ) (rtol : Option ℝ) (maxNum : Option Nat)

/-- **C111** for total least squares, the snapshot method and sequential data.  (Spectral coefficients are wrong for complex data:
see C30.) -/
theorem C111_tls_snaps_sequential (ht : 0 ≤ t) (hr : ∀ t ∈ rtol, 0 ≤ t) (hs : IsArgsort lib.argsort)
    (hws : arraysInit weights = .ok ws) (hfit : ws.Fits n) (hW : (ws.matrix n).IsHermitian)
    (hlib : ∀ C : Matrix (Fin m) (Fin m) 𝕜, C.IsHermitian → IsEigh C (lib.eigh C)) (Z : Matrix (Fin n) (Fin (m + 1)) 𝕜)
    (res : TlsResult 𝕜 n m) (c : TlsCorr 𝕜 m)
    (hres : tlsSnapsSeq lib eig Z modeIndices weights (some t) rtol maxNum = .ok (res, c))
    (heig : EigOfProjected eig ((seqFirst Z)ᴴ * ws.matrix n * seqNext Z) res.decomp)
    (hinj : Function.Injective res.decomp.d.eigvals) (h0 : ∀ i, res.decomp.d.eigvals i ≠ 0)
    (hq : res.decomp.q = (seqFirst Z).rank) (hrank : res.decomp.d.r = (seqFirst Z).rank) (A : Matrix (Fin n) (Fin n) 𝕜)
    (M : Matrix (Fin m) (Fin m) 𝕜) (hA : A * seqFirst Z = seqNext Z) (hM : seqNext Z = seqFirst Z * M) :
    ∃ modes, Chosen modes modeIndices res.exactModes ∧ Chosen modes modeIndices res.projModes ∧
      ∀ k, A ^ k * seqFirst Z = modes * diagonal (fun i => res.decomp.d.eigvals i ^ k) * res.projCoeffs := by
  obtain ⟨-, -, -, hp, exact, proj, adjoint, h1, h2, -, h4, h5, -⟩ := C31_snaps_sequential lib eig modeIndices weights ws rtol maxNum t ht hr
    hs hws hfit hW hlib Z res c hres heig hinj h0
  obtain ⟨e1, e2, e3, e4⟩ := tls_predicts hp h4 h0 hq hrank A M hA hM
  rw [h5, e1]
  exact ⟨exact, h1, e3 ▸ h2, e4⟩

/-- **C111** for total least squares, the snapshot method and pairs of vectors. -/
theorem C111_tls_snaps_pairs (ht : 0 ≤ t) (hr : ∀ t ∈ rtol, 0 ≤ t) (hs : IsArgsort lib.argsort)
    (hws : arraysInit weights = .ok ws) (hfit : ws.Fits n) (hW : (ws.matrix n).IsHermitian)
    (hlib : ∀ C : Matrix (Fin m) (Fin m) 𝕜, C.IsHermitian → IsEigh C (lib.eigh C)) (X Y : Matrix (Fin n) (Fin m) 𝕜)
    (res : TlsResult 𝕜 n m) (c : TlsCorr 𝕜 m)
    (hres : tlsSnapsPairs lib eig X ⟨n, m, Y⟩ modeIndices weights (some t) rtol maxNum = .ok (res, c))
    (heig : EigOfProjected eig (Xᴴ * ws.matrix n * Y) res.decomp)
    (hinj : Function.Injective res.decomp.d.eigvals) (h0 : ∀ i, res.decomp.d.eigvals i ≠ 0)
    (hq : res.decomp.q = X.rank) (hrank : res.decomp.d.r = X.rank) (A : Matrix (Fin n) (Fin n) 𝕜)
    (M : Matrix (Fin m) (Fin m) 𝕜) (hA : A * X = Y) (hM : Y = X * M) :
    ∃ modes, Chosen modes modeIndices res.exactModes ∧ Chosen modes modeIndices res.projModes ∧
      ∀ k, A ^ k * X = modes * diagonal (fun i => res.decomp.d.eigvals i ^ k) * res.projCoeffs := by
  obtain ⟨-, -, -, hp, exact, proj, adjoint, h1, h2, -, h4, h5, -⟩ := C31_snaps_pairs lib eig modeIndices weights ws rtol maxNum t ht hr
    hs hws hfit hW hlib X Y res c hres heig hinj h0
  obtain ⟨e1, e2, e3, e4⟩ := tls_predicts hp h4 h0 hq hrank A M hA hM
  rw [h5, e1]
  exact ⟨exact, h1, e3 ▸ h2, e4⟩

end Snaps

section Direct

variable {n m : Nat} (lib : PodLib 𝕜 n m) (eig : ∀ {r : Nat}, Matrix (Fin r) (Fin r) 𝕜 → EigOut 𝕜 r)
  (svd : Matrix (Fin (n + n)) (Fin m) 𝕜 → SvdOut 𝕜 (n + n) m) (modeIndices : Option (List Int)) (ws : DirectWeights 𝕜) (t : ℝ)
  (rtol : Option ℝ) (maxNum : Option Nat)

/-- **C111** for total least squares, the direct method and sequential data. -/
theorem C111_tls_direct_sequential (ht : 0 ≤ t) (hr : ∀ t ∈ rtol, 0 ≤ t) (hfit : ws.Fits n)
    (hchol : ∀ p q w, ws = .d2 p q w → IsCholesky lib.cholesky (ws.matrix n)) (hlib : ∀ a, IsSvd a (lib.svd a))
    (hlib' : ∀ a, IsSvd a (svd a)) (Z : Matrix (Fin n) (Fin (m + 1)) 𝕜) (res : TlsResult 𝕜 n m)
    (hres : tlsDirectSeq lib eig svd Z modeIndices ws (some t) rtol maxNum = .ok res)
    (heig : EigOfProjected eig ((seqFirst Z)ᴴ * ws.matrix n * seqNext Z) res.decomp)
    (hinj : Function.Injective res.decomp.d.eigvals) (h0 : ∀ i, res.decomp.d.eigvals i ≠ 0)
    (hq : res.decomp.q = (seqFirst Z).rank) (hrank : res.decomp.d.r = (seqFirst Z).rank) (A : Matrix (Fin n) (Fin n) 𝕜)
    (M : Matrix (Fin m) (Fin m) 𝕜) (hA : A * seqFirst Z = seqNext Z) (hM : seqNext Z = seqFirst Z * M) :
    ∃ modes, Chosen modes modeIndices res.exactModes ∧ Chosen modes modeIndices res.projModes ∧
      Predicts A (seqFirst Z) res.decomp.d.eigvals modes res.projCoeffs res.spectralCoeffs := by
  obtain ⟨hp, exact, proj, adjoint, h1, h2, -, h4, h5⟩ := C31_direct_sequential lib eig svd modeIndices ws t rtol maxNum ht hr hfit hchol
    hlib hlib' Z res hres heig hinj h0
  obtain ⟨e1, e2, e3, e4⟩ := tls_predicts hp h4 h0 hq hrank A M hA hM
  rw [e1, e2] at h5
  refine ⟨exact, h1, e3 ▸ h2, ?_, fun i j hj => ?_⟩
  · rw [h5.proj]
    exact e4
  · rw [h5.spectral i j hj, h5.proj]

/-- **C111** for total least squares, the direct method and pairs of vectors. -/
theorem C111_tls_direct_pairs (ht : 0 ≤ t) (hr : ∀ t ∈ rtol, 0 ≤ t) (hfit : ws.Fits n)
    (hchol : ∀ p q w, ws = .d2 p q w → IsCholesky lib.cholesky (ws.matrix n)) (hlib : ∀ a, IsSvd a (lib.svd a))
    (hlib' : ∀ a, IsSvd a (svd a)) (X Y : Matrix (Fin n) (Fin m) 𝕜) (res : TlsResult 𝕜 n m)
    (hres : tlsDirectPairs lib eig svd X ⟨n, m, Y⟩ modeIndices ws (some t) rtol maxNum = .ok res)
    (heig : EigOfProjected eig (Xᴴ * ws.matrix n * Y) res.decomp)
    (hinj : Function.Injective res.decomp.d.eigvals) (h0 : ∀ i, res.decomp.d.eigvals i ≠ 0)
    (hq : res.decomp.q = X.rank) (hrank : res.decomp.d.r = X.rank) (A : Matrix (Fin n) (Fin n) 𝕜)
    (M : Matrix (Fin m) (Fin m) 𝕜) (hA : A * X = Y) (hM : Y = X * M) :
    ∃ modes, Chosen modes modeIndices res.exactModes ∧ Chosen modes modeIndices res.projModes ∧
      Predicts A X res.decomp.d.eigvals modes res.projCoeffs res.spectralCoeffs := by
  obtain ⟨hp, exact, proj, adjoint, h1, h2, -, h4, h5⟩ := C31_direct_pairs lib eig svd modeIndices ws t rtol maxNum ht hr hfit hchol
    hlib hlib' X Y res hres heig hinj h0
  obtain ⟨e1, e2, e3, e4⟩ := tls_predicts hp h4 h0 hq hrank A M hA hM
  rw [e1, e2] at h5
  refine ⟨exact, h1, e3 ▸ h2, ?_, fun i j hj => ?_⟩
  · rw [h5.proj]
    exact e4
  · rw [h5.spectral i j hj, h5.proj]

end Direct

section Vectors

variable {E : Type*} [AddCommGroup E] [Module 𝕜 E] (ip : E →ₗ⋆[𝕜] E →ₗ[𝕜] 𝕜) {m : Nat} {X Y : Fin m → E}

/-- Linear combinations whose inner products with the vectors are zero are zero. -/
theorem combine_zero_of_gram (hdef : ∀ v, ip v v = 0 → v = 0) {k : Nat} (N : Matrix (Fin m) (Fin k) 𝕜) (h : gram ip X X * N = 0) :
    combine X N = 0 := by
  funext j
  refine hdef _ ?_
  have h1 := congrFun (congrFun (gram_combine ip X X N N) j) j
  rw [Matrix.mul_assoc, h, Matrix.mul_zero] at h1
  exact h1

/-- If vectors of a linear system lose no direction, the projection changes neither vectors nor advanced vectors. -/
theorem proj_linear_vecs (hsym : ∀ x y, ip y x = star (ip x y)) (hnn : ∀ x, 0 ≤ RCLike.re (ip x x)) (hdef : ∀ v, ip v v = 0 → v = 0)
    {q : Nat} {sumW : Fin q → ℝ} {sumV : Matrix (Fin m) (Fin q) 𝕜} (h : TlsProjection (gram ip X X) (gram ip Y Y) sumW sumV)
    (hq : q = (gram ip X X).rank) (A : E →ₗ[𝕜] E) (hA : ∀ j, A (X j) = Y j) :
    combine X (sumV * sumVᴴ) = X ∧ combine Y (sumV * sumVᴴ) = Y := by
  set S := gram ip X X + gram ip Y Y with hS
  have hSh : Sᴴ = S := by
    rw [hS, conjTranspose_add, gram_herm ip hsym X, gram_herm ip hsym Y]
  have hAc : ∀ (k : Nat) (N : Matrix (Fin m) (Fin k) 𝕜) j, combine Y N j = A (combine X N j) := by
    intro k N j
    unfold combine
    rw [map_sum]
    refine Finset.sum_congr rfl fun i _ => ?_
    rw [map_smul, hA]
  have hker : LinearMap.ker (gram ip X X).mulVecLin ≤ LinearMap.ker S.mulVecLin := by
    intro v hv
    have h1 : gram ip X X * Matrix.of (fun i (_ : Fin 1) => v i) = 0 := by
      ext i j
      exact congrFun (LinearMap.mem_ker.mp hv) i
    have h2 := combine_zero_of_gram ip hdef _ h1
    have h3 : combine Y (Matrix.of (fun i (_ : Fin 1) => v i)) = 0 := by
      funext j
      rw [hAc, h2]
      exact map_zero A
    have h4 := gram_combine_right ip Y Y (Matrix.of (fun i (_ : Fin 1) => v i))
    rw [h3] at h4
    rw [LinearMap.mem_ker, mulVecLin_apply, hS, Matrix.add_mulVec]
    funext i
    have h5 := congrFun (congrFun h4 i) 0
    have h6 : (gram ip X X *ᵥ v) i = 0 := congrFun (LinearMap.mem_ker.mp hv) i
    have h7 : (gram ip Y Y *ᵥ v) i = 0 := by
      refine h5.symm.trans ?_
      simp [gram]
    rw [Pi.add_apply, h6, h7]
    simp
  have hVS : sumV = S * (sumV * diagPow (𝕜 := 𝕜) sumW (-1)) := by
    rw [← Matrix.mul_assoc, h.eigen, ← diagPow_one, Matrix.mul_assoc, diagPow_mul _ h.pos,
      show (1 : ℝ) + -1 = 0 by norm_num, diagPow_zero, Matrix.mul_one]
  have hrank : q = S.rank := by
    refine le_antisymm ?_ ?_
    · have h1 : (1 : Matrix (Fin q) (Fin q) 𝕜).rank ≤ sumV.rank := by
        rw [← h.orthonormal]
        exact Matrix.rank_mul_le_right _ _
      rw [rank_one, Fintype.card_fin] at h1
      refine h1.trans ?_
      conv_lhs => rw [hVS]
      exact Matrix.rank_mul_le_left _ _
    · rw [hq]
      have h1 := LinearMap.finrank_range_add_finrank_ker (gram ip X X).mulVecLin
      have h2 := LinearMap.finrank_range_add_finrank_ker S.mulVecLin
      have h3 := Submodule.finrank_mono hker
      unfold Matrix.rank
      omega
  have hSV := span_of_rank h.orthonormal (by rw [hSh]; exact hVS) hrank
  have hN : S * (1 - sumV * sumVᴴ) = 0 := by
    rw [Matrix.mul_sub, Matrix.mul_one, ← Matrix.mul_assoc, hSV, sub_self]
  have hz : ∀ j, combine X (1 - sumV * sumVᴴ) j = 0 := by
    intro j
    have h1 := congrFun (congrFun (gram_combine ip X X (1 - sumV * sumVᴴ) (1 - sumV * sumVᴴ)) j) j
    have h2 := congrFun (congrFun (gram_combine ip Y Y (1 - sumV * sumVᴴ) (1 - sumV * sumVᴴ)) j) j
    have h3 : ip (combine X (1 - sumV * sumVᴴ) j) (combine X (1 - sumV * sumVᴴ) j) +
        ip (combine Y (1 - sumV * sumVᴴ) j) (combine Y (1 - sumV * sumVᴴ) j) = 0 := by
      refine (congrArg₂ (· + ·) h1 h2).trans ?_
      rw [← Matrix.add_apply, ← Matrix.add_mul, ← Matrix.mul_add, ← hS, Matrix.mul_assoc, hN, Matrix.mul_zero]
      rfl
    have h4 := congrArg RCLike.re h3
    rw [map_add, map_zero] at h4
    have h5 := hnn (combine X (1 - sumV * sumVᴴ) j)
    have h6 := hnn (combine Y (1 - sumV * sumVᴴ) j)
    refine hdef _ ?_
    have h7 : RCLike.re (ip (combine X (1 - sumV * sumVᴴ) j) (combine X (1 - sumV * sumVᴴ) j)) = 0 := by linarith
    have h8 := RCLike.conj_eq_iff_re.mp (hsym (combine X (1 - sumV * sumVᴴ) j) (combine X (1 - sumV * sumVᴴ) j)).symm
    rw [← h8, h7]
    simp
  refine ⟨funext fun j => ?_, funext fun j => ?_⟩
  · have h1 := hz j
    rw [combine_sub, combine_one] at h1
    exact (sub_eq_zero.mp h1).symm
  · have h1 := hAc _ (1 - sumV * sumVᴴ) j
    rw [hz, map_zero, combine_sub, combine_one] at h1
    exact (sub_eq_zero.mp h1).symm

/-- If no direction is dropped, projected modes and coefficients give the vectors. -/
theorem DmdHandleModes.represents {r : Nat} {w : Fin r → ℝ} {V : Matrix (Fin m) (Fin r) 𝕜} {eigvals : Fin r → 𝕜}
    {exact proj adjoint : Fin r → E} (h : DmdHandleModes ip X Y w V eigvals exact proj adjoint) (hsym : ∀ x y, ip y x = star (ip x y))
    (hr : r = (gram ip X X).rank) (hdef : ∀ v, ip v v = 0 → v = 0) (j : Fin m) : ∑ i, ip (adjoint i) (X j) • proj i = X j := by
  have hG := gram_herm ip hsym X
  have hV : V = (gram ip X X)ᴴ * (V * diagPow (𝕜 := 𝕜) w (-1)) := by
    rw [hG.eq, ← Matrix.mul_assoc, h.eigen, ← diagPow_one, Matrix.mul_assoc, diagPow_mul _ h.pos,
      show (1 : ℝ) + -1 = 0 by norm_num, diagPow_zero, Matrix.mul_one]
  have h1 := span_of_rank h.orthonormal hV hr
  have hX : combine (combine X V) Vᴴ = X := by
    have h2 := combine_zero_of_gram ip hdef (1 - V * Vᴴ) (by
      rw [Matrix.mul_sub, Matrix.mul_one, ← Matrix.mul_assoc, h1, sub_self])
    funext j
    have h3 := congrFun h2 j
    rw [combine_sub, combine_one] at h3
    rw [combine_combine]
    exact (sub_eq_zero.mp h3).symm
  set D : Matrix (Fin r) (Fin r) 𝕜 := diagonal (fun i => (((w i)⁻¹ : ℝ) : 𝕜)) * Vᴴ * gram ip X exact with hD
  have hproj : proj = combine (combine X V) D := by
    funext j
    rw [← h.proj_of_exact j, combine_combine, dmdMap, combine]
    refine Finset.sum_congr rfl fun i _ => ?_
    congr 1
    rw [hD, ← Matrix.mul_assoc, ← Matrix.mul_assoc, Matrix.mul_apply]
    rfl
  have hT : gram ip adjoint proj = 1 := by
    ext i j
    rw [Matrix.one_apply]
    exact h.adjoint_proj i j
  rw [hproj, gram_combine_right] at hT
  have hT' := mul_eq_one_comm.mp hT
  have hc : gram ip adjoint X = gram ip adjoint (combine X V) * Vᴴ := by
    rw [← gram_combine_right, hX]
  have h4 : combine proj (gram ip adjoint X) = X := by
    rw [hproj, combine_combine, hc, ← Matrix.mul_assoc, hT', Matrix.one_mul, hX]
  exact congrFun h4 j

variable (lib : DmdLib 𝕜) (g g' : TlsHandles 𝕜 E) (t : ℝ) (rtol : Option ℝ) (maxNum : Option Nat)

/-- **C111** for `TLSqrDMDHandles` and sequential data. -/
theorem C111_tls_handles_sequential (ht : 0 ≤ t) (hlib : lib.Lawful) (hsym : ∀ x y, ip y x = star (ip x y))
    (hnn : ∀ x, 0 ≤ RCLike.re (ip x x)) (hdef : ∀ v, ip v v = 0 → v = 0) (vecs : List E)
    (hrun : g.computeDecomp lib (fun x y => ip x y) vecs none (some t) rtol maxNum = (.ok (), g'))
    (d : TlsDecomp 𝕜 (vecs.length - 1)) (hd : g'.decomp = some ⟨vecs.length - 1, d⟩)
    (heig : EigOfProjected lib.eig (gram ip (seqVecs vecs) (seqAdvVecs vecs)) d)
    (hinj : Function.Injective d.d.eigvals) (h0 : ∀ i, d.d.eigvals i ≠ 0)
    (hq : d.q = (gram ip (seqVecs vecs) (seqVecs vecs)).rank) (hrank : d.d.r = (gram ip (seqVecs vecs) (seqVecs vecs)).rank)
    (A : E →ₗ[𝕜] E) (hA : ∀ j, A (seqVecs vecs j) = seqAdvVecs vecs j)
    (hY : ∀ j, seqAdvVecs vecs j ∈ Submodule.span 𝕜 (Set.range (seqVecs vecs))) :
    ∃ modes : Fin d.d.r → E,
      (∀ l num a out g'', (a = none ∧ g.adv = none ∨ a = some vecs.tail) →
        g'.computeExactModes l num a = (.ok out, g'') → ChosenVecs modes l out) ∧
      (∀ l num a out g'', (a = none ∨ a = some vecs) →
        g'.computeProjModes l num a = (.ok out, g'') → ChosenVecs modes l out) ∧
      ∃ c c', g'.computeProjCoeffs = .ok (⟨d.d.r, vecs.length - 1, c⟩, ⟨d.d.r, vecs.length - 1, c'⟩) ∧
        ∀ k j, (A ^ k) (seqVecs vecs j) = ∑ i, (d.d.eigvals i ^ k * c i j) • modes i := by
  obtain ⟨hp, exact, proj, adjoint, hm, h1, h2, -, -, c, c', h3, h4⟩ := C31_handles_sequential lib ip g g' t rtol maxNum ht hlib hsym vecs hrun d
    hd heig hinj h0
  obtain ⟨e1, e2⟩ := proj_linear_vecs ip hsym hnn hdef hp hq A hA
  change combine (seqVecs vecs) d.proj = _ at e1
  change combine (seqAdvVecs vecs) d.proj = _ at e2
  rw [e1, e2] at hm h4
  have hco : c = gram ip adjoint (seqVecs vecs) := by
    ext i j
    exact h4.proj i j
  obtain ⟨h5, h6⟩ := hm.predicts hrank hdef h0 (gram ip adjoint (seqVecs vecs)) (hm.represents ip hsym hrank hdef) A hA hY
  rw [← h5] at h2
  subst hco
  exact ⟨exact, h1, h2, _, c', h3, h6⟩

/-- **C111** for `TLSqrDMDHandles` and pairs of vectors. -/
theorem C111_tls_handles_pairs (ht : 0 ≤ t) (hlib : lib.Lawful) (hsym : ∀ x y, ip y x = star (ip x y))
    (hnn : ∀ x, 0 ≤ RCLike.re (ip x x)) (hdef : ∀ v, ip v v = 0 → v = 0) (vecs adv : List E)
    (hrun : g.computeDecomp lib (fun x y => ip x y) vecs (some adv) (some t) rtol maxNum = (.ok (), g'))
    (d : TlsDecomp 𝕜 vecs.length) (hd : g'.decomp = some ⟨vecs.length, d⟩) (hlen : vecs.length = adv.length)
    (heig : EigOfProjected lib.eig (gram ip vecs.get (fun j => adv.get (Fin.cast hlen j))) d)
    (hinj : Function.Injective d.d.eigvals) (h0 : ∀ i, d.d.eigvals i ≠ 0)
    (hq : d.q = (gram ip vecs.get vecs.get).rank) (hrank : d.d.r = (gram ip vecs.get vecs.get).rank)
    (A : E →ₗ[𝕜] E) (hA : ∀ j, A (vecs.get j) = adv.get (Fin.cast hlen j))
    (hY : ∀ j, adv.get (Fin.cast hlen j) ∈ Submodule.span 𝕜 (Set.range vecs.get)) :
    ∃ modes : Fin d.d.r → E,
      (∀ l num a out g'', (a = none ∨ a = some adv) →
        g'.computeExactModes l num a = (.ok out, g'') → ChosenVecs modes l out) ∧
      (∀ l num a out g'', (a = none ∨ a = some vecs) →
        g'.computeProjModes l num a = (.ok out, g'') → ChosenVecs modes l out) ∧
      ∃ c c', g'.computeProjCoeffs = .ok (⟨d.d.r, vecs.length, c⟩, ⟨d.d.r, vecs.length, c'⟩) ∧
        ∀ k j, (A ^ k) (vecs.get j) = ∑ i, (d.d.eigvals i ^ k * c i j) • modes i := by
  obtain ⟨hp, exact, proj, adjoint, hm, h1, h2, -, -, c, c', h3, h4⟩ := C31_handles_pairs lib ip g g' t rtol maxNum ht hlib hsym vecs adv hrun d
    hd hlen heig hinj h0
  obtain ⟨e1, e2⟩ := proj_linear_vecs ip hsym hnn hdef hp hq A hA
  change combine vecs.get d.proj = _ at e1
  change combine (fun j => adv.get (Fin.cast hlen j)) d.proj = _ at e2
  rw [e1, e2] at hm h4
  have hco : c = gram ip adjoint vecs.get := by
    ext i j
    exact h4.proj i j
  obtain ⟨h5, h6⟩ := hm.predicts hrank hdef h0 (gram ip adjoint vecs.get) (hm.represents ip hsym hrank hdef) A hA hY
  rw [← h5] at h2
  subst hco
  exact ⟨exact, h1, h2, _, c', h3, h6⟩

end Vectors

/-- The sequence of the example, in which each vector is `[[0, -2], [1, 3]]` times the one before. -/
example : ∃ (lib : PodLib ℝ 2 2) (res : TlsResult ℝ 2 2) (c : TlsCorr ℝ 2),
    tlsSnapsSeq lib exampleSeqEig exampleSeq none none (some (1 / 10)) none none = .ok (res, c) ∧
    ∃ modes : Matrix (Fin 2) (Fin res.decomp.d.r) ℝ, Chosen modes none res.exactModes ∧
      ∀ k, (!![0, -2; 1, 3] : Matrix (Fin 2) (Fin 2) ℝ) ^ k * seqFirst exampleSeq =
        modes * diagonal (fun i => res.decomp.d.eigvals i ^ k) * res.projCoeffs := by
  obtain ⟨lib, res, c, heigh, hs, hres, hq, hproj, hd, heig⟩ := exampleSeq_tls
  obtain ⟨modes, h1, -, h2⟩ := C111_tls_snaps_sequential lib exampleSeqEig none none .none (1 / 10) none none
    (by norm_num) (by simp) hs rfl trivial (by simp [Weights.matrix, Matrix.IsHermitian]) heigh exampleSeq res c hres heig
    (by rw [hd]; exact exampleSeqDecomp_distinct.1) (by rw [hd]; exact exampleSeqDecomp_distinct.2)
    (by rw [exampleSeq_first, rank_one, hq]; rfl) (by rw [exampleSeq_first, rank_one, hd]; rfl)
    !![0, -2; 1, 3] !![0, -2; 1, 3] (by rw [exampleSeq_first, exampleSeq_next, Matrix.mul_one])
    (by rw [exampleSeq_first, exampleSeq_next, Matrix.one_mul])
  exact ⟨lib, res, c, hres, modes, h1, h2⟩

/-- The same with handles. -/
example : ∃ (lib : DmdLib ℝ) (g' : TlsHandles ℝ (Fin 2 → ℝ)) (d : TlsDecomp ℝ 2) (modes : Fin d.d.r → Fin 2 → ℝ)
    (c c' : Matrix (Fin d.d.r) (Fin 2) ℝ),
    TlsHandles.new.computeDecomp lib (fun x y => dotIp x y) exampleVecs none (some (1 / 10)) none none = (.ok (), g') ∧
    g'.decomp = some ⟨2, d⟩ ∧ g'.computeProjCoeffs = .ok (⟨d.d.r, 2, c⟩, ⟨d.d.r, 2, c'⟩) ∧
    (∀ l num out g'', g'.computeExactModes l num none = (.ok out, g'') → ChosenVecs modes l out) ∧
    ∀ k j, ((!![0, -2; 1, 3] : Matrix (Fin 2) (Fin 2) ℝ).mulVecLin ^ k) (seqVecs exampleVecs j) =
      ∑ i, (d.d.eigvals i ^ k * c i j) • modes i := by
  obtain ⟨lib, hlaw, heig, hu⟩ := exists_exampleDmdLib
  obtain ⟨g', d, hrun, hd, hproj, hdd, hE⟩ := exampleVecs_tls_decomp lib hlaw heig hu TlsHandles.new
  have hinj : Function.Injective d.d.eigvals := by rw [hdd]; exact exampleSeqDecomp_distinct.1
  have h0 : ∀ i, d.d.eigvals i ≠ 0 := by rw [hdd]; exact exampleSeqDecomp_distinct.2
  have hp := (C31_handles_sequential lib dotIp TlsHandles.new g' (1 / 10) none none (by norm_num) hlaw dotIp_symm exampleVecs
    hrun d hd hE hinj h0).1
  have hq : d.q = 2 := by
    have h1 := congrArg Matrix.trace hp.orthonormal
    have h2 : (d.sumV * d.sumVᴴ).trace = (1 : Matrix (Fin 2) (Fin 2) ℝ).trace := congrArg Matrix.trace hproj
    rw [Matrix.trace_mul_comm] at h1
    have h3 := h2.symm.trans h1
    rw [Matrix.trace_one, Matrix.trace_one, Fintype.card_fin, Fintype.card_fin] at h3
    exact_mod_cast h3.symm
  have hrk : (gram dotIp (seqVecs exampleVecs) (seqVecs exampleVecs)).rank = 2 := by
    rw [exampleVecs_corr]
    exact Matrix.rank_one (n := Fin 2) (R := ℝ)
  obtain ⟨modes, hex, -, c, c', hc, hb⟩ := C111_tls_handles_sequential dotIp lib TlsHandles.new g' (1 / 10) none none
    (by norm_num) hlaw dotIp_symm
    (fun x => by rw [dotIp_apply]; exact add_nonneg (mul_self_nonneg (x 0)) (mul_self_nonneg (x 1)))
    (by
      intro v hv
      rw [dotIp_apply] at hv
      ext i
      fin_cases i
      · simp; nlinarith [mul_self_nonneg (v 0), mul_self_nonneg (v 1)]
      · simp; nlinarith [mul_self_nonneg (v 0), mul_self_nonneg (v 1)])
    exampleVecs hrun d hd hE hinj h0 (by rw [hrk, hq]) (by rw [hrk, hdd]; rfl)
    (!![0, -2; 1, 3] : Matrix (Fin 2) (Fin 2) ℝ).mulVecLin
    (by
      intro j
      fin_cases j <;> ext i <;> fin_cases i <;>
        simp [seqVecs, seqAdvVecs, exampleVecs, Matrix.mulVec, dotProduct, Fin.sum_univ_two])
    (by
      intro j
      rw [Submodule.mem_span_range_iff_exists_fun]
      refine ⟨seqAdvVecs exampleVecs j, ?_⟩
      have : ∀ c : Fin 2 → ℝ, ∑ i : Fin 2, c i • seqVecs exampleVecs i = c := by
        intro c
        ext i
        fin_cases i <;> simp [seqVecs, exampleVecs, Fin.sum_univ_two]
      exact this _)
  exact ⟨lib, g', d, modes, c, c', hrun, hd, hc, fun l num out g'' h => hex l num none out g'' (Or.inl ⟨rfl, rfl⟩) h, hb⟩

end Modred
