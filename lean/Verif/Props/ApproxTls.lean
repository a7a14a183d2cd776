import Verif.Props.ApproxDmd
import Verif.Props.TlsqrHandles

/-!
# Total-least-squares dynamic mode decomposition with errors (C91)
-/

namespace Modred

open Matrix
open scoped ComplexOrder

variable {𝕜 : Type*} [RCLike 𝕜]

theorem TlsDecomp.builds {m : Nat} (t : TlsDecomp 𝕜 m) : t.buildAdjoint = t.proj * t.d.buildAdjoint ∧
    t.buildProj = t.proj * t.d.buildProj ∧ t.buildExact = t.proj * t.d.buildExact := by
  refine ⟨?_, ?_, ?_⟩
  · unfold TlsDecomp.buildAdjoint DmdDecomp.buildAdjoint TlsDecomp.proj
    simp only [Matrix.mul_assoc]
  · unfold TlsDecomp.buildProj DmdDecomp.buildProj TlsDecomp.proj
    simp only [Matrix.mul_assoc]
  · unfold TlsDecomp.buildExact DmdDecomp.buildExact TlsDecomp.proj
    simp only [Matrix.mul_assoc]

/-- `scipy.linalg.eig` returned eigenvalues and eigenvectors of the reduced map up to `ε`, and inner products of left and
right eigenvectors for the same eigenvalue are at least `c`. -/
def EigOfProjectedWithin {m : Nat} (ε c : ℝ) (eig : ∀ {r : Nat}, Matrix (Fin r) (Fin r) 𝕜 → EigOut 𝕜 r)
    (K : Matrix (Fin m) (Fin m) 𝕜) (t : TlsDecomp 𝕜 m) : Prop :=
  EigWithin ε c (lowOrderMap (diagPow (𝕜 := 𝕜) t.d.w (-0.5)) t.d.V (t.proj * K * t.proj))
    (eig (lowOrderMap (diagPow (𝕜 := 𝕜) t.d.w (-0.5)) t.d.V (t.proj * K * t.proj)))

/-- The first eigendecomposition may have any error. -/
theorem tlsEigendecomp_within {m : Nat} {ε η ε' c : ℝ} (eigh : Matrix (Fin m) (Fin m) 𝕜 → EighOut 𝕜 m)
    (argsort : (Fin m → ℝ) → Equiv.Perm (Fin m)) (eig : ∀ {r : Nat}, Matrix (Fin r) (Fin r) 𝕜 → EigOut 𝕜 r)
    (C C' K : Matrix (Fin m) (Fin m) 𝕜) (a : ℝ) (sumRtol projRtol : Option ℝ) (maxNum : Option Nat) (t : TlsDecomp 𝕜 m)
    (ht : tlsEigendecomp eigh argsort eig C C' K (some a) sumRtol projRtol maxNum = .ok t) (ha : 0 ≤ a)
    (hr' : ∀ t ∈ projRtol, 0 ≤ t) (hs : IsArgsort argsort) (hC : C.IsHermitian)
    (hlib : IsEighUpTo ε η (t.proj * C * t.proj) (eigh (t.proj * C * t.proj))) (hc : 0 < c)
    (heig : EigOfProjectedWithin ε' c eig K t) :
    DmdApprox ε ε' c (t.proj * C * t.proj) (t.proj * K * t.proj) t.d := by
  obtain ⟨-, ⟨p, hp1, hp2⟩, hlr⟩ := tlsEigendecomp_ok _ _ _ _ _ _ _ _ _ _ _ ht
  have hP : (t.proj * C * t.proj)ᴴ = t.proj * C * t.proj := by
    rw [conjTranspose_mul, conjTranspose_mul, t.proj_herm, hC.eq, Matrix.mul_assoc]
  obtain ⟨-, h1, h2⟩ := utilEigh_within _ _ _ _ _ _ hlib p hp1
  obtain ⟨h1, h2, h3⟩ := truncate_within p maxNum h1 h2 (C20_positive_partial _ _ _ _ a ha hs hr' p hp1)
  rw [← hp2] at h1 h2 h3
  obtain ⟨h4, h5, h6⟩ := eig_within _ _ hc heig _ _ _ hlr
  exact ⟨hP, h3, h1, h2, h4, h5, h6⟩

/-! ### Arrays -/

section Arrays

variable {n m : Nat} {ε η ε' c : ℝ} (lib : PodLib 𝕜 n m) (eig : ∀ {r : Nat}, Matrix (Fin r) (Fin r) 𝕜 → EigOut 𝕜 r)
  (modeIndices : Option (List Int)) (weights : Option (NdArray 𝕜)) (ws : Weights 𝕜) (ws' : DirectWeights 𝕜) (a : ℝ)
  (rtol : Option ℝ) (maxNum : Option Nat)

theorem TlsOutcome.within {W : Matrix (Fin n) (Fin n) 𝕜} {X Y : Matrix (Fin n) (Fin m) 𝕜} {modeIndices : Option (List Int)}
    {res : TlsResult 𝕜 n m} (ho : TlsOutcome (Xᴴ * W * Y) X Y modeIndices res)
    (h : DmdApprox ε ε' c (res.decomp.proj * (Xᴴ * W * X) * res.decomp.proj)
      (res.decomp.proj * (Xᴴ * W * Y) * res.decomp.proj) res.decomp.d)
    (hinj : Function.Injective res.decomp.d.eigvals) (h0 : ∀ i, res.decomp.d.eigvals i ≠ 0) :
    ∃ exact proj adjoint, Chosen exact modeIndices res.exactModes ∧ Chosen proj modeIndices res.projModes ∧
      Chosen adjoint modeIndices res.adjointModes ∧
      DmdModesWithin ε ε' c res.decomp.d.w res.decomp.d.eigvals res.decomp.d.R res.decomp.d.L (adjointᴴ * W * proj)
        (adjointᴴ * W * exact) ∧
      DmdCoeffsWithin ε res.decomp.d.w res.decomp.d.L res.projCoeffs res.advProjCoeffs
        (adjointᴴ * W * (X * res.decomp.proj)) (adjointᴴ * W * (Y * res.decomp.proj)) := by
  obtain ⟨e1, e2, e3⟩ := res.decomp.builds
  have e : ∀ {p q : Nat} (A : Matrix (Fin m) (Fin p) 𝕜) (Z : Matrix (Fin n) (Fin m) 𝕜) (B : Matrix (Fin m) (Fin q) 𝕜),
      (X * (res.decomp.proj * A))ᴴ * W * (Z * (res.decomp.proj * B)) =
        Aᴴ * (res.decomp.proj * (Xᴴ * W * Z) * res.decomp.proj) * B := by
    intro p q A Z B
    rw [conjTranspose_mul, conjTranspose_mul, res.decomp.proj_herm]
    simp only [Matrix.mul_assoc]
  have e' : ∀ {p : Nat} (A : Matrix (Fin m) (Fin p) 𝕜) (Z : Matrix (Fin n) (Fin m) 𝕜),
      (X * (res.decomp.proj * A))ᴴ * W * (Z * res.decomp.proj) =
        Aᴴ * (res.decomp.proj * (Xᴴ * W * Z) * res.decomp.proj) := by
    intro p A Z
    rw [conjTranspose_mul, conjTranspose_mul, res.decomp.proj_herm]
    simp only [Matrix.mul_assoc]
  refine ⟨_, _, _, ho.exact, ho.proj, ho.adjoint, ?_, ⟨fun i j => ?_, ?_⟩⟩
  · rw [e1, e2, e3, e, e]
    exact h.modes hinj h0
  · rw [e1, e', ho.projCoeffs]
    exact h.coeffs i j
  · rw [e1, e', ho.advProjCoeffs]
    exact (adjoint_cross _ _).symm

/-- **C91.** Total-least-squares DMD, snapshot method, sequential data: the bounds are those of DMD of the projected data,
in terms of the error of the eigendecomposition of the projected correlation array; the error of that of the sum of the
correlation arrays does not matter. -/
theorem C91_tls_snaps_sequential (ha : 0 ≤ a) (hs : IsArgsort lib.argsort)
    (hws : arraysInit weights = .ok ws) (hfit : ws.Fits n) (hW : (ws.matrix n).IsHermitian)
    (Z : Matrix (Fin n) (Fin (m + 1)) 𝕜) (res : TlsResult 𝕜 n m) (corr : TlsCorr 𝕜 m)
    (hres : tlsSnapsSeq lib eig Z modeIndices weights (some a) rtol maxNum = .ok (res, corr))
    (hlib : IsEighUpTo ε η (res.decomp.proj * corr.corr * res.decomp.proj)
      (lib.eigh (res.decomp.proj * corr.corr * res.decomp.proj))) (hc : 0 < c)
    (heig : EigOfProjectedWithin ε' c eig ((seqFirst Z)ᴴ * ws.matrix n * seqNext Z) res.decomp)
    (hinj : Function.Injective res.decomp.d.eigvals) (h0 : ∀ i, res.decomp.d.eigvals i ≠ 0) :
    ∃ exact proj adjoint, Chosen exact modeIndices res.exactModes ∧ Chosen proj modeIndices res.projModes ∧
      Chosen adjoint modeIndices res.adjointModes ∧
      DmdModesWithin ε ε' c res.decomp.d.w res.decomp.d.eigvals res.decomp.d.R res.decomp.d.L
        (adjointᴴ * ws.matrix n * proj) (adjointᴴ * ws.matrix n * exact) ∧
      DmdCoeffsWithin ε res.decomp.d.w res.decomp.d.L res.projCoeffs res.advProjCoeffs
        (adjointᴴ * ws.matrix n * (seqFirst Z * res.decomp.proj))
        (adjointᴴ * ws.matrix n * (seqNext Z * res.decomp.proj)) := by
  obtain ⟨rfl, hd, ho⟩ := tlsSnapsSeq_ok lib eig modeIndices weights ws _ rtol maxNum hws hfit Z res corr hres
  exact ho.within (tlsEigendecomp_within _ _ eig _ _ _ a rtol none maxNum _ hd ha (by simp) hs (gram_hermitian hW _) hlib hc
    heig) hinj h0

/-- **C91.** The same for pairs of vectors. -/
theorem C91_tls_snaps_pairs (ha : 0 ≤ a) (hs : IsArgsort lib.argsort)
    (hws : arraysInit weights = .ok ws) (hfit : ws.Fits n) (hW : (ws.matrix n).IsHermitian)
    (X Y : Matrix (Fin n) (Fin m) 𝕜) (res : TlsResult 𝕜 n m) (corr : TlsCorr 𝕜 m)
    (hres : tlsSnapsPairs lib eig X ⟨n, m, Y⟩ modeIndices weights (some a) rtol maxNum = .ok (res, corr))
    (hlib : IsEighUpTo ε η (res.decomp.proj * corr.corr * res.decomp.proj)
      (lib.eigh (res.decomp.proj * corr.corr * res.decomp.proj))) (hc : 0 < c)
    (heig : EigOfProjectedWithin ε' c eig (Xᴴ * ws.matrix n * Y) res.decomp)
    (hinj : Function.Injective res.decomp.d.eigvals) (h0 : ∀ i, res.decomp.d.eigvals i ≠ 0) :
    ∃ exact proj adjoint, Chosen exact modeIndices res.exactModes ∧ Chosen proj modeIndices res.projModes ∧
      Chosen adjoint modeIndices res.adjointModes ∧
      DmdModesWithin ε ε' c res.decomp.d.w res.decomp.d.eigvals res.decomp.d.R res.decomp.d.L
        (adjointᴴ * ws.matrix n * proj) (adjointᴴ * ws.matrix n * exact) ∧
      DmdCoeffsWithin ε res.decomp.d.w res.decomp.d.L res.projCoeffs res.advProjCoeffs
        (adjointᴴ * ws.matrix n * (X * res.decomp.proj)) (adjointᴴ * ws.matrix n * (Y * res.decomp.proj)) := by
  obtain ⟨rfl, hd, ho⟩ := tlsSnapsPairs_ok lib eig modeIndices weights ws _ rtol maxNum hws hfit X Y res corr hres
  exact ho.within (tlsEigendecomp_within _ _ eig _ _ _ a rtol none maxNum _ hd ha (by simp) hs (gram_hermitian hW _) hlib hc
    heig) hinj h0

variable (svd : Matrix (Fin (n + n)) (Fin m) 𝕜 → SvdOut 𝕜 (n + n) m)

theorem tlsDirectRest_within {α σ : ℝ} (so : Option (Matrix (Fin n) (Fin n) 𝕜))
    (hw : directSqrtWeights lib.cholesky ws' = .ok so) (hfit : ws'.Fits n)
    (hchol : ∀ p q w, ws' = .d2 p q w → IsCholesky lib.cholesky (ws'.matrix n)) (ht : 0 ≤ a) (hr : ∀ t ∈ rtol, 0 ≤ t)
    (X Y : Matrix (Fin n) (Fin m) 𝕜) (hε : 0 ≤ ε) (res : TlsResult 𝕜 n m)
    (hres : tlsDirectRest lib eig svd so X Y modeIndices ws' (some a) rtol maxNum = .ok res)
    (hlib : IsSvdUpTo ε η (weightData so (X * res.decomp.proj)) (lib.svd (weightData so (X * res.decomp.proj))))
    (hσ : ∀ i, Real.sqrt (res.decomp.d.w i) ≤ σ) (hα : 0 ≤ α)
    (hX : ∀ i, n * RCLike.re (((X * res.decomp.proj)ᴴ * ws'.matrix n * (X * res.decomp.proj)) i i) ≤ α ^ 2)
    (hXV : ∀ i, n * RCLike.re (((X * res.decomp.proj * res.decomp.d.V)ᴴ * ws'.matrix n *
      (X * res.decomp.proj * res.decomp.d.V)) i i) ≤ α ^ 2) (hc : 0 < c)
    (heig : EigOfProjectedWithin ε' c eig (Xᴴ * ws'.matrix n * Y) res.decomp)
    (hinj : Function.Injective res.decomp.d.eigvals) (h0 : ∀ i, res.decomp.d.eigvals i ≠ 0) :
    ∃ exact proj adjoint, Chosen exact modeIndices res.exactModes ∧ Chosen proj modeIndices res.projModes ∧
      Chosen adjoint modeIndices res.adjointModes ∧
      DmdModesWithin (ε * (σ + α)) ε' c res.decomp.d.w res.decomp.d.eigvals res.decomp.d.R res.decomp.d.L
        (adjointᴴ * ws'.matrix n * proj) (adjointᴴ * ws'.matrix n * exact) ∧
      DmdCoeffsWithin (ε * (σ + α)) res.decomp.d.w res.decomp.d.L res.projCoeffs res.advProjCoeffs
        (adjointᴴ * ws'.matrix n * (X * res.decomp.proj)) (adjointᴴ * ws'.matrix n * (Y * res.decomp.proj)) := by
  obtain ⟨-, hd⟩ := tlsDirectRest_ok lib eig svd modeIndices ws' rtol maxNum so _ X Y res hres
  refine C91_direct_pairs lib eig modeIndices ws' a rtol maxNum so hw hfit hchol ht hr (X * res.decomp.proj)
    (Y * res.decomp.proj) hε hlib _ hd hσ hα hX hXV hc ?_ hinj h0
  unfold EigOfReducedWithin
  rw [gram_proj]
  exact heig

/-- **C91.** Total-least-squares DMD, direct method, sequential data: the bounds are those of the direct method of DMD for
the projected data; the error of the singular value decomposition of the stacked data does not matter. -/
theorem C91_tls_direct_sequential {α σ : ℝ} (so : Option (Matrix (Fin n) (Fin n) 𝕜))
    (hw : directSqrtWeights lib.cholesky ws' = .ok so) (hfit : ws'.Fits n)
    (hchol : ∀ p q w, ws' = .d2 p q w → IsCholesky lib.cholesky (ws'.matrix n)) (ht : 0 ≤ a) (hr : ∀ t ∈ rtol, 0 ≤ t)
    (Z : Matrix (Fin n) (Fin (m + 1)) 𝕜) (hε : 0 ≤ ε) (res : TlsResult 𝕜 n m)
    (hres : tlsDirectSeq lib eig svd Z modeIndices ws' (some a) rtol maxNum = .ok res)
    (hlib : IsSvdUpTo ε η (weightData so (seqFirst Z * res.decomp.proj))
      (lib.svd (weightData so (seqFirst Z * res.decomp.proj))))
    (hσ : ∀ i, Real.sqrt (res.decomp.d.w i) ≤ σ) (hα : 0 ≤ α)
    (hX : ∀ i, n * RCLike.re (((seqFirst Z * res.decomp.proj)ᴴ * ws'.matrix n * (seqFirst Z * res.decomp.proj)) i i) ≤ α ^ 2)
    (hXV : ∀ i, n * RCLike.re (((seqFirst Z * res.decomp.proj * res.decomp.d.V)ᴴ * ws'.matrix n *
      (seqFirst Z * res.decomp.proj * res.decomp.d.V)) i i) ≤ α ^ 2) (hc : 0 < c)
    (heig : EigOfProjectedWithin ε' c eig ((seqFirst Z)ᴴ * ws'.matrix n * seqNext Z) res.decomp)
    (hinj : Function.Injective res.decomp.d.eigvals) (h0 : ∀ i, res.decomp.d.eigvals i ≠ 0) :
    ∃ exact proj adjoint, Chosen exact modeIndices res.exactModes ∧ Chosen proj modeIndices res.projModes ∧
      Chosen adjoint modeIndices res.adjointModes ∧
      DmdModesWithin (ε * (σ + α)) ε' c res.decomp.d.w res.decomp.d.eigvals res.decomp.d.R res.decomp.d.L
        (adjointᴴ * ws'.matrix n * proj) (adjointᴴ * ws'.matrix n * exact) ∧
      DmdCoeffsWithin (ε * (σ + α)) res.decomp.d.w res.decomp.d.L res.projCoeffs res.advProjCoeffs
        (adjointᴴ * ws'.matrix n * (seqFirst Z * res.decomp.proj))
        (adjointᴴ * ws'.matrix n * (seqNext Z * res.decomp.proj)) := by
  unfold tlsDirectSeq at hres
  rw [hw] at hres
  exact tlsDirectRest_within lib eig modeIndices ws' a rtol maxNum svd so hw hfit hchol ht hr _ _ hε res hres hlib hσ hα hX hXV
    hc heig hinj h0

/-- **C91.** The same for pairs of vectors. -/
theorem C91_tls_direct_pairs {α σ : ℝ} (so : Option (Matrix (Fin n) (Fin n) 𝕜))
    (hw : directSqrtWeights lib.cholesky ws' = .ok so) (hfit : ws'.Fits n)
    (hchol : ∀ p q w, ws' = .d2 p q w → IsCholesky lib.cholesky (ws'.matrix n)) (ht : 0 ≤ a) (hr : ∀ t ∈ rtol, 0 ≤ t)
    (X Y : Matrix (Fin n) (Fin m) 𝕜) (hε : 0 ≤ ε) (res : TlsResult 𝕜 n m)
    (hres : tlsDirectPairs lib eig svd X ⟨n, m, Y⟩ modeIndices ws' (some a) rtol maxNum = .ok res)
    (hlib : IsSvdUpTo ε η (weightData so (X * res.decomp.proj)) (lib.svd (weightData so (X * res.decomp.proj))))
    (hσ : ∀ i, Real.sqrt (res.decomp.d.w i) ≤ σ) (hα : 0 ≤ α)
    (hX : ∀ i, n * RCLike.re (((X * res.decomp.proj)ᴴ * ws'.matrix n * (X * res.decomp.proj)) i i) ≤ α ^ 2)
    (hXV : ∀ i, n * RCLike.re (((X * res.decomp.proj * res.decomp.d.V)ᴴ * ws'.matrix n *
      (X * res.decomp.proj * res.decomp.d.V)) i i) ≤ α ^ 2) (hc : 0 < c)
    (heig : EigOfProjectedWithin ε' c eig (Xᴴ * ws'.matrix n * Y) res.decomp)
    (hinj : Function.Injective res.decomp.d.eigvals) (h0 : ∀ i, res.decomp.d.eigvals i ≠ 0) :
    ∃ exact proj adjoint, Chosen exact modeIndices res.exactModes ∧ Chosen proj modeIndices res.projModes ∧
      Chosen adjoint modeIndices res.adjointModes ∧
      DmdModesWithin (ε * (σ + α)) ε' c res.decomp.d.w res.decomp.d.eigvals res.decomp.d.R res.decomp.d.L
        (adjointᴴ * ws'.matrix n * proj) (adjointᴴ * ws'.matrix n * exact) ∧
      DmdCoeffsWithin (ε * (σ + α)) res.decomp.d.w res.decomp.d.L res.projCoeffs res.advProjCoeffs
        (adjointᴴ * ws'.matrix n * (X * res.decomp.proj)) (adjointᴴ * ws'.matrix n * (Y * res.decomp.proj)) := by
  unfold tlsDirectPairs at hres
  rw [hw] at hres
  simp only [and_self, dite_true] at hres
  exact tlsDirectRest_within lib eig modeIndices ws' a rtol maxNum svd so hw hfit hchol ht hr X Y hε res hres hlib hσ hα hX hXV
    hc heig hinj h0

end Arrays

/-! ### Handles -/

section Handles

variable {E : Type*} [AddCommGroup E] [Module 𝕜 E] {ε η ε' c : ℝ} (lib : DmdLib 𝕜) (ip : E →ₗ⋆[𝕜] E →ₗ[𝕜] 𝕜)
  (g g' : TlsHandles 𝕜 E) (t : ℝ) (rtol : Option ℝ) (maxNum : Option Nat)

theorem TlsDecomp.handles_within {m : Nat} {X Y : Fin m → E} {d : TlsDecomp 𝕜 m}
    (h : DmdApprox ε ε' c (d.proj * gram ip X X * d.proj) (d.proj * gram ip X Y * d.proj) d.d)
    (hinj : Function.Injective d.d.eigvals) (h0 : ∀ i, d.d.eigvals i ≠ 0) :
    DmdModesWithin ε ε' c d.d.w d.d.eigvals d.d.R d.d.L
      (Matrix.of fun i j => ip (combine X d.buildAdjoint i) (combine X d.buildProj j))
      (Matrix.of fun i j => ip (combine X d.buildAdjoint i) (combine Y d.buildExact j)) ∧
    DmdCoeffsWithin ε d.d.w d.d.L (d.d.Lᴴ * (diagPow (𝕜 := 𝕜) d.d.w 0.5 * d.d.Vᴴ))
      (d.d.Lᴴ * (diagPow (𝕜 := 𝕜) d.d.w (-0.5) *
        (d.d.Vᴴ * (d.sumV * (d.sumVᴴ * (gram ip X Y * (d.sumV * d.sumVᴴ)))))))
      (Matrix.of fun i j => ip (combine X d.buildAdjoint i) (combine X d.proj j))
      (Matrix.of fun i j => ip (combine X d.buildAdjoint i) (combine Y d.proj j)) := by
  obtain ⟨e1, e2, e3⟩ := d.builds
  rw [← gram_proj_vecs, ← gram_proj_vecs] at h
  rw [e1, e2, e3, ← combine_combine, ← combine_combine, ← combine_combine, TlsCore.advCoeffs, ← gram_proj_vecs]
  exact DmdApprox.handles ip h hinj h0

/-- **C91.** `TLSqrDMDHandles`, sequential data: the modes that all methods put, and the coefficients that they return. -/
theorem C91_tls_handles_sequential (ht : 0 ≤ t) (hs : ∀ n, IsArgsort (@DmdLib.argsort 𝕜 lib n))
    (hsym : ∀ x y, ip y x = star (ip x y)) (vecs : List E)
    (hrun : g.computeDecomp lib (fun x y => ip x y) vecs none (some t) rtol maxNum = (.ok (), g'))
    (d : TlsDecomp 𝕜 (vecs.length - 1)) (hd : g'.decomp = some ⟨vecs.length - 1, d⟩)
    (hlib : IsEighUpTo ε η (d.proj * gram ip (seqVecs vecs) (seqVecs vecs) * d.proj)
      (lib.eigh (d.proj * gram ip (seqVecs vecs) (seqVecs vecs) * d.proj))) (hc : 0 < c)
    (heig : EigOfProjectedWithin ε' c lib.eig (gram ip (seqVecs vecs) (seqAdvVecs vecs)) d)
    (hinj : Function.Injective d.d.eigvals) (h0 : ∀ i, d.d.eigvals i ≠ 0) :
    ∃ exact proj adjoint : Fin d.d.r → E,
      (∀ l num a out g'', (a = none ∧ g.adv = none ∨ a = some vecs.tail) →
        g'.computeExactModes l num a = (.ok out, g'') → ChosenVecs exact l out) ∧
      (∀ l num a out g'', (a = none ∨ a = some vecs) →
        g'.computeProjModes l num a = (.ok out, g'') → ChosenVecs proj l out) ∧
      (∀ l num a out g'', (a = none ∨ a = some vecs) →
        g'.computeAdjointModes l num a = (.ok out, g'') → ChosenVecs adjoint l out) ∧
      DmdModesWithin ε ε' c d.d.w d.d.eigvals d.d.R d.d.L (Matrix.of fun i j => ip (adjoint i) (proj j))
        (Matrix.of fun i j => ip (adjoint i) (exact j)) ∧
      ∃ coeffs advCoeffs,
        g'.computeProjCoeffs = .ok (⟨d.d.r, vecs.length - 1, coeffs⟩, ⟨d.d.r, vecs.length - 1, advCoeffs⟩) ∧
        DmdCoeffsWithin ε d.d.w d.d.L coeffs advCoeffs
          (Matrix.of fun i j => ip (adjoint i) (combine (seqVecs vecs) d.proj j))
          (Matrix.of fun i j => ip (adjoint i) (combine (seqAdvVecs vecs) d.proj j)) := by
  obtain ⟨d', hd', rfl⟩ := tlsComputeDecomp_seq lib _ g g' vecs (some t) rtol maxNum hrun
  cases hd
  have h := tlsEigendecomp_within _ _ _ _ _ _ t none none maxNum d hd' ht (by simp) (hs _) (gram_herm ip hsym _) hlib hc heig
  obtain ⟨h1, h2, h3⟩ := tls_state_seq vecs _ g.adv d (tlsEigendecomp_pos lib maxNum hd')
  obtain ⟨h4, h5⟩ := TlsDecomp.handles_within ip h hinj h0
  exact ⟨_, _, _, h1, h2, h3, h4, _, _, tlsComputeProjCoeffs_state _ _ _ _, h5⟩

/-- **C91.** `TLSqrDMDHandles`, pairs of vectors. -/
theorem C91_tls_handles_pairs (ht : 0 ≤ t) (hs : ∀ n, IsArgsort (@DmdLib.argsort 𝕜 lib n))
    (hsym : ∀ x y, ip y x = star (ip x y)) (vecs adv : List E)
    (hrun : g.computeDecomp lib (fun x y => ip x y) vecs (some adv) (some t) rtol maxNum = (.ok (), g'))
    (d : TlsDecomp 𝕜 vecs.length) (hd : g'.decomp = some ⟨vecs.length, d⟩) (hlen : vecs.length = adv.length)
    (hlib : IsEighUpTo ε η (d.proj * gram ip vecs.get vecs.get * d.proj)
      (lib.eigh (d.proj * gram ip vecs.get vecs.get * d.proj))) (hc : 0 < c)
    (heig : EigOfProjectedWithin ε' c lib.eig (gram ip vecs.get fun j => adv.get (Fin.cast hlen j)) d)
    (hinj : Function.Injective d.d.eigvals) (h0 : ∀ i, d.d.eigvals i ≠ 0) :
    ∃ exact proj adjoint : Fin d.d.r → E,
      (∀ l num a out g'', (a = none ∨ a = some adv) →
        g'.computeExactModes l num a = (.ok out, g'') → ChosenVecs exact l out) ∧
      (∀ l num a out g'', (a = none ∨ a = some vecs) →
        g'.computeProjModes l num a = (.ok out, g'') → ChosenVecs proj l out) ∧
      (∀ l num a out g'', (a = none ∨ a = some vecs) →
        g'.computeAdjointModes l num a = (.ok out, g'') → ChosenVecs adjoint l out) ∧
      DmdModesWithin ε ε' c d.d.w d.d.eigvals d.d.R d.d.L (Matrix.of fun i j => ip (adjoint i) (proj j))
        (Matrix.of fun i j => ip (adjoint i) (exact j)) ∧
      ∃ coeffs advCoeffs,
        g'.computeProjCoeffs = .ok (⟨d.d.r, vecs.length, coeffs⟩, ⟨d.d.r, vecs.length, advCoeffs⟩) ∧
        DmdCoeffsWithin ε d.d.w d.d.L coeffs advCoeffs (Matrix.of fun i j => ip (adjoint i) (combine vecs.get d.proj j))
          (Matrix.of fun i j => ip (adjoint i) (combine (fun j => adv.get (Fin.cast hlen j)) d.proj j)) := by
  obtain ⟨_, d', hd', rfl⟩ := tlsComputeDecomp_pairs lib _ g g' vecs adv (some t) rtol maxNum hrun
  cases hd
  have h := tlsEigendecomp_within _ _ _ _ _ _ t none none maxNum d hd' ht (by simp) (hs _) (gram_herm ip hsym _) hlib hc heig
  obtain ⟨h1, h2, h3⟩ := tls_state_pairs vecs adv hlen _ d
  obtain ⟨h4, h5⟩ := TlsDecomp.handles_within ip h hinj h0
  exact ⟨_, _, _, h1, h2, h3, h4, _, _, tlsComputeProjCoeffs_state _ _ _ _, h5⟩

end Handles

/-! ### Examples -/

theorem pairBound_zero {r : Nat} (lam : Fin r → 𝕜) (i j : Fin r) : pairBound 0 1 lam i j = 0 := by
  unfold pairBound
  split <;> simp

/-- The hypotheses hold for a sequence of vectors with errors zero. -/
example : ∃ (lib : PodLib ℝ 2 2) (res : TlsResult ℝ 2 2) (corr : TlsCorr ℝ 2),
    tlsSnapsSeq lib exampleSeqEig exampleSeq none none (some (1 / 10)) none none = .ok (res, corr) ∧
    res.decomp.d.r = 2 ∧ ∃ proj adjoint : Matrix (Fin 2) (Fin res.decomp.d.r) ℝ, Chosen proj none res.projModes ∧
      Chosen adjoint none res.adjointModes ∧ adjointᴴ * (1 : Matrix (Fin 2) (Fin 2) ℝ) * proj = 1 := by
  obtain ⟨lib, res, corr, heigh, hs, hres, -, hproj, hd, -⟩ := exampleSeq_tls
  have hW : (Weights.matrix 2 (.none : Weights ℝ)).IsHermitian := by simp [Weights.matrix, Matrix.IsHermitian]
  obtain ⟨hcorr, -, -⟩ := tlsSnapsSeq_ok lib exampleSeqEig none none .none (some (1 / 10)) none none rfl trivial exampleSeq
    res corr hres
  have hE : EigOfProjectedWithin 0 1 exampleSeqEig ((seqFirst exampleSeq)ᴴ * Weights.matrix 2 (.none : Weights ℝ) *
      seqNext exampleSeq) res.decomp := by
    unfold EigOfProjectedWithin
    rw [hproj, Matrix.one_mul, Matrix.mul_one, hd]
    exact exampleSeqDecomp_within
  obtain ⟨exact, proj, adjoint, -, hp, ha, hm, -⟩ := C91_tls_snaps_sequential (ε := 0) (η := 0) (ε' := 0) (c := 1) lib
    exampleSeqEig none none .none (1 / 10) none none (by norm_num) hs rfl trivial hW exampleSeq res corr hres
    (heigh _ (by rw [hproj, hcorr, Matrix.one_mul, Matrix.mul_one]; exact gram_hermitian hW _)).upTo one_pos hE
    (by rw [hd]; exact exampleSeqDecomp_distinct.1) (by rw [hd]; exact exampleSeqDecomp_distinct.2)
  refine ⟨lib, res, corr, hres, by rw [hd]; rfl, proj, adjoint, hp, ha, ?_⟩
  ext i j
  have h1 := hm.proj i j
  rw [pairBound_zero, zero_mul, add_zero] at h1
  rw [Matrix.one_apply]
  exact sub_eq_zero.mp (norm_le_zero_iff.mp h1)

end Modred
