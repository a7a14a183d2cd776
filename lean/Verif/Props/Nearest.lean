import Verif.Lemmas.Nearest
import Verif.Props.LeastSquares
import Verif.Props.TlsqrBest

/-!
# C90: coefficients of dynamic mode decomposition are those of a least-squares projection onto the projected modes
-/

namespace Modred

open Matrix
open scoped ComplexOrder

variable {𝕜 : Type*} [RCLike 𝕜]

theorem DmdOutcome.nearest {n m : Nat} {W : Matrix (Fin n) (Fin n) 𝕜} {X Y : Matrix (Fin n) (Fin m) 𝕜}
    {modeIndices : Option (List Int)} {res : DmdResult 𝕜 n m} (h : DmdOutcome W X Y modeIndices res)
    (hc : DmdCore (Xᴴ * W * X) (Xᴴ * W * Y) res.decomp) (hW : W.PosSemidef)
    (hLR : res.decomp.Lᴴ * res.decomp.R = 1) :
    ∃ proj, Chosen proj modeIndices res.projModes ∧ NearestCoeffs W X proj res.projCoeffs ∧
      NearestCoeffs W Y proj res.advProjCoeffs := by
  refine ⟨_, h.proj, ?_, ?_⟩
  · rw [h.projCoeffs, ← hc.adjoint_corr]
    exact hc.nearestCoeffs hW hLR X
  · rw [h.advProjCoeffs, ← adjoint_cross]
    exact hc.nearestCoeffs hW hLR Y

theorem TlsOutcome.nearest {n m : Nat} {W : Matrix (Fin n) (Fin n) 𝕜} {X Y : Matrix (Fin n) (Fin m) 𝕜}
    {modeIndices : Option (List Int)} {res : TlsResult 𝕜 n m} (h : TlsOutcome (Xᴴ * W * Y) X Y modeIndices res)
    (hc : TlsCore (Xᴴ * W * X) (Yᴴ * W * Y) (Xᴴ * W * Y) res.decomp) (hW : W.PosSemidef)
    (hLR : res.decomp.d.Lᴴ * res.decomp.d.R = 1) :
    ∃ proj, Chosen proj modeIndices res.projModes ∧ NearestCoeffs W (X * res.decomp.proj) proj res.projCoeffs ∧
      NearestCoeffs W (Y * res.decomp.proj) proj res.advProjCoeffs := by
  have hcore := hc.core
  rw [← gram_proj, ← gram_proj] at hcore
  have h2 := h.proj
  rw [hc.buildProj, ← hc.range.1, ← Matrix.mul_assoc] at h2
  refine ⟨_, h2, ?_, ?_⟩
  · rw [h.projCoeffs, ← hcore.adjoint_corr]
    exact hcore.nearestCoeffs hW hLR _
  · rw [h.advProjCoeffs, ← gram_proj, ← adjoint_cross]
    exact hcore.nearestCoeffs hW hLR _

/-! ### Arrays -/

section Snaps

variable {n m : Nat} (lib : PodLib 𝕜 n m) (eig : ∀ {r : Nat}, Matrix (Fin r) (Fin r) 𝕜 → EigOut 𝕜 r)
  (modeIndices : Option (List Int)) (weights : Option (NdArray 𝕜)) (ws : Weights 𝕜)
  (t : ℝ) (rtol : Option ℝ) (maxNum : Option Nat)

/-- **C90,** projected modes, for the snapshot method and sequential data. -/
theorem C90_snaps_sequential_partial (ht : 0 ≤ t) (hr : ∀ t ∈ rtol, 0 ≤ t) (hs : IsArgsort lib.argsort)
    (hws : arraysInit weights = .ok ws) (hfit : ws.Fits n) (hW : (ws.matrix n).PosSemidef)
    (hlib : ∀ C : Matrix (Fin m) (Fin m) 𝕜, C.IsHermitian → IsEigh C (lib.eigh C)) (Z : Matrix (Fin n) (Fin (m + 1)) 𝕜)
    (res : DmdResult 𝕜 n m) (corr cross : Matrix (Fin m) (Fin m) 𝕜)
    (hres : dmdSnapsSeq lib eig Z modeIndices weights (some t) rtol maxNum = .ok (res, corr, cross))
    (heig : EigOfReduced eig (ws.matrix n) (seqFirst Z) (seqNext Z) res.decomp) (hinj : Function.Injective res.decomp.eigvals) :
    ∃ proj, Chosen proj modeIndices res.projModes ∧ NearestCoeffs (ws.matrix n) (seqFirst Z) proj res.projCoeffs ∧
      NearestCoeffs (ws.matrix n) (seqNext Z) proj res.advProjCoeffs := by
  obtain ⟨rfl, rfl, hd, ho⟩ := dmdSnapsSeq_ok lib eig modeIndices weights ws _ rtol maxNum hws hfit Z res corr cross hres
  obtain ⟨hc, hLR⟩ := dmdEigendecomp_core _ _ eig _ _ t rtol maxNum _ hd ht hr hs (gram_hermitian hW.isHermitian _)
    (hlib _ (gram_hermitian hW.isHermitian _)) heig
  exact ho.nearest hc hW (hLR hinj)

/-- **C90,** projected modes, for the snapshot method and pairs of vectors. -/
theorem C90_snaps_pairs_partial (ht : 0 ≤ t) (hr : ∀ t ∈ rtol, 0 ≤ t) (hs : IsArgsort lib.argsort)
    (hws : arraysInit weights = .ok ws) (hfit : ws.Fits n) (hW : (ws.matrix n).PosSemidef)
    (hlib : ∀ C : Matrix (Fin m) (Fin m) 𝕜, C.IsHermitian → IsEigh C (lib.eigh C)) (X Y : Matrix (Fin n) (Fin m) 𝕜)
    (res : DmdResult 𝕜 n m) (corr cross : Matrix (Fin m) (Fin m) 𝕜)
    (hres : dmdSnapsPairs lib eig X ⟨n, m, Y⟩ modeIndices weights (some t) rtol maxNum = .ok (res, corr, cross))
    (heig : EigOfReduced eig (ws.matrix n) X Y res.decomp) (hinj : Function.Injective res.decomp.eigvals) :
    ∃ proj, Chosen proj modeIndices res.projModes ∧ NearestCoeffs (ws.matrix n) X proj res.projCoeffs ∧
      NearestCoeffs (ws.matrix n) Y proj res.advProjCoeffs := by
  obtain ⟨rfl, rfl, hd, ho⟩ := dmdSnapsPairs_ok lib eig modeIndices weights ws _ rtol maxNum hws hfit X Y res corr cross hres
  obtain ⟨hc, hLR⟩ := dmdEigendecomp_core _ _ eig _ _ t rtol maxNum _ hd ht hr hs (gram_hermitian hW.isHermitian _)
    (hlib _ (gram_hermitian hW.isHermitian _)) heig
  exact ho.nearest hc hW (hLR hinj)

end Snaps

section Direct

variable {n m : Nat} (lib : PodLib 𝕜 n m) (eig : ∀ {r : Nat}, Matrix (Fin r) (Fin r) 𝕜 → EigOut 𝕜 r)
  (modeIndices : Option (List Int)) (ws : DirectWeights 𝕜) (t : ℝ) (rtol : Option ℝ) (maxNum : Option Nat)

/-- **C90,** projected modes, for the direct method and sequential data. -/
theorem C90_direct_sequential_partial (ht : 0 ≤ t) (hr : ∀ t ∈ rtol, 0 ≤ t) (hfit : ws.Fits n)
    (hchol : ∀ p q w, ws = .d2 p q w → IsCholesky lib.cholesky (ws.matrix n)) (hlib : ∀ a, IsSvd a (lib.svd a))
    (Z : Matrix (Fin n) (Fin (m + 1)) 𝕜) (res : DmdResult 𝕜 n m)
    (hres : dmdDirectSeq lib eig Z modeIndices ws (some t) rtol maxNum = .ok res)
    (heig : EigOfReduced eig (ws.matrix n) (seqFirst Z) (seqNext Z) res.decomp) (hinj : Function.Injective res.decomp.eigvals) :
    ∃ proj, Chosen proj modeIndices res.projModes ∧ NearestCoeffs (ws.matrix n) (seqFirst Z) proj res.projCoeffs ∧
      NearestCoeffs (ws.matrix n) (seqNext Z) proj res.advProjCoeffs := by
  obtain ⟨hc, hLR, ho⟩ := dmdDirectSeq_ok lib eig modeIndices ws t rtol maxNum hfit hchol ht hr hlib Z res hres _ _ rfl rfl heig
  exact ho.nearest hc (directWeights_posSemidef ws hfit) (hLR hinj)

/-- **C90,** projected modes, for the direct method and pairs of vectors. -/
theorem C90_direct_pairs_partial (ht : 0 ≤ t) (hr : ∀ t ∈ rtol, 0 ≤ t) (hfit : ws.Fits n)
    (hchol : ∀ p q w, ws = .d2 p q w → IsCholesky lib.cholesky (ws.matrix n)) (hlib : ∀ a, IsSvd a (lib.svd a))
    (X Y : Matrix (Fin n) (Fin m) 𝕜) (res : DmdResult 𝕜 n m)
    (hres : dmdDirectPairs lib eig X ⟨n, m, Y⟩ modeIndices ws (some t) rtol maxNum = .ok res)
    (heig : EigOfReduced eig (ws.matrix n) X Y res.decomp) (hinj : Function.Injective res.decomp.eigvals) :
    ∃ proj, Chosen proj modeIndices res.projModes ∧ NearestCoeffs (ws.matrix n) X proj res.projCoeffs ∧
      NearestCoeffs (ws.matrix n) Y proj res.advProjCoeffs := by
  obtain ⟨hc, hLR, ho⟩ := dmdDirectPairs_ok lib eig modeIndices ws t rtol maxNum hfit hchol ht hr hlib X Y res hres heig
  exact ho.nearest hc (directWeights_posSemidef ws hfit) (hLR hinj)

end Direct

/-! ### Total least squares -/

section Snaps

variable {n m : Nat} (lib : PodLib 𝕜 n m) (eig : ∀ {r : Nat}, Matrix (Fin r) (Fin r) 𝕜 → EigOut 𝕜 r)
  (modeIndices : Option (List Int)) (weights : Option (NdArray 𝕜)) (ws : Weights 𝕜)
  (a : ℝ) (rtol : Option ℝ) (maxNum : Option Nat)

/-- **C90,** projected modes, for the snapshot method and sequential data. -/
theorem C90_tls_snaps_sequential_partial (ha : 0 ≤ a) (hr : ∀ t ∈ rtol, 0 ≤ t) (hs : IsArgsort lib.argsort)
    (hws : arraysInit weights = .ok ws) (hfit : ws.Fits n) (hW : (ws.matrix n).PosSemidef)
    (hlib : ∀ C : Matrix (Fin m) (Fin m) 𝕜, C.IsHermitian → IsEigh C (lib.eigh C)) (Z : Matrix (Fin n) (Fin (m + 1)) 𝕜)
    (res : TlsResult 𝕜 n m) (c : TlsCorr 𝕜 m)
    (hres : tlsSnapsSeq lib eig Z modeIndices weights (some a) rtol maxNum = .ok (res, c))
    (heig : EigOfProjected eig ((seqFirst Z)ᴴ * ws.matrix n * seqNext Z) res.decomp) (hinj : Function.Injective res.decomp.d.eigvals) :
    ∃ proj, Chosen proj modeIndices res.projModes ∧ NearestCoeffs (ws.matrix n) (seqFirst Z * res.decomp.proj) proj res.projCoeffs ∧
      NearestCoeffs (ws.matrix n) (seqNext Z * res.decomp.proj) proj res.advProjCoeffs := by
  obtain ⟨rfl, hd, ho⟩ := tlsSnapsSeq_ok lib eig modeIndices weights ws _ rtol maxNum hws hfit Z res c hres
  obtain ⟨hc, hLR⟩ := tlsEigendecomp_core _ _ eig _ _ _ a rtol none maxNum _ hd ha hr (by simp) hs
    (gram_hermitian hW.isHermitian _) (gram_hermitian hW.isHermitian _) hlib heig
  exact ho.nearest hc hW (hLR hinj)

/-- **C90,** projected modes, for the snapshot method and pairs of vectors. -/
theorem C90_tls_snaps_pairs_partial (ha : 0 ≤ a) (hr : ∀ t ∈ rtol, 0 ≤ t) (hs : IsArgsort lib.argsort)
    (hws : arraysInit weights = .ok ws) (hfit : ws.Fits n) (hW : (ws.matrix n).PosSemidef)
    (hlib : ∀ C : Matrix (Fin m) (Fin m) 𝕜, C.IsHermitian → IsEigh C (lib.eigh C)) (X Y : Matrix (Fin n) (Fin m) 𝕜)
    (res : TlsResult 𝕜 n m) (c : TlsCorr 𝕜 m)
    (hres : tlsSnapsPairs lib eig X ⟨n, m, Y⟩ modeIndices weights (some a) rtol maxNum = .ok (res, c))
    (heig : EigOfProjected eig (Xᴴ * ws.matrix n * Y) res.decomp) (hinj : Function.Injective res.decomp.d.eigvals) :
    ∃ proj, Chosen proj modeIndices res.projModes ∧ NearestCoeffs (ws.matrix n) (X * res.decomp.proj) proj res.projCoeffs ∧
      NearestCoeffs (ws.matrix n) (Y * res.decomp.proj) proj res.advProjCoeffs := by
  obtain ⟨rfl, hd, ho⟩ := tlsSnapsPairs_ok lib eig modeIndices weights ws _ rtol maxNum hws hfit X Y res c hres
  obtain ⟨hc, hLR⟩ := tlsEigendecomp_core _ _ eig _ _ _ a rtol none maxNum _ hd ha hr (by simp) hs
    (gram_hermitian hW.isHermitian _) (gram_hermitian hW.isHermitian _) hlib heig
  exact ho.nearest hc hW (hLR hinj)

end Snaps

section Direct

variable {n m : Nat} (lib : PodLib 𝕜 n m) (eig : ∀ {r : Nat}, Matrix (Fin r) (Fin r) 𝕜 → EigOut 𝕜 r)
  (svd : Matrix (Fin (n + n)) (Fin m) 𝕜 → SvdOut 𝕜 (n + n) m)
  (modeIndices : Option (List Int)) (ws : DirectWeights 𝕜) (t : ℝ) (rtol : Option ℝ) (maxNum : Option Nat)

theorem tlsDirectRest_nearest (so : Option (Matrix (Fin n) (Fin n) 𝕜)) (hfit : ws.Fits n)
    (hchol : ∀ p q w, ws = .d2 p q w → IsCholesky lib.cholesky (ws.matrix n))
    (hso : directSqrtWeights lib.cholesky ws = .ok so) (ht : 0 ≤ t) (hr : ∀ t ∈ rtol, 0 ≤ t)
    (hlib : ∀ a, IsSvd a (lib.svd a)) (hlib' : ∀ a, IsSvd a (svd a)) (X Y : Matrix (Fin n) (Fin m) 𝕜) (res : TlsResult 𝕜 n m)
    (hres : tlsDirectRest lib eig svd so X Y modeIndices ws (some t) rtol maxNum = .ok res)
    (heig : EigOfProjected eig (Xᴴ * ws.matrix n * Y) res.decomp) (hinj : Function.Injective res.decomp.d.eigvals) :
    ∃ proj, Chosen proj modeIndices res.projModes ∧ NearestCoeffs (ws.matrix n) (X * res.decomp.proj) proj res.projCoeffs ∧
      NearestCoeffs (ws.matrix n) (Y * res.decomp.proj) proj res.advProjCoeffs := by
  have hW := directWeights_posSemidef ws hfit
  obtain ⟨h1, h2, h3, h4⟩ := tlsDirectRest_core lib eig svd modeIndices ws t rtol maxNum so hfit hchol hso ht hr hlib hlib'
    X Y res hres heig
  exact h4.nearest h2 hW (h3 hinj)

/-- **C90,** projected modes, for the direct method and sequential data. -/
theorem C90_tls_direct_sequential_partial (ht : 0 ≤ t) (hr : ∀ t ∈ rtol, 0 ≤ t) (hfit : ws.Fits n)
    (hchol : ∀ p q w, ws = .d2 p q w → IsCholesky lib.cholesky (ws.matrix n)) (hlib : ∀ a, IsSvd a (lib.svd a))
    (hlib' : ∀ a, IsSvd a (svd a)) (Z : Matrix (Fin n) (Fin (m + 1)) 𝕜) (res : TlsResult 𝕜 n m)
    (hres : tlsDirectSeq lib eig svd Z modeIndices ws (some t) rtol maxNum = .ok res)
    (heig : EigOfProjected eig ((seqFirst Z)ᴴ * ws.matrix n * seqNext Z) res.decomp) (hinj : Function.Injective res.decomp.d.eigvals) :
    ∃ proj, Chosen proj modeIndices res.projModes ∧ NearestCoeffs (ws.matrix n) (seqFirst Z * res.decomp.proj) proj res.projCoeffs ∧
      NearestCoeffs (ws.matrix n) (seqNext Z * res.decomp.proj) proj res.advProjCoeffs := by
  unfold tlsDirectSeq at hres
  split at hres
  · cases hres
  rename_i so hso
  exact tlsDirectRest_nearest lib eig svd modeIndices ws t rtol maxNum so hfit hchol hso ht hr hlib hlib' _ _ res hres heig hinj

/-- **C90,** projected modes, for the direct method and pairs of vectors. -/
theorem C90_tls_direct_pairs_partial (ht : 0 ≤ t) (hr : ∀ t ∈ rtol, 0 ≤ t) (hfit : ws.Fits n)
    (hchol : ∀ p q w, ws = .d2 p q w → IsCholesky lib.cholesky (ws.matrix n)) (hlib : ∀ a, IsSvd a (lib.svd a))
    (hlib' : ∀ a, IsSvd a (svd a)) (X Y : Matrix (Fin n) (Fin m) 𝕜) (res : TlsResult 𝕜 n m)
    (hres : tlsDirectPairs lib eig svd X ⟨n, m, Y⟩ modeIndices ws (some t) rtol maxNum = .ok res)
    (heig : EigOfProjected eig (Xᴴ * ws.matrix n * Y) res.decomp) (hinj : Function.Injective res.decomp.d.eigvals) :
    ∃ proj, Chosen proj modeIndices res.projModes ∧ NearestCoeffs (ws.matrix n) (X * res.decomp.proj) proj res.projCoeffs ∧
      NearestCoeffs (ws.matrix n) (Y * res.decomp.proj) proj res.advProjCoeffs := by
  unfold tlsDirectPairs at hres
  split at hres
  · cases hres
  rename_i so hso
  simp only [and_self, dite_true] at hres
  exact tlsDirectRest_nearest lib eig svd modeIndices ws t rtol maxNum so hfit hchol hso ht hr hlib hlib' X Y res hres heig hinj

end Direct

/-! ### Handles -/

section Handles

variable {E : Type*} [AddCommGroup E] [Module 𝕜 E] (lib : DmdLib 𝕜) (ip : E →ₗ⋆[𝕜] E →ₗ[𝕜] 𝕜)
  (t : ℝ) (rtol : Option ℝ) (maxNum : Option Nat)

theorem DmdCore.handleNearest {ip : E →ₗ⋆[𝕜] E →ₗ[𝕜] 𝕜} {m : Nat} {X Y : Fin m → E} {d : DmdDecomp 𝕜 m}
    (hsymm : ∀ x y, ip y x = star (ip x y)) (hnn : ∀ x, 0 ≤ RCLike.re (ip x x))
    (h : DmdCore (gram ip X X) (gram ip X Y) d) (hLR : d.Lᴴ * d.R = 1) :
    NearestVecs ip X (combine X d.buildProj) (d.Lᴴ * (diagPow (𝕜 := 𝕜) d.w 0.5 * d.Vᴴ)) ∧
    NearestVecs ip Y (combine X d.buildProj) (d.Lᴴ * (diagPow (𝕜 := 𝕜) d.w (-0.5) * (d.Vᴴ * gram ip X Y))) := by
  rw [← h.adjoint_corr, ← adjoint_cross]
  exact ⟨h.nearestVecs hsymm hnn hLR X, h.nearestVecs hsymm hnn hLR Y⟩

/-- **C90,** projected modes, for `DMDHandles` and a sequence of vectors. -/
theorem C90_handles_sequential_partial (g g' : DmdHandles 𝕜 E) (ht : 0 ≤ t) (hlib : lib.Lawful)
    (hsym : ∀ x y, ip y x = star (ip x y)) (hnn : ∀ x, 0 ≤ RCLike.re (ip x x)) (vecs : List E)
    (hrun : g.computeDecomp lib (fun x y => ip x y) vecs none (some t) rtol maxNum = (.ok (), g'))
    (d : DmdDecomp 𝕜 (vecs.length - 1)) (hd : g'.decomp = some ⟨vecs.length - 1, d⟩)
    (heig : EigOfReducedVecs ip lib.eig (seqVecs vecs) (seqAdvVecs vecs) d) (hinj : Function.Injective d.eigvals) :
    ∃ proj : Fin d.r → E,
      (∀ l num a out g'', (a = none ∨ a = some vecs) →
        g'.computeProjModes l num a = (.ok out, g'') → ChosenVecs proj l out) ∧
      ∃ c c', g'.computeProjCoeffs = .ok (⟨d.r, vecs.length - 1, c⟩, ⟨d.r, vecs.length - 1, c'⟩) ∧
        NearestVecs ip (seqVecs vecs) proj c ∧ NearestVecs ip (seqAdvVecs vecs) proj c' := by
  obtain ⟨d', hd', rfl⟩ := computeDecomp_seq lib _ g g' vecs (some t) rtol maxNum hrun
  cases hd
  obtain ⟨hm, hc, hLR⟩ := handles_modes lib ip t maxNum ht hlib hsym hd' heig
  obtain ⟨-, h2, -⟩ := state_seq vecs (handlesIp (fun x y => ip x y) (seqVecs vecs) (seqVecs vecs))
    (handlesIp (fun x y => ip x y) (seqVecs vecs) (seqAdvVecs vecs)) g.adv d hm
  exact ⟨_, h2, _, _, computeProjCoeffs_state _ _ _ _ _, hc.handleNearest hsym hnn (hLR hinj)⟩

/-- **C90,** projected modes, for `DMDHandles` and pairs of vectors. -/
theorem C90_handles_pairs_partial (g g' : DmdHandles 𝕜 E) (ht : 0 ≤ t) (hlib : lib.Lawful)
    (hsym : ∀ x y, ip y x = star (ip x y)) (hnn : ∀ x, 0 ≤ RCLike.re (ip x x)) (vecs adv : List E)
    (hrun : g.computeDecomp lib (fun x y => ip x y) vecs (some adv) (some t) rtol maxNum = (.ok (), g'))
    (d : DmdDecomp 𝕜 vecs.length) (hd : g'.decomp = some ⟨vecs.length, d⟩) (hlen : vecs.length = adv.length)
    (heig : EigOfReducedVecs ip lib.eig vecs.get (fun j => adv.get (Fin.cast hlen j)) d)
    (hinj : Function.Injective d.eigvals) :
    ∃ proj : Fin d.r → E,
      (∀ l num a out g'', (a = none ∨ a = some vecs) →
        g'.computeProjModes l num a = (.ok out, g'') → ChosenVecs proj l out) ∧
      ∃ c c', g'.computeProjCoeffs = .ok (⟨d.r, vecs.length, c⟩, ⟨d.r, vecs.length, c'⟩) ∧
        NearestVecs ip vecs.get proj c ∧ NearestVecs ip (fun j => adv.get (Fin.cast hlen j)) proj c' := by
  obtain ⟨_, d', hd', rfl⟩ := computeDecomp_pairs lib _ g g' vecs adv (some t) rtol maxNum hrun
  cases hd
  obtain ⟨hm, hc, hLR⟩ := handles_modes lib ip t maxNum ht hlib hsym hd' heig
  obtain ⟨-, h2, -⟩ := state_pairs vecs adv hlen (handlesIp (fun x y => ip x y) vecs.get vecs.get)
    (handlesIp (fun x y => ip x y) vecs.get fun j => adv.get (Fin.cast hlen j)) d
  exact ⟨_, h2, _, _, computeProjCoeffs_state _ _ _ _ _, hc.handleNearest hsym hnn (hLR hinj)⟩

theorem tls_handles_nearest {m : Nat} {X Y : Fin m → E} {d : TlsDecomp 𝕜 m} (ht : 0 ≤ t) (hlib : lib.Lawful)
    (hsym : ∀ x y, ip y x = star (ip x y)) (hnn : ∀ x, 0 ≤ RCLike.re (ip x x))
    (hd : tlsEigendecomp lib.eigh lib.argsort lib.eig (gram ip X X) (gram ip Y Y) (gram ip X Y) (some t) none none maxNum = .ok d)
    (heig : EigOfProjected lib.eig (gram ip X Y) d) (hinj : Function.Injective d.d.eigvals) :
    NearestVecs ip (combine X d.proj) (combine X d.buildProj) (d.d.Lᴴ * (diagPow (𝕜 := 𝕜) d.d.w 0.5 * d.d.Vᴴ)) ∧
    NearestVecs ip (combine Y d.proj) (combine X d.buildProj)
      (d.d.Lᴴ * (diagPow (𝕜 := 𝕜) d.d.w (-0.5) *
        (d.d.Vᴴ * (d.sumV * (d.sumVᴴ * (gram ip X Y * (d.sumV * d.sumVᴴ))))))) := by
  obtain ⟨hc, hLR⟩ := tlsEigendecomp_core _ _ lib.eig _ _ _ t none none maxNum d hd ht (by simp) (by simp) hlib.argsort
    (gram_herm ip hsym X) (gram_herm ip hsym Y) hlib.eigh heig
  have hcore := hc.core
  rw [← gram_proj_vecs, ← gram_proj_vecs] at hcore
  have e2 : combine X d.buildProj = combine (combine X d.proj) d.d.buildProj := by
    rw [hc.buildProj, combine_combine, hc.range.1]
  rw [e2, TlsCore.advCoeffs, ← gram_proj_vecs]
  exact hcore.handleNearest hsym hnn (hLR hinj)

/-- **C90,** projected modes, for `TLSqrDMDHandles` and a sequence of vectors. -/
theorem C90_tls_handles_sequential_partial (g g' : TlsHandles 𝕜 E) (ht : 0 ≤ t) (hlib : lib.Lawful)
    (hsym : ∀ x y, ip y x = star (ip x y)) (hnn : ∀ x, 0 ≤ RCLike.re (ip x x)) (vecs : List E)
    (hrun : g.computeDecomp lib (fun x y => ip x y) vecs none (some t) rtol maxNum = (.ok (), g'))
    (d : TlsDecomp 𝕜 (vecs.length - 1)) (hd : g'.decomp = some ⟨vecs.length - 1, d⟩)
    (heig : EigOfProjected lib.eig (gram ip (seqVecs vecs) (seqAdvVecs vecs)) d) (hinj : Function.Injective d.d.eigvals) :
    ∃ proj : Fin d.d.r → E,
      (∀ l num a out g'', (a = none ∨ a = some vecs) →
        g'.computeProjModes l num a = (.ok out, g'') → ChosenVecs proj l out) ∧
      ∃ c c', g'.computeProjCoeffs = .ok (⟨d.d.r, vecs.length - 1, c⟩, ⟨d.d.r, vecs.length - 1, c'⟩) ∧
        NearestVecs ip (combine (seqVecs vecs) d.proj) proj c ∧
        NearestVecs ip (combine (seqAdvVecs vecs) d.proj) proj c' := by
  obtain ⟨d', hd', rfl⟩ := tlsComputeDecomp_seq lib _ g g' vecs (some t) rtol maxNum hrun
  cases hd
  have hm := tlsEigendecomp_pos lib maxNum hd'
  exact ⟨_, (tls_state_seq vecs _ g.adv d hm).2.1, _, _, tlsComputeProjCoeffs_state _ _ _ _,
    tls_handles_nearest lib ip t maxNum ht hlib hsym hnn hd' heig hinj⟩

/-- **C90,** projected modes, for `TLSqrDMDHandles` and pairs of vectors. -/
theorem C90_tls_handles_pairs_partial (g g' : TlsHandles 𝕜 E) (ht : 0 ≤ t) (hlib : lib.Lawful)
    (hsym : ∀ x y, ip y x = star (ip x y)) (hnn : ∀ x, 0 ≤ RCLike.re (ip x x)) (vecs adv : List E)
    (hrun : g.computeDecomp lib (fun x y => ip x y) vecs (some adv) (some t) rtol maxNum = (.ok (), g'))
    (d : TlsDecomp 𝕜 vecs.length) (hd : g'.decomp = some ⟨vecs.length, d⟩) (hlen : vecs.length = adv.length)
    (heig : EigOfProjected lib.eig (gram ip vecs.get (fun j => adv.get (Fin.cast hlen j))) d)
    (hinj : Function.Injective d.d.eigvals) :
    ∃ proj : Fin d.d.r → E,
      (∀ l num a out g'', (a = none ∨ a = some vecs) →
        g'.computeProjModes l num a = (.ok out, g'') → ChosenVecs proj l out) ∧
      ∃ c c', g'.computeProjCoeffs = .ok (⟨d.d.r, vecs.length, c⟩, ⟨d.d.r, vecs.length, c'⟩) ∧
        NearestVecs ip (combine vecs.get d.proj) proj c ∧
        NearestVecs ip (combine (fun j => adv.get (Fin.cast hlen j)) d.proj) proj c' := by
  obtain ⟨_, d', hd', rfl⟩ := tlsComputeDecomp_pairs lib _ g g' vecs adv (some t) rtol maxNum hrun
  cases hd
  exact ⟨_, (tls_state_pairs vecs adv hlen _ d).2.1, _, _, tlsComputeProjCoeffs_state _ _ _ _,
    tls_handles_nearest lib ip t maxNum ht hlib hsym hnn hd' heig hinj⟩

end Handles

/-! ### Exact modes -/

/-- **C90.** If the advanced data are linear combinations of the data and no direction is dropped, exact modes are
projected modes. -/
theorem C90_exact_partial {n m r : Nat} {W : Matrix (Fin n) (Fin n) 𝕜} {X Y : Matrix (Fin n) (Fin m) 𝕜} {w : Fin r → ℝ}
    {V : Matrix (Fin m) (Fin r) 𝕜} {eigvals : Fin r → 𝕜} {exact proj adjoint : Matrix (Fin n) (Fin r) 𝕜}
    (h : DmdModes W X Y w V eigvals exact proj adjoint) (h0 : ∀ i, eigvals i ≠ 0) (hr : r = X.rank)
    (M : Matrix (Fin m) (Fin m) 𝕜) (hM : Y = X * M) : exact = proj := by
  have h1 : diagonal eigvals * diagonal (fun i => (eigvals i)⁻¹) = (1 : Matrix (Fin r) (Fin r) 𝕜) := by
    rw [diagonal_mul_diagonal, ← diagonal_one]
    exact congrArg _ (funext fun i => mul_inv_cancel₀ (h0 i))
  have h2 : exact = X * (M * truncatedPinv W X w V * exact * diagonal fun i => (eigvals i)⁻¹) := by
    calc exact = exact * (diagonal eigvals * diagonal fun i => (eigvals i)⁻¹) := by rw [h1, Matrix.mul_one]
      _ = _ := by rw [← Matrix.mul_assoc, ← h.exact_eigen, hM]; simp only [Matrix.mul_assoc]
  rw [← h.proj_of_exact]
  conv_rhs => rw [h2, ← Matrix.mul_assoc, (h.pinv hr).outer]
  exact h2

/-- One vector of length 1 and inner product 1 with the advanced vector: exact modes times coefficients give the
advanced vector. -/
theorem exact_coeffs_one {d : DmdDecomp ℝ 1} (h : DmdCore 1 1 d) (hLR : d.Lᴴ * d.R = 1) (hr : d.r = 1) :
    d.buildExact * (d.Lᴴ * (diagPow (𝕜 := ℝ) d.w 0.5 * d.Vᴴ)) = 1 ∧
    d.Lᴴ * (diagPow (𝕜 := ℝ) d.w 0.5 * d.Vᴴ) * d.buildExact = 1 := by
  have hw : diagPow (𝕜 := ℝ) d.w 1 = 1 := by
    have := congrArg (d.Vᴴ * ·) h.eigen
    rw [Matrix.one_mul, ← Matrix.mul_assoc, h.orth, Matrix.one_mul] at this
    exact this.symm
  have hw1 : ∀ i, d.w i = 1 := fun i => by simpa [diagPow] using congrFun (congrFun hw i) i
  have hp : ∀ e : ℝ, diagPow (𝕜 := ℝ) d.w e = 1 := by
    intro e
    rw [← diagonal_one]
    unfold diagPow
    congr 1
    ext i
    simp [hw1 i]
  have hR := h.right
  unfold lowOrderMap at hR
  rw [hp, Matrix.mul_one, Matrix.one_mul, Matrix.one_mul, h.orth, Matrix.one_mul] at hR
  have hE : diagonal d.eigvals = (1 : Matrix (Fin d.r) (Fin d.r) ℝ) := by
    have := congrArg (d.Lᴴ * ·) hR
    rw [← Matrix.mul_assoc, hLR, Matrix.one_mul] at this
    exact this.symm
  have he : ∀ i, d.eigvals i = 1 := fun i => by simpa using congrFun (congrFun hE i) i
  have hb : d.buildExact = d.buildProj := by
    rw [buildExact_eq, show (diagonal fun i => (d.eigvals i)⁻¹) = (1 : Matrix (Fin d.r) (Fin d.r) ℝ) by
      rw [← diagonal_one]; exact congrArg _ (funext fun i => by rw [he, inv_one]), Matrix.mul_one]
  refine ⟨?_, by rw [hb, ← h.adjoint_corr, h.adjoint_proj hLR]⟩
  rw [hb, h.proj_coeffs hLR]
  have ht : (d.V * d.Vᴴ).trace = 1 := by rw [trace_mul_comm, h.orth, trace_one, Fintype.card_fin, hr, Nat.cast_one]
  ext i j
  fin_cases i
  fin_cases j
  simpa [trace] using ht

/-- **C90.** For the vector (1, 0), the advanced vector (1, 1) and the exact mode, a multiple of (1, 1), the coefficient
that is returned is twice that of the least-squares projection. -/
theorem C90_exact_violation (lib : PodLib ℝ 2 1) (hs : IsArgsort lib.argsort)
    (hlib : ∀ C : Matrix (Fin 1) (Fin 1) ℝ, C.IsHermitian → IsEigh C (lib.eigh C)) :
    ∃ (res : DmdResult ℝ 2 1) (corr cross : Matrix (Fin 1) (Fin 1) ℝ) (exact : Matrix (Fin 2) (Fin res.decomp.r) ℝ),
      dmdSnapsPairs lib exampleSmallEig !![1; 0] ⟨2, 1, !![1; 1]⟩ none none (some (1 / 10)) none none =
        .ok (res, corr, cross) ∧
      Chosen exact none res.exactModes ∧ ¬ NearestCoeffs 1 !![1; 0] exact res.projCoeffs ∧
      NearestCoeffs 1 !![1; 0] exact ((1 / 2 : ℝ) • res.projCoeffs) := by
  obtain ⟨-, ⟨res, corr, cross⟩, hres⟩ := C26_snaps_no_error lib exampleSmallEig (1 / 10) none none one_pos none .none rfl trivial
    0 !![1; 0] !![1; 1]
  obtain ⟨rfl, rfl, hd, ho⟩ := dmdSnapsPairs_ok lib exampleSmallEig none none .none _ none none rfl trivial _ _ res corr cross
    hres
  have hW : (Weights.none : Weights ℝ).matrix 2 = 1 := rfl
  have hX : (!![1; 0] : Matrix (Fin 2) (Fin 1) ℝ)ᴴ * (Weights.none : Weights ℝ).matrix 2 * (!![1; 0] : Matrix (Fin 2) (Fin 1) ℝ) = 1 := by
    rw [hW]
    ext i j
    fin_cases i
    fin_cases j
    simp [Matrix.mul_apply, Fin.sum_univ_two]
  have hY : (!![1; 0] : Matrix (Fin 2) (Fin 1) ℝ)ᴴ * (Weights.none : Weights ℝ).matrix 2 * (!![1; 1] : Matrix (Fin 2) (Fin 1) ℝ) = 1 := by
    rw [hW]
    ext i j
    fin_cases i
    fin_cases j
    simp [Matrix.mul_apply, Fin.sum_univ_two]
  have hr : res.decomp.r = 1 := by
    have hd2 := hd
    rw [hX] at hd2
    unfold dmdEigendecomp at hd2
    split at hd2
    · cases hd2
    rename_i e he
    dsimp only at hd2
    split at hd2
    · cases hd2
    have hpd : ((1 : Matrix (Fin 1) (Fin 1) ℝ) - ((1 / 10 : ℝ) : ℝ) • (1 : Matrix (Fin 1) (Fin 1) ℝ)).PosDef := by
      rw [show (1 : Matrix (Fin 1) (Fin 1) ℝ) - ((1 / 10 : ℝ) : ℝ) • (1 : Matrix (Fin 1) (Fin 1) ℝ) =
        diagonal fun _ => (9 / 10 : ℝ) by ext i j; fin_cases i; fin_cases j; norm_num]
      exact PosDef.diagonal fun _ => by norm_num
    have h4 := (eigh_posDef lib.eigh lib.argsort hs _ (1 / 10) (by norm_num) hpd (hlib _ isHermitian_one) e he).1
    have h5 := congrArg DmdDecomp.r (Except.ok.inj hd2)
    exact h5.symm.trans h4
  obtain ⟨hc, hLR⟩ := dmdEigendecomp_core _ _ exampleSmallEig _ _ (1 / 10) none none _ hd (by norm_num) (by simp) hs
    (by rw [hX, conjTranspose_one]) (hlib _ (by rw [hX]; exact isHermitian_one)) (exampleSmallEig_isEig hr.le _)
  have hinj : Function.Injective res.decomp.eigvals := fun i j _ => Fin.ext (by omega)
  rw [hX, hY] at hc
  obtain ⟨h1, h2⟩ := exact_coeffs_one hc (hLR hinj) hr
  rw [← ho.projCoeffs] at h1 h2
  have hdist : ∀ c : Fin res.decomp.r → ℝ, RCLike.re (star ((!![1; 0] : Matrix (Fin 2) (Fin 1) ℝ).col 0 -
      ((!![1; 1] : Matrix (Fin 2) (Fin 1) ℝ) * res.decomp.buildExact) *ᵥ c) ⬝ᵥ (1 : Matrix (Fin 2) (Fin 2) ℝ) *ᵥ
      ((!![1; 0] : Matrix (Fin 2) (Fin 1) ℝ).col 0 - ((!![1; 1] : Matrix (Fin 2) (Fin 1) ℝ) * res.decomp.buildExact) *ᵥ c)) =
      1 - 2 * (res.decomp.buildExact *ᵥ c) 0 + 2 * (res.decomp.buildExact *ᵥ c) 0 ^ 2 := by
    intro c
    rw [← mulVec_mulVec, show (!![1; 0] : Matrix (Fin 2) (Fin 1) ℝ).col 0 = ![1, 0] by ext i; fin_cases i <;> rfl]
    generalize res.decomp.buildExact *ᵥ c = s
    simp [dotProduct, Fin.sum_univ_two, mulVec]
    ring
  have hk : res.decomp.buildExact *ᵥ res.projCoeffs.col 0 = fun _ => 1 := by
    ext i
    fin_cases i
    have := congrFun (congrFun h1 0) 0
    simpa [Matrix.mul_apply, mulVec, dotProduct] using this
  have hk2 : res.decomp.buildExact *ᵥ ((1 / 2 : ℝ) • res.projCoeffs).col 0 = fun _ => 1 / 2 := by
    rw [show ((1 / 2 : ℝ) • res.projCoeffs).col 0 = (1 / 2 : ℝ) • res.projCoeffs.col 0 from rfl, mulVec_smul, hk]
    ext
    simp
  have hnear : NearestCoeffs 1 !![1; 0] ((!![1; 1] : Matrix (Fin 2) (Fin 1) ℝ) * res.decomp.buildExact) ((1 / 2 : ℝ) • res.projCoeffs) := by
    intro j c hcj
    obtain rfl : j = 0 := Subsingleton.elim _ _
    rw [hdist, hdist, hk2]
    have hne : (res.decomp.buildExact *ᵥ c) 0 ≠ 1 / 2 := by
      intro h
      refine hcj ?_
      have h3 : res.decomp.buildExact *ᵥ c = fun _ => 1 / 2 := by
        ext i
        fin_cases i
        exact h
      rw [← hk2] at h3
      have := congrArg (res.projCoeffs *ᵥ ·) h3
      simpa [mulVec_mulVec, h2] using this
    have := mul_self_pos.mpr (sub_ne_zero.mpr hne)
    norm_num
    nlinarith
  refine ⟨res, _, _, _, hres, ho.exact, fun h => ?_, hnear⟩
  have := h 0 (((1 / 2 : ℝ) • res.projCoeffs).col 0) fun heq => by
    have h3 := congrArg (fun v => (res.decomp.buildExact *ᵥ v) 0) heq
    rw [hk, hk2] at h3
    norm_num at h3
  rw [hdist, hdist, hk, hk2] at this
  norm_num at this

/-! ### Examples -/

/-- The sequence of three vectors with eigenvalues 1 and 2. -/
example : ∃ (lib : PodLib ℝ 2 2) (res : DmdResult ℝ 2 2) (corr cross : Matrix (Fin 2) (Fin 2) ℝ),
    dmdSnapsSeq lib exampleSeqEig exampleSeq none none (some (1 / 10)) none none = .ok (res, corr, cross) ∧
    ∃ proj : Matrix (Fin 2) (Fin res.decomp.r) ℝ, Chosen proj none res.projModes ∧
      NearestCoeffs 1 (seqFirst exampleSeq) proj res.projCoeffs ∧ NearestCoeffs 1 (seqNext exampleSeq) proj res.advProjCoeffs := by
  obtain ⟨lib, res, corr, cross, heigh, hs, hres, hd⟩ := exampleSeq_snaps
  exact ⟨lib, res, corr, cross, hres, C90_snaps_sequential_partial lib exampleSeqEig none none .none (1 / 10) none none
    (by norm_num) (by simp) hs rfl trivial PosSemidef.one heigh exampleSeq res corr cross hres
    (by rw [hd]; exact exampleSeqDecomp_eig) (by rw [hd]; exact exampleSeqDecomp_distinct.1)⟩

/-- The direct method. -/
example : ∃ (lib : PodLib ℝ 2 2) (res : DmdResult ℝ 2 2),
    dmdDirectSeq lib exampleSeqEig exampleSeq none .none (some (1 / 10)) none none = .ok res ∧
    ∃ proj : Matrix (Fin 2) (Fin res.decomp.r) ℝ, Chosen proj none res.projModes ∧
      NearestCoeffs 1 (seqFirst exampleSeq) proj res.projCoeffs ∧ NearestCoeffs 1 (seqNext exampleSeq) proj res.advProjCoeffs := by
  obtain ⟨lib, res, hsvd, hres, heig, hi, h0⟩ := exampleSeq_direct
  exact ⟨lib, res, hres, C90_direct_sequential_partial lib exampleSeqEig none .none (1 / 10) none none
    (by norm_num) (by simp) trivial (fun _ _ _ h => by cases h) hsvd exampleSeq res hres heig hi⟩

/-- Total least squares. -/
example : ∃ (lib : PodLib ℝ 2 2) (res : TlsResult ℝ 2 2) (c : TlsCorr ℝ 2),
    tlsSnapsSeq lib exampleSeqEig exampleSeq none none (some (1 / 10)) none none = .ok (res, c) ∧
    ∃ proj : Matrix (Fin 2) (Fin res.decomp.d.r) ℝ, Chosen proj none res.projModes ∧
      NearestCoeffs 1 (seqFirst exampleSeq * res.decomp.proj) proj res.projCoeffs ∧
      NearestCoeffs 1 (seqNext exampleSeq * res.decomp.proj) proj res.advProjCoeffs := by
  obtain ⟨lib, res, c, heigh, hs, hres, hq, hproj, hd, heig⟩ := exampleSeq_tls
  exact ⟨lib, res, c, hres, C90_tls_snaps_sequential_partial lib exampleSeqEig none none .none (1 / 10) none none
    (by norm_num) (by simp) hs rfl trivial PosSemidef.one heigh exampleSeq res c hres heig
    (by rw [hd]; exact exampleSeqDecomp_distinct.1)⟩

/-- Handles. -/
example : ∃ (lib : DmdLib ℝ) (g' : DmdHandles ℝ (Fin 2 → ℝ)) (proj : Fin 2 → Fin 2 → ℝ) (c c' : Matrix (Fin 2) (Fin 2) ℝ),
    DmdHandles.new.computeDecomp lib (fun x y => dotIp x y) exampleVecs none (some (1 / 10)) none none = (.ok (), g') ∧
    g'.computeProjCoeffs = .ok (⟨2, 2, c⟩, ⟨2, 2, c'⟩) ∧
    (∀ l num out g'', g'.computeProjModes l num none = (.ok out, g'') → ChosenVecs proj l out) ∧
    NearestVecs dotIp (seqVecs exampleVecs) proj c ∧ NearestVecs dotIp (seqAdvVecs exampleVecs) proj c' := by
  obtain ⟨lib, hlaw, heig, hu⟩ := exists_exampleDmdLib
  obtain ⟨g', hrun, hd⟩ := exampleVecs_decomp lib heig hu DmdHandles.new
  obtain ⟨proj, hp, c, c', hc, h1, h2⟩ := C90_handles_sequential_partial lib dotIp (1 / 10) none none DmdHandles.new g'
    (by norm_num) hlaw dotIp_symm
    (fun x => by rw [dotIp_apply]; exact add_nonneg (mul_self_nonneg (x 0)) (mul_self_nonneg (x 1))) exampleVecs hrun
    exampleSeqDecomp hd (exampleVecs_eig lib heig) exampleSeqDecomp_distinct.1
  exact ⟨lib, g', proj, c, c', hrun, hc, fun l num out g'' h => hp l num none out g'' (Or.inl rfl) h, h1, h2⟩

/-- There are libraries as assumed for the counterexample. -/
example : ∃ lib : PodLib ℝ 2 1, IsArgsort lib.argsort ∧
    ∀ C : Matrix (Fin 1) (Fin 1) ℝ, C.IsHermitian → IsEigh C (lib.eigh C) := by
  obtain ⟨lib, -, h, hs, -⟩ := exists_podLib (𝕜 := ℝ) 2 1
  exact ⟨lib, hs, h⟩

end Modred
