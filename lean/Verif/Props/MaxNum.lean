import Verif.Lemmas.MaxNum
import Verif.Props.Methods
import Verif.Props.DmdHandles
import Verif.Props.TlsqrHandles
import Verif.Props.MethodsTls

/-!
# C106: `max_num_eigvals` does what a tolerance between the eigenvalues does
-/

namespace Modred

open Matrix
open scoped ComplexOrder

variable {𝕜 : Type*} [RCLike 𝕜] {n m : Nat}

/-! ### Arrays -/

section Arrays

variable (lib : PodLib 𝕜 n m) (eig : ∀ {r : Nat}, Matrix (Fin r) (Fin r) 𝕜 → EigOut 𝕜 r) (weights : Option (NdArray 𝕜))
  (ws : Weights 𝕜) (dws : DirectWeights 𝕜) (t s : ℝ) (rtol : Option ℝ) (k : Nat) (idx : Option (List Int))

theorem dmdSnapsRest_max {C : Matrix (Fin m) (Fin m) 𝕜} (K : Matrix (Fin m) (Fin m) 𝕜) (X Y : Matrix (Fin n) (Fin m) 𝕜)
    (hs : IsArgsort lib.argsort) (hr : ∀ t ∈ rtol, 0 ≤ t) (hlib : ∀ C, C.IsHermitian → IsEigh C (lib.eigh C)) (hC : C.PosSemidef)
    (hts : t ≤ s) (hk : EigenvaluesAbove C s k) :
    dmdSnapsRest lib eig C K X Y idx (some t) rtol (some k) = dmdSnapsRest lib eig C K X Y idx (some s) rtol none := by
  unfold dmdSnapsRest
  rw [dmdEigendecomp_max eig K hs hr hC (hlib C hC.isHermitian) hts hk]

/-- **C106.** The snapshot method for pairs of vectors: if exactly `k` eigenvalues of the correlation array are larger than `s`,
which is at least the absolute tolerance, then `max_num_eigvals = k` gives what the tolerance `s` gives. -/
theorem C106_dmd_snaps_pairs (hs : IsArgsort lib.argsort) (hr : ∀ t ∈ rtol, 0 ≤ t)
    (hlib : ∀ C, C.IsHermitian → IsEigh C (lib.eigh C)) (hws : arraysInit weights = .ok ws) (hfit : ws.Fits n)
    (hW : (ws.matrix n).PosSemidef) (X Y : Matrix (Fin n) (Fin m) 𝕜) (hts : t ≤ s)
    (hk : EigenvaluesAbove (Xᴴ * ws.matrix n * X) s k) :
    dmdSnapsPairs lib eig X ⟨n, m, Y⟩ idx weights (some t) rtol (some k) =
      dmdSnapsPairs lib eig X ⟨n, m, Y⟩ idx weights (some s) rtol none := by
  unfold dmdSnapsPairs
  rw [hws]
  simp only [and_self, dite_true]
  unfold symmIpArray
  rw [C45_formula ws hfit]
  dsimp only
  rw [C45_formula ws hfit]
  dsimp only
  rw [dmdSnapsRest_max lib eig t s rtol k idx _ _ _ hs hr hlib (hW.conjTranspose_mul_mul_same X) hts hk]

/-- **C106.** The snapshot method for sequential data. -/
theorem C106_dmd_snaps_sequential (hs : IsArgsort lib.argsort) (hr : ∀ t ∈ rtol, 0 ≤ t)
    (hlib : ∀ C, C.IsHermitian → IsEigh C (lib.eigh C)) (hws : arraysInit weights = .ok ws) (hfit : ws.Fits n)
    (hW : (ws.matrix n).PosSemidef) (Z : Matrix (Fin n) (Fin (m + 1)) 𝕜) (hts : t ≤ s)
    (hk : EigenvaluesAbove ((seqFirst Z)ᴴ * ws.matrix n * seqFirst Z) s k) :
    dmdSnapsSeq lib eig Z idx weights (some t) rtol (some k) = dmdSnapsSeq lib eig Z idx weights (some s) rtol none := by
  unfold dmdSnapsSeq
  rw [hws]
  dsimp only
  unfold symmIpArray
  rw [C45_formula ws hfit]
  dsimp only
  rw [gram_slices]
  rw [dmdSnapsRest_max lib eig t s rtol k idx _ _ _ hs hr hlib (hW.conjTranspose_mul_mul_same _) hts hk]

/-- **C106.** The direct method for pairs of vectors; its tolerances are those of singular values. -/
theorem C106_dmd_direct_pairs (hr : ∀ t ∈ rtol, 0 ≤ t) (hlib : ∀ B, IsSvd B (lib.svd B)) (hfit : dws.Fits n)
    (hchol : ∀ p q w, dws = .d2 p q w → IsCholesky lib.cholesky (dws.matrix n)) (X Y : Matrix (Fin n) (Fin m) 𝕜) (hs : 0 ≤ s)
    (hts : t ≤ s) (hk : EigenvaluesAbove (Xᴴ * dws.matrix n * X) (s ^ 2) k) :
    dmdDirectPairs lib eig X ⟨n, m, Y⟩ idx dws (some t) rtol (some k) =
      dmdDirectPairs lib eig X ⟨n, m, Y⟩ idx dws (some s) rtol none := by
  unfold dmdDirectPairs
  cases hso : directSqrtWeights lib.cholesky dws with
  | error e => rfl
  | ok so =>
    simp only [and_self, dite_true]
    obtain ⟨G, hG, hdata⟩ := directSqrtWeights_ok lib.cholesky dws hfit hchol so hso
    refine dmdDirectRest_max eig _ _ _ idx hr (hlib _) hs hts ?_
    rw [hdata, conjTranspose_mul, Matrix.mul_assoc, ← Matrix.mul_assoc Gᴴ, hG, ← Matrix.mul_assoc]
    exact hk

/-- **C106.** The direct method for sequential data. -/
theorem C106_dmd_direct_sequential (hr : ∀ t ∈ rtol, 0 ≤ t) (hlib : ∀ B, IsSvd B (lib.svd B)) (hfit : dws.Fits n)
    (hchol : ∀ p q w, dws = .d2 p q w → IsCholesky lib.cholesky (dws.matrix n)) (Z : Matrix (Fin n) (Fin (m + 1)) 𝕜) (hs : 0 ≤ s)
    (hts : t ≤ s) (hk : EigenvaluesAbove ((seqFirst Z)ᴴ * dws.matrix n * seqFirst Z) (s ^ 2) k) :
    dmdDirectSeq lib eig Z idx dws (some t) rtol (some k) = dmdDirectSeq lib eig Z idx dws (some s) rtol none := by
  unfold dmdDirectSeq
  cases hso : directSqrtWeights lib.cholesky dws with
  | error e => rfl
  | ok so =>
    dsimp only
    obtain ⟨G, hG, hdata⟩ := directSqrtWeights_ok lib.cholesky dws hfit hchol so hso
    refine dmdDirectRest_max eig _ _ _ idx hr (hlib _) hs hts ?_
    rw [hdata, show (G * Z).submatrix id Fin.castSucc = G * seqFirst Z from rfl, conjTranspose_mul, Matrix.mul_assoc,
      ← Matrix.mul_assoc Gᴴ, hG, ← Matrix.mul_assoc]
    exact hk

end Arrays

/-! ### Handles -/

section Handles

variable {E : Type*} (lib : DmdLib 𝕜) (ip : E → E → 𝕜) (g : DmdHandles 𝕜 E) (t s : ℝ) (rtol : Option ℝ) (k : Nat)

theorem computeEigendecomp_max (hlib : lib.Lawful) (hC : ∀ a, g.arrays = some a → a.corr.PosSemidef ∧ EigenvaluesAbove a.corr s k)
    (hts : t ≤ s) : g.computeEigendecomp lib (some t) rtol (some k) = g.computeEigendecomp lib (some s) rtol none := by
  unfold DmdHandles.computeEigendecomp
  cases ha : g.arrays with
  | none => rfl
  | some a =>
    obtain ⟨h1, h2⟩ := hC a ha
    dsimp only
    rw [dmdEigendecomp_max lib.eig _ hlib.argsort (by simp) h1 (hlib.eigh _ h1.isHermitian) hts h2]

/-- **C106.** `DMDHandles` with advanced vectors. -/
theorem C106_dmd_handles_pairs (hlib : lib.Lawful) (vecs adv : List E) (hC : (gramOf ip vecs.get).PosSemidef) (hts : t ≤ s)
    (hk : EigenvaluesAbove (gramOf ip vecs.get) s k) :
    g.computeDecomp lib ip vecs (some adv) (some t) rtol (some k) = g.computeDecomp lib ip vecs (some adv) (some s) rtol none := by
  unfold DmdHandles.computeDecomp
  dsimp only
  split
  · split
    · rfl
    · refine computeEigendecomp_max lib _ t s rtol k hlib (fun a ha => ?_) hts
      cases ha
      exact ⟨hC, hk⟩
  · rfl

/-- **C106.** `DMDHandles` for sequential data. -/
theorem C106_dmd_handles_sequential (hlib : lib.Lawful) (vecs : List E) (hC : (gramOf ip (seqVecs vecs)).PosSemidef) (hts : t ≤ s)
    (hk : EigenvaluesAbove (gramOf ip (seqVecs vecs)) s k) :
    g.computeDecomp lib ip vecs none (some t) rtol (some k) = g.computeDecomp lib ip vecs none (some s) rtol none := by
  unfold DmdHandles.computeDecomp
  dsimp only
  split
  · rfl
  · refine computeEigendecomp_max lib _ t s rtol k hlib (fun a ha => ?_) hts
    cases ha
    exact ⟨hC, hk⟩

end Handles

/-! ### Total-least-squares DMD -/

section Tls

variable (lib : PodLib 𝕜 n m) (eig : ∀ {r : Nat}, Matrix (Fin r) (Fin r) 𝕜 → EigOut 𝕜 r)
  (svd : Matrix (Fin (n + n)) (Fin m) 𝕜 → SvdOut 𝕜 (n + n) m) (weights : Option (NdArray 𝕜))
  (ws : Weights 𝕜) (dws : DirectWeights 𝕜) (t s : ℝ) (rtol : Option ℝ) (k j : Nat) (idx : Option (List Int))

theorem tlsSnapsRest_max {c : TlsCorr 𝕜 m} (X Y : Matrix (Fin n) (Fin m) 𝕜) (hs : IsArgsort lib.argsort) (hr : ∀ t ∈ rtol, 0 ≤ t)
    (hlib : ∀ C, C.IsHermitian → IsEigh C (lib.eigh C)) (hC : c.corr.PosSemidef) (hC' : c.adv.PosSemidef) (h0 : 0 ≤ t) (hts : t ≤ s)
    (hk : EigenvaluesAbove (c.corr + c.adv) s k) {c' : TlsCorr 𝕜 m} {res : TlsResult 𝕜 n m}
    (hres : tlsSnapsRest lib eig c X Y idx (some t) rtol (some k) = .ok (res, c'))
    (hj : EigenvaluesAbove (res.decomp.proj * c.corr * res.decomp.proj) t j)
    (hj' : EigenvaluesAbove (res.decomp.proj * c.corr * res.decomp.proj) s j) :
    tlsSnapsRest lib eig c X Y idx (some s) rtol none = .ok (res, c') := by
  unfold tlsSnapsRest at hres ⊢
  cases hd : tlsEigendecomp lib.eigh lib.argsort eig c.corr c.adv c.cross (some t) rtol none (some k) with
  | error e => rw [hd] at hres; cases hres
  | ok d =>
    rw [hd] at hres
    dsimp only at hres
    have hres2 := hres
    split at hres
    · cases hres
    rename_i r hfin
    cases hres
    have hdr : res.decomp = d := (tlsFinish_ok d c.cross X Y idx res hfin).1
    rw [hdr] at hj hj'
    rw [tlsEigendecomp_max eig c.cross hs hr (by simp) hC hC' hlib h0 hts hk hd hj hj']
    exact hres2

/-- **C106.** The snapshot method for pairs of vectors.  There are two eigendecompositions: the tolerance `s` must also be among
the eigenvalues of the projected correlation array where the absolute tolerance is. -/
theorem C106_tls_snaps_pairs (hs : IsArgsort lib.argsort) (hr : ∀ t ∈ rtol, 0 ≤ t)
    (hlib : ∀ C, C.IsHermitian → IsEigh C (lib.eigh C)) (hws : arraysInit weights = .ok ws) (hfit : ws.Fits n)
    (hW : (ws.matrix n).PosSemidef) (X Y : Matrix (Fin n) (Fin m) 𝕜) (h0 : 0 ≤ t) (hts : t ≤ s)
    (hk : EigenvaluesAbove (Xᴴ * ws.matrix n * X + Yᴴ * ws.matrix n * Y) s k) (res : TlsResult 𝕜 n m) (c : TlsCorr 𝕜 m)
    (hres : tlsSnapsPairs lib eig X ⟨n, m, Y⟩ idx weights (some t) rtol (some k) = .ok (res, c))
    (hj : EigenvaluesAbove (res.decomp.proj * (Xᴴ * ws.matrix n * X) * res.decomp.proj) t j)
    (hj' : EigenvaluesAbove (res.decomp.proj * (Xᴴ * ws.matrix n * X) * res.decomp.proj) s j) :
    tlsSnapsPairs lib eig X ⟨n, m, Y⟩ idx weights (some s) rtol none = .ok (res, c) := by
  unfold tlsSnapsPairs at hres ⊢
  rw [hws] at hres ⊢
  simp only [and_self, dite_true] at hres ⊢
  unfold symmIpArray at hres ⊢
  simp only [C45_formula ws hfit] at hres ⊢
  exact tlsSnapsRest_max lib eig t s rtol k j idx X Y hs hr hlib (hW.conjTranspose_mul_mul_same X) (hW.conjTranspose_mul_mul_same Y)
    h0 hts hk hres hj hj'

/-- **C106.** The snapshot method for sequential data. -/
theorem C106_tls_snaps_sequential (hs : IsArgsort lib.argsort) (hr : ∀ t ∈ rtol, 0 ≤ t)
    (hlib : ∀ C, C.IsHermitian → IsEigh C (lib.eigh C)) (hws : arraysInit weights = .ok ws) (hfit : ws.Fits n)
    (hW : (ws.matrix n).PosSemidef) (Z : Matrix (Fin n) (Fin (m + 1)) 𝕜) (h0 : 0 ≤ t) (hts : t ≤ s)
    (hk : EigenvaluesAbove ((seqFirst Z)ᴴ * ws.matrix n * seqFirst Z + (seqNext Z)ᴴ * ws.matrix n * seqNext Z) s k)
    (res : TlsResult 𝕜 n m) (c : TlsCorr 𝕜 m)
    (hres : tlsSnapsSeq lib eig Z idx weights (some t) rtol (some k) = .ok (res, c))
    (hj : EigenvaluesAbove (res.decomp.proj * ((seqFirst Z)ᴴ * ws.matrix n * seqFirst Z) * res.decomp.proj) t j)
    (hj' : EigenvaluesAbove (res.decomp.proj * ((seqFirst Z)ᴴ * ws.matrix n * seqFirst Z) * res.decomp.proj) s j) :
    tlsSnapsSeq lib eig Z idx weights (some s) rtol none = .ok (res, c) := by
  unfold tlsSnapsSeq at hres ⊢
  rw [hws] at hres ⊢
  dsimp only at hres ⊢
  unfold symmIpArray at hres ⊢
  simp only [C45_formula ws hfit, gram_slices] at hres ⊢
  exact tlsSnapsRest_max lib eig t s rtol k j idx _ _ hs hr hlib (hW.conjTranspose_mul_mul_same _) (hW.conjTranspose_mul_mul_same _)
    h0 hts hk hres hj hj'

theorem tlsDirectRest_max (hr : ∀ t ∈ rtol, 0 ≤ t) (hlib : ∀ B, IsSvd B (lib.svd B)) (hsvd : ∀ B, IsSvd B (svd B))
    (hfit : dws.Fits n) (hchol : ∀ p q w, dws = .d2 p q w → IsCholesky lib.cholesky (dws.matrix n))
    {so : Option (Matrix (Fin n) (Fin n) 𝕜)} (hso : directSqrtWeights lib.cholesky dws = .ok so) (X Y : Matrix (Fin n) (Fin m) 𝕜)
    (h0 : 0 ≤ t) (hts : t ≤ s) (hk : EigenvaluesAbove (Xᴴ * dws.matrix n * X + Yᴴ * dws.matrix n * Y) (s ^ 2) k)
    {res : TlsResult 𝕜 n m} (hres : tlsDirectRest lib eig svd so X Y idx dws (some t) rtol (some k) = .ok res)
    (hj : EigenvaluesAbove (res.decomp.proj * (Xᴴ * dws.matrix n * X) * res.decomp.proj) (t ^ 2) j)
    (hj' : EigenvaluesAbove (res.decomp.proj * (Xᴴ * dws.matrix n * X) * res.decomp.proj) (s ^ 2) j) :
    tlsDirectRest lib eig svd so X Y idx dws (some s) rtol none = .ok res := by
  obtain ⟨G, hG, hdata⟩ := directSqrtWeights_ok lib.cholesky dws hfit hchol so hso
  have hsum : (stackRows (weightData so X) (weightData so Y))ᴴ * stackRows (weightData so X) (weightData so Y) =
      Xᴴ * dws.matrix n * X + Yᴴ * dws.matrix n * Y := by
    rw [stackRows_gram, hdata, hdata, ← hG]
    simp only [conjTranspose_mul, Matrix.mul_assoc]
  rw [← hsum] at hk
  have h1 := utilSvd_max (t := t) (hsvd _) hr hts (hk.svd (h0.trans hts) (hsvd _))
  unfold tlsDirectRest at hres ⊢
  rw [← h1]
  cases ha : utilSvd svd (stackRows (weightData so X) (weightData so Y)) (some t) rtol with
  | error e => rw [ha] at hres; cases hres
  | ok a =>
    rw [ha] at hres
    have hred : (Except.ok a : Except Err (Svd 𝕜 (n + n) m)).map (·.truncate (some k)) = Except.ok (a.truncate (some k)) := rfl
    rw [hred]
    dsimp only at hres ⊢
    rw [show (a.truncate (some k)).truncate none = a.truncate (some k) from rfl]
    have hle := svd_truncate_r a k
    generalize a.truncate (some k) = a' at hres hle ⊢
    have hproj : res.decomp.proj = a'.V * a'.Vᴴ := by
      split at hres
      · cases hres
      · cases hres
        rfl
    rw [hproj] at hj hj'
    have hinner : dmdDirectPairs lib eig (X * (a'.V * a'.Vᴴ)) ⟨n, m, Y * (a'.V * a'.Vᴴ)⟩ idx dws (some t) rtol (some k) =
        dmdDirectPairs lib eig (X * (a'.V * a'.Vᴴ)) ⟨n, m, Y * (a'.V * a'.Vᴴ)⟩ idx dws (some s) rtol none := by
      unfold dmdDirectPairs
      rw [hso]
      simp only [and_self, dite_true]
      have hB : (weightData so (X * (a'.V * a'.Vᴴ)))ᴴ * weightData so (X * (a'.V * a'.Vᴴ)) =
          a'.V * a'.Vᴴ * (Xᴴ * dws.matrix n * X) * (a'.V * a'.Vᴴ) := by
        rw [hdata, ← hG]
        simp only [conjTranspose_mul, conjTranspose_conjTranspose, Matrix.mul_assoc]
      rw [← hB] at hj hj'
      refine dmdDirectRest_rank eig _ _ _ idx hr (hlib _) h0 hts hj hj' (N := G * X * a'.V) (V := a'.V) ?_ hle
      rw [hdata]
      simp only [Matrix.mul_assoc]
    rw [← hinner]
    exact hres

/-- **C106.** The direct method for pairs of vectors. -/
theorem C106_tls_direct_pairs (hr : ∀ t ∈ rtol, 0 ≤ t) (hlib : ∀ B, IsSvd B (lib.svd B)) (hsvd : ∀ B, IsSvd B (svd B))
    (hfit : dws.Fits n) (hchol : ∀ p q w, dws = .d2 p q w → IsCholesky lib.cholesky (dws.matrix n))
    (X Y : Matrix (Fin n) (Fin m) 𝕜) (h0 : 0 ≤ t) (hts : t ≤ s)
    (hk : EigenvaluesAbove (Xᴴ * dws.matrix n * X + Yᴴ * dws.matrix n * Y) (s ^ 2) k) (res : TlsResult 𝕜 n m)
    (hres : tlsDirectPairs lib eig svd X ⟨n, m, Y⟩ idx dws (some t) rtol (some k) = .ok res)
    (hj : EigenvaluesAbove (res.decomp.proj * (Xᴴ * dws.matrix n * X) * res.decomp.proj) (t ^ 2) j)
    (hj' : EigenvaluesAbove (res.decomp.proj * (Xᴴ * dws.matrix n * X) * res.decomp.proj) (s ^ 2) j) :
    tlsDirectPairs lib eig svd X ⟨n, m, Y⟩ idx dws (some s) rtol none = .ok res := by
  unfold tlsDirectPairs at hres ⊢
  cases hso : directSqrtWeights lib.cholesky dws with
  | error e => rw [hso] at hres; cases hres
  | ok so =>
    rw [hso] at hres
    simp only [and_self, dite_true] at hres ⊢
    exact tlsDirectRest_max lib eig svd dws t s rtol k j idx hr hlib hsvd hfit hchol hso X Y h0 hts hk hres hj hj'

/-- **C106.** The direct method for sequential data. -/
theorem C106_tls_direct_sequential (hr : ∀ t ∈ rtol, 0 ≤ t) (hlib : ∀ B, IsSvd B (lib.svd B)) (hsvd : ∀ B, IsSvd B (svd B))
    (hfit : dws.Fits n) (hchol : ∀ p q w, dws = .d2 p q w → IsCholesky lib.cholesky (dws.matrix n))
    (Z : Matrix (Fin n) (Fin (m + 1)) 𝕜) (h0 : 0 ≤ t) (hts : t ≤ s)
    (hk : EigenvaluesAbove ((seqFirst Z)ᴴ * dws.matrix n * seqFirst Z + (seqNext Z)ᴴ * dws.matrix n * seqNext Z) (s ^ 2) k)
    (res : TlsResult 𝕜 n m) (hres : tlsDirectSeq lib eig svd Z idx dws (some t) rtol (some k) = .ok res)
    (hj : EigenvaluesAbove (res.decomp.proj * ((seqFirst Z)ᴴ * dws.matrix n * seqFirst Z) * res.decomp.proj) (t ^ 2) j)
    (hj' : EigenvaluesAbove (res.decomp.proj * ((seqFirst Z)ᴴ * dws.matrix n * seqFirst Z) * res.decomp.proj) (s ^ 2) j) :
    tlsDirectSeq lib eig svd Z idx dws (some s) rtol none = .ok res := by
  unfold tlsDirectSeq at hres ⊢
  cases hso : directSqrtWeights lib.cholesky dws with
  | error e => rw [hso] at hres; cases hres
  | ok so =>
    rw [hso] at hres
    dsimp only at hres ⊢
    exact tlsDirectRest_max lib eig svd dws t s rtol k j idx hr hlib hsvd hfit hchol hso _ _ h0 hts hk hres hj hj'

end Tls

section TlsHandles

variable {E : Type*} (lib : DmdLib 𝕜) (ip : E → E → 𝕜) (g g' : TlsHandles 𝕜 E) (t s : ℝ) (rtol : Option ℝ) (k j : Nat)

theorem tlsComputeEigendecomp_max (hlib : lib.Lawful) (a : TlsArrays 𝕜) (ha : g.arrays = some a) (hC : a.c.corr.PosSemidef)
    (hC' : a.c.adv.PosSemidef) (h0 : 0 ≤ t) (hts : t ≤ s) (hk : EigenvaluesAbove (a.c.corr + a.c.adv) s k)
    (hrun : g.computeEigendecomp lib (some t) rtol (some k) = (.ok (), g')) (d : TlsDecomp 𝕜 a.m) (hd : g'.decomp = some ⟨a.m, d⟩)
    (hj : EigenvaluesAbove (d.proj * a.c.corr * d.proj) t j) (hj' : EigenvaluesAbove (d.proj * a.c.corr * d.proj) s j) :
    g.computeEigendecomp lib (some s) rtol none = (.ok (), g') := by
  unfold TlsHandles.computeEigendecomp at hrun ⊢
  rw [ha] at hrun ⊢
  dsimp only at hrun ⊢
  cases he : tlsEigendecomp lib.eigh lib.argsort lib.eig a.c.corr a.c.adv a.c.cross (some t) none none (some k) with
  | error e => rw [he] at hrun; cases hrun
  | ok d' =>
    rw [he] at hrun
    dsimp only at hrun
    cases hrun
    cases hd
    rw [tlsEigendecomp_max lib.eig a.c.cross hlib.argsort (by simp) (by simp) hC hC' (fun C h => hlib.eigh C h) h0 hts hk he hj hj']

/-- **C106.** `TLSqrDMDHandles` with advanced vectors. -/
theorem C106_tls_handles_pairs (hlib : lib.Lawful) (vecs adv : List E) (hlen : vecs.length = adv.length)
    (hC : (gramOf ip vecs.get).PosSemidef) (hC' : (gramOf ip fun i => adv.get (Fin.cast hlen i)).PosSemidef) (h0 : 0 ≤ t) (hts : t ≤ s)
    (hk : EigenvaluesAbove (gramOf ip vecs.get + gramOf ip fun i => adv.get (Fin.cast hlen i)) s k)
    (hrun : g.computeDecomp lib ip vecs (some adv) (some t) rtol (some k) = (.ok (), g')) (d : TlsDecomp 𝕜 vecs.length)
    (hd : g'.decomp = some ⟨vecs.length, d⟩) (hj : EigenvaluesAbove (d.proj * gramOf ip vecs.get * d.proj) t j)
    (hj' : EigenvaluesAbove (d.proj * gramOf ip vecs.get * d.proj) s j) :
    g.computeDecomp lib ip vecs (some adv) (some s) rtol none = (.ok (), g') := by
  unfold TlsHandles.computeDecomp at hrun ⊢
  dsimp only at hrun ⊢
  rw [dif_pos hlen] at hrun ⊢
  split at hrun
  · cases hrun
  · rename_i hne
    rw [if_neg hne]
    exact tlsComputeEigendecomp_max lib _ g' t s rtol k j hlib _ rfl hC hC' h0 hts hk hrun d hd hj hj'

/-- **C106.** `TLSqrDMDHandles` for sequential data. -/
theorem C106_tls_handles_sequential (hlib : lib.Lawful) (vecs : List E) (hC : (gramOf ip (seqVecs vecs)).PosSemidef)
    (hC' : (gramOf ip (seqAdvVecs vecs)).PosSemidef) (h0 : 0 ≤ t) (hts : t ≤ s)
    (hk : EigenvaluesAbove (gramOf ip (seqVecs vecs) + gramOf ip (seqAdvVecs vecs)) s k)
    (hrun : g.computeDecomp lib ip vecs none (some t) rtol (some k) = (.ok (), g')) (d : TlsDecomp 𝕜 (vecs.length - 1))
    (hd : g'.decomp = some ⟨vecs.length - 1, d⟩) (hj : EigenvaluesAbove (d.proj * gramOf ip (seqVecs vecs) * d.proj) t j)
    (hj' : EigenvaluesAbove (d.proj * gramOf ip (seqVecs vecs) * d.proj) s j) :
    g.computeDecomp lib ip vecs none (some s) rtol none = (.ok (), g') := by
  unfold TlsHandles.computeDecomp at hrun ⊢
  dsimp only at hrun ⊢
  split at hrun
  · cases hrun
  · rename_i hne
    rw [if_neg hne]
    exact tlsComputeEigendecomp_max lib _ g' t s rtol k j hlib _ rfl hC hC' h0 hts hk hrun d hd hj hj'

end TlsHandles

/-! ### The methods agree -/

section Methods

variable (lib lib' : PodLib 𝕜 n m) (eig eig' : ∀ {r : Nat}, Matrix (Fin r) (Fin r) 𝕜 → EigOut 𝕜 r)
  (weights : Option (NdArray 𝕜)) (ws : Weights 𝕜) (dws : DirectWeights 𝕜) (t s : ℝ) (rtol : Option ℝ) (k : Nat)
  (idx idx' : Option (List Int))

/-- **C101.** The snapshot method and the direct method for pairs of vectors, with `max_num_eigvals`. -/
theorem C101_dmd_pairs_max (hs : IsArgsort lib.argsort) (hr : ∀ t ∈ rtol, 0 ≤ t) (hws : arraysInit weights = .ok ws)
    (hfit : ws.Fits n) (hdfit : dws.Fits n) (hsame : ws.matrix n = dws.matrix n)
    (hchol : ∀ p q w, dws = .d2 p q w → IsCholesky lib'.cholesky (dws.matrix n))
    (hlib : ∀ C, C.IsHermitian → IsEigh C (lib.eigh C)) (hlib' : ∀ B, IsSvd B (lib'.svd B)) (X Y : Matrix (Fin n) (Fin m) 𝕜)
    (ht : 0 ≤ t) (hts : t ≤ s) (hk : EigenvaluesAbove (Xᴴ * ws.matrix n * X) (s ^ 2) k)
    (res res' : DmdResult 𝕜 n m) (corr cross : Matrix (Fin m) (Fin m) 𝕜)
    (hres : dmdSnapsPairs lib eig X ⟨n, m, Y⟩ idx weights (some (t ^ 2)) (rtol.map (· ^ 2)) (some k) = .ok (res, corr, cross))
    (hres' : dmdDirectPairs lib' eig' X ⟨n, m, Y⟩ idx' dws (some t) rtol (some k) = .ok res')
    (heig : EigOfReduced eig (ws.matrix n) X Y res.decomp) (heig' : EigOfReduced eig' (dws.matrix n) X Y res'.decomp)
    (hinj : Function.Injective res.decomp.eigvals) (hinj' : Function.Injective res'.decomp.eigvals) :
    ∃ exact proj adjoint exact' proj' adjoint',
      (Chosen exact idx res.exactModes ∧ Chosen proj idx res.projModes ∧ Chosen adjoint idx res.adjointModes) ∧
      (Chosen exact' idx' res'.exactModes ∧ Chosen proj' idx' res'.projModes ∧ Chosen adjoint' idx' res'.adjointModes) ∧
      SameDmd 1 1 1 res.decomp.eigvals res'.decomp.eigvals exact proj adjoint exact' proj' adjoint'
        res.projCoeffs res.advProjCoeffs res'.projCoeffs res'.advProjCoeffs := by
  have hr2 : ∀ t ∈ rtol.map (· ^ 2), 0 ≤ t := by
    intro u hu
    obtain ⟨v, -, rfl⟩ := Option.map_eq_some_iff.mp hu
    exact sq_nonneg v
  have hW : (ws.matrix n).PosSemidef := hsame ▸ (directWeights_posDef dws hdfit).posSemidef
  rw [C106_dmd_snaps_pairs lib eig weights ws _ _ _ k idx hs hr2 hlib hws hfit hW X Y (pow_le_pow_left₀ ht hts 2) hk] at hres
  rw [C106_dmd_direct_pairs lib' eig' dws _ _ _ k idx' hr hlib' hdfit hchol X Y (ht.trans hts) hts (hsame ▸ hk)] at hres'
  exact C101_dmd_pairs lib lib' eig eig' weights ws dws s rtol idx idx' (ht.trans hts) hr hs hws hfit hdfit hsame hchol hlib hlib' X Y
    res res' corr cross hres hres' heig heig' hinj hinj'

/-- **C101.** The snapshot method and the direct method for sequential data, with `max_num_eigvals`. -/
theorem C101_dmd_sequential_max (hs : IsArgsort lib.argsort) (hr : ∀ t ∈ rtol, 0 ≤ t) (hws : arraysInit weights = .ok ws)
    (hfit : ws.Fits n) (hdfit : dws.Fits n) (hsame : ws.matrix n = dws.matrix n)
    (hchol : ∀ p q w, dws = .d2 p q w → IsCholesky lib'.cholesky (dws.matrix n))
    (hlib : ∀ C, C.IsHermitian → IsEigh C (lib.eigh C)) (hlib' : ∀ B, IsSvd B (lib'.svd B)) (Z : Matrix (Fin n) (Fin (m + 1)) 𝕜)
    (ht : 0 ≤ t) (hts : t ≤ s) (hk : EigenvaluesAbove ((seqFirst Z)ᴴ * ws.matrix n * seqFirst Z) (s ^ 2) k)
    (res res' : DmdResult 𝕜 n m) (corr cross : Matrix (Fin m) (Fin m) 𝕜)
    (hres : dmdSnapsSeq lib eig Z idx weights (some (t ^ 2)) (rtol.map (· ^ 2)) (some k) = .ok (res, corr, cross))
    (hres' : dmdDirectSeq lib' eig' Z idx' dws (some t) rtol (some k) = .ok res')
    (heig : EigOfReduced eig (ws.matrix n) (seqFirst Z) (seqNext Z) res.decomp)
    (heig' : EigOfReduced eig' (dws.matrix n) (seqFirst Z) (seqNext Z) res'.decomp)
    (hinj : Function.Injective res.decomp.eigvals) (hinj' : Function.Injective res'.decomp.eigvals) :
    ∃ exact proj adjoint exact' proj' adjoint',
      (Chosen exact idx res.exactModes ∧ Chosen proj idx res.projModes ∧ Chosen adjoint idx res.adjointModes) ∧
      (Chosen exact' idx' res'.exactModes ∧ Chosen proj' idx' res'.projModes ∧ Chosen adjoint' idx' res'.adjointModes) ∧
      SameDmd 1 1 1 res.decomp.eigvals res'.decomp.eigvals exact proj adjoint exact' proj' adjoint'
        res.projCoeffs res.advProjCoeffs res'.projCoeffs res'.advProjCoeffs := by
  have hr2 : ∀ t ∈ rtol.map (· ^ 2), 0 ≤ t := by
    intro u hu
    obtain ⟨v, -, rfl⟩ := Option.map_eq_some_iff.mp hu
    exact sq_nonneg v
  have hW : (ws.matrix n).PosSemidef := hsame ▸ (directWeights_posDef dws hdfit).posSemidef
  rw [C106_dmd_snaps_sequential lib eig weights ws _ _ _ k idx hs hr2 hlib hws hfit hW Z (pow_le_pow_left₀ ht hts 2) hk] at hres
  rw [C106_dmd_direct_sequential lib' eig' dws _ _ _ k idx' hr hlib' hdfit hchol Z (ht.trans hts) hts (hsame ▸ hk)] at hres'
  exact C101_dmd_sequential lib lib' eig eig' weights ws dws s rtol idx idx' (ht.trans hts) hr hs hws hfit hdfit hsame hchol hlib hlib' Z
    res res' corr cross hres hres' heig heig' hinj hinj'

end Methods

section

variable (lib lib' : PodLib 𝕜 n m) (eig eig' : ∀ {r : Nat}, Matrix (Fin r) (Fin r) 𝕜 → EigOut 𝕜 r)
  (svd : Matrix (Fin (n + n)) (Fin m) 𝕜 → SvdOut 𝕜 (n + n) m) (weights : Option (NdArray 𝕜)) (ws : Weights 𝕜)
  (dws : DirectWeights 𝕜) (t s : ℝ) (k j j' : Nat) (idx idx' : Option (List Int))

/-- **C101.** The methods of total-least-squares DMD for pairs, with `max_num_eigvals`. -/
theorem C101_tls_pairs_max (hs : IsArgsort lib.argsort) (hws : arraysInit weights = .ok ws)
    (hfit : ws.Fits n) (hdfit : dws.Fits n) (hsame : ws.matrix n = dws.matrix n)
    (hchol : ∀ p q w, dws = .d2 p q w → IsCholesky lib'.cholesky (dws.matrix n))
    (hlib : ∀ C, C.IsHermitian → IsEigh C (lib.eigh C)) (hlib' : ∀ B, IsSvd B (lib'.svd B)) (hsvd : ∀ B, IsSvd B (svd B))
    (X Y : Matrix (Fin n) (Fin m) 𝕜) (ht : 0 ≤ t) (hts : t ≤ s)
    (hk : EigenvaluesAbove (Xᴴ * ws.matrix n * X + Yᴴ * ws.matrix n * Y) (s ^ 2) k)
    (res res' : TlsResult 𝕜 n m) (c : TlsCorr 𝕜 m)
    (hres : tlsSnapsPairs lib eig X ⟨n, m, Y⟩ idx weights (some (t ^ 2)) none (some k) = .ok (res, c))
    (hres' : tlsDirectPairs lib' eig' svd X ⟨n, m, Y⟩ idx' dws (some t) none (some k) = .ok res')
    (hj : EigenvaluesAbove (res.decomp.proj * (Xᴴ * ws.matrix n * X) * res.decomp.proj) (t ^ 2) j)
    (hjs : EigenvaluesAbove (res.decomp.proj * (Xᴴ * ws.matrix n * X) * res.decomp.proj) (s ^ 2) j)
    (hj' : EigenvaluesAbove (res'.decomp.proj * (Xᴴ * dws.matrix n * X) * res'.decomp.proj) (t ^ 2) j')
    (hjs' : EigenvaluesAbove (res'.decomp.proj * (Xᴴ * dws.matrix n * X) * res'.decomp.proj) (s ^ 2) j')
    (heig : EigOfProjected eig (Xᴴ * ws.matrix n * Y) res.decomp)
    (heig' : EigOfProjected eig' (Xᴴ * dws.matrix n * Y) res'.decomp)
    (hinj : Function.Injective res.decomp.d.eigvals) (hinj' : Function.Injective res'.decomp.d.eigvals) :
    res'.decomp.proj = res.decomp.proj ∧ ∃ exact proj adjoint exact' proj' adjoint',
      (Chosen exact idx res.exactModes ∧ Chosen proj idx res.projModes ∧ Chosen adjoint idx res.adjointModes) ∧
      (Chosen exact' idx' res'.exactModes ∧ Chosen proj' idx' res'.projModes ∧ Chosen adjoint' idx' res'.adjointModes) ∧
      SameDmd 1 1 1 res.decomp.d.eigvals res'.decomp.d.eigvals exact proj adjoint exact' proj' adjoint'
        res.projCoeffs res.advProjCoeffs res'.projCoeffs res'.advProjCoeffs := by
  have hW : (ws.matrix n).PosSemidef := hsame ▸ (directWeights_posDef dws hdfit).posSemidef
  have h := C106_tls_snaps_pairs lib eig weights ws _ _ none k j idx hs (by simp) hlib hws hfit hW X Y (sq_nonneg t)
    (pow_le_pow_left₀ ht hts 2) hk res c hres hj hjs
  have h' := C106_tls_direct_pairs lib' eig' svd dws t s none k j' idx' (by simp) hlib' hsvd hdfit hchol X Y ht hts
    (hsame ▸ hk) res' hres' hj' hjs'
  exact C101_tls_pairs lib lib' eig eig' svd weights ws dws s idx idx' (ht.trans hts) hs hws hfit hdfit hsame hchol hlib hlib' hsvd
    X Y res res' c h h' heig heig' hinj hinj'

/-- **C101.** The methods of total-least-squares DMD for sequential data, with `max_num_eigvals`. -/
theorem C101_tls_sequential_max (hs : IsArgsort lib.argsort) (hws : arraysInit weights = .ok ws)
    (hfit : ws.Fits n) (hdfit : dws.Fits n) (hsame : ws.matrix n = dws.matrix n)
    (hchol : ∀ p q w, dws = .d2 p q w → IsCholesky lib'.cholesky (dws.matrix n))
    (hlib : ∀ C, C.IsHermitian → IsEigh C (lib.eigh C)) (hlib' : ∀ B, IsSvd B (lib'.svd B)) (hsvd : ∀ B, IsSvd B (svd B))
    (Z : Matrix (Fin n) (Fin (m + 1)) 𝕜) (ht : 0 ≤ t) (hts : t ≤ s)
    (hk : EigenvaluesAbove ((seqFirst Z)ᴴ * ws.matrix n * seqFirst Z + (seqNext Z)ᴴ * ws.matrix n * seqNext Z) (s ^ 2) k)
    (res res' : TlsResult 𝕜 n m) (c : TlsCorr 𝕜 m)
    (hres : tlsSnapsSeq lib eig Z idx weights (some (t ^ 2)) none (some k) = .ok (res, c))
    (hres' : tlsDirectSeq lib' eig' svd Z idx' dws (some t) none (some k) = .ok res')
    (hj : EigenvaluesAbove (res.decomp.proj * ((seqFirst Z)ᴴ * ws.matrix n * seqFirst Z) * res.decomp.proj) (t ^ 2) j)
    (hjs : EigenvaluesAbove (res.decomp.proj * ((seqFirst Z)ᴴ * ws.matrix n * seqFirst Z) * res.decomp.proj) (s ^ 2) j)
    (hj' : EigenvaluesAbove (res'.decomp.proj * ((seqFirst Z)ᴴ * dws.matrix n * seqFirst Z) * res'.decomp.proj) (t ^ 2) j')
    (hjs' : EigenvaluesAbove (res'.decomp.proj * ((seqFirst Z)ᴴ * dws.matrix n * seqFirst Z) * res'.decomp.proj) (s ^ 2) j')
    (heig : EigOfProjected eig ((seqFirst Z)ᴴ * ws.matrix n * seqNext Z) res.decomp)
    (heig' : EigOfProjected eig' ((seqFirst Z)ᴴ * dws.matrix n * seqNext Z) res'.decomp)
    (hinj : Function.Injective res.decomp.d.eigvals) (hinj' : Function.Injective res'.decomp.d.eigvals) :
    res'.decomp.proj = res.decomp.proj ∧ ∃ exact proj adjoint exact' proj' adjoint',
      (Chosen exact idx res.exactModes ∧ Chosen proj idx res.projModes ∧ Chosen adjoint idx res.adjointModes) ∧
      (Chosen exact' idx' res'.exactModes ∧ Chosen proj' idx' res'.projModes ∧ Chosen adjoint' idx' res'.adjointModes) ∧
      SameDmd 1 1 1 res.decomp.d.eigvals res'.decomp.d.eigvals exact proj adjoint exact' proj' adjoint'
        res.projCoeffs res.advProjCoeffs res'.projCoeffs res'.advProjCoeffs := by
  have hW : (ws.matrix n).PosSemidef := hsame ▸ (directWeights_posDef dws hdfit).posSemidef
  have h := C106_tls_snaps_sequential lib eig weights ws _ _ none k j idx hs (by simp) hlib hws hfit hW Z (sq_nonneg t)
    (pow_le_pow_left₀ ht hts 2) hk res c hres hj hjs
  have h' := C106_tls_direct_sequential lib' eig' svd dws t s none k j' idx' (by simp) hlib' hsvd hdfit hchol Z ht hts
    (hsame ▸ hk) res' hres' hj' hjs'
  exact C101_tls_sequential lib lib' eig eig' svd weights ws dws s idx idx' (ht.trans hts) hs hws hfit hdfit hsame hchol hlib hlib' hsvd
    Z res res' c h h' heig heig' hinj hinj'

end

/-! ### Examples -/

theorem eigenvaluesAbove_diagonal {m : Nat} (w : Fin m → ℝ) (s : ℝ) (k : Nat) (hk : (Finset.univ.filter fun i => s < w i).card = k) :
    EigenvaluesAbove (diagonal w) s k := by
  have hw : (diagonal w).IsHermitian := isHermitian_diagonal _
  obtain ⟨o, ho, hwo⟩ := exists_isEigh_eigenvalues hw
  refine ⟨hw, ?_⟩
  rw [← hwo, ← hk]
  have h1 : IsEigh (diagonal w) (⟨w, 1⟩ : EighOut ℝ m) := ⟨by simp, by simp⟩
  exact eigh_count (s := 1) (Q := 1) h1 ho (by simp) (by simp) _ _ fun x => by rw [one_mul]

/-- Two vectors whose correlation array has the eigenvalues 4 and 1. -/
def exampleTwo : Matrix (Fin 2) (Fin 2) ℝ := diagonal ![2, 1]

theorem exampleTwo_gram : exampleTwoᴴ * Weights.matrix 2 (Weights.none : Weights ℝ) * exampleTwo = diagonal ![4, 1] := by
  unfold exampleTwo Weights.matrix
  rw [Matrix.mul_one, diagonal_conjTranspose, diagonal_mul_diagonal]
  congr 1
  ext i
  fin_cases i <;> norm_num

theorem exampleTwo_above (s : ℝ) (h1 : 1 ≤ s) (h4 : s < 4) : EigenvaluesAbove (diagonal ![(4 : ℝ), 1]) s 1 := by
  refine eigenvaluesAbove_diagonal _ _ _ ?_
  rw [Finset.card_filter, Fin.sum_univ_two]
  simp [h4, not_lt.mpr h1]

/-- One eigenvalue at most does what the tolerance 2 does. -/
example : ∃ (lib : PodLib ℝ 2 2) (res : DmdResult ℝ 2 2) (corr cross : Matrix (Fin 2) (Fin 2) ℝ),
    dmdSnapsPairs lib exampleSeqEig exampleTwo ⟨2, 2, !![0, -2; 1, 3]⟩ none none (some (1 / 10)) none (some 1) = .ok (res, corr, cross) ∧
    dmdSnapsPairs lib exampleSeqEig exampleTwo ⟨2, 2, !![0, -2; 1, 3]⟩ none none (some 2) none none = .ok (res, corr, cross) := by
  obtain ⟨lib, -, heigh, hs, -⟩ := exists_podLib (𝕜 := ℝ) 2 2
  obtain ⟨⟨res, corr, cross⟩, hres⟩ := (C26_snaps_no_error lib exampleSeqEig (1 / 10) none (some 1) Nat.zero_lt_two none .none rfl
    trivial 0 exampleTwo !![0, -2; 1, 3]).2
  refine ⟨lib, res, corr, cross, hres, ?_⟩
  rw [← C106_dmd_snaps_pairs lib exampleSeqEig none .none (1 / 10) 2 none 1 none hs (by simp) heigh rfl trivial PosSemidef.one
    exampleTwo _ (by norm_num) (by rw [exampleTwo_gram]; exact exampleTwo_above 2 (by norm_num) (by norm_num))]
  exact hres

/-- The same with the direct method; the singular values are 2 and 1. -/
example : ∃ (lib : PodLib ℝ 2 2) (res : DmdResult ℝ 2 2),
    dmdDirectPairs lib exampleSeqEig exampleTwo ⟨2, 2, !![0, -2; 1, 3]⟩ none .none (some (1 / 10)) none (some 1) = .ok res ∧
    dmdDirectPairs lib exampleSeqEig exampleTwo ⟨2, 2, !![0, -2; 1, 3]⟩ none .none (some 1) none none = .ok res := by
  obtain ⟨lib, hsvd, -, -, -⟩ := exists_podLib (𝕜 := ℝ) 2 2
  obtain ⟨res, hres⟩ := (C26_direct_no_error lib exampleSeqEig (1 / 10) none (some 1) Nat.zero_lt_two (by simp) .none trivial rfl
    (by simp) 0 exampleTwo !![0, -2; 1, 3]).2
  refine ⟨lib, res, hres, ?_⟩
  rw [← C106_dmd_direct_pairs lib exampleSeqEig .none (1 / 10) 1 none 1 none (by simp) hsvd trivial (by simp)
    exampleTwo _ (by norm_num) (by norm_num) (by
      rw [show DirectWeights.matrix 2 (DirectWeights.none : DirectWeights ℝ) = Weights.matrix 2 (Weights.none : Weights ℝ) from rfl,
        exampleTwo_gram]
      exact exampleTwo_above _ (by norm_num) (by norm_num))]
  exact hres

/-- Total-least-squares DMD: the sum of the correlation arrays has the eigenvalues 5 and 5/4, and the projected correlation array
has 4 and 0. -/
example : ∃ (lib : PodLib ℝ 2 2) (res : TlsResult ℝ 2 2) (c : TlsCorr ℝ 2),
    tlsSnapsPairs lib exampleSeqEig exampleTwo ⟨2, 2, diagonal ![1, 1 / 2]⟩ none none (some (1 / 10)) none (some 1) = .ok (res, c) ∧
    tlsSnapsPairs lib exampleSeqEig exampleTwo ⟨2, 2, diagonal ![1, 1 / 2]⟩ none none (some 2) none none = .ok (res, c) := by
  classical
  obtain ⟨lib, -, heigh, hs, -⟩ := exists_podLib (𝕜 := ℝ) 2 2
  obtain ⟨⟨res, c⟩, hres⟩ := (C31_snaps_no_error lib exampleSeqEig (1 / 10) none (some 1) Nat.zero_lt_two none .none rfl
    trivial 0 exampleTwo (diagonal ![1, 1 / 2])).2
  refine ⟨lib, res, c, hres, ?_⟩
  have hY : (diagonal ![(1 : ℝ), 1 / 2])ᴴ * Weights.matrix 2 (Weights.none : Weights ℝ) * diagonal ![1, 1 / 2] = diagonal ![1, 1 / 4] := by
    unfold Weights.matrix
    rw [Matrix.mul_one, diagonal_conjTranspose, diagonal_mul_diagonal]
    congr 1
    ext i
    fin_cases i <;> norm_num
  have hsum : (diagonal ![(4 : ℝ), 1] : Matrix (Fin 2) (Fin 2) ℝ) + diagonal ![1, 1 / 4] = diagonal ![5, 5 / 4] := by
    rw [diagonal_add]
    congr 1
    ext i
    fin_cases i <;> norm_num
  have habove : EigenvaluesAbove (diagonal ![(5 : ℝ), 5 / 4]) 2 1 := by
    refine eigenvaluesAbove_diagonal _ _ _ ?_
    rw [Finset.card_filter, Fin.sum_univ_two]
    norm_num
  have hsemi : (diagonal ![(5 : ℝ), 5 / 4] : Matrix (Fin 2) (Fin 2) ℝ).PosSemidef := by
    refine PosSemidef.diagonal fun i => ?_
    fin_cases i <;> norm_num
  have hproj : res.decomp.proj = diagonal ![1, 0] := by
    obtain ⟨rfl, hd, -⟩ := tlsSnapsPairs_ok lib exampleSeqEig none none .none _ none (some 1) rfl trivial _ _ res c hres
    obtain ⟨⟨a, ha, ha'⟩, -⟩ := tlsEigendecomp_ok _ _ _ _ _ _ _ _ _ _ _ hd
    dsimp only at ha
    rw [exampleTwo_gram, hY, hsum] at ha
    have h1 := utilEigh_max (t := 1 / 10) (rtol := none) hs (by simp) ((heigh _ hsemi.isHermitian).nonneg hsemi) (by norm_num)
      (habove.eigh (heigh _ hsemi.isHermitian))
    rw [ha] at h1
    have h2 := eigh_kept_functions hs (by simp) (a.truncate (some 1)) h1.symm fun _ => (1 : ℝ)
    have h3 : IsEigh (diagonal ![(5 : ℝ), 5 / 4]) (⟨![5, 5 / 4], 1⟩ : EighOut ℝ 2) := ⟨by simp, by simp⟩
    have h4 := eigh_functions (s := 1) (Q := 1) h3 (heigh _ hsemi.isHermitian) (by simp) (by simp)
      (fun x => if 2 < x then (1 : ℝ) else 0) (fun x => if 2 < x then (1 : ℝ) else 0) (by simp)
    have hkept : ∀ i, KeptValue (lib.eigh (diagonal ![(5 : ℝ), 5 / 4])).w 2 none ((lib.eigh (diagonal ![(5 : ℝ), 5 / 4])).w i) ↔
        2 < (lib.eigh (diagonal ![(5 : ℝ), 5 / 4])).w i := by
      intro i
      unfold KeptValue
      have h0 := (heigh _ hsemi.isHermitian).nonneg hsemi
      rw [abs_of_nonneg (h0 i)]
      exact ⟨fun h => h.1, fun h => ⟨h, by simp, fun j hj => absurd hj (not_lt.mpr (h0 j))⟩⟩
    simp only [hkept] at h2
    rw [diagonal_one, Matrix.mul_one, h4] at h2
    have h5 : res.decomp.proj = (a.truncate (some 1)).V * (a.truncate (some 1)).Vᴴ := by
      rw [← ha']
      rfl
    rw [h5, h2]
    simp only [Matrix.one_mul, Matrix.mul_one, conjTranspose_one]
    congr 1
    ext i
    fin_cases i <;> norm_num
  have hPCP : res.decomp.proj * diagonal ![4, 1] * res.decomp.proj = diagonal ![4, 0] := by
    rw [hproj, diagonal_mul_diagonal, diagonal_mul_diagonal]
    congr 1
    ext i
    fin_cases i <;> norm_num
  have hone : ∀ s : ℝ, 0 ≤ s → s < 4 → EigenvaluesAbove (diagonal ![(4 : ℝ), 0]) s 1 := by
    intro s h0 h4
    refine eigenvaluesAbove_diagonal _ _ _ ?_
    rw [Finset.card_filter, Fin.sum_univ_two]
    simp [h4, not_lt.mpr h0]
  refine C106_tls_snaps_pairs lib exampleSeqEig none .none (1 / 10) 2 none 1 1 none hs (by simp) heigh rfl trivial PosSemidef.one
    exampleTwo _ (by norm_num) (by norm_num) ?_ res c hres ?_ ?_
  · rw [exampleTwo_gram, hY, hsum]
    exact habove
  · rw [exampleTwo_gram, hPCP]
    exact hone _ (by norm_num) (by norm_num)
  · rw [exampleTwo_gram, hPCP]
    exact hone _ (by norm_num) (by norm_num)

end Modred
