import Verif.Props.RealData
import Verif.Props.DeterminedTls

/-!
# Real data and total-least-squares dynamic mode decomposition (C107)
-/

namespace Modred

open Matrix
open scoped ComplexOrder

variable {n m : Nat} (lib : PodLib ℂ n m) (eig : ∀ {r : Nat}, Matrix (Fin r) (Fin r) ℂ → EigOut ℂ r) (idx : Option (List Int))
  (t : ℝ) (rtol : Option ℝ) (maxNum : Option Nat)

theorem RealArr.add {p q : Type*} {a b : Matrix p q ℂ} (ha : RealArr a) (hb : RealArr b) : RealArr (a + b) := by
  intro i j
  rw [Matrix.add_apply, Complex.add_im, ha, hb, add_zero]

theorem eighTruncate_real {e : Eigh ℂ m} (hV : RealArr e.V) : RealArr (e.truncate maxNum).V := by
  cases maxNum with
  | none => exact hV
  | some k =>
    unfold Eigh.truncate
    dsimp only
    by_cases h : k < e.r
    · rw [if_pos h]
      exact hV.firstCols
    · rw [if_neg h]
      exact hV

theorem tlsEigendecomp_real (hl : RealLib lib) {C C' K : Matrix (Fin m) (Fin m) ℂ} (hC : RealArr C) (hC' : RealArr C')
    {atol r1 r2 : Option ℝ} {d : TlsDecomp ℂ m} (hd : tlsEigendecomp lib.eigh lib.argsort eig C C' K atol r1 r2 maxNum = .ok d) :
    RealArr d.proj ∧ RealArr d.d.V := by
  unfold tlsEigendecomp at hd
  split at hd
  · cases hd
  rename_i s hs
  have hS := eighTruncate_real maxNum (utilEigh_real (hl.eigh _ (hC.add hC')) hs)
  have hP := hS.mul hS.conjTranspose
  dsimp only at hd
  split at hd
  · cases hd
  rename_i p hp
  have hPC : RealArr (tlsProjCorr (s.truncate maxNum).V C) := by
    unfold tlsProjCorr
    repeat' first
      | exact hS
      | exact hC
      | exact hS.conjTranspose
      | apply RealArr.mul
  have hV := eighTruncate_real maxNum (utilEigh_real (hl.eigh _ hPC) hp)
  split at hd
  · cases hd
  cases hd
  exact ⟨hP, hV⟩

/-- The snapshot method. -/
theorem tls_snaps_pairs_real (hl : RealLib lib) {W : Matrix (Fin n) (Fin n) ℂ} (hW : RealArr W) (hH : W.IsHermitian)
    (ht : 0 ≤ t) (hr : ∀ t ∈ rtol, 0 ≤ t) (hs : IsArgsort lib.argsort) (hlib : ∀ C, C.IsHermitian → IsEigh C (lib.eigh C))
    {X Y : Matrix (Fin n) (Fin m) ℂ} (hX : RealArr X) (hY : RealArr Y) (res : TlsResult ℂ n m)
    (hd : tlsEigendecomp lib.eigh lib.argsort eig (Xᴴ * W * X) (Yᴴ * W * Y) (Xᴴ * W * Y) (some t) rtol none maxNum = .ok res.decomp)
    (ho : TlsOutcome (Xᴴ * W * Y) X Y idx res) (heig : EigOfProjected eig (Xᴴ * W * Y) res.decomp)
    (hinj : Function.Injective res.decomp.d.eigvals) :
    RealArr res.decomp.proj ∧ ∃ exact proj adjoint σ c,
      (Chosen exact idx res.exactModes ∧ Chosen proj idx res.projModes ∧ Chosen adjoint idx res.adjointModes) ∧
      ConjugatePairs res.decomp.d.eigvals exact proj adjoint res.projCoeffs res.advProjCoeffs σ c := by
  obtain ⟨hP, hV⟩ := tlsEigendecomp_real lib eig maxNum hl ((hX.conjTranspose.mul hW).mul hX)
    ((hY.conjTranspose.mul hW).mul hY) hd
  obtain ⟨hc, hLR⟩ := tlsEigendecomp_core _ _ eig _ _ _ t rtol none maxNum _ hd ht hr (by simp) hs (gram_hermitian hH _)
    (gram_hermitian hH _) hlib heig
  obtain ⟨hcore, o1, o2, o3, o4⟩ := ho.projected hc
  obtain ⟨σ, c, h⟩ := conj_pairs hW (hX.mul hP) (hY.mul hP) hV hcore (hLR hinj) hinj
  refine ⟨hP, _, _, _, σ, c, ⟨o1, o2, o3⟩, ?_⟩
  rw [ho.projCoeffs, o4]
  exact h

/-- **C107.** The snapshot method of total-least-squares dynamic mode decomposition, for pairs of vectors. -/
theorem C107_tls_snaps_pairs (hl : RealLib lib) (weights : Option (NdArray ℂ)) (ws : Weights ℂ)
    (hws : arraysInit weights = .ok ws) (hfit : ws.Fits n) (hW : RealArr (ws.matrix n)) (hH : (ws.matrix n).IsHermitian)
    (ht : 0 ≤ t) (hr : ∀ t ∈ rtol, 0 ≤ t) (hs : IsArgsort lib.argsort) (hlib : ∀ C, C.IsHermitian → IsEigh C (lib.eigh C))
    (X Y : Matrix (Fin n) (Fin m) ℂ) (hX : RealArr X) (hY : RealArr Y) (res : TlsResult ℂ n m) (c : TlsCorr ℂ m)
    (hres : tlsSnapsPairs lib eig X ⟨n, m, Y⟩ idx weights (some t) rtol maxNum = .ok (res, c))
    (heig : EigOfProjected eig (Xᴴ * ws.matrix n * Y) res.decomp) (hinj : Function.Injective res.decomp.d.eigvals) :
    (RealArr c.corr ∧ RealArr c.adv ∧ RealArr c.cross) ∧ RealArr res.decomp.proj ∧ ∃ exact proj adjoint σ c,
      (Chosen exact idx res.exactModes ∧ Chosen proj idx res.projModes ∧ Chosen adjoint idx res.adjointModes) ∧
      ConjugatePairs res.decomp.d.eigvals exact proj adjoint res.projCoeffs res.advProjCoeffs σ c := by
  obtain ⟨rfl, hd, ho⟩ := tlsSnapsPairs_ok lib eig idx weights ws _ _ maxNum hws hfit X Y res c hres
  exact ⟨⟨(hX.conjTranspose.mul hW).mul hX, (hY.conjTranspose.mul hW).mul hY, (hX.conjTranspose.mul hW).mul hY⟩,
    tls_snaps_pairs_real lib eig idx t rtol maxNum hl hW hH ht hr hs hlib hX hY res hd ho heig hinj⟩

/-- **C107.** The snapshot method of total-least-squares dynamic mode decomposition, for sequential data. -/
theorem C107_tls_snaps_sequential (hl : RealLib lib) (weights : Option (NdArray ℂ)) (ws : Weights ℂ)
    (hws : arraysInit weights = .ok ws) (hfit : ws.Fits n) (hW : RealArr (ws.matrix n)) (hH : (ws.matrix n).IsHermitian)
    (ht : 0 ≤ t) (hr : ∀ t ∈ rtol, 0 ≤ t) (hs : IsArgsort lib.argsort) (hlib : ∀ C, C.IsHermitian → IsEigh C (lib.eigh C))
    (Z : Matrix (Fin n) (Fin (m + 1)) ℂ) (hZ : RealArr Z) (res : TlsResult ℂ n m) (c : TlsCorr ℂ m)
    (hres : tlsSnapsSeq lib eig Z idx weights (some t) rtol maxNum = .ok (res, c))
    (heig : EigOfProjected eig ((seqFirst Z)ᴴ * ws.matrix n * seqNext Z) res.decomp)
    (hinj : Function.Injective res.decomp.d.eigvals) :
    (RealArr c.corr ∧ RealArr c.adv ∧ RealArr c.cross) ∧ RealArr res.decomp.proj ∧ ∃ exact proj adjoint σ c,
      (Chosen exact idx res.exactModes ∧ Chosen proj idx res.projModes ∧ Chosen adjoint idx res.adjointModes) ∧
      ConjugatePairs res.decomp.d.eigvals exact proj adjoint res.projCoeffs res.advProjCoeffs σ c := by
  have hX : RealArr (seqFirst Z) := hZ.submatrix _ _
  have hY : RealArr (seqNext Z) := hZ.submatrix _ _
  obtain ⟨rfl, hd, ho⟩ := tlsSnapsSeq_ok lib eig idx weights ws _ _ maxNum hws hfit Z res c hres
  exact ⟨⟨(hX.conjTranspose.mul hW).mul hX, (hY.conjTranspose.mul hW).mul hY, (hX.conjTranspose.mul hW).mul hY⟩,
    tls_snaps_pairs_real lib eig idx t rtol maxNum hl hW hH ht hr hs hlib hX hY res hd ho heig hinj⟩

section Direct

variable (svd : Matrix (Fin (n + n)) (Fin m) ℂ → SvdOut ℂ (n + n) m) (ws : DirectWeights ℂ)

theorem tlsDirectRest_real (hl : RealLib lib) (hl2 : ∀ B, RealArr B → RealArr (svd B).U ∧ RealArr (svd B).Vh) (hfit : ws.Fits n)
    (hW : RealArr (ws.matrix n)) (hchol : ∀ p q w, ws = .d2 p q w → IsCholesky lib.cholesky (ws.matrix n)) (ht : 0 ≤ t)
    (hr : ∀ t ∈ rtol, 0 ≤ t) (hlib : ∀ B, IsSvd B (lib.svd B)) {X Y : Matrix (Fin n) (Fin m) ℂ} (hX : RealArr X) (hY : RealArr Y)
    {so : Option (Matrix (Fin n) (Fin n) ℂ)} (hso : directSqrtWeights lib.cholesky ws = .ok so) (res : TlsResult ℂ n m)
    (hres : tlsDirectRest lib eig svd so X Y idx ws (some t) rtol maxNum = .ok res)
    (heig : EigOfProjected eig (Xᴴ * ws.matrix n * Y) res.decomp) (hinj : Function.Injective res.decomp.d.eigvals) :
    RealArr res.decomp.proj ∧ ∃ exact proj adjoint σ c,
      (Chosen exact idx res.exactModes ∧ Chosen proj idx res.projModes ∧ Chosen adjoint idx res.adjointModes) ∧
      ConjugatePairs res.decomp.d.eigvals exact proj adjoint res.projCoeffs res.advProjCoeffs σ c := by
  obtain ⟨⟨s, hs, hq, hV, -⟩, hd⟩ := tlsDirectRest_ok lib eig svd idx ws rtol maxNum so _ X Y res hres
  have hB : RealArr (stackRows (weightData so X) (weightData so Y)) := by
    intro i j
    unfold stackRows
    rw [of_apply]
    refine Fin.addCases (fun i => ?_) (fun i => ?_) i
    · rw [Fin.addCases_left]
      exact weightData_real lib hl ws hfit hW hso hX _ _
    · rw [Fin.addCases_right]
      exact weightData_real lib hl ws hfit hW hso hY _ _
  have hS := truncate_real (utilSvd_real (hl2 _ hB).1 (hl2 _ hB).2 hs).2 maxNum
  have hP : RealArr res.decomp.proj := by
    obtain ⟨⟨q, sumW, sumV, d⟩, _, _, _, _, _, _⟩ := res
    dsimp only at hq hV
    subst hq
    cases hV
    exact hS.mul hS.conjTranspose
  unfold EigOfProjected at heig
  rw [← gram_proj] at heig
  exact ⟨hP, C107_dmd_direct_pairs lib eig idx t rtol maxNum hl ws hfit hW hchol ht hr hlib _ _ (hX.mul hP) (hY.mul hP) _ hd heig hinj⟩

/-- **C107.** The direct method of total-least-squares dynamic mode decomposition, for pairs of vectors. -/
theorem C107_tls_direct_pairs (hl : RealLib lib) (hl2 : ∀ B, RealArr B → RealArr (svd B).U ∧ RealArr (svd B).Vh) (hfit : ws.Fits n)
    (hW : RealArr (ws.matrix n)) (hchol : ∀ p q w, ws = .d2 p q w → IsCholesky lib.cholesky (ws.matrix n)) (ht : 0 ≤ t)
    (hr : ∀ t ∈ rtol, 0 ≤ t) (hlib : ∀ B, IsSvd B (lib.svd B)) (X Y : Matrix (Fin n) (Fin m) ℂ) (hX : RealArr X) (hY : RealArr Y)
    (res : TlsResult ℂ n m) (hres : tlsDirectPairs lib eig svd X ⟨n, m, Y⟩ idx ws (some t) rtol maxNum = .ok res)
    (heig : EigOfProjected eig (Xᴴ * ws.matrix n * Y) res.decomp) (hinj : Function.Injective res.decomp.d.eigvals) :
    RealArr res.decomp.proj ∧ ∃ exact proj adjoint σ c,
      (Chosen exact idx res.exactModes ∧ Chosen proj idx res.projModes ∧ Chosen adjoint idx res.adjointModes) ∧
      ConjugatePairs res.decomp.d.eigvals exact proj adjoint res.projCoeffs res.advProjCoeffs σ c := by
  unfold tlsDirectPairs at hres
  split at hres
  · cases hres
  rename_i so hso
  simp only [and_self, dite_true] at hres
  exact tlsDirectRest_real lib eig idx t rtol maxNum svd ws hl hl2 hfit hW hchol ht hr hlib hX hY hso res hres heig hinj

/-- **C107.** The direct method of total-least-squares dynamic mode decomposition, for sequential data. -/
theorem C107_tls_direct_sequential (hl : RealLib lib) (hl2 : ∀ B, RealArr B → RealArr (svd B).U ∧ RealArr (svd B).Vh)
    (hfit : ws.Fits n) (hW : RealArr (ws.matrix n))
    (hchol : ∀ p q w, ws = .d2 p q w → IsCholesky lib.cholesky (ws.matrix n)) (ht : 0 ≤ t)
    (hr : ∀ t ∈ rtol, 0 ≤ t) (hlib : ∀ B, IsSvd B (lib.svd B)) (Z : Matrix (Fin n) (Fin (m + 1)) ℂ) (hZ : RealArr Z)
    (res : TlsResult ℂ n m) (hres : tlsDirectSeq lib eig svd Z idx ws (some t) rtol maxNum = .ok res)
    (heig : EigOfProjected eig ((seqFirst Z)ᴴ * ws.matrix n * seqNext Z) res.decomp)
    (hinj : Function.Injective res.decomp.d.eigvals) :
    RealArr res.decomp.proj ∧ ∃ exact proj adjoint σ c,
      (Chosen exact idx res.exactModes ∧ Chosen proj idx res.projModes ∧ Chosen adjoint idx res.adjointModes) ∧
      ConjugatePairs res.decomp.d.eigvals exact proj adjoint res.projCoeffs res.advProjCoeffs σ c := by
  unfold tlsDirectSeq at hres
  split at hres
  · cases hres
  rename_i so hso
  exact tlsDirectRest_real lib eig idx t rtol maxNum svd ws hl hl2 hfit hW hchol ht hr hlib (X := seqFirst Z) (Y := seqNext Z)
    (hZ.submatrix _ _) (hZ.submatrix _ _) hso res hres heig hinj

end Direct

end Modred
