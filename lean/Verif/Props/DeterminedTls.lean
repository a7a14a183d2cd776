import Mathlib.Data.Matrix.ColumnRowPartitioned
import Verif.Props.MethodsTls

/-!
# Total-least-squares dynamic mode decomposition does not depend on the order of the pairs and on the units (C102)
-/

namespace Modred

open Matrix
open scoped ComplexOrder

variable {𝕜 : Type*} [RCLike 𝕜] {n m m' : Nat}

/-- Mixed data, projected, are the projected data, mixed. -/
theorem mixed_proj {X : Matrix (Fin n) (Fin m) 𝕜} {a : 𝕜} {Q : Matrix (Fin m) (Fin m') 𝕜} {P : Matrix (Fin m) (Fin m) 𝕜} (hQ : Q * Qᴴ = 1) :
    a • (X * Q) * (Qᴴ * P * Q) = a • (X * P * Q) := by
  rw [Matrix.smul_mul, show X * Q * (Qᴴ * P * Q) = X * (Q * Qᴴ) * P * Q by simp only [Matrix.mul_assoc], hQ, Matrix.mul_one]

section Snaps

variable (lib : PodLib 𝕜 n m) (lib' : PodLib 𝕜 n m') (eig eig' : ∀ {r : Nat}, Matrix (Fin r) (Fin r) 𝕜 → EigOut 𝕜 r)
  (weights : Option (NdArray 𝕜)) (ws : Weights 𝕜) (t : ℝ) (rtol : Option ℝ) (a b : 𝕜) (Q : Matrix (Fin m) (Fin m') 𝕜)
  (idx idx' : Option (List Int))

/-- The steps after the correlation arrays. -/
theorem tls_same_snaps {W : Matrix (Fin n) (Fin n) 𝕜} (ha : a ≠ 0) (hab : ‖b‖ = ‖a‖) (hQ : Q * Qᴴ = 1) (ht : 0 ≤ t)
    (hr : ∀ t ∈ rtol, 0 ≤ t) (hs : IsArgsort lib.argsort) (hs' : IsArgsort lib'.argsort) (hW : W.IsHermitian)
    (hlib : ∀ C, C.IsHermitian → IsEigh C (lib.eigh C)) (hlib' : ∀ C, C.IsHermitian → IsEigh C (lib'.eigh C))
    (X Y : Matrix (Fin n) (Fin m) 𝕜) (X' Y' : Matrix (Fin n) (Fin m') 𝕜) (hX : X' = a • (X * Q)) (hY : Y' = b • (Y * Q))
    (res : TlsResult 𝕜 n m) (res' : TlsResult 𝕜 n m')
    (hd : tlsEigendecomp lib.eigh lib.argsort eig (Xᴴ * W * X) (Yᴴ * W * Y) (Xᴴ * W * Y) (some t) rtol none none = .ok res.decomp)
    (ho : TlsOutcome (Xᴴ * W * Y) X Y idx res)
    (hd' : tlsEigendecomp lib'.eigh lib'.argsort eig' (X'ᴴ * W * X') (Y'ᴴ * W * Y') (X'ᴴ * W * Y') (some (‖a‖ ^ 2 * t)) rtol none none =
      .ok res'.decomp)
    (ho' : TlsOutcome (X'ᴴ * W * Y') X' Y' idx' res')
    (heig : EigOfProjected eig (Xᴴ * W * Y) res.decomp) (heig' : EigOfProjected eig' (X'ᴴ * W * Y') res'.decomp)
    (hinj : Function.Injective res.decomp.d.eigvals) (hinj' : Function.Injective res'.decomp.d.eigvals) :
    res'.decomp.proj = Qᴴ * res.decomp.proj * Q ∧ ∃ exact proj adjoint exact' proj' adjoint',
      (Chosen exact idx res.exactModes ∧ Chosen proj idx res.projModes ∧ Chosen adjoint idx res.adjointModes) ∧
      (Chosen exact' idx' res'.exactModes ∧ Chosen proj' idx' res'.projModes ∧ Chosen adjoint' idx' res'.adjointModes) ∧
      SameDmd a b Q res.decomp.d.eigvals res'.decomp.d.eigvals exact proj adjoint exact' proj' adjoint'
        res.projCoeffs res.advProjCoeffs res'.projCoeffs res'.advProjCoeffs := by
  subst hX hY
  have na : 0 < ‖a‖ ^ 2 := pow_pos (norm_pos_iff.mpr ha) 2
  have hb : b ≠ 0 := norm_pos_iff.mp (hab ▸ norm_pos_iff.mpr ha)
  obtain ⟨hc, hLR⟩ := tlsEigendecomp_core _ _ eig _ _ _ t rtol none none _ hd ht hr (by simp) hs (gram_hermitian hW _)
    (gram_hermitian hW _) hlib heig
  obtain ⟨hc', hLR'⟩ := tlsEigendecomp_core _ _ eig' _ _ _ _ rtol none none _ hd' (mul_nonneg na.le ht) hr (by simp) hs'
    (gram_hermitian hW _) (gram_hermitian hW _) hlib' heig'
  obtain ⟨hcore, o1, o2, o3, o4⟩ := ho.projected hc
  obtain ⟨hcore', o1', o2', o3', o4'⟩ := ho'.projected hc'
  obtain ⟨⟨s, hs1, hs2⟩, e, w, R, L, he1, he2⟩ := tlsEigendecomp_eigh hd
  obtain ⟨⟨s', hs1', hs2'⟩, e', w', R', L', he1', he2'⟩ := tlsEigendecomp_eigh hd'
  have hP : res'.decomp.proj = Qᴴ * res.decomp.proj * Q := by
    have := (eigh_wide (s := ‖a‖ ^ 2) (Q := Q) (hlib _ (IsHermitian.add (gram_hermitian hW X) (gram_hermitian hW Y)))
      (hlib' _ (IsHermitian.add (gram_hermitian hW _) (gram_hermitian hW _))) hQ
      (by rw [gram_scaled, gram_scaled, hab, ← smul_add, ← Matrix.add_mul, ← Matrix.mul_add]) na ht hs hs' hr s s' hs1 hs1').2.2 (fun _ => 1)
      (fun _ => 1) fun _ _ => rfl
    simp only [diagonal_one, Matrix.mul_one] at this
    rw [hs2', this, hs2]
  rw [hP, mixed_proj hQ] at o2' o3'
  rw [hP, mixed_proj hQ] at o1'
  rw [hP, mixed_proj hQ, mixed_proj hQ] at hcore' o4'
  refine ⟨hP, _, _, _, _, _, _, ⟨o1, o2, o3⟩, ⟨o1', o2', o3'⟩, ?_⟩
  have hV : SameSpectrum (‖a‖ ^ 2) Q res.decomp.d res'.decomp.d := by
    rw [he2, he2']
    rw [← gram_proj] at he1 he1'
    rw [hP, mixed_proj hQ] at he1'
    exact fun f g hfg => (eigh_wide (hlib _ (gram_hermitian hW _)) (hlib' _ (gram_hermitian hW _)) hQ (gram_scaled _ _ _ _) na ht
      hs hs' (by simp) e e' he1 he1').2.2 f g hfg
  rw [ho.projCoeffs, o4, ho'.projCoeffs, o4']
  exact same_dmd hQ ha hb hcore hcore' (hLR hinj) (hLR' hinj') hV

/-- **C102.** The snapshot method for pairs of vectors. -/
theorem C102_snaps_pairs (ha : a ≠ 0) (hab : ‖b‖ = ‖a‖) (hQ : Q * Qᴴ = 1) (ht : 0 ≤ t) (hr : ∀ t ∈ rtol, 0 ≤ t)
    (hs : IsArgsort lib.argsort) (hs' : IsArgsort lib'.argsort) (hws : arraysInit weights = .ok ws) (hfit : ws.Fits n)
    (hW : (ws.matrix n).IsHermitian) (hlib : ∀ C, C.IsHermitian → IsEigh C (lib.eigh C))
    (hlib' : ∀ C, C.IsHermitian → IsEigh C (lib'.eigh C)) (X Y : Matrix (Fin n) (Fin m) 𝕜)
    (res : TlsResult 𝕜 n m) (res' : TlsResult 𝕜 n m') (c : TlsCorr 𝕜 m) (c' : TlsCorr 𝕜 m')
    (hres : tlsSnapsPairs lib eig X ⟨n, m, Y⟩ idx weights (some t) rtol none = .ok (res, c))
    (hres' : tlsSnapsPairs lib' eig' (a • (X * Q)) ⟨n, m', b • (Y * Q)⟩ idx' weights (some (‖a‖ ^ 2 * t)) rtol none = .ok (res', c'))
    (heig : EigOfProjected eig (Xᴴ * ws.matrix n * Y) res.decomp)
    (heig' : EigOfProjected eig' ((a • (X * Q))ᴴ * ws.matrix n * (b • (Y * Q))) res'.decomp)
    (hinj : Function.Injective res.decomp.d.eigvals) (hinj' : Function.Injective res'.decomp.d.eigvals) :
    res'.decomp.proj = Qᴴ * res.decomp.proj * Q ∧ ∃ exact proj adjoint exact' proj' adjoint',
      (Chosen exact idx res.exactModes ∧ Chosen proj idx res.projModes ∧ Chosen adjoint idx res.adjointModes) ∧
      (Chosen exact' idx' res'.exactModes ∧ Chosen proj' idx' res'.projModes ∧ Chosen adjoint' idx' res'.adjointModes) ∧
      SameDmd a b Q res.decomp.d.eigvals res'.decomp.d.eigvals exact proj adjoint exact' proj' adjoint'
        res.projCoeffs res.advProjCoeffs res'.projCoeffs res'.advProjCoeffs := by
  obtain ⟨rfl, hd, ho⟩ := tlsSnapsPairs_ok lib eig idx weights ws _ _ none hws hfit X Y res c hres
  obtain ⟨rfl, hd', ho'⟩ := tlsSnapsPairs_ok lib' eig' idx' weights ws _ _ none hws hfit _ _ res' c' hres'
  exact tls_same_snaps lib lib' eig eig' t rtol a b Q idx idx' ha hab hQ ht hr hs hs' hW hlib hlib' X Y _ _ rfl rfl res res' hd ho hd' ho'
    heig heig' hinj hinj'

end Snaps

section SnapsSeq

variable (lib lib' : PodLib 𝕜 n m) (eig eig' : ∀ {r : Nat}, Matrix (Fin r) (Fin r) 𝕜 → EigOut 𝕜 r)
  (weights : Option (NdArray 𝕜)) (ws : Weights 𝕜) (t : ℝ) (rtol : Option ℝ) (a : 𝕜)
  (idx idx' : Option (List Int))

/-- **C102.** The snapshot method for sequential data in other units. -/
theorem C102_snaps_sequential (ha : a ≠ 0) (ht : 0 ≤ t) (hr : ∀ t ∈ rtol, 0 ≤ t)
    (hs : IsArgsort lib.argsort) (hs' : IsArgsort lib'.argsort) (hws : arraysInit weights = .ok ws) (hfit : ws.Fits n)
    (hW : (ws.matrix n).IsHermitian) (hlib : ∀ C, C.IsHermitian → IsEigh C (lib.eigh C))
    (hlib' : ∀ C, C.IsHermitian → IsEigh C (lib'.eigh C)) (Z : Matrix (Fin n) (Fin (m + 1)) 𝕜) (res res' : TlsResult 𝕜 n m)
    (c c' : TlsCorr 𝕜 m)
    (hres : tlsSnapsSeq lib eig Z idx weights (some t) rtol none = .ok (res, c))
    (hres' : tlsSnapsSeq lib' eig' (a • Z) idx' weights (some (‖a‖ ^ 2 * t)) rtol none = .ok (res', c'))
    (heig : EigOfProjected eig ((seqFirst Z)ᴴ * ws.matrix n * seqNext Z) res.decomp)
    (heig' : EigOfProjected eig' ((seqFirst (a • Z))ᴴ * ws.matrix n * seqNext (a • Z)) res'.decomp)
    (hinj : Function.Injective res.decomp.d.eigvals) (hinj' : Function.Injective res'.decomp.d.eigvals) :
    res'.decomp.proj = res.decomp.proj ∧ ∃ exact proj adjoint exact' proj' adjoint',
      (Chosen exact idx res.exactModes ∧ Chosen proj idx res.projModes ∧ Chosen adjoint idx res.adjointModes) ∧
      (Chosen exact' idx' res'.exactModes ∧ Chosen proj' idx' res'.projModes ∧ Chosen adjoint' idx' res'.adjointModes) ∧
      SameDmd a a 1 res.decomp.d.eigvals res'.decomp.d.eigvals exact proj adjoint exact' proj' adjoint'
        res.projCoeffs res.advProjCoeffs res'.projCoeffs res'.advProjCoeffs := by
  have hX : seqFirst (a • Z) = a • (seqFirst Z * (1 : Matrix (Fin m) (Fin m) 𝕜)) := by rw [Matrix.mul_one]; rfl
  have hY : seqNext (a • Z) = a • (seqNext Z * (1 : Matrix (Fin m) (Fin m) 𝕜)) := by rw [Matrix.mul_one]; rfl
  have hQ : (1 : Matrix (Fin m) (Fin m) 𝕜) * 1ᴴ = 1 := by rw [conjTranspose_one, Matrix.mul_one]
  obtain ⟨rfl, hd, ho⟩ := tlsSnapsSeq_ok lib eig idx weights ws _ _ none hws hfit Z res c hres
  obtain ⟨rfl, hd', ho'⟩ := tlsSnapsSeq_ok lib' eig' idx' weights ws _ _ none hws hfit _ res' c' hres'
  have := tls_same_snaps lib lib' eig eig' t rtol a a 1 idx idx' ha rfl hQ ht hr hs hs' hW hlib hlib' _ _ _ _ hX hY res res' hd ho hd' ho'
    heig heig' hinj hinj'
  rwa [conjTranspose_one, Matrix.one_mul, Matrix.mul_one] at this

end SnapsSeq

section Direct

variable (lib : PodLib 𝕜 n m) (lib' : PodLib 𝕜 n m') (eig eig' : ∀ {r : Nat}, Matrix (Fin r) (Fin r) 𝕜 → EigOut 𝕜 r)
  (svd : Matrix (Fin (n + n)) (Fin m) 𝕜 → SvdOut 𝕜 (n + n) m)
  (svd' : Matrix (Fin (n + n)) (Fin m') 𝕜 → SvdOut 𝕜 (n + n) m') (ws : DirectWeights 𝕜) (t : ℝ) (rtol : Option ℝ) (a b : 𝕜)
  (Q : Matrix (Fin m) (Fin m') 𝕜) (idx idx' : Option (List Int))

/-- Vectors and advanced vectors multiplied by unitary arrays. -/
theorem stackRows_unitary {G T : Matrix (Fin n) (Fin n) 𝕜} (hT : Tᴴ * T = 1) (ha : a ≠ 0) (hab : ‖b‖ = ‖a‖)
    (X Y : Matrix (Fin n) (Fin m) 𝕜) : ∃ U : Matrix (Fin (n + n)) (Fin (n + n)) 𝕜, Uᴴ * U = 1 ∧
      stackRows (T * G * (a • (X * Q))) (T * G * (b • (Y * Q))) = a • (U * stackRows (G * X) (G * Y) * Q) := by
  have hstack : ∀ {k : Nat} (A B : Matrix (Fin n) (Fin k) 𝕜), stackRows A B = (fromRows A B).submatrix finSumFinEquiv.symm id := by
    intro k A B
    ext i j
    refine Fin.addCases (fun i => ?_) (fun i => ?_) i
    · simp [stackRows]
    · simp only [stackRows, of_apply, Fin.addCases_right, submatrix_apply, finSumFinEquiv_symm_apply_natAdd, fromRows_apply_inr, id_eq]
  have hone : star (b / a) * (b / a) = 1 := by
    rw [norm_sq_smul, norm_div, hab, div_self (norm_ne_zero_iff.mpr ha), one_pow, RCLike.ofReal_one]
  refine ⟨(fromBlocks T 0 0 ((b / a) • T)).submatrix finSumFinEquiv.symm finSumFinEquiv.symm, ?_, ?_⟩
  · rw [conjTranspose_submatrix, submatrix_mul_equiv, fromBlocks_conjTranspose, fromBlocks_multiply]
    simp only [conjTranspose_zero, Matrix.zero_mul, Matrix.mul_zero, add_zero, zero_add, hT]
    rw [conjTranspose_smul, Matrix.smul_mul, Matrix.mul_smul, smul_smul, hT, hone, one_smul, fromBlocks_one, submatrix_one_equiv]
  · rw [hstack, hstack, submatrix_mul_equiv, fromBlocks_mul_fromRows]
    simp only [Matrix.zero_mul, add_zero, zero_add]
    rw [show (fromRows (T * (G * X)) ((b / a) • T * (G * Y))).submatrix finSumFinEquiv.symm id * Q =
      (fromRows (T * (G * X)) ((b / a) • T * (G * Y)) * Q).submatrix finSumFinEquiv.symm id from rfl, fromRows_mul]
    change _ = (a • fromRows (T * (G * X) * Q) ((b / a) • T * (G * Y) * Q)).submatrix finSumFinEquiv.symm id
    congr 1
    ext i j
    rcases i with i | i
    · simp [Matrix.mul_assoc]
    · simp only [fromRows_apply_inr, Matrix.smul_apply, Matrix.smul_mul, Matrix.mul_smul, smul_smul, mul_div_cancel₀ _ ha, Matrix.mul_assoc]

theorem tlsDirectRest_proj {so : Option (Matrix (Fin n) (Fin n) 𝕜)} {X Y : Matrix (Fin n) (Fin m) 𝕜} {atol : Option ℝ}
    {res : TlsResult 𝕜 n m} (hres : tlsDirectRest lib eig svd so X Y idx ws atol rtol none = .ok res) :
    ∃ s : Svd 𝕜 (n + n) m, utilSvd svd (stackRows (weightData so X) (weightData so Y)) atol rtol = .ok s ∧
      res.decomp.proj = s.V * s.Vᴴ := by
  obtain ⟨⟨s, hs, hq, hV, -⟩, -⟩ := tlsDirectRest_ok lib eig svd idx ws rtol none so _ X Y res hres
  refine ⟨s, hs, ?_⟩
  obtain ⟨⟨q, sumW, sumV, d⟩, _, _, _, _, _, _⟩ := res
  dsimp only at hq hV ⊢
  subst hq
  cases hV
  rfl

/-- The steps after the square roots of the weights. -/
theorem tls_same_direct (ha : a ≠ 0) (hab : ‖b‖ = ‖a‖) (hQ : Q * Qᴴ = 1) (ht : 0 ≤ t) (hr : ∀ t ∈ rtol, 0 ≤ t) (hfit : ws.Fits n)
    (hchol : ∀ p q w, ws = .d2 p q w → IsCholesky lib.cholesky (ws.matrix n))
    (hchol' : ∀ p q w, ws = .d2 p q w → IsCholesky lib'.cholesky (ws.matrix n))
    (hlib : ∀ B, IsSvd B (lib.svd B)) (hlib' : ∀ B, IsSvd B (lib'.svd B)) (hsvd : ∀ B, IsSvd B (svd B)) (hsvd' : ∀ B, IsSvd B (svd' B))
    (X Y : Matrix (Fin n) (Fin m) 𝕜) (X' Y' : Matrix (Fin n) (Fin m') 𝕜) (hX : X' = a • (X * Q)) (hY : Y' = b • (Y * Q))
    (so so' : Option (Matrix (Fin n) (Fin n) 𝕜)) (hso : directSqrtWeights lib.cholesky ws = .ok so)
    (hso' : directSqrtWeights lib'.cholesky ws = .ok so') (res : TlsResult 𝕜 n m) (res' : TlsResult 𝕜 n m')
    (hres : tlsDirectRest lib eig svd so X Y idx ws (some t) rtol none = .ok res)
    (hres' : tlsDirectRest lib' eig' svd' so' X' Y' idx' ws (some (‖a‖ * t)) rtol none = .ok res')
    (heig : EigOfProjected eig (Xᴴ * ws.matrix n * Y) res.decomp) (heig' : EigOfProjected eig' (X'ᴴ * ws.matrix n * Y') res'.decomp)
    (hinj : Function.Injective res.decomp.d.eigvals) (hinj' : Function.Injective res'.decomp.d.eigvals) :
    res'.decomp.proj = Qᴴ * res.decomp.proj * Q ∧ ∃ exact proj adjoint exact' proj' adjoint',
      (Chosen exact idx res.exactModes ∧ Chosen proj idx res.projModes ∧ Chosen adjoint idx res.adjointModes) ∧
      (Chosen exact' idx' res'.exactModes ∧ Chosen proj' idx' res'.projModes ∧ Chosen adjoint' idx' res'.adjointModes) ∧
      SameDmd a b Q res.decomp.d.eigvals res'.decomp.d.eigvals exact proj adjoint exact' proj' adjoint'
        res.projCoeffs res.advProjCoeffs res'.projCoeffs res'.advProjCoeffs := by
  subst hX hY
  have hb : b ≠ 0 := norm_pos_iff.mp (hab ▸ norm_pos_iff.mpr ha)
  obtain ⟨s, hs, hP1⟩ := tlsDirectRest_proj lib eig svd ws rtol idx hres
  obtain ⟨s', hs', hP1'⟩ := tlsDirectRest_proj lib' eig' svd' ws rtol idx' hres'
  obtain ⟨-, hd⟩ := tlsDirectRest_ok lib eig svd idx ws rtol none so _ X Y res hres
  obtain ⟨-, hd'⟩ := tlsDirectRest_ok lib' eig' svd' idx' ws rtol none so' _ _ _ res' hres'
  obtain ⟨G, hG, hdata⟩ := directSqrtWeights_ok lib.cholesky ws hfit hchol so hso
  obtain ⟨G', hG', hdata'⟩ := directSqrtWeights_ok lib'.cholesky ws hfit hchol' so' hso'
  obtain ⟨T, hT, rfl⟩ := directRoots ws hfit hG hG'
  have hP : res'.decomp.proj = Qᴴ * res.decomp.proj * Q := by
    rw [hdata, hdata] at hs
    rw [hdata', hdata'] at hs'
    obtain ⟨U, hU, hB⟩ := stackRows_unitary (G := G) (T := T) a b Q hT ha hab X Y
    have := ((svd_wide (hsvd _) (hsvd' _) hU hQ hB ha ht hr s s' hs hs').2.2 (fun _ => 1) (fun _ => 1) fun _ _ => rfl).2
    simp only [diagonal_one, Matrix.mul_one] at this
    rw [hP1', this, hP1]
  unfold EigOfProjected at heig heig'
  rw [← gram_proj] at heig heig'
  rw [hP, mixed_proj hQ, mixed_proj hQ] at hd' heig'
  exact ⟨hP, C95_direct_pairs lib lib' eig eig' ws t rtol a b Q idx idx' ha hb hQ ht hr hfit hchol hchol' hlib hlib' _ _ _ _ hd hd' heig heig'
    hinj hinj'⟩

/-- **C102.** The direct method for pairs of vectors. -/
theorem C102_direct_pairs (ha : a ≠ 0) (hab : ‖b‖ = ‖a‖) (hQ : Q * Qᴴ = 1) (ht : 0 ≤ t) (hr : ∀ t ∈ rtol, 0 ≤ t) (hfit : ws.Fits n)
    (hchol : ∀ p q w, ws = .d2 p q w → IsCholesky lib.cholesky (ws.matrix n))
    (hchol' : ∀ p q w, ws = .d2 p q w → IsCholesky lib'.cholesky (ws.matrix n))
    (hlib : ∀ B, IsSvd B (lib.svd B)) (hlib' : ∀ B, IsSvd B (lib'.svd B)) (hsvd : ∀ B, IsSvd B (svd B)) (hsvd' : ∀ B, IsSvd B (svd' B))
    (X Y : Matrix (Fin n) (Fin m) 𝕜) (res : TlsResult 𝕜 n m) (res' : TlsResult 𝕜 n m')
    (hres : tlsDirectPairs lib eig svd X ⟨n, m, Y⟩ idx ws (some t) rtol none = .ok res)
    (hres' : tlsDirectPairs lib' eig' svd' (a • (X * Q)) ⟨n, m', b • (Y * Q)⟩ idx' ws (some (‖a‖ * t)) rtol none = .ok res')
    (heig : EigOfProjected eig (Xᴴ * ws.matrix n * Y) res.decomp)
    (heig' : EigOfProjected eig' ((a • (X * Q))ᴴ * ws.matrix n * (b • (Y * Q))) res'.decomp)
    (hinj : Function.Injective res.decomp.d.eigvals) (hinj' : Function.Injective res'.decomp.d.eigvals) :
    res'.decomp.proj = Qᴴ * res.decomp.proj * Q ∧ ∃ exact proj adjoint exact' proj' adjoint',
      (Chosen exact idx res.exactModes ∧ Chosen proj idx res.projModes ∧ Chosen adjoint idx res.adjointModes) ∧
      (Chosen exact' idx' res'.exactModes ∧ Chosen proj' idx' res'.projModes ∧ Chosen adjoint' idx' res'.adjointModes) ∧
      SameDmd a b Q res.decomp.d.eigvals res'.decomp.d.eigvals exact proj adjoint exact' proj' adjoint'
        res.projCoeffs res.advProjCoeffs res'.projCoeffs res'.advProjCoeffs := by
  unfold tlsDirectPairs at hres hres'
  split at hres
  · cases hres
  rename_i so hso
  split at hres'
  · cases hres'
  rename_i so' hso'
  simp only [and_self, dite_true] at hres hres'
  exact tls_same_direct lib lib' eig eig' svd svd' ws t rtol a b Q idx idx' ha hab hQ ht hr hfit hchol hchol' hlib hlib' hsvd hsvd' X Y _ _
    rfl rfl so so' hso hso' res res' hres hres' heig heig' hinj hinj'

end Direct

section DirectSeq

variable (lib lib' : PodLib 𝕜 n m) (eig eig' : ∀ {r : Nat}, Matrix (Fin r) (Fin r) 𝕜 → EigOut 𝕜 r)
  (svd svd' : Matrix (Fin (n + n)) (Fin m) 𝕜 → SvdOut 𝕜 (n + n) m) (ws : DirectWeights 𝕜) (t : ℝ) (rtol : Option ℝ) (a : 𝕜)
  (idx idx' : Option (List Int))

/-- **C102.** The direct method for sequential data in other units. -/
theorem C102_direct_sequential (ha : a ≠ 0) (ht : 0 ≤ t) (hr : ∀ t ∈ rtol, 0 ≤ t) (hfit : ws.Fits n)
    (hchol : ∀ p q w, ws = .d2 p q w → IsCholesky lib.cholesky (ws.matrix n))
    (hchol' : ∀ p q w, ws = .d2 p q w → IsCholesky lib'.cholesky (ws.matrix n))
    (hlib : ∀ B, IsSvd B (lib.svd B)) (hlib' : ∀ B, IsSvd B (lib'.svd B)) (hsvd : ∀ B, IsSvd B (svd B)) (hsvd' : ∀ B, IsSvd B (svd' B))
    (Z : Matrix (Fin n) (Fin (m + 1)) 𝕜) (res res' : TlsResult 𝕜 n m)
    (hres : tlsDirectSeq lib eig svd Z idx ws (some t) rtol none = .ok res)
    (hres' : tlsDirectSeq lib' eig' svd' (a • Z) idx' ws (some (‖a‖ * t)) rtol none = .ok res')
    (heig : EigOfProjected eig ((seqFirst Z)ᴴ * ws.matrix n * seqNext Z) res.decomp)
    (heig' : EigOfProjected eig' ((seqFirst (a • Z))ᴴ * ws.matrix n * seqNext (a • Z)) res'.decomp)
    (hinj : Function.Injective res.decomp.d.eigvals) (hinj' : Function.Injective res'.decomp.d.eigvals) :
    res'.decomp.proj = res.decomp.proj ∧ ∃ exact proj adjoint exact' proj' adjoint',
      (Chosen exact idx res.exactModes ∧ Chosen proj idx res.projModes ∧ Chosen adjoint idx res.adjointModes) ∧
      (Chosen exact' idx' res'.exactModes ∧ Chosen proj' idx' res'.projModes ∧ Chosen adjoint' idx' res'.adjointModes) ∧
      SameDmd a a 1 res.decomp.d.eigvals res'.decomp.d.eigvals exact proj adjoint exact' proj' adjoint'
        res.projCoeffs res.advProjCoeffs res'.projCoeffs res'.advProjCoeffs := by
  have hX : seqFirst (a • Z) = a • (seqFirst Z * (1 : Matrix (Fin m) (Fin m) 𝕜)) := by rw [Matrix.mul_one]; rfl
  have hY : seqNext (a • Z) = a • (seqNext Z * (1 : Matrix (Fin m) (Fin m) 𝕜)) := by rw [Matrix.mul_one]; rfl
  have hQ : (1 : Matrix (Fin m) (Fin m) 𝕜) * 1ᴴ = 1 := by rw [conjTranspose_one, Matrix.mul_one]
  unfold tlsDirectSeq at hres hres'
  split at hres
  · cases hres
  rename_i so hso
  split at hres'
  · cases hres'
  rename_i so' hso'
  have := tls_same_direct lib lib' eig eig' svd svd' ws t rtol a a 1 idx idx' ha rfl hQ ht hr hfit hchol hchol' hlib hlib' hsvd hsvd'
    (seqFirst Z) (seqNext Z) (seqFirst (a • Z)) (seqNext (a • Z)) hX hY so so' hso hso' res res' hres hres' heig heig' hinj hinj'
  rwa [conjTranspose_one, Matrix.one_mul, Matrix.mul_one] at this

end DirectSeq

/-! ### Examples -/

def oneVec : Matrix (Fin 2) (Fin 1) ℝ := !![2; 0]

def oneAdv : Matrix (Fin 2) (Fin 1) ℝ := !![3; 4]

def minusOne : Matrix (Fin 1) (Fin 1) ℝ := -1

theorem minusOne_unitary : minusOne * minusOneᴴ = 1 := by
  unfold minusOne
  rw [conjTranspose_neg, conjTranspose_one, neg_mul_neg, Matrix.mul_one]

/-- One vector, advanced to one in another direction; then three times the vector with the other sign, and three times the advanced
vector. -/
example : ∃ (lib : PodLib ℝ 2 1) (res res' : TlsResult ℝ 2 1) (c c' : TlsCorr ℝ 1),
    tlsSnapsPairs lib eigOne oneVec ⟨2, 1, oneAdv⟩ none none (some 1) none none = .ok (res, c) ∧
    tlsSnapsPairs lib eigOne ((3 : ℝ) • (oneVec * minusOne)) ⟨2, 1, (-3 : ℝ) • (oneAdv * minusOne)⟩ none none (some (‖(3 : ℝ)‖ ^ 2 * 1)) none none =
      .ok (res', c') ∧
    res.decomp.d.r = 1 ∧ res'.decomp.d.r = 1 ∧
    ∀ z, Nat.card {i // res'.decomp.d.eigvals i = -z} = Nat.card {i // res.decomp.d.eigvals i = z} := by
  obtain ⟨lib, -, heigh, hs, -⟩ := exists_podLib (𝕜 := ℝ) 2 1
  obtain ⟨res, c, hres, heig, hinj, hr⟩ := tls_one_snaps lib hs heigh oneVec oneAdv 1 (by norm_num)
  replace hr := hr (exampleOne_posDef _ (by norm_num))
  obtain ⟨res', c', hres', heig', hinj', -⟩ := tls_one_snaps lib hs heigh ((3 : ℝ) • (oneVec * minusOne)) ((-3 : ℝ) • (oneAdv * minusOne))
    (‖(3 : ℝ)‖ ^ 2 * 1) (by positivity)
  obtain ⟨-, _, _, _, _, _, _, -, -, h⟩ := C102_snaps_pairs lib lib eigOne eigOne none .none 1 none 3 (-3) minusOne none none (by norm_num)
    (by norm_num) minusOne_unitary (by norm_num) (by simp) hs hs rfl trivial isHermitian_one heigh heigh _ _ res res' c c' hres hres' heig heig'
    hinj hinj'
  refine ⟨lib, res, res', c, c', hres, hres', hr, h.number.trans hr, fun z => ?_⟩
  have := h.multiplicities z
  rwa [show (-3 / 3 * z : ℝ) = -z by ring] at this

example : ∃ (lib : PodLib ℝ 2 1) (svd : Matrix (Fin 4) (Fin 1) ℝ → SvdOut ℝ 4 1) (res res' : TlsResult ℝ 2 1),
    tlsDirectPairs lib eigOne svd oneVec ⟨2, 1, oneAdv⟩ none .none (some 1) none none = .ok res ∧
    tlsDirectPairs lib eigOne svd ((3 : ℝ) • (oneVec * minusOne)) ⟨2, 1, (-3 : ℝ) • (oneAdv * minusOne)⟩ none .none (some (‖(3 : ℝ)‖ * 1)) none none =
      .ok res' ∧
    ∀ z, Nat.card {i // res'.decomp.d.eigvals i = -z} = Nat.card {i // res.decomp.d.eigvals i = z} := by
  obtain ⟨lib, hsvd, -, -, -⟩ := exists_podLib (𝕜 := ℝ) 2 1
  obtain ⟨lib4, hsvd4, -⟩ := exists_podLib (𝕜 := ℝ) 4 1
  obtain ⟨res, hres, heig, hinj⟩ := tls_one_direct lib lib4.svd hsvd oneVec oneAdv 1
  obtain ⟨res', hres', heig', hinj'⟩ := tls_one_direct lib lib4.svd hsvd ((3 : ℝ) • (oneVec * minusOne)) ((-3 : ℝ) • (oneAdv * minusOne))
    (‖(3 : ℝ)‖ * 1)
  obtain ⟨-, _, _, _, _, _, _, -, -, h⟩ := C102_direct_pairs lib lib eigOne eigOne lib4.svd lib4.svd .none 1 none 3 (-3) minusOne none none
    (by norm_num) (by norm_num) minusOne_unitary (by norm_num) (by simp) trivial (fun _ _ _ h => by cases h) (fun _ _ _ h => by cases h) hsvd hsvd
    hsvd4 hsvd4 _ _ res res' hres hres' heig heig' hinj hinj'
  refine ⟨lib, lib4.svd, res, res', hres, hres', fun z => ?_⟩
  have := h.multiplicities z
  rwa [show (-3 / 3 * z : ℝ) = -z by ring] at this

end Modred
