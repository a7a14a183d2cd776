import Verif.Lemmas.Dmd
import Verif.Props.Bpod
import Verif.Props.Pod

/-!
# Dynamic mode decomposition (C26, C27, C28)
-/

namespace Modred

open Matrix
open scoped ComplexOrder

variable {𝕜 : Type*} [RCLike 𝕜]

/-! ### Truncation -/

theorem truncate_eigh {m : Nat} {C : Matrix (Fin m) (Fin m) 𝕜} (e : Eigh 𝕜 m) (maxNum : Option Nat)
    (hV : e.Vᴴ * e.V = 1) (hCV : C * e.V = e.V * diagonal fun i => (e.w i : 𝕜)) (hw : ∀ i, 0 < e.w i) :
    (e.truncate maxNum).Vᴴ * (e.truncate maxNum).V = 1 ∧
    C * (e.truncate maxNum).V = (e.truncate maxNum).V * (diagonal fun i => ((e.truncate maxNum).w i : 𝕜)) ∧
    ∀ i, 0 < (e.truncate maxNum).w i := by
  cases maxNum with
  | none => exact ⟨hV, hCV, hw⟩
  | some k =>
    by_cases hk : k < e.r
    · rw [show e.truncate (some k) = ⟨min k e.r, firstEntries e.w k, firstCols e.V k⟩ from if_pos hk]
      refine ⟨orthonormal_submatrix _ hV _ (Fin.castLE_injective _), ?_, fun i => hw _⟩
      unfold firstCols
      rw [mul_submatrix_cols, hCV, mul_diagonal_submatrix]
      rfl
    · rw [show e.truncate (some k) = e from if_neg hk]
      exact ⟨hV, hCV, hw⟩

theorem truncate_svd {n m : Nat} {a : Matrix (Fin n) (Fin m) 𝕜} (s : Svd 𝕜 n m) (maxNum : Option Nat)
    (hV : s.Vᴴ * s.V = 1) (hAV : a * s.V = s.U * diagonal fun i => (s.S i : 𝕜))
    (hAU : aᴴ * s.U = s.V * diagonal fun i => (s.S i : 𝕜)) (hS : ∀ i, 0 < s.S i) :
    (s.truncate maxNum).Vᴴ * (s.truncate maxNum).V = 1 ∧
    a * (s.truncate maxNum).V = (s.truncate maxNum).U * (diagonal fun i => ((s.truncate maxNum).S i : 𝕜)) ∧
    aᴴ * (s.truncate maxNum).U = (s.truncate maxNum).V * (diagonal fun i => ((s.truncate maxNum).S i : 𝕜)) ∧
    ∀ i, 0 < (s.truncate maxNum).S i := by
  cases maxNum with
  | none => exact ⟨hV, hAV, hAU, hS⟩
  | some k =>
    by_cases hk : k < s.r
    · rw [show s.truncate (some k) = ⟨min k s.r, firstCols s.U k, firstEntries s.S k, firstCols s.V k⟩ from if_pos hk]
      refine ⟨orthonormal_submatrix _ hV _ (Fin.castLE_injective _), ?_, ?_, fun i => hS _⟩
      · unfold firstCols
        rw [mul_submatrix_cols, hAV, mul_diagonal_submatrix]
        rfl
      · unfold firstCols
        rw [mul_submatrix_cols, hAU, mul_diagonal_submatrix]
        rfl
    · rw [show s.truncate (some k) = s from if_neg hk]
      exact ⟨hV, hAV, hAU, hS⟩

/-! ### Decompositions -/

/-- What `eigBiorthog` returns. -/
theorem eigBiorthog_left {r : Nat} (eig : Matrix (Fin r) (Fin r) 𝕜 → EigOut 𝕜 r) (a : Matrix (Fin r) (Fin r) 𝕜) :
    ∃ w R L, eigBiorthog eig a scaleLeft = .ok (w, R, L) := by
  unfold eigBiorthog
  exact ⟨_, _, _, if_pos (by decide)⟩

theorem dmdEigendecomp_core {m : Nat} (eigh : Matrix (Fin m) (Fin m) 𝕜 → EighOut 𝕜 m)
    (argsort : (Fin m → ℝ) → Equiv.Perm (Fin m)) (eig : ∀ {r : Nat}, Matrix (Fin r) (Fin r) 𝕜 → EigOut 𝕜 r)
    (C K : Matrix (Fin m) (Fin m) 𝕜) (t : ℝ) (rtol : Option ℝ) (maxNum : Option Nat) (d : DmdDecomp 𝕜 m)
    (hd : dmdEigendecomp eigh argsort eig C K (some t) rtol maxNum = .ok d) (ht : 0 ≤ t) (hr : ∀ t ∈ rtol, 0 ≤ t)
    (hs : IsArgsort argsort) (hC : Cᴴ = C) (hlib : IsEigh C (eigh C))
    (heig : IsEig (lowOrderMap (diagPow (𝕜 := 𝕜) d.w (-0.5)) d.V K) (eig (lowOrderMap (diagPow (𝕜 := 𝕜) d.w (-0.5)) d.V K))) :
    DmdCore C K d ∧ (Function.Injective d.eigvals → d.Lᴴ * d.R = 1) := by
  unfold dmdEigendecomp at hd
  split at hd
  · cases hd
  rename_i e he
  dsimp only at hd
  obtain ⟨hV, hCV, -⟩ := C20_eigenpairs _ _ _ _ _ _ hlib hs e he
  have hw := C20_positive_partial _ _ _ _ t ht hs hr e he
  obtain ⟨h1, h2, h3⟩ := truncate_eigh e maxNum hV hCV hw
  generalize e.truncate maxNum = e at *
  split at hd
  · cases hd
  rename_i lam R L hlr
  cases hd
  dsimp only at heig ⊢
  obtain ⟨rfl, h4, h5⟩ := C21_eigenvectors _ _ heig _ _ _ _ hlr
  exact ⟨⟨hC, h1, by dsimp only; rw [h2, diagPow_one], h3, h4, h5, heig.eigenvalue⟩, fun hinj => C21_biorthonormal _ _ heig hinj _ _ _ _ hlr⟩

/-- The results, in terms of the decompositions. -/
structure DmdOutcome {n m : Nat} (W : Matrix (Fin n) (Fin n) 𝕜) (X Y : Matrix (Fin n) (Fin m) 𝕜)
    (modeIndices : Option (List Int)) (res : DmdResult 𝕜 n m) : Prop where
  pos : 0 < m
  exact : Chosen (Y * res.decomp.buildExact) modeIndices res.exactModes
  proj : Chosen (X * res.decomp.buildProj) modeIndices res.projModes
  adjoint : Chosen (X * res.decomp.buildAdjoint) modeIndices res.adjointModes
  projCoeffs : res.projCoeffs = res.decomp.Lᴴ * (diagPow (𝕜 := 𝕜) res.decomp.w 0.5 * res.decomp.Vᴴ)
  advProjCoeffs : res.advProjCoeffs = res.decomp.Lᴴ * (diagPow (𝕜 := 𝕜) res.decomp.w (-0.5) * (res.decomp.Vᴴ * (Xᴴ * W * Y)))
  spectral : res.spectralCoeffs = spectralCoeffs res.decomp.w res.decomp.V res.decomp.L ⟨0, pos⟩

theorem dmdFinish_ok {n m : Nat} (d : DmdDecomp 𝕜 m) (sqrtInv : Matrix (Fin d.r) (Fin d.r) 𝕜)
    (cross : Matrix (Fin m) (Fin m) 𝕜) (W : Matrix (Fin n) (Fin n) 𝕜) (X Y : Matrix (Fin n) (Fin m) 𝕜)
    (modeIndices : Option (List Int)) (res : DmdResult 𝕜 n m)
    (hres : dmdFinish d sqrtInv cross X Y modeIndices = .ok res) (hD : sqrtInv = diagPow (𝕜 := 𝕜) d.w (-0.5))
    (hcross : d.Vᴴ * cross = d.Vᴴ * (Xᴴ * W * Y)) : res.decomp = d ∧ DmdOutcome W X Y modeIndices res := by
  unfold dmdFinish at hres
  dsimp only at hres
  split at hres
  · rename_i hm
    split at hres
    · cases hres
    rename_i e he
    split at hres
    · cases hres
    rename_i p hp
    split at hres
    · cases hres
    rename_i a ha
    cases hres
    subst hD
    refine ⟨rfl, hm, ?_, linCombineArrays_ok _ _ _ _ hp, linCombineArrays_ok _ _ _ _ ha, rfl, ?_, rfl⟩
    · dsimp only
      rw [buildExact_eq]
      exact linCombineArrays_ok _ _ _ _ he
    · dsimp only
      rw [hcross]
  · cases hres

/-! ### Snapshot method -/

section Snaps

variable {n m : Nat} (lib : PodLib 𝕜 n m) (eig : ∀ {r : Nat}, Matrix (Fin r) (Fin r) 𝕜 → EigOut 𝕜 r)
  (modeIndices : Option (List Int)) (weights : Option (NdArray 𝕜)) (ws : Weights 𝕜)
  (atol rtol : Option ℝ) (maxNum : Option Nat)

theorem dmdSnapsRest_ok (C K : Matrix (Fin m) (Fin m) 𝕜) (X Y : Matrix (Fin n) (Fin m) 𝕜)
    (W : Matrix (Fin n) (Fin n) 𝕜) (hK : K = Xᴴ * W * Y) (res : DmdResult 𝕜 n m)
    (hres : dmdSnapsRest lib eig C K X Y modeIndices atol rtol maxNum = .ok res) :
    dmdEigendecomp lib.eigh lib.argsort eig C K atol rtol maxNum = .ok res.decomp ∧ DmdOutcome W X Y modeIndices res := by
  unfold dmdSnapsRest at hres
  split at hres
  · cases hres
  rename_i d hd
  obtain ⟨rfl, h⟩ := dmdFinish_ok d _ K W X Y modeIndices res hres rfl (by rw [hK])
  exact ⟨hd, h⟩

theorem gram_slices {p q q' : Nat} (W : Matrix (Fin n) (Fin n) 𝕜) (Z : Matrix (Fin n) (Fin p) 𝕜) (f : Fin q → Fin p)
    (g : Fin q' → Fin p) : (Zᴴ * W * Z).submatrix f g = (Z.submatrix id f)ᴴ * W * Z.submatrix id g := rfl

theorem dmdSnapsSeq_ok (hws : arraysInit weights = .ok ws) (hfit : ws.Fits n) (Z : Matrix (Fin n) (Fin (m + 1)) 𝕜)
    (res : DmdResult 𝕜 n m) (corr cross : Matrix (Fin m) (Fin m) 𝕜)
    (hres : dmdSnapsSeq lib eig Z modeIndices weights atol rtol maxNum = .ok (res, corr, cross)) :
    corr = (Z.submatrix id Fin.castSucc)ᴴ * ws.matrix n * Z.submatrix id Fin.castSucc ∧
    cross = (Z.submatrix id Fin.castSucc)ᴴ * ws.matrix n * Z.submatrix id Fin.succ ∧
    dmdEigendecomp lib.eigh lib.argsort eig corr cross atol rtol maxNum = .ok res.decomp ∧
    DmdOutcome (ws.matrix n) (Z.submatrix id Fin.castSucc) (Z.submatrix id Fin.succ) modeIndices res := by
  unfold dmdSnapsSeq at hres
  rw [hws] at hres
  dsimp only at hres
  unfold symmIpArray at hres
  rw [C45_formula ws hfit] at hres
  dsimp only at hres
  split at hres
  · cases hres
  rename_i r hr
  cases hres
  obtain ⟨h1, h2⟩ := dmdSnapsRest_ok lib eig modeIndices atol rtol maxNum _ _ _ _ (ws.matrix n) (gram_slices _ _ _ _) res hr
  exact ⟨gram_slices _ _ _ _, gram_slices _ _ _ _, h1, h2⟩

theorem dmdSnapsPairs_ok (hws : arraysInit weights = .ok ws) (hfit : ws.Fits n) (X Y : Matrix (Fin n) (Fin m) 𝕜)
    (res : DmdResult 𝕜 n m) (corr cross : Matrix (Fin m) (Fin m) 𝕜)
    (hres : dmdSnapsPairs lib eig X ⟨n, m, Y⟩ modeIndices weights atol rtol maxNum = .ok (res, corr, cross)) :
    corr = Xᴴ * ws.matrix n * X ∧ cross = Xᴴ * ws.matrix n * Y ∧
    dmdEigendecomp lib.eigh lib.argsort eig corr cross atol rtol maxNum = .ok res.decomp ∧
    DmdOutcome (ws.matrix n) X Y modeIndices res := by
  unfold dmdSnapsPairs at hres
  rw [hws] at hres
  simp only [and_self, dite_true] at hres
  unfold symmIpArray at hres
  rw [C45_formula ws hfit] at hres
  dsimp only at hres
  rw [C45_formula ws hfit] at hres
  dsimp only at hres
  split at hres
  · cases hres
  rename_i r hr
  cases hres
  obtain ⟨h1, h2⟩ := dmdSnapsRest_ok lib eig modeIndices atol rtol maxNum _ _ _ _ (ws.matrix n) rfl res hr
  exact ⟨rfl, rfl, h1, h2⟩

end Snaps

theorem gram_hermitian {n p : Nat} {W : Matrix (Fin n) (Fin n) 𝕜} (hW : W.IsHermitian) (X : Matrix (Fin n) (Fin p) 𝕜) :
    (Xᴴ * W * X)ᴴ = Xᴴ * W * X := by
  rw [conjTranspose_mul, conjTranspose_mul, conjTranspose_conjTranspose, hW.eq, Matrix.mul_assoc]

/-! ### Direct method -/

theorem directSqrtWeights_ok {n : Nat} (cholesky : Matrix (Fin n) (Fin n) 𝕜 → Option (Matrix (Fin n) (Fin n) 𝕜))
    (ws : DirectWeights 𝕜) (hfit : ws.Fits n) (hchol : ∀ p q w, ws = .d2 p q w → IsCholesky cholesky (ws.matrix n))
    (so : Option (Matrix (Fin n) (Fin n) 𝕜)) (hso : directSqrtWeights cholesky ws = .ok so) :
    ∃ G : Matrix (Fin n) (Fin n) 𝕜, Gᴴ * G = ws.matrix n ∧ ∀ {q : Nat} (x : Matrix (Fin n) (Fin q) 𝕜), weightData so x = G * x := by
  unfold directSqrtWeights at hso
  split at hso
  · cases ws with
    | none =>
      cases hso
      exact ⟨1, by rw [conjTranspose_one, Matrix.mul_one]; rfl, fun x => (Matrix.one_mul x).symm⟩
    | higher => exact hfit.elim
    | d1 k w =>
      obtain ⟨rfl, hw⟩ := hfit
      dsimp only at hso
      rw [if_pos rfl] at hso
      cases hso
      refine ⟨_, ?_, fun x => rfl⟩
      rw [diagonal_conjTranspose, diagonal_mul_diagonal]
      unfold DirectWeights.matrix
      congr 1
      ext i
      simp only [Pi.star_apply, RCLike.star_def, RCLike.conj_ofReal]
      rw [← RCLike.ofReal_mul, ← Real.rpow_add (hw i), show (0.5 + 0.5 : ℝ) = 1 by norm_num, Real.rpow_one]
    | d2 p q w =>
      obtain ⟨rfl, rfl, hw⟩ := hfit
      obtain ⟨l, hl, hll⟩ := hchol _ _ _ rfl
      have hl' : cholesky (Matrix.of fun i j => w i j) = some l := hl
      simp only [ne_eq, not_true_eq_false, if_false, if_true, hl'] at hso
      cases hso
      exact ⟨lᴴ, by rw [conjTranspose_conjTranspose]; exact hll, fun x => rfl⟩
  · cases hso

theorem diagPow_inv_sq {r : Nat} {S : Fin r → ℝ} (hS : ∀ i, 0 < S i) :
    (diagPow S (-1) : Matrix (Fin r) (Fin r) 𝕜) = diagPow (fun i => S i ^ (2 : ℝ)) (-0.5) := by
  unfold diagPow
  congr 1
  ext i
  rw [← Real.rpow_mul (hS i).le, show (2 * -0.5 : ℝ) = -1 by norm_num]

section Direct

variable {n m : Nat} (lib : PodLib 𝕜 n m) (eig : ∀ {r : Nat}, Matrix (Fin r) (Fin r) 𝕜 → EigOut 𝕜 r)
  (modeIndices : Option (List Int)) (ws : DirectWeights 𝕜) (t : ℝ) (rtol : Option ℝ) (maxNum : Option Nat)

/-- The truncated singular value decomposition of `G X` is one of the correlation array. -/
theorem direct_svd {G : Matrix (Fin n) (Fin n) 𝕜} {X : Matrix (Fin n) (Fin m) 𝕜} (ht : 0 ≤ t) (hr : ∀ t ∈ rtol, 0 ≤ t)
    (hlib : IsSvd (G * X) (lib.svd (G * X))) (s : Svd 𝕜 n m) (hs : utilSvd lib.svd (G * X) (some t) rtol = .ok s) :
    (s.truncate maxNum).Vᴴ * (s.truncate maxNum).V = 1 ∧
    Xᴴ * (Gᴴ * G) * X * (s.truncate maxNum).V = (s.truncate maxNum).V * diagPow (𝕜 := 𝕜) (fun i => (s.truncate maxNum).S i ^ (2 : ℝ)) 1 ∧
    ∀ i, 0 < (s.truncate maxNum).S i := by
  obtain ⟨hU, hV, hAV, hAU, hS, -⟩ := C19_singular_triples _ _ _ _ hlib s hs
  obtain ⟨hle, hk, hkeep⟩ := C19_kept_iff _ _ _ _ hlib hr s hs
  have hpos : ∀ i, 0 < s.S i := by
    intro i
    have hi := i.isLt
    have h1 := ((hk ⟨i, by omega⟩).mp hi).1 t rfl
    rw [(hkeep i ⟨i, by omega⟩ rfl).1]
    rw [abs_of_nonneg (hlib.nonneg _)] at h1
    exact lt_of_le_of_lt ht h1
  obtain ⟨h1, h2, h3, h4⟩ := truncate_svd s maxNum hV hAV hAU hpos
  generalize s.truncate maxNum = s at *
  refine ⟨h1, ?_, h4⟩
  rw [show Xᴴ * (Gᴴ * G) * X * s.V = (G * X)ᴴ * (G * X * s.V) by
    simp only [conjTranspose_mul, Matrix.mul_assoc], h2, ← Matrix.mul_assoc, h3, Matrix.mul_assoc, diagonal_mul_diagonal,
    diagPow_one]
  congr 2
  ext i
  rw [← RCLike.ofReal_mul, Real.rpow_two, sq]

theorem dmdDirectRest_ok (G W : Matrix (Fin n) (Fin n) 𝕜) (hG : Gᴴ * G = W) (X Y : Matrix (Fin n) (Fin m) 𝕜)
    (cross : Svd 𝕜 n m → Matrix (Fin m) (Fin m) 𝕜) (ht : 0 ≤ t) (hr : ∀ t ∈ rtol, 0 ≤ t)
    (hlib : IsSvd (G * X) (lib.svd (G * X)))
    (hcross : ∀ s : Svd 𝕜 n m, s.Vᴴ * s.V = 1 → Xᴴ * W * X * s.V = s.V * diagPow (𝕜 := 𝕜) (fun i => s.S i ^ (2 : ℝ)) 1 →
      s.Vᴴ * cross s = s.Vᴴ * (Xᴴ * W * Y)) (res : DmdResult 𝕜 n m)
    (hres : dmdDirectRest lib eig (G * X) cross X Y modeIndices (some t) rtol maxNum = .ok res)
    (heig : IsEig (lowOrderMap (diagPow (𝕜 := 𝕜) res.decomp.w (-0.5)) res.decomp.V (Xᴴ * W * Y))
      (eig (lowOrderMap (diagPow (𝕜 := 𝕜) res.decomp.w (-0.5)) res.decomp.V (Xᴴ * W * Y)))) :
    DmdCore (Xᴴ * W * X) (Xᴴ * W * Y) res.decomp ∧ (Function.Injective res.decomp.eigvals → res.decomp.Lᴴ * res.decomp.R = 1) ∧
      DmdOutcome W X Y modeIndices res := by
  unfold dmdDirectRest at hres
  split at hres
  · cases hres
  rename_i s hs
  dsimp only at hres
  obtain ⟨h1, h2, h3⟩ := direct_svd lib t rtol maxNum ht hr hlib s hs
  rw [hG] at h2
  generalize s.truncate maxNum = s at *
  have hc := hcross s h1 h2
  have hlow : lowOrderMap (diagPow (𝕜 := 𝕜) s.S (-1)) s.V (cross s) =
      lowOrderMap (diagPow (𝕜 := 𝕜) (fun i => s.S i ^ (2 : ℝ)) (-0.5)) s.V (Xᴴ * W * Y) := by
    unfold lowOrderMap
    rw [diagPow_inv_sq h3, ← Matrix.mul_assoc s.Vᴴ, hc, Matrix.mul_assoc s.Vᴴ]
  rw [hlow] at hres
  split at hres
  · cases hres
  rename_i lam R L hlr
  obtain ⟨hd, ho⟩ := dmdFinish_ok _ _ _ W X Y modeIndices res hres (diagPow_inv_sq h3) hc
  rw [hd] at heig ⊢
  dsimp only at heig ⊢
  obtain ⟨rfl, h4, h5⟩ := C21_eigenvectors _ _ heig _ _ _ _ hlr
  refine ⟨⟨gram_hermitian ?_ X, h1, h2, fun i => Real.rpow_pos_of_pos (h3 i) _, h4, h5, heig.eigenvalue⟩,
    fun hinj => C21_biorthonormal _ _ heig hinj _ _ _ _ hlr, ho⟩
  rw [← hG]
  exact isHermitian_conjTranspose_mul_self G

theorem directWeights_hermitian (hfit : ws.Fits n) : (ws.matrix n).IsHermitian := by
  cases ws with
  | none => exact isHermitian_one
  | higher => exact hfit.elim
  | d1 k w =>
    unfold DirectWeights.matrix
    rw [isHermitian_diagonal_iff]
    intro i
    rw [isSelfAdjoint_iff, RCLike.star_def, RCLike.conj_ofReal]
  | d2 p q w => exact hfit.2.2.isHermitian

theorem dmdDirectPairs_ok (hfit : ws.Fits n) (hchol : ∀ p q w, ws = .d2 p q w → IsCholesky lib.cholesky (ws.matrix n))
    (ht : 0 ≤ t) (hr : ∀ t ∈ rtol, 0 ≤ t) (hlib : ∀ a, IsSvd a (lib.svd a)) (X Y : Matrix (Fin n) (Fin m) 𝕜)
    (res : DmdResult 𝕜 n m) (hres : dmdDirectPairs lib eig X ⟨n, m, Y⟩ modeIndices ws (some t) rtol maxNum = .ok res)
    (heig : IsEig (lowOrderMap (diagPow (𝕜 := 𝕜) res.decomp.w (-0.5)) res.decomp.V (Xᴴ * ws.matrix n * Y))
      (eig (lowOrderMap (diagPow (𝕜 := 𝕜) res.decomp.w (-0.5)) res.decomp.V (Xᴴ * ws.matrix n * Y)))) :
    DmdCore (Xᴴ * ws.matrix n * X) (Xᴴ * ws.matrix n * Y) res.decomp ∧
      (Function.Injective res.decomp.eigvals → res.decomp.Lᴴ * res.decomp.R = 1) ∧
      DmdOutcome (ws.matrix n) X Y modeIndices res := by
  unfold dmdDirectPairs at hres
  split at hres
  · cases hres
  rename_i so hso
  simp only [and_self, dite_true] at hres
  obtain ⟨G, hG, hdata⟩ := directSqrtWeights_ok lib.cholesky ws hfit hchol so hso
  rw [hdata, hdata] at hres
  refine dmdDirectRest_ok lib eig modeIndices t rtol maxNum G _ hG X Y _ ht hr (hlib _) (fun s h1 h2 => ?_) res hres heig
  rw [← hG]
  congr 1
  simp only [conjTranspose_mul, Matrix.mul_assoc]
  rfl

theorem dmdDirectSeq_ok (hfit : ws.Fits n) (hchol : ∀ p q w, ws = .d2 p q w → IsCholesky lib.cholesky (ws.matrix n))
    (ht : 0 ≤ t) (hr : ∀ t ∈ rtol, 0 ≤ t) (hlib : ∀ a, IsSvd a (lib.svd a)) (Z : Matrix (Fin n) (Fin (m + 1)) 𝕜)
    (res : DmdResult 𝕜 n m) (hres : dmdDirectSeq lib eig Z modeIndices ws (some t) rtol maxNum = .ok res)
    (X Y : Matrix (Fin n) (Fin m) 𝕜) (hX : X = Z.submatrix id Fin.castSucc) (hY : Y = Z.submatrix id Fin.succ)
    (heig : IsEig (lowOrderMap (diagPow (𝕜 := 𝕜) res.decomp.w (-0.5)) res.decomp.V (Xᴴ * ws.matrix n * Y))
      (eig (lowOrderMap (diagPow (𝕜 := 𝕜) res.decomp.w (-0.5)) res.decomp.V (Xᴴ * ws.matrix n * Y)))) :
    DmdCore (Xᴴ * ws.matrix n * X) (Xᴴ * ws.matrix n * Y) res.decomp ∧
      (Function.Injective res.decomp.eigvals → res.decomp.Lᴴ * res.decomp.R = 1) ∧
      DmdOutcome (ws.matrix n) X Y modeIndices res := by
  unfold dmdDirectSeq at hres
  split at hres
  · cases hres
  rename_i so hso
  obtain ⟨G, hG, hdata⟩ := directSqrtWeights_ok lib.cholesky ws hfit hchol so hso
  rw [hdata] at hres
  dsimp only at hres
  rw [show (G * Z).submatrix id Fin.castSucc = G * X by rw [hX]; rfl, ← hX, ← hY] at hres
  refine dmdDirectRest_ok lib eig modeIndices t rtol maxNum G _ hG X Y _ ht hr (hlib _) (fun s h1 h2 => ?_) res hres heig
  have hW : (ws.matrix n).IsHermitian := directWeights_hermitian ws hfit
  have hadj := eigen_adjoint (gram_hermitian hW X) h2
  have hcorr : s.Vᴴ * directCorr s = s.Vᴴ * (Xᴴ * ws.matrix n * X) := by
    rw [hadj]
    unfold directCorr
    rw [← Matrix.mul_assoc, h1, Matrix.one_mul, diagPow_one]
  ext i j
  have hmul : ∀ (A : Matrix (Fin m) (Fin m) 𝕜) (j : Fin m), (s.Vᴴ * A) i j = s.Vᴴ i ⬝ᵥ fun k => A k j := fun A j => rfl
  rw [hmul, hmul]
  by_cases hj : j.val + 1 < m
  · have e1 : (fun k => (Matrix.of fun i j => if h : j.val + 1 < m then directCorr s i ⟨j.val + 1, h⟩ else
        ((G * X)ᴴ *ᵥ fun k => (G * Z) k (Fin.last m)) i) k j) = fun k => directCorr s k ⟨j.val + 1, hj⟩ := by
      ext k
      rw [of_apply, dif_pos hj]
    have e2 : (fun k => (Xᴴ * ws.matrix n * Y) k j) = fun k => (Xᴴ * ws.matrix n * X) k ⟨j.val + 1, hj⟩ := by
      ext k
      rw [hX, hY]
      rfl
    rw [e1, e2, ← hmul, ← hmul, hcorr]
  · have hjl : j.succ = Fin.last m := by ext; simp; omega
    congr 1
    ext k
    rw [of_apply, dif_neg hj, ← hG]
    have e3 : (Xᴴ * (Gᴴ * G) * Y) = (G * X)ᴴ * (G * Y) := by simp only [conjTranspose_mul, Matrix.mul_assoc]
    rw [e3, Matrix.mul_apply, mulVec, dotProduct]
    refine Finset.sum_congr rfl fun l _ => ?_
    congr 1
    rw [hY, ← hjl]
    rfl

end Direct

/-! ### Modes and eigenvalues -/

/-- The data without the last vector. -/
abbrev seqFirst {n m : Nat} (Z : Matrix (Fin n) (Fin (m + 1)) 𝕜) : Matrix (Fin n) (Fin m) 𝕜 := Z.submatrix id Fin.castSucc

/-- The data without the first vector. -/
abbrev seqNext {n m : Nat} (Z : Matrix (Fin n) (Fin (m + 1)) 𝕜) : Matrix (Fin n) (Fin m) 𝕜 := Z.submatrix id Fin.succ

/-- `scipy.linalg.eig` returned eigenvalues and eigenvectors of the reduced map of the result. -/
def EigOfReduced {n m : Nat} (eig : ∀ {r : Nat}, Matrix (Fin r) (Fin r) 𝕜 → EigOut 𝕜 r) (W : Matrix (Fin n) (Fin n) 𝕜)
    (X Y : Matrix (Fin n) (Fin m) 𝕜) (d : DmdDecomp 𝕜 m) : Prop :=
  IsEig (lowOrderMap (diagPow (𝕜 := 𝕜) d.w (-0.5)) d.V (Xᴴ * W * Y))
    (eig (lowOrderMap (diagPow (𝕜 := 𝕜) d.w (-0.5)) d.V (Xᴴ * W * Y)))

theorem DmdOutcome.modes {n m : Nat} {W : Matrix (Fin n) (Fin n) 𝕜} {X Y : Matrix (Fin n) (Fin m) 𝕜}
    {modeIndices : Option (List Int)} {res : DmdResult 𝕜 n m} (h : DmdOutcome W X Y modeIndices res)
    (hc : DmdCore (Xᴴ * W * X) (Xᴴ * W * Y) res.decomp) (hW : W.IsHermitian) (hLR : res.decomp.Lᴴ * res.decomp.R = 1)
    (h0 : ∀ i, res.decomp.eigvals i ≠ 0) :
    ∃ exact proj adjoint, Chosen exact modeIndices res.exactModes ∧ Chosen proj modeIndices res.projModes ∧
      Chosen adjoint modeIndices res.adjointModes ∧
      DmdModes W X Y res.decomp.w res.decomp.V res.decomp.eigvals exact proj adjoint ∧
      DmdCoeffs W X Y adjoint res.projCoeffs res.advProjCoeffs res.spectralCoeffs := by
  refine ⟨_, _, _, h.exact, h.proj, h.adjoint, hc.modes hW.eq hLR h0, ?_⟩
  rw [h.projCoeffs, h.advProjCoeffs, h.spectral]
  exact hc.coeffs h.pos

theorem DmdOutcome.coeffs {n m : Nat} {W : Matrix (Fin n) (Fin n) 𝕜} {X Y : Matrix (Fin n) (Fin m) 𝕜}
    {modeIndices : Option (List Int)} {res : DmdResult 𝕜 n m} (h : DmdOutcome W X Y modeIndices res)
    (hc : DmdCore (Xᴴ * W * X) (Xᴴ * W * Y) res.decomp) :
    ∃ adjoint, Chosen adjoint modeIndices res.adjointModes ∧
      DmdCoeffs W X Y adjoint res.projCoeffs res.advProjCoeffs res.spectralCoeffs := by
  refine ⟨_, h.adjoint, ?_⟩
  rw [h.projCoeffs, h.advProjCoeffs, h.spectral]
  exact hc.coeffs h.pos

section Snaps

variable {n m : Nat} (lib : PodLib 𝕜 n m) (eig : ∀ {r : Nat}, Matrix (Fin r) (Fin r) 𝕜 → EigOut 𝕜 r)
  (modeIndices : Option (List Int)) (weights : Option (NdArray 𝕜)) (ws : Weights 𝕜)
  (t : ℝ) (rtol : Option ℝ) (maxNum : Option Nat)

/-- **C26, C27.** Modes, eigenvalues and coefficients of the snapshot method for sequential data. -/
theorem C26_snaps_sequential (ht : 0 ≤ t) (hr : ∀ t ∈ rtol, 0 ≤ t) (hs : IsArgsort lib.argsort)
    (hws : arraysInit weights = .ok ws) (hfit : ws.Fits n) (hW : (ws.matrix n).IsHermitian)
    (hlib : ∀ C : Matrix (Fin m) (Fin m) 𝕜, C.IsHermitian → IsEigh C (lib.eigh C)) (Z : Matrix (Fin n) (Fin (m + 1)) 𝕜)
    (res : DmdResult 𝕜 n m) (corr cross : Matrix (Fin m) (Fin m) 𝕜)
    (hres : dmdSnapsSeq lib eig Z modeIndices weights (some t) rtol maxNum = .ok (res, corr, cross))
    (heig : EigOfReduced eig (ws.matrix n) (seqFirst Z) (seqNext Z) res.decomp)
    (hinj : Function.Injective res.decomp.eigvals) (h0 : ∀ i, res.decomp.eigvals i ≠ 0) :
    corr = (seqFirst Z)ᴴ * ws.matrix n * seqFirst Z ∧ cross = (seqFirst Z)ᴴ * ws.matrix n * seqNext Z ∧
    ∃ exact proj adjoint, Chosen exact modeIndices res.exactModes ∧ Chosen proj modeIndices res.projModes ∧
      Chosen adjoint modeIndices res.adjointModes ∧
      DmdModes (ws.matrix n) (seqFirst Z) (seqNext Z) res.decomp.w res.decomp.V res.decomp.eigvals exact proj adjoint ∧
      DmdCoeffs (ws.matrix n) (seqFirst Z) (seqNext Z) adjoint res.projCoeffs res.advProjCoeffs res.spectralCoeffs := by
  obtain ⟨rfl, rfl, hd, ho⟩ := dmdSnapsSeq_ok lib eig modeIndices weights ws _ rtol maxNum hws hfit Z res corr cross hres
  obtain ⟨hc, hLR⟩ := dmdEigendecomp_core _ _ eig _ _ t rtol maxNum _ hd ht hr hs (gram_hermitian hW _)
    (hlib _ (gram_hermitian hW _)) heig
  exact ⟨rfl, rfl, ho.modes hc hW (hLR hinj) h0⟩

/-- **C26, C27.** Modes, eigenvalues and coefficients of the snapshot method for pairs of vectors. -/
theorem C26_snaps_pairs (ht : 0 ≤ t) (hr : ∀ t ∈ rtol, 0 ≤ t) (hs : IsArgsort lib.argsort)
    (hws : arraysInit weights = .ok ws) (hfit : ws.Fits n) (hW : (ws.matrix n).IsHermitian)
    (hlib : ∀ C : Matrix (Fin m) (Fin m) 𝕜, C.IsHermitian → IsEigh C (lib.eigh C)) (X Y : Matrix (Fin n) (Fin m) 𝕜)
    (res : DmdResult 𝕜 n m) (corr cross : Matrix (Fin m) (Fin m) 𝕜)
    (hres : dmdSnapsPairs lib eig X ⟨n, m, Y⟩ modeIndices weights (some t) rtol maxNum = .ok (res, corr, cross))
    (heig : EigOfReduced eig (ws.matrix n) X Y res.decomp)
    (hinj : Function.Injective res.decomp.eigvals) (h0 : ∀ i, res.decomp.eigvals i ≠ 0) :
    corr = Xᴴ * ws.matrix n * X ∧ cross = Xᴴ * ws.matrix n * Y ∧
    ∃ exact proj adjoint, Chosen exact modeIndices res.exactModes ∧ Chosen proj modeIndices res.projModes ∧
      Chosen adjoint modeIndices res.adjointModes ∧
      DmdModes (ws.matrix n) X Y res.decomp.w res.decomp.V res.decomp.eigvals exact proj adjoint ∧
      DmdCoeffs (ws.matrix n) X Y adjoint res.projCoeffs res.advProjCoeffs res.spectralCoeffs := by
  obtain ⟨rfl, rfl, hd, ho⟩ := dmdSnapsPairs_ok lib eig modeIndices weights ws _ rtol maxNum hws hfit X Y res corr cross hres
  obtain ⟨hc, hLR⟩ := dmdEigendecomp_core _ _ eig _ _ t rtol maxNum _ hd ht hr hs (gram_hermitian hW _)
    (hlib _ (gram_hermitian hW _)) heig
  exact ⟨rfl, rfl, ho.modes hc hW (hLR hinj) h0⟩

/-- **C27.** Coefficients of the snapshot method for sequential data, whether or not the eigenvalues are distinct. -/
theorem C27_snaps_sequential (ht : 0 ≤ t) (hr : ∀ t ∈ rtol, 0 ≤ t) (hs : IsArgsort lib.argsort)
    (hws : arraysInit weights = .ok ws) (hfit : ws.Fits n) (hW : (ws.matrix n).IsHermitian)
    (hlib : ∀ C : Matrix (Fin m) (Fin m) 𝕜, C.IsHermitian → IsEigh C (lib.eigh C)) (Z : Matrix (Fin n) (Fin (m + 1)) 𝕜)
    (res : DmdResult 𝕜 n m) (corr cross : Matrix (Fin m) (Fin m) 𝕜)
    (hres : dmdSnapsSeq lib eig Z modeIndices weights (some t) rtol maxNum = .ok (res, corr, cross))
    (heig : EigOfReduced eig (ws.matrix n) (seqFirst Z) (seqNext Z) res.decomp) :
    ∃ adjoint, Chosen adjoint modeIndices res.adjointModes ∧
      DmdCoeffs (ws.matrix n) (seqFirst Z) (seqNext Z) adjoint res.projCoeffs res.advProjCoeffs res.spectralCoeffs := by
  obtain ⟨rfl, rfl, hd, ho⟩ := dmdSnapsSeq_ok lib eig modeIndices weights ws _ rtol maxNum hws hfit Z res corr cross hres
  obtain ⟨hc, -⟩ := dmdEigendecomp_core _ _ eig _ _ t rtol maxNum _ hd ht hr hs (gram_hermitian hW _)
    (hlib _ (gram_hermitian hW _)) heig
  exact ho.coeffs hc

/-- **C27.** Coefficients of the snapshot method for pairs of vectors. -/
theorem C27_snaps_pairs (ht : 0 ≤ t) (hr : ∀ t ∈ rtol, 0 ≤ t) (hs : IsArgsort lib.argsort)
    (hws : arraysInit weights = .ok ws) (hfit : ws.Fits n) (hW : (ws.matrix n).IsHermitian)
    (hlib : ∀ C : Matrix (Fin m) (Fin m) 𝕜, C.IsHermitian → IsEigh C (lib.eigh C)) (X Y : Matrix (Fin n) (Fin m) 𝕜)
    (res : DmdResult 𝕜 n m) (corr cross : Matrix (Fin m) (Fin m) 𝕜)
    (hres : dmdSnapsPairs lib eig X ⟨n, m, Y⟩ modeIndices weights (some t) rtol maxNum = .ok (res, corr, cross))
    (heig : EigOfReduced eig (ws.matrix n) X Y res.decomp) :
    ∃ adjoint, Chosen adjoint modeIndices res.adjointModes ∧
      DmdCoeffs (ws.matrix n) X Y adjoint res.projCoeffs res.advProjCoeffs res.spectralCoeffs := by
  obtain ⟨rfl, rfl, hd, ho⟩ := dmdSnapsPairs_ok lib eig modeIndices weights ws _ rtol maxNum hws hfit X Y res corr cross hres
  obtain ⟨hc, -⟩ := dmdEigendecomp_core _ _ eig _ _ t rtol maxNum _ hd ht hr hs (gram_hermitian hW _)
    (hlib _ (gram_hermitian hW _)) heig
  exact ho.coeffs hc

/-- Advanced vectors of another shape are refused, whatever else is given. -/
theorem C26_wrong_shape (hws : arraysInit weights = .ok ws) (X : Matrix (Fin n) (Fin m) 𝕜) (Y : Arr 𝕜)
    (h : ¬(Y.m = n ∧ Y.n = m)) (atol : Option ℝ) :
    dmdSnapsPairs lib eig X Y modeIndices weights atol rtol maxNum = .error .valueError := by
  unfold dmdSnapsPairs
  rw [hws]
  dsimp only
  rw [dif_neg h]

end Snaps

section Direct

variable {n m : Nat} (lib : PodLib 𝕜 n m) (eig : ∀ {r : Nat}, Matrix (Fin r) (Fin r) 𝕜 → EigOut 𝕜 r)
  (modeIndices : Option (List Int)) (ws : DirectWeights 𝕜) (t : ℝ) (rtol : Option ℝ) (maxNum : Option Nat)

/-- **C26, C27.** Modes, eigenvalues and coefficients of the direct method for sequential data. -/
theorem C26_direct_sequential (ht : 0 ≤ t) (hr : ∀ t ∈ rtol, 0 ≤ t) (hfit : ws.Fits n)
    (hchol : ∀ p q w, ws = .d2 p q w → IsCholesky lib.cholesky (ws.matrix n)) (hlib : ∀ a, IsSvd a (lib.svd a))
    (Z : Matrix (Fin n) (Fin (m + 1)) 𝕜) (res : DmdResult 𝕜 n m)
    (hres : dmdDirectSeq lib eig Z modeIndices ws (some t) rtol maxNum = .ok res)
    (heig : EigOfReduced eig (ws.matrix n) (seqFirst Z) (seqNext Z) res.decomp)
    (hinj : Function.Injective res.decomp.eigvals) (h0 : ∀ i, res.decomp.eigvals i ≠ 0) :
    ∃ exact proj adjoint, Chosen exact modeIndices res.exactModes ∧ Chosen proj modeIndices res.projModes ∧
      Chosen adjoint modeIndices res.adjointModes ∧
      DmdModes (ws.matrix n) (seqFirst Z) (seqNext Z) res.decomp.w res.decomp.V res.decomp.eigvals exact proj adjoint ∧
      DmdCoeffs (ws.matrix n) (seqFirst Z) (seqNext Z) adjoint res.projCoeffs res.advProjCoeffs res.spectralCoeffs := by
  obtain ⟨hc, hLR, ho⟩ := dmdDirectSeq_ok lib eig modeIndices ws t rtol maxNum hfit hchol ht hr hlib Z res hres _ _ rfl rfl heig
  exact ho.modes hc (directWeights_hermitian ws hfit) (hLR hinj) h0

/-- **C26, C27.** Modes, eigenvalues and coefficients of the direct method for pairs of vectors. -/
theorem C26_direct_pairs (ht : 0 ≤ t) (hr : ∀ t ∈ rtol, 0 ≤ t) (hfit : ws.Fits n)
    (hchol : ∀ p q w, ws = .d2 p q w → IsCholesky lib.cholesky (ws.matrix n)) (hlib : ∀ a, IsSvd a (lib.svd a))
    (X Y : Matrix (Fin n) (Fin m) 𝕜) (res : DmdResult 𝕜 n m)
    (hres : dmdDirectPairs lib eig X ⟨n, m, Y⟩ modeIndices ws (some t) rtol maxNum = .ok res)
    (heig : EigOfReduced eig (ws.matrix n) X Y res.decomp)
    (hinj : Function.Injective res.decomp.eigvals) (h0 : ∀ i, res.decomp.eigvals i ≠ 0) :
    ∃ exact proj adjoint, Chosen exact modeIndices res.exactModes ∧ Chosen proj modeIndices res.projModes ∧
      Chosen adjoint modeIndices res.adjointModes ∧
      DmdModes (ws.matrix n) X Y res.decomp.w res.decomp.V res.decomp.eigvals exact proj adjoint ∧
      DmdCoeffs (ws.matrix n) X Y adjoint res.projCoeffs res.advProjCoeffs res.spectralCoeffs := by
  obtain ⟨hc, hLR, ho⟩ := dmdDirectPairs_ok lib eig modeIndices ws t rtol maxNum hfit hchol ht hr hlib X Y res hres heig
  exact ho.modes hc (directWeights_hermitian ws hfit) (hLR hinj) h0

/-- **C27.** Coefficients of the direct method for sequential data, whether or not the eigenvalues are distinct. -/
theorem C27_direct_sequential (ht : 0 ≤ t) (hr : ∀ t ∈ rtol, 0 ≤ t) (hfit : ws.Fits n)
    (hchol : ∀ p q w, ws = .d2 p q w → IsCholesky lib.cholesky (ws.matrix n)) (hlib : ∀ a, IsSvd a (lib.svd a))
    (Z : Matrix (Fin n) (Fin (m + 1)) 𝕜) (res : DmdResult 𝕜 n m)
    (hres : dmdDirectSeq lib eig Z modeIndices ws (some t) rtol maxNum = .ok res)
    (heig : EigOfReduced eig (ws.matrix n) (seqFirst Z) (seqNext Z) res.decomp) :
    ∃ adjoint, Chosen adjoint modeIndices res.adjointModes ∧
      DmdCoeffs (ws.matrix n) (seqFirst Z) (seqNext Z) adjoint res.projCoeffs res.advProjCoeffs res.spectralCoeffs := by
  obtain ⟨hc, -, ho⟩ := dmdDirectSeq_ok lib eig modeIndices ws t rtol maxNum hfit hchol ht hr hlib Z res hres _ _ rfl rfl heig
  exact ho.coeffs hc

/-- **C27.** Coefficients of the direct method for pairs of vectors. -/
theorem C27_direct_pairs (ht : 0 ≤ t) (hr : ∀ t ∈ rtol, 0 ≤ t) (hfit : ws.Fits n)
    (hchol : ∀ p q w, ws = .d2 p q w → IsCholesky lib.cholesky (ws.matrix n)) (hlib : ∀ a, IsSvd a (lib.svd a))
    (X Y : Matrix (Fin n) (Fin m) 𝕜) (res : DmdResult 𝕜 n m)
    (hres : dmdDirectPairs lib eig X ⟨n, m, Y⟩ modeIndices ws (some t) rtol maxNum = .ok res)
    (heig : EigOfReduced eig (ws.matrix n) X Y res.decomp) :
    ∃ adjoint, Chosen adjoint modeIndices res.adjointModes ∧
      DmdCoeffs (ws.matrix n) X Y adjoint res.projCoeffs res.advProjCoeffs res.spectralCoeffs := by
  obtain ⟨hc, -, ho⟩ := dmdDirectPairs_ok lib eig modeIndices ws t rtol maxNum hfit hchol ht hr hlib X Y res hres heig
  exact ho.coeffs hc

end Direct

/-! ### No errors -/

section NoError

variable {n m : Nat} (lib : PodLib 𝕜 n m) (eig : ∀ {r : Nat}, Matrix (Fin r) (Fin r) 𝕜 → EigOut 𝕜 r)
  (t : ℝ) (rtol : Option ℝ) (maxNum : Option Nat)

theorem dmdFinish_all (hm : 0 < m) (d : DmdDecomp 𝕜 m) (sqrtInv : Matrix (Fin d.r) (Fin d.r) 𝕜)
    (cross : Matrix (Fin m) (Fin m) 𝕜) (X Y : Matrix (Fin n) (Fin m) 𝕜) :
    ∃ res, dmdFinish d sqrtInv cross X Y none = .ok res := by
  unfold dmdFinish
  dsimp only
  rw [dif_pos hm]
  exact ⟨_, rfl⟩

theorem dmdEigendecomp_all (hm : 0 < m) (C K : Matrix (Fin m) (Fin m) 𝕜) :
    ∃ d, dmdEigendecomp lib.eigh lib.argsort eig C K (some t) rtol maxNum = .ok d := by
  obtain ⟨e, he⟩ := C20_no_error lib.eigh lib.argsort C rtol true t hm
  unfold dmdEigendecomp
  rw [he]
  exact ⟨_, rfl⟩

theorem dmdDirectRest_all (hm : 0 < m) (hn : rtol ≠ none → 0 < n) (a : Matrix (Fin n) (Fin m) 𝕜)
    (cross : Svd 𝕜 n m → Matrix (Fin m) (Fin m) 𝕜) (X Y : Matrix (Fin n) (Fin m) 𝕜) :
    ∃ res, dmdDirectRest lib eig a cross X Y none (some t) rtol maxNum = .ok res := by
  unfold dmdDirectRest
  cases h : utilSvd lib.svd a (some t) rtol with
  | error e =>
    obtain ⟨-, h1, h2⟩ := (C19_error_iff lib.svd a (some t) rtol e).mp h
    have := hn h1
    omega
  | ok s => exact dmdFinish_all hm _ _ _ _ _

theorem directSqrtWeights_all (ws : DirectWeights 𝕜) (hfit : ws.Fits n) (ha : ws.accepted = true)
    (hchol : ∀ p q w, ws = .d2 p q w → IsCholesky lib.cholesky (ws.matrix n)) :
    ∃ so, directSqrtWeights lib.cholesky ws = .ok so := by
  unfold directSqrtWeights
  rw [if_pos ha]
  cases ws with
  | none => exact ⟨_, rfl⟩
  | higher => exact hfit.elim
  | d1 k w => exact ⟨_, if_pos hfit.1⟩
  | d2 p q w =>
    obtain ⟨rfl, rfl, -⟩ := hfit
    obtain ⟨l, hl, -⟩ := hchol _ _ _ rfl
    dsimp only
    rw [if_neg (fun h => h rfl), if_pos rfl]
    rw [show lib.cholesky (Matrix.of fun i j => w i j) = some l from hl]
    exact ⟨_, rfl⟩

/-- **C26.** With weights that fit there is always a result. -/
theorem C26_snaps_no_error (hm : 0 < m) (weights : Option (NdArray 𝕜)) (ws : Weights 𝕜) (hws : arraysInit weights = .ok ws)
    (hfit : ws.Fits n) (Z : Matrix (Fin n) (Fin (m + 1)) 𝕜) (X Y : Matrix (Fin n) (Fin m) 𝕜) :
    (∃ res, dmdSnapsSeq lib eig Z none weights (some t) rtol maxNum = .ok res) ∧
    ∃ res, dmdSnapsPairs lib eig X ⟨n, m, Y⟩ none weights (some t) rtol maxNum = .ok res := by
  have h : ∀ (C K : Matrix (Fin m) (Fin m) 𝕜) (X Y : Matrix (Fin n) (Fin m) 𝕜), ∃ res,
      dmdSnapsRest lib eig C K X Y none (some t) rtol maxNum = .ok res := by
    intro C K X Y
    obtain ⟨d, hd⟩ := dmdEigendecomp_all lib eig t rtol maxNum hm C K
    unfold dmdSnapsRest
    rw [hd]
    exact dmdFinish_all hm _ _ _ _ _
  constructor
  · unfold dmdSnapsSeq symmIpArray
    rw [hws]
    dsimp only
    rw [C45_formula ws hfit]
    dsimp only
    obtain ⟨res, hr⟩ := h ((Zᴴ * ws.matrix n * Z).submatrix Fin.castSucc Fin.castSucc)
      ((Zᴴ * ws.matrix n * Z).submatrix Fin.castSucc Fin.succ) (Z.submatrix id Fin.castSucc) (Z.submatrix id Fin.succ)
    rw [hr]
    exact ⟨_, rfl⟩
  · unfold dmdSnapsPairs symmIpArray
    rw [hws]
    simp only [and_self, dite_true]
    rw [C45_formula ws hfit, C45_formula ws hfit]
    dsimp only
    generalize submatrix Y _ _ = Y'
    obtain ⟨res, hr⟩ := h (Xᴴ * ws.matrix n * X) (Xᴴ * ws.matrix n * Y') X Y'
    rw [hr]
    exact ⟨_, rfl⟩

/-- **C26.** The same for the direct method. -/
theorem C26_direct_no_error (hm : 0 < m) (hn : rtol ≠ none → 0 < n) (ws : DirectWeights 𝕜) (hfit : ws.Fits n)
    (ha : ws.accepted = true) (hchol : ∀ p q w, ws = .d2 p q w → IsCholesky lib.cholesky (ws.matrix n))
    (Z : Matrix (Fin n) (Fin (m + 1)) 𝕜) (X Y : Matrix (Fin n) (Fin m) 𝕜) :
    (∃ res, dmdDirectSeq lib eig Z none ws (some t) rtol maxNum = .ok res) ∧
    ∃ res, dmdDirectPairs lib eig X ⟨n, m, Y⟩ none ws (some t) rtol maxNum = .ok res := by
  obtain ⟨so, hso⟩ := directSqrtWeights_all lib ws hfit ha hchol
  constructor
  · unfold dmdDirectSeq
    rw [hso]
    exact dmdDirectRest_all lib eig t rtol maxNum hm hn _ _ _ _
  · unfold dmdDirectPairs
    rw [hso]
    simp only [and_self, dite_true]
    exact dmdDirectRest_all lib eig t rtol maxNum hm hn _ _ _ _

end NoError

/-! ### Consequences -/

section Consequences

variable {n m r r' : Nat} {W : Matrix (Fin n) (Fin n) 𝕜} {X Y : Matrix (Fin n) (Fin m) 𝕜}
  {w : Fin r → ℝ} {V : Matrix (Fin m) (Fin r) 𝕜} {eigvals : Fin r → 𝕜} {exact proj adjoint : Matrix (Fin n) (Fin r) 𝕜}
  {w' : Fin r' → ℝ} {V' : Matrix (Fin m) (Fin r') 𝕜} {eigvals' : Fin r' → 𝕜}
  {exact' proj' adjoint' : Matrix (Fin n) (Fin r') 𝕜}

/-- **C26.** If no direction is dropped, exact modes are eigenvectors of `Y P` for the Moore-Penrose inverse `P` of the
data. -/
theorem C26_pinv (h : DmdModes W X Y w V eigvals exact proj adjoint) (hW : W.PosDef) (hr : r = X.rank)
    (P : Matrix (Fin m) (Fin n) 𝕜) (hP : IsPinv W X P) : Y * P * exact = exact * diagonal eigvals := by
  rw [IsPinv.unique hW.isHermitian.eq hW.isUnit hP (h.pinv hr), h.exact_eigen]

/-- **C26.** If the data span the space, exact modes are eigenvectors of any linear map that takes the data to the
advanced data. -/
theorem C26_full_rank (h : DmdModes W X Y w V eigvals exact proj adjoint) (hr : r = n) (hn : X.rank = n)
    (A : Matrix (Fin n) (Fin n) 𝕜) (hA : A * X = Y) : A * exact = exact * diagonal eigvals := by
  have hr' : r = X.rank := hr.trans hn.symm
  have hXP := (h.pinv hr').outer
  refine h.invariant_data hr' A (truncatedPinv W X w V * Y) hA ?_
  rw [← Matrix.mul_assoc]
  have hsurj : Function.Surjective X.mulVecLin := by
    rw [← LinearMap.range_eq_top]
    apply Submodule.eq_top_of_finrank_eq
    unfold Matrix.rank at hn
    rw [hn]
    simp
  have hone : X * truncatedPinv W X w V = 1 := by
    refine ext_of_mulVec_single fun j => ?_
    obtain ⟨x, hx⟩ := hsurj (Pi.single j 1)
    rw [← hx, mulVecLin_apply, mulVec_mulVec, hXP, one_mulVec]
  rw [hone, Matrix.one_mul]

/-- **C27.** Methods that retain the same eigenvalues, those above some threshold, of the correlation array give the
same results up to the order and scale of the modes. -/
theorem C27_methods_agree (h : DmdModes W X Y w V eigvals exact proj adjoint)
    (h' : DmdModes W X Y w' V' eigvals' exact' proj' adjoint') (hW : W.PosDef)
    (o : EighOut 𝕜 m) (ho : IsEigh (Xᴴ * W * X) o) (θ : ℝ) (hθ : ∀ i, θ < w i) (hθ' : ∀ i, θ < w' i)
    (hr : r = Fintype.card {i : Fin m // θ < o.w i}) (hr' : r' = Fintype.card {i : Fin m // θ < o.w i})
    (h0 : ∀ i, eigvals i ≠ 0) (h0' : ∀ i, eigvals' i ≠ 0) (hi : Function.Injective eigvals)
    (hi' : Function.Injective eigvals') :
    ∃ σ c, DmdSame eigvals exact proj adjoint (adjointᴴ * W * X) (adjointᴴ * W * Y) eigvals' exact' proj' adjoint'
      (adjoint'ᴴ * W * X) (adjoint'ᴴ * W * Y) σ c := by
  refine h.unique h' ?_ hW.isHermitian.eq hW.isUnit h0 h0' hi hi'
  refine truncatedPinv_unique h.orthonormal h'.orthonormal ?_ h.pos h'.pos h.eigen h'.eigen
  rw [spectral_subspace ho θ h.orthonormal h.eigen hθ hr, spectral_subspace ho θ h'.orthonormal h'.eigen hθ' hr']

end Consequences

/-! ### Examples -/

/-- Three vectors, each the image of the one before it under the map with rows (0, -2) and (1, 3). -/
def exampleSeq : Matrix (Fin 2) (Fin 3) ℝ := !![1, 0, -2; 0, 1, 3]

/-- Eigenvalues and eigenvectors of the map with rows (0, -2) and (1, 3). -/
noncomputable def exampleSeqEig : ∀ {r : Nat}, Matrix (Fin r) (Fin r) ℝ → EigOut ℝ r
  | 2, _ => ⟨![1, 2], !![1, 1; 1, 2], !![-2, -1; 1, 1]⟩
  | _, _ => ⟨0, 0, 0⟩

theorem exampleSeq_first : seqFirst exampleSeq = 1 := by
  ext i j
  fin_cases i <;> fin_cases j <;> rfl

theorem exampleSeq_next : seqNext exampleSeq = !![0, -2; 1, 3] := by
  ext i j
  fin_cases i <;> fin_cases j <;> rfl

theorem exampleSeqEig_isEig : IsEig (!![0, -2; 1, 3] : Matrix (Fin 2) (Fin 2) ℝ) (exampleSeqEig !![0, -2; 1, 3]) where
  right := by
    ext i j
    rw [mul_diagonal]
    fin_cases i <;> fin_cases j <;> simp [exampleSeqEig, Matrix.mul_apply, Fin.sum_univ_two] <;> norm_num
  left := by
    ext i j
    rw [diagonal_mul]
    fin_cases i <;> fin_cases j <;> simp [exampleSeqEig, Matrix.mul_apply, Fin.sum_univ_two] <;> norm_num
  right_nonzero := by
    intro j h
    have h0 := congrFun h j
    fin_cases j <;> simp [exampleSeqEig] at h0
  left_nonzero := by
    intro j h
    have h0 := congrFun h j
    fin_cases j <;> simp [exampleSeqEig] at h0

/-- A library that returns the obvious decompositions of the identity. -/
theorem exists_exampleLib_tol (t : ℝ) (ht : 0 ≤ t) (ht1 : t < 1) : ∃ lib : PodLib ℝ 2 2, (∀ a, IsSvd a (lib.svd a)) ∧
    (∀ a, a.IsHermitian → IsEigh a (lib.eigh a)) ∧ IsArgsort lib.argsort ∧
    utilEigh lib.eigh lib.argsort 1 (some t) none true = .ok ⟨2, fun _ => 1, 1⟩ ∧
    utilSvd lib.svd 1 (some t) none = .ok ⟨2, 1, fun _ => 1, 1⟩ := by
  classical
  obtain ⟨lib, hsvd, heigh, hs, -⟩ := exists_podLib (𝕜 := ℝ) 2 2
  refine ⟨⟨fun a => if a = 1 then ⟨fun _ => 1, 1⟩ else lib.eigh a,
    fun x => if Monotone (x ∘ Fin.revPerm) then Fin.revPerm else lib.argsort x,
    fun a => if a = 1 then ⟨(1 : Matrix (Fin 2) (Fin 2) ℝ), fun _ => 1, (1 : Matrix (Fin 2) (Fin 2) ℝ)⟩ else lib.svd a,
    lib.cholesky⟩, ?_, ?_, ?_, ?_, ?_⟩
  · intro a
    dsimp only
    split
    · rename_i h
      subst h
      refine ⟨?_, ?_, ?_, fun _ => zero_le_one, fun _ _ _ => le_refl _⟩
      · exact (by simp : (1 : Matrix (Fin 2) (Fin 2) ℝ)ᴴ * 1 = 1)
      · exact (by simp : (1 : Matrix (Fin 2) (Fin 2) ℝ) * 1ᴴ = 1)
      · exact (by simp : (1 : Matrix (Fin 2) (Fin 2) ℝ) = 1 * diagonal (fun _ => ((1 : ℝ) : ℝ)) * 1)
    · exact hsvd a
  · intro a ha
    dsimp only
    split
    · rename_i h
      subst h
      exact ⟨by simp, by simp⟩
    · exact heigh a ha
  · intro x
    dsimp only
    split
    · rename_i h
      exact h
    · exact hs x
  · have h1 : numRetained (fun _ : Fin 2 => (1 : ℝ)) (some t) none = .ok 2 := by
      simp only [numRetained, numAbove]
      congr 1
      rw [Finset.filter_true_of_mem]
      · rfl
      · intro i _
        simpa using ht1
    have h2 : adjustTol (fun _ : Fin 2 => (1 : ℝ)) (some t) true = .ok (some t) := by
      simp only [adjustTol, npMin, if_true, dif_pos (Nat.zero_lt_two)]
      rw [if_neg]
      exact not_lt.mpr (Finset.le_inf' _ _ fun _ _ => zero_le_one)
    unfold utilEigh
    simp only [if_true]
    have hm : Monotone ((fun _ : Fin 2 => |(1 : ℝ)|) ∘ Fin.revPerm) := fun _ _ _ => le_refl _
    simp only [if_pos hm]
    rw [h2]
    dsimp only
    rw [h1]
    dsimp only
    have h3 : ((1 : Matrix (Fin 2) (Fin 2) ℝ).submatrix id fun i : Fin 2 => Fin.revPerm i.rev) = 1 := by
      ext i j
      simp
      rfl
    rw [h3]
    rfl
  · have h1 : numRetained (fun _ : Fin (min 2 2) => (1 : ℝ)) (some t) none = .ok 2 := by
      simp only [numRetained, numAbove]
      congr 1
      rw [Finset.filter_true_of_mem]
      · rfl
      · intro i _
        simpa using ht1
    unfold utilSvd
    simp only [if_true]
    rw [h1]
    dsimp only
    congr 2
    exact conjTranspose_one (n := Fin 2) (α := ℝ)

theorem exists_exampleLib : ∃ lib : PodLib ℝ 2 2, (∀ a, IsSvd a (lib.svd a)) ∧
    (∀ a, a.IsHermitian → IsEigh a (lib.eigh a)) ∧ IsArgsort lib.argsort ∧
    utilEigh lib.eigh lib.argsort 1 (some (1 / 10)) none true = .ok ⟨2, fun _ => 1, 1⟩ ∧
    utilSvd lib.svd 1 (some (1 / 10)) none = .ok ⟨2, 1, fun _ => 1, 1⟩ :=
  exists_exampleLib_tol (1 / 10) (by norm_num) (by norm_num)

theorem exampleSeq_low (sqrtInv V : Matrix (Fin 2) (Fin 2) ℝ) (hs : sqrtInv = 1) (hV : V = 1)
    (K : Matrix (Fin 2) (Fin 2) ℝ) : lowOrderMap sqrtInv V K = K := by
  subst hs hV
  simp [lowOrderMap]

theorem exampleSeq_diagPow (e : ℝ) : diagPow (𝕜 := ℝ) (fun _ : Fin 2 => (1 : ℝ)) e = 1 := by
  ext i j
  simp [diagPow, Matrix.one_apply, diagonal_apply]

/-- The result of the example: eigenvalues 1 and 2 and the decomposition of the identity. -/
noncomputable def exampleSeqDecomp : DmdDecomp ℝ 2 :=
  ⟨2, fun _ => 1, 1, ![1, 2], !![-2, -1; 1, 1], Matrix.of fun i j => (!![1, 1; 1, 2] : Matrix (Fin 2) (Fin 2) ℝ) i j /
    star (((!![1, 1; 1, 2] : Matrix (Fin 2) (Fin 2) ℝ)ᴴ * !![-2, -1; 1, 1]).diag j)⟩

theorem exampleSeqDecomp_eig : EigOfReduced exampleSeqEig (1 : Matrix (Fin 2) (Fin 2) ℝ) (seqFirst exampleSeq)
    (seqNext exampleSeq) exampleSeqDecomp := by
  unfold EigOfReduced
  have h : lowOrderMap (diagPow (𝕜 := ℝ) exampleSeqDecomp.w (-0.5)) exampleSeqDecomp.V
      ((seqFirst exampleSeq)ᴴ * 1 * seqNext exampleSeq) = (!![0, -2; 1, 3] : Matrix (Fin 2) (Fin 2) ℝ) := by
    change lowOrderMap (diagPow (𝕜 := ℝ) (fun _ : Fin 2 => (1 : ℝ)) (-0.5)) (1 : Matrix (Fin 2) (Fin 2) ℝ)
      ((seqFirst exampleSeq)ᴴ * 1 * seqNext exampleSeq) = (!![0, -2; 1, 3] : Matrix (Fin 2) (Fin 2) ℝ)
    rw [exampleSeq_first, exampleSeq_next, exampleSeq_low _ _ (exampleSeq_diagPow _) rfl]
    simp
  rw [h]
  exact exampleSeqEig_isEig

theorem exampleSeqDecomp_distinct : Function.Injective exampleSeqDecomp.eigvals ∧ ∀ i, exampleSeqDecomp.eigvals i ≠ 0 := by
  constructor
  · intro i j hij
    fin_cases i <;> fin_cases j <;> simp [exampleSeqDecomp] at hij ⊢
  · intro i
    fin_cases i <;> simp [exampleSeqDecomp]

theorem exampleSeq_finish (s : Matrix (Fin 2) (Fin 2) ℝ) (K X Y : Matrix (Fin 2) (Fin 2) ℝ) :
    ∃ res, dmdFinish exampleSeqDecomp s K X Y none = .ok res ∧ res.decomp = exampleSeqDecomp :=
  ⟨_, rfl, rfl⟩

theorem exampleSeq_snaps_tol (t : ℝ) (ht : 0 ≤ t) (ht1 : t < 1) : ∃ (lib : PodLib ℝ 2 2) (res : DmdResult ℝ 2 2) (corr cross : Matrix (Fin 2) (Fin 2) ℝ),
    (∀ a, a.IsHermitian → IsEigh a (lib.eigh a)) ∧ IsArgsort lib.argsort ∧
    dmdSnapsSeq lib exampleSeqEig exampleSeq none none (some t) none none = .ok (res, corr, cross) ∧
    res.decomp = exampleSeqDecomp := by
  obtain ⟨lib, -, heigh, hs, hu, -⟩ := exists_exampleLib_tol t ht ht1
  have hcorr : ∀ C, symmIpArray (.none : Weights ℝ) exampleSeq = .ok C →
      C.submatrix Fin.castSucc Fin.castSucc = 1 ∧ C.submatrix Fin.castSucc Fin.succ = !![0, -2; 1, 3] := by
    intro C hC
    obtain rfl : exampleSeqᴴ * exampleSeq = C := Except.ok.inj hC
    constructor <;> ext i j <;> fin_cases i <;> fin_cases j <;>
      simp [exampleSeq, Matrix.mul_apply, Fin.sum_univ_two]
  unfold dmdSnapsSeq
  obtain ⟨C, hC⟩ : ∃ C, symmIpArray (.none : Weights ℝ) exampleSeq = .ok C := ⟨_, rfl⟩
  obtain ⟨h1, h2⟩ := hcorr C hC
  have h3 : dmdEigendecomp lib.eigh lib.argsort exampleSeqEig (1 : Matrix (Fin 2) (Fin 2) ℝ) !![0, -2; 1, 3]
      (some t) none none = .ok exampleSeqDecomp := by
    unfold dmdEigendecomp
    rw [hu]
    rfl
  obtain ⟨res, hr, hd⟩ := exampleSeq_finish (diagPow (𝕜 := ℝ) exampleSeqDecomp.w (-0.5)) !![0, -2; 1, 3]
    (exampleSeq.submatrix id Fin.castSucc) (exampleSeq.submatrix id Fin.succ)
  refine ⟨lib, res, C.submatrix Fin.castSucc Fin.castSucc, C.submatrix Fin.castSucc Fin.succ, heigh, hs, ?_, hd⟩
  simp only [arraysInit, hC, h1, h2]
  unfold dmdSnapsRest
  rw [h3]
  dsimp only
  generalize hg : dmdFinish exampleSeqDecomp _ _ _ _ _ = z
  obtain rfl : z = .ok res := hg.symm.trans hr
  rfl

theorem exampleSeq_snaps : ∃ (lib : PodLib ℝ 2 2) (res : DmdResult ℝ 2 2) (corr cross : Matrix (Fin 2) (Fin 2) ℝ),
    (∀ a, a.IsHermitian → IsEigh a (lib.eigh a)) ∧ IsArgsort lib.argsort ∧
    dmdSnapsSeq lib exampleSeqEig exampleSeq none none (some (1 / 10)) none none = .ok (res, corr, cross) ∧
    res.decomp = exampleSeqDecomp :=
  exampleSeq_snaps_tol (1 / 10) (by norm_num) (by norm_num)

/-- Eigenvalues 1 and 2, and exact modes that are eigenvectors of the map that generated the vectors. -/
example : ∃ (lib : PodLib ℝ 2 2) (res : DmdResult ℝ 2 2) (corr cross : Matrix (Fin 2) (Fin 2) ℝ),
    dmdSnapsSeq lib exampleSeqEig exampleSeq none none (some (1 / 10)) none none = .ok (res, corr, cross) ∧
    res.decomp.r = 2 ∧ ∃ exact : Matrix (Fin 2) (Fin res.decomp.r) ℝ, Chosen exact none res.exactModes ∧
      (!![0, -2; 1, 3] : Matrix (Fin 2) (Fin 2) ℝ) * exact = exact * diagonal res.decomp.eigvals := by
  obtain ⟨lib, res, corr, cross, heigh, hs, hres, hd⟩ := exampleSeq_snaps
  obtain ⟨-, -, exact, proj, adjoint, he, -, -, hm, -⟩ := C26_snaps_sequential lib exampleSeqEig none none .none (1 / 10) none none
    (by norm_num) (by simp) hs rfl trivial (by simp [Weights.matrix, Matrix.IsHermitian]) heigh exampleSeq res corr cross hres
    (by rw [hd]; exact exampleSeqDecomp_eig) (by rw [hd]; exact exampleSeqDecomp_distinct.1)
    (by rw [hd]; exact exampleSeqDecomp_distinct.2)
  refine ⟨lib, res, corr, cross, hres, by rw [hd]; rfl, exact, he, ?_⟩
  refine C26_full_rank hm (by rw [hd]; rfl) ?_ _ ?_
  · rw [exampleSeq_first]
    simp
  · rw [exampleSeq_first, exampleSeq_next, Matrix.mul_one]

theorem exampleSeq_direct : ∃ (lib : PodLib ℝ 2 2) (res : DmdResult ℝ 2 2),
    (∀ a, IsSvd a (lib.svd a)) ∧
    dmdDirectSeq lib exampleSeqEig exampleSeq none .none (some (1 / 10)) none none = .ok res ∧
    EigOfReduced exampleSeqEig 1 (seqFirst exampleSeq) (seqNext exampleSeq) res.decomp ∧
    Function.Injective res.decomp.eigvals ∧ ∀ i, res.decomp.eigvals i ≠ 0 := by
  obtain ⟨lib, hsvd, -, -, -, hu⟩ := exists_exampleLib
  refine ⟨lib, ?_⟩
  unfold dmdDirectSeq
  generalize hg : directSqrtWeights lib.cholesky (.none : DirectWeights ℝ) = z
  obtain rfl : z = .ok none := hg.symm
  dsimp only
  have h2 : (weightData none exampleSeq : Matrix (Fin 2) (Fin 3) ℝ).submatrix id Fin.castSucc = 1 := exampleSeq_first
  rw [h2]
  unfold dmdDirectRest
  rw [hu]
  have hw : (fun _ : Fin 2 => (1 : ℝ) ^ (2 : ℝ)) = exampleSeqDecomp.w := by
    ext i
    simp [exampleSeqDecomp]
  refine ⟨_, hsvd, rfl, ?_, ?_⟩
  · have := exampleSeqDecomp_eig
    unfold EigOfReduced at this ⊢
    rw [← hw] at this
    exact this
  · exact exampleSeqDecomp_distinct

/-- The coefficients of the direct method. -/
example : ∃ (lib : PodLib ℝ 2 2) (res : DmdResult ℝ 2 2),
    dmdDirectSeq lib exampleSeqEig exampleSeq none .none (some (1 / 10)) none none = .ok res ∧
    ∃ adjoint, Chosen adjoint none res.adjointModes ∧ res.projCoeffs = adjointᴴ ∧
      res.advProjCoeffs = adjointᴴ * (!![0, -2; 1, 3] : Matrix (Fin 2) (Fin 2) ℝ) := by
  obtain ⟨lib, res, hsvd, hres, heig, hi, h0⟩ := exampleSeq_direct
  obtain ⟨_, _, adjoint, _, _, ha, -, hc⟩ := C26_direct_sequential lib exampleSeqEig none .none (1 / 10) none none
    (by norm_num) (by simp) trivial (fun _ _ _ h => by cases h) hsvd exampleSeq res hres heig hi h0
  refine ⟨lib, res, hres, adjoint, ha, ?_, ?_⟩
  · rw [hc.proj, exampleSeq_first]
    simp [DirectWeights.matrix]
  · rw [hc.adv, exampleSeq_next]
    simp [DirectWeights.matrix]

/-- **C26.** It is not enough that the advanced vectors are the images of the vectors: the map with rows (1, 0) and
(1, 5) takes (1, 0) to (1, 1), but the exact mode (1, 1) is not an eigenvector of it. -/
theorem C26_invariance_needed_violation :
    ∃ (X Y : Matrix (Fin 2) (Fin 1) ℝ) (A : Matrix (Fin 2) (Fin 2) ℝ) (d : DmdDecomp ℝ 1),
      DmdModes 1 X Y d.w d.V d.eigvals (Y * d.buildExact) (X * d.buildProj) (X * d.buildAdjoint) ∧ d.r = X.rank ∧
      A * X = Y ∧ ¬ A * (Y * d.buildExact) = Y * d.buildExact * diagonal d.eigvals := by
  have hp : ∀ e : ℝ, diagPow (𝕜 := ℝ) (fun _ : Fin 1 => (1 : ℝ)) e = 1 := by
    intro e
    ext i j
    simp [diagPow, Matrix.one_apply, diagonal_apply]
  have hX : (!![1; 0] : Matrix (Fin 2) (Fin 1) ℝ)ᴴ * (1 : Matrix (Fin 2) (Fin 2) ℝ) * (!![1; 0] : Matrix (Fin 2) (Fin 1) ℝ) = 1 := by
    ext i j
    fin_cases i
    fin_cases j
    simp [Matrix.mul_apply, Fin.sum_univ_two]
  have hY : (!![1; 0] : Matrix (Fin 2) (Fin 1) ℝ)ᴴ * (1 : Matrix (Fin 2) (Fin 2) ℝ) * (!![1; 1] : Matrix (Fin 2) (Fin 1) ℝ) = 1 := by
    ext i j
    fin_cases i
    fin_cases j
    simp [Matrix.mul_apply, Fin.sum_univ_two]
  refine ⟨!![1; 0], !![1; 1], !![1, 0; 1, 5], ⟨1, fun _ => 1, (1 : Matrix (Fin 1) (Fin 1) ℝ), fun _ => 1, 1, 1⟩,
    DmdCore.modes ⟨?_, ?_, ?_, ?_, ?_, ?_, ?_⟩ (by simp) ?_ ?_, ?_, ?_, ?_⟩
  · rw [hX, conjTranspose_one]
  · simp
  · dsimp only
    rw [hX, hp]
  · exact fun _ => one_pos
  · dsimp only
    rw [hY, hp, lowOrderMap]
    simp
  · dsimp only
    rw [hY, hp, lowOrderMap]
    simp
  · dsimp only
    rw [hY, hp, lowOrderMap]
    exact fun _ => ⟨fun _ => 1, fun h => one_ne_zero (congrFun h 0), by simp⟩
  · simp
  · exact fun _ => one_ne_zero
  · dsimp only
    rw [← Matrix.rank_transpose_mul_self]
    rw [conjTranspose_eq_transpose_of_trivial, Matrix.mul_one] at hX
    rw [hX]
    simp
  · ext i j
    fin_cases i <;> fin_cases j <;> simp [Matrix.mul_apply, Fin.sum_univ_two]
  · have hb : DmdDecomp.buildExact (⟨1, fun _ => 1, (1 : Matrix (Fin 1) (Fin 1) ℝ), fun _ => 1, 1, 1⟩ : DmdDecomp ℝ 1) = 1 := by
      unfold DmdDecomp.buildExact
      dsimp only
      rw [hp]
      simp
    rw [hb]
    intro h
    have h2 := congrFun (congrFun h 1) 0
    simp [Matrix.mul_apply, Fin.sum_univ_two] at h2

section Refused

variable {𝕜 : Type*} [RCLike 𝕜]

/-- **C45.** The direct methods of dynamic mode decomposition refuse the weights that `VectorSpaceArrays` refuses. -/
theorem C45_direct_weights {n : Nat} (cholesky : Matrix (Fin n) (Fin n) 𝕜 → Option (Matrix (Fin n) (Fin n) 𝕜)) :
    (∀ k w, arraysInit (some ⟨[k], fun i => ((w i : ℝ) : 𝕜)⟩) = .error .valueError →
      directSqrtWeights cholesky (.d1 k w) = .error .valueError) ∧
    (∀ p q w, arraysInit (some ⟨[p, q], fun i => w (i / q) (i % q)⟩) = .error .valueError →
      directSqrtWeights cholesky (.d2 p q w) = .error .valueError) ∧
    directSqrtWeights cholesky .higher = .error .valueError ∧ directSqrtWeights cholesky (.none : DirectWeights 𝕜) = .ok none ∧
    (∀ w, directSqrtWeights cholesky (.d1 1 w) = .error .valueError) ∧
    ∀ w, directSqrtWeights cholesky (.d2 1 1 w) = .error .valueError := by
  have h1 : ∀ w, directSqrtWeights cholesky (.d1 1 w) = .error .valueError := fun w => if_neg (by simp [DirectWeights.accepted])
  have h2 : ∀ w, directSqrtWeights cholesky (.d2 1 1 w) = .error .valueError := fun w => if_neg (by simp [DirectWeights.accepted])
  refine ⟨fun k w h => ?_, fun p q w h => ?_, rfl, rfl, h1, h2⟩
  · by_cases hk : k = 1
    · rw [hk]
      exact h1 w
    · simp [arraysInit, NdArray.squeeze, hk] at h
  · by_cases hp : p = 1 <;> by_cases hq : q = 1
    · rw [hp, hq]
      exact h2 w
    all_goals simp [arraysInit, NdArray.squeeze, hp, hq] at h

end Refused

end Modred
