import Verif.Props.MethodsTls
import Verif.Props.Coordinates
import Verif.Lemmas.Approx

/-!
# Direct methods do not depend on coordinates (C93)

Direct methods decompose the weighted vectors themselves, so what the library returns for other coordinates can be anything
that is a singular value decomposition.  Results agree where they are determined: eigenvalues, and modes taken together with
adjoint modes or coefficients.
-/

namespace Modred

open Matrix
open scoped ComplexOrder

variable {𝕜 : Type*} [RCLike 𝕜] {n n' m : Nat}

/-- Retained singular values and right singular vectors depend on inner products of columns only. -/
theorem svd_gram_determined {svd : Matrix (Fin n) (Fin m) 𝕜 → SvdOut 𝕜 n m} {svd' : Matrix (Fin n') (Fin m) 𝕜 → SvdOut 𝕜 n' m}
    {B : Matrix (Fin n) (Fin m) 𝕜} {B' : Matrix (Fin n') (Fin m) 𝕜} {t : ℝ} {rtol : Option ℝ} (hm : 0 < m)
    (h : IsSvd B (svd B)) (h' : IsSvd B' (svd' B')) (hB : B'ᴴ * B' = Bᴴ * B) (ht : 0 ≤ t) (hr : ∀ t ∈ rtol, 0 ≤ t)
    (e : Svd 𝕜 n m) (e' : Svd 𝕜 n' m) (he : utilSvd svd B (some t) rtol = .ok e) (he' : utilSvd svd' B' (some t) rtol = .ok e') :
    e'.r = e.r ∧ (∀ (i' : Fin e'.r) (i : Fin e.r), i'.val = i.val → e'.S i' ^ 2 = e.S i ^ 2) ∧
    (∀ f : ℝ → 𝕜, e'.V * diagonal (fun i => f (e'.S i ^ 2)) * e'.Vᴴ = e.V * diagonal (fun i => f (e.S i ^ 2)) * e.Vᴴ) ∧
    (∀ i, 0 < e.S i) ∧ ∀ i, 0 < e'.S i := by
  obtain ⟨lib, -, heigh, hs, -⟩ := exists_podLib (𝕜 := 𝕜) n m
  obtain ⟨E, hE⟩ := C20_no_error lib.eigh lib.argsort (Bᴴ * B) (rtol.map (· ^ 2)) true (t ^ 2) hm
  obtain ⟨a1, a2, a3⟩ := square_determined (heigh _ (isHermitian_conjTranspose_mul_self B)) h ht hr hs E e hE he
  rw [← hB] at hE
  obtain ⟨b1, b2, b3⟩ := square_determined (heigh _ (isHermitian_conjTranspose_mul_self B')) h' ht hr hs E e' hE he'
  refine ⟨b1.trans a1.symm, fun i' i hi => ?_, fun f => (b3 f).trans (a3 f).symm, fun i => ?_, fun i => ?_⟩
  · rw [b2 i' (Fin.cast b1 i') rfl, a2 i (Fin.cast b1 i') (by simpa using hi.symm)]
  · exact ht.trans_lt ((utilSvd_lower _ _ _ _ h.nonneg h.sorted hr e he i).1 t rfl)
  · exact ht.trans_lt ((utilSvd_lower _ _ _ _ h'.nonneg h'.sorted hr e' he' i).1 t rfl)

/-- **C93.** Direct method of POD, for arrays: the eigenvalues are the same, and the modes are the images of the modes.  For
eigenvalues with several modes, these are the images together, not one by one. -/
theorem C93_pod_direct (lib : PodLib 𝕜 n m) (lib' : PodLib 𝕜 n' m) (vecs : Matrix (Fin n) (Fin m) 𝕜) (T : Matrix (Fin n') (Fin n) 𝕜)
    (ws ws' : DirectWeights 𝕜) (rtol : Option ℝ) (t : ℝ) (hm : 0 < m) (ht : 0 ≤ t) (hr : ∀ t ∈ rtol, 0 ≤ t) (hfit : ws.Fits n)
    (hfit' : ws'.Fits n') (hT : Tᴴ * ws'.matrix n' * T = ws.matrix n)
    (hchol : ∀ p q w, ws = .d2 p q w → IsCholesky lib.cholesky (ws.matrix n))
    (hchol' : ∀ p q w, ws' = .d2 p q w → IsCholesky lib'.cholesky (ws'.matrix n'))
    (hlib : ∀ B, IsSvd B (lib.svd B)) (hlib' : ∀ B, IsSvd B (lib'.svd B)) (res : PodResult 𝕜 n m) (res' : PodResult 𝕜 n' m)
    (hres : podDirect lib vecs none ws (some t) rtol = .ok res)
    (hres' : podDirect lib' (T * vecs) none ws' (some t) rtol = .ok res') :
    ∃ (modes : Matrix (Fin n) (Fin res.r) 𝕜) (modes' : Matrix (Fin n') (Fin res'.r) 𝕜),
      res.modes = ⟨res.r, modes⟩ ∧ res'.modes = ⟨res'.r, modes'⟩ ∧ SameModes 1 res.eigvals res'.eigvals (T * modes) modes' ∧
      modes' * res'.projCoeffs = T * (modes * res.projCoeffs) := by
  obtain ⟨G, H, hGH, hG, h3⟩ := podDirect_cases lib vecs none ws (some t) rtol hfit hchol
  obtain ⟨e, c, he, hc, rfl⟩ := h3 res hres
  obtain ⟨G', H', hGH', hG', h3'⟩ := podDirect_cases lib' (T * vecs) none ws' (some t) rtol hfit' hchol'
  obtain ⟨e', c', he', hc', rfl⟩ := h3' res' hres'
  cases hc
  cases hc'
  have hC : (G' * (T * vecs))ᴴ * (G' * (T * vecs)) = (G * vecs)ᴴ * (G * vecs) := by
    rw [show (G * vecs)ᴴ * (G * vecs) = vecsᴴ * (Gᴴ * G) * vecs by simp only [conjTranspose_mul, Matrix.mul_assoc], hG, ← hT, ← hG']
    simp only [conjTranspose_mul, Matrix.mul_assoc]
  obtain ⟨k1, k2, k3, hS, hS'⟩ := svd_gram_determined hm (hlib _) (hlib' _) hC ht hr e e' he he'
  have hU : ∀ {n : Nat} (svd : Matrix (Fin n) (Fin m) 𝕜 → SvdOut 𝕜 n m) (X : Matrix (Fin n) (Fin m) 𝕜) (G H : Matrix (Fin n) (Fin n) 𝕜)
      (e : Svd 𝕜 n m), (∀ B, IsSvd B (svd B)) → G * H = 1 → (∀ i, 0 < e.S i) → utilSvd svd (G * X) (some t) rtol = .ok e →
      H * e.U = X * (e.V * diagPow (𝕜 := 𝕜) (fun i => e.S i ^ (2 : ℝ)) (-0.5)) := by
    intro n svd X G H e hsvd hGH hSpos he
    obtain ⟨-, -, hAV, -, -, -⟩ := C19_singular_triples _ _ _ _ (hsvd _) e he
    have hHG : H * G = 1 := mul_eq_one_comm.mp hGH
    have h1 : e.U = G * X * e.V * diagPow (𝕜 := 𝕜) (fun i => e.S i ^ (2 : ℝ)) (-0.5) := by
      rw [hAV, ← diagPow_inv_sq hSpos, Matrix.mul_assoc]
      unfold diagPow
      rw [diagonal_mul_diagonal]
      conv_lhs => rw [← Matrix.mul_one e.U, ← diagonal_one]
      congr 2
      ext i
      rw [Real.rpow_neg_one, ← RCLike.ofReal_mul, mul_inv_cancel₀ (hSpos i).ne', RCLike.ofReal_one]
    rw [h1, show H * (G * X * e.V * diagPow (𝕜 := 𝕜) (fun i => e.S i ^ (2 : ℝ)) (-0.5)) =
      H * G * X * (e.V * diagPow (𝕜 := 𝕜) (fun i => e.S i ^ (2 : ℝ)) (-0.5)) by simp only [Matrix.mul_assoc], hHG, Matrix.one_mul]
  have u1 := hU lib.svd vecs G H e hlib hGH hS he
  have u2 := hU lib'.svd (T * vecs) G' H' e' hlib' hGH' hS' he'
  have p1 : ∀ i, 0 < e.S i ^ (2 : ℝ) := fun i => Real.rpow_pos_of_pos (hS i) _
  have p2 : ∀ i, 0 < e'.S i ^ (2 : ℝ) := fun i => Real.rpow_pos_of_pos (hS' i) _
  have k3' : ∀ f : ℝ → 𝕜, e'.V * diagonal (fun i => f (e'.S i ^ (2 : ℝ))) * e'.Vᴴ =
      e.V * diagonal (fun i => f (e.S i ^ (2 : ℝ))) * e.Vᴴ := by
    simp only [Real.rpow_two]
    exact k3
  refine ⟨H * e.U, H' * e'.U, rfl, rfl, ⟨k1, fun i' i hi => ?_, fun f g hfg => ?_⟩, ?_⟩
  · dsimp only
    rw [norm_one, one_pow, one_mul, Real.rpow_two, Real.rpow_two]
    exact k2 i' i hi
  · dsimp only
    have hfg' : (fun i => f (e.S i ^ (2 : ℝ))) = fun i => g (e.S i ^ (2 : ℝ)) := by
      ext i
      have := hfg _ (p1 i)
      rw [norm_one, one_pow, one_mul] at this
      exact this.symm
    rw [u1, u2, hfg', ← Matrix.mul_assoc T vecs, sandwich_left (T * vecs) (e.V * _), sandwich_left (T * vecs) (e'.V * _),
      build_weighted p1, build_weighted p2, k3' fun x => g x / (x : 𝕜)]
  · dsimp only
    have h1 := k3' fun _ => 1
    simp only [diagonal_one, Matrix.mul_one] at h1
    rw [u1, u2, Matrix.mul_assoc (T * vecs) (e'.V * _), Matrix.mul_assoc vecs (e.V * _), build_mul_proj p1, build_mul_proj p2, h1,
      Matrix.mul_assoc]

/-! ### Dynamic mode decomposition -/

/-- Images of modes under a linear map. -/
theorem SameDmd.image {r r' : Nat} {a b : 𝕜} {Q : Matrix (Fin m) (Fin m) 𝕜} {w : Fin r → 𝕜} {w' : Fin r' → 𝕜}
    {E P A : Matrix (Fin n) (Fin r) 𝕜} {E' P' A' : Matrix (Fin n) (Fin r') 𝕜} {c v : Matrix (Fin r) (Fin m) 𝕜}
    {c' v' : Matrix (Fin r') (Fin m) 𝕜} (h : SameDmd a b Q w w' E P A E' P' A' c v c' v') (T : Matrix (Fin n') (Fin n) 𝕜) :
    SameDmd a b Q w w' (T * E) (T * P) (T * A) (T * E') (T * P') (T * A') c v c' v' := by
  have h1 : ∀ {p : Nat} (A B : Matrix (Fin n) (Fin p) 𝕜) (D : Matrix (Fin p) (Fin p) 𝕜), T * A * D * (T * B)ᴴ = T * (A * D * Bᴴ) * Tᴴ := by
    intro p A B D
    rw [conjTranspose_mul]
    simp only [Matrix.mul_assoc]
  have h2 : ∀ {p : Nat} (A : Matrix (Fin n) (Fin p) 𝕜) (D : Matrix (Fin p) (Fin p) 𝕜) (c : Matrix (Fin p) (Fin m) 𝕜),
      T * A * D * c = T * (A * D * c) := by
    intro p A D c
    simp only [Matrix.mul_assoc]
  refine ⟨h.number, h.multiplicities, fun F G hFG => ?_, fun F G hFG => ?_, fun F G hFG => ?_, fun F G hFG => ?_, fun F G hFG => ?_,
    fun F G hFG => ?_⟩
  · rw [h1, h1, h.proj_adjoint F G hFG]
  · rw [h1, h1, h.exact_adjoint F G hFG]
  · rw [h2, h2, h.proj_coeffs F G hFG, Matrix.mul_smul, Matrix.mul_assoc T]
  · rw [h2, h2, h.exact_coeffs F G hFG, Matrix.mul_smul, Matrix.mul_assoc T]
  · rw [h2, h2, h.proj_adv F G hFG, Matrix.mul_smul, Matrix.mul_assoc T]
  · rw [h2, h2, h.exact_adv F G hFG, Matrix.mul_smul, Matrix.mul_assoc T]

/-- The retained spectra of two direct methods whose weighted vectors have the same inner products. -/
theorem direct_sameSpectrum {lib : PodLib 𝕜 n m} {lib' : PodLib 𝕜 n' m}
    {eig eig' : ∀ {r : Nat}, Matrix (Fin r) (Fin r) 𝕜 → EigOut 𝕜 r} {B X Y : Matrix (Fin n) (Fin m) 𝕜}
    {B' X' Y' : Matrix (Fin n') (Fin m) 𝕜} {cross : Svd 𝕜 n m → Matrix (Fin m) (Fin m) 𝕜}
    {cross' : Svd 𝕜 n' m → Matrix (Fin m) (Fin m) 𝕜} {idx idx' : Option (List Int)} {t : ℝ} {rtol : Option ℝ}
    {res : DmdResult 𝕜 n m} {res' : DmdResult 𝕜 n' m} (hm : 0 < m)
    (hres : dmdDirectRest lib eig B cross X Y idx (some t) rtol none = .ok res)
    (hres' : dmdDirectRest lib' eig' B' cross' X' Y' idx' (some t) rtol none = .ok res') (hB : B'ᴴ * B' = Bᴴ * B)
    (h : ∀ B, IsSvd B (lib.svd B)) (h' : ∀ B, IsSvd B (lib'.svd B)) (ht : 0 ≤ t) (hr : ∀ t ∈ rtol, 0 ≤ t) :
    SameSpectrum (‖(1 : 𝕜)‖ ^ 2) 1 res.decomp res'.decomp := by
  obtain ⟨e, w, R, L, he, hd⟩ := dmdDirectRest_svd hres
  obtain ⟨e', w', R', L', he', hd'⟩ := dmdDirectRest_svd hres'
  obtain ⟨-, -, k3, hS, -⟩ := svd_gram_determined hm (h B) (h' B') hB ht hr e e' he he'
  rw [hd, hd']
  intro f g hfg
  dsimp only
  simp only [Real.rpow_two]
  have hfg' : (fun i => f (e.S i ^ 2)) = fun i => g (e.S i ^ 2) := by
    ext i
    have := hfg _ (pow_pos (hS i) 2)
    rw [norm_one, one_pow, one_mul] at this
    exact this.symm
  rw [k3, hfg', conjTranspose_one, Matrix.one_mul, Matrix.mul_one]

theorem gram_image {W : Matrix (Fin n) (Fin n) 𝕜} {W' : Matrix (Fin n') (Fin n') 𝕜} {T : Matrix (Fin n') (Fin n) 𝕜}
    (hT : Tᴴ * W' * T = W) {p q : Nat} (X : Matrix (Fin n) (Fin p) 𝕜) (Y : Matrix (Fin n) (Fin q) 𝕜) :
    (T * X)ᴴ * W' * (T * Y) = Xᴴ * W * Y := by
  rw [← hT, conjTranspose_mul]
  simp only [Matrix.mul_assoc]

section Dmd

variable (lib : PodLib 𝕜 n m) (lib' : PodLib 𝕜 n' m) (eig eig' : ∀ {r : Nat}, Matrix (Fin r) (Fin r) 𝕜 → EigOut 𝕜 r)
  (T : Matrix (Fin n') (Fin n) 𝕜) (ws ws' : DirectWeights 𝕜) (t : ℝ) (rtol : Option ℝ) (idx idx' : Option (List Int))

theorem dmd_image {W : Matrix (Fin n) (Fin n) 𝕜} {W' : Matrix (Fin n') (Fin n') 𝕜} {T : Matrix (Fin n') (Fin n) 𝕜}
    (hT : Tᴴ * W' * T = W) {X Y : Matrix (Fin n) (Fin m) 𝕜} {d d' : DmdDecomp 𝕜 m} (hc : DmdCore (Xᴴ * W * X) (Xᴴ * W * Y) d)
    (hc' : DmdCore ((T * X)ᴴ * W' * (T * X)) ((T * X)ᴴ * W' * (T * Y)) d') (hLR : d.Lᴴ * d.R = 1) (hLR' : d'.Lᴴ * d'.R = 1)
    (hV : SameSpectrum (‖(1 : 𝕜)‖ ^ 2) 1 d d') :
    SameDmd 1 1 1 d.eigvals d'.eigvals (T * (Y * d.buildExact)) (T * (X * d.buildProj)) (T * (X * d.buildAdjoint))
      (T * Y * d'.buildExact) (T * X * d'.buildProj) (T * X * d'.buildAdjoint) (d.Lᴴ * (diagPow (𝕜 := 𝕜) d.w 0.5 * d.Vᴴ))
      (d.Lᴴ * (diagPow (𝕜 := 𝕜) d.w (-0.5) * (d.Vᴴ * (Xᴴ * W * Y)))) (d'.Lᴴ * (diagPow (𝕜 := 𝕜) d'.w 0.5 * d'.Vᴴ))
      (d'.Lᴴ * (diagPow (𝕜 := 𝕜) d'.w (-0.5) * (d'.Vᴴ * ((T * X)ᴴ * W' * (T * Y))))) := by
  have h1 : ∀ Z : Matrix (Fin n) (Fin m) 𝕜, Z = (1 : 𝕜) • (Z * (1 : Matrix (Fin m) (Fin m) 𝕜)) := fun Z => by
    rw [one_smul, Matrix.mul_one]
  have hQ : (1 : Matrix (Fin m) (Fin m) 𝕜) * 1ᴴ = 1 := by rw [conjTranspose_one, Matrix.mul_one]
  rw [gram_image hT, gram_image hT] at hc'
  have := same_dmd (Y := Y) hQ one_ne_zero one_ne_zero hc (by simpa only [← h1] using hc') hLR hLR' hV
  simp only [← h1] at this
  rw [gram_image hT, Matrix.mul_assoc, Matrix.mul_assoc, Matrix.mul_assoc]
  exact this.image T

/-- **C93.** Direct method of DMD, pairs of vectors. -/
theorem C93_dmd_direct_pairs (ht : 0 ≤ t) (hr : ∀ t ∈ rtol, 0 ≤ t) (hfit : ws.Fits n) (hfit' : ws'.Fits n')
    (hT : Tᴴ * ws'.matrix n' * T = ws.matrix n) (hchol : ∀ p q w, ws = .d2 p q w → IsCholesky lib.cholesky (ws.matrix n))
    (hchol' : ∀ p q w, ws' = .d2 p q w → IsCholesky lib'.cholesky (ws'.matrix n'))
    (hlib : ∀ B, IsSvd B (lib.svd B)) (hlib' : ∀ B, IsSvd B (lib'.svd B)) (X Y : Matrix (Fin n) (Fin m) 𝕜) (res : DmdResult 𝕜 n m)
    (res' : DmdResult 𝕜 n' m) (hres : dmdDirectPairs lib eig X ⟨n, m, Y⟩ idx ws (some t) rtol none = .ok res)
    (hres' : dmdDirectPairs lib' eig' (T * X) ⟨n', m, T * Y⟩ idx' ws' (some t) rtol none = .ok res')
    (heig : EigOfReduced eig (ws.matrix n) X Y res.decomp)
    (heig' : EigOfReduced eig' (ws'.matrix n') (T * X) (T * Y) res'.decomp)
    (hinj : Function.Injective res.decomp.eigvals) (hinj' : Function.Injective res'.decomp.eigvals) :
    ∃ exact proj adjoint exact' proj' adjoint',
      (Chosen exact idx res.exactModes ∧ Chosen proj idx res.projModes ∧ Chosen adjoint idx res.adjointModes) ∧
      (Chosen exact' idx' res'.exactModes ∧ Chosen proj' idx' res'.projModes ∧ Chosen adjoint' idx' res'.adjointModes) ∧
      SameDmd 1 1 1 res.decomp.eigvals res'.decomp.eigvals (T * exact) (T * proj) (T * adjoint) exact' proj' adjoint'
        res.projCoeffs res.advProjCoeffs res'.projCoeffs res'.advProjCoeffs := by
  obtain ⟨hc, hLR, ho⟩ := dmdDirectPairs_ok lib eig idx ws t rtol none hfit hchol ht hr hlib X Y res hres heig
  obtain ⟨hc', hLR', ho'⟩ := dmdDirectPairs_ok lib' eig' idx' ws' t rtol none hfit' hchol' ht hr hlib' _ _ res' hres' heig'
  have hV : SameSpectrum (‖(1 : 𝕜)‖ ^ 2) 1 res.decomp res'.decomp := by
    unfold dmdDirectPairs at hres hres'
    split at hres
    · cases hres
    rename_i so hso
    split at hres'
    · cases hres'
    rename_i so' hso'
    simp only [and_self, dite_true] at hres hres'
    obtain ⟨G, hG, hdata⟩ := directSqrtWeights_ok lib.cholesky ws hfit hchol so hso
    obtain ⟨G', hG', hdata'⟩ := directSqrtWeights_ok lib'.cholesky ws' hfit' hchol' so' hso'
    refine direct_sameSpectrum ho.pos hres hres' ?_ hlib hlib' ht hr
    rw [hdata, hdata']
    have := gram_image hT X X
    rw [← hG, ← hG'] at this
    simp only [conjTranspose_mul, Matrix.mul_assoc] at this ⊢
    exact this
  refine ⟨_, _, _, _, _, _, ⟨ho.exact, ho.proj, ho.adjoint⟩, ⟨ho'.exact, ho'.proj, ho'.adjoint⟩, ?_⟩
  rw [ho.projCoeffs, ho.advProjCoeffs, ho'.projCoeffs, ho'.advProjCoeffs]
  exact dmd_image hT hc hc' (hLR hinj) (hLR' hinj') hV

/-- **C93.** Direct method of DMD, sequential data. -/
theorem C93_dmd_direct_sequential (ht : 0 ≤ t) (hr : ∀ t ∈ rtol, 0 ≤ t) (hfit : ws.Fits n) (hfit' : ws'.Fits n')
    (hT : Tᴴ * ws'.matrix n' * T = ws.matrix n) (hchol : ∀ p q w, ws = .d2 p q w → IsCholesky lib.cholesky (ws.matrix n))
    (hchol' : ∀ p q w, ws' = .d2 p q w → IsCholesky lib'.cholesky (ws'.matrix n'))
    (hlib : ∀ B, IsSvd B (lib.svd B)) (hlib' : ∀ B, IsSvd B (lib'.svd B)) (Z : Matrix (Fin n) (Fin (m + 1)) 𝕜) (res : DmdResult 𝕜 n m)
    (res' : DmdResult 𝕜 n' m) (hres : dmdDirectSeq lib eig Z idx ws (some t) rtol none = .ok res)
    (hres' : dmdDirectSeq lib' eig' (T * Z) idx' ws' (some t) rtol none = .ok res')
    (heig : EigOfReduced eig (ws.matrix n) (seqFirst Z) (seqNext Z) res.decomp)
    (heig' : EigOfReduced eig' (ws'.matrix n') (seqFirst (T * Z)) (seqNext (T * Z)) res'.decomp)
    (hinj : Function.Injective res.decomp.eigvals) (hinj' : Function.Injective res'.decomp.eigvals) :
    ∃ exact proj adjoint exact' proj' adjoint',
      (Chosen exact idx res.exactModes ∧ Chosen proj idx res.projModes ∧ Chosen adjoint idx res.adjointModes) ∧
      (Chosen exact' idx' res'.exactModes ∧ Chosen proj' idx' res'.projModes ∧ Chosen adjoint' idx' res'.adjointModes) ∧
      SameDmd 1 1 1 res.decomp.eigvals res'.decomp.eigvals (T * exact) (T * proj) (T * adjoint) exact' proj' adjoint'
        res.projCoeffs res.advProjCoeffs res'.projCoeffs res'.advProjCoeffs := by
  have f1 : seqFirst (T * Z) = T * seqFirst Z := rfl
  have f2 : seqNext (T * Z) = T * seqNext Z := rfl
  obtain ⟨hc, hLR, ho⟩ := dmdDirectSeq_ok lib eig idx ws t rtol none hfit hchol ht hr hlib Z res hres (seqFirst Z) (seqNext Z) rfl rfl heig
  obtain ⟨hc', hLR', ho'⟩ := dmdDirectSeq_ok lib' eig' idx' ws' t rtol none hfit' hchol' ht hr hlib' _ res' hres' (seqFirst (T * Z))
    (seqNext (T * Z)) rfl rfl heig'
  rw [f1, f2] at hc' ho'
  have hV : SameSpectrum (‖(1 : 𝕜)‖ ^ 2) 1 res.decomp res'.decomp := by
    unfold dmdDirectSeq at hres hres'
    split at hres
    · cases hres
    rename_i so hso
    split at hres'
    · cases hres'
    rename_i so' hso'
    dsimp only at hres hres'
    obtain ⟨G, hG, hdata⟩ := directSqrtWeights_ok lib.cholesky ws hfit hchol so hso
    obtain ⟨G', hG', hdata'⟩ := directSqrtWeights_ok lib'.cholesky ws' hfit' hchol' so' hso'
    refine direct_sameSpectrum ho.pos hres hres' ?_ hlib hlib' ht hr
    rw [hdata, hdata', show (G * Z).submatrix id Fin.castSucc = G * seqFirst Z from rfl,
      show (G' * (T * Z)).submatrix id Fin.castSucc = G' * (T * seqFirst Z) from rfl]
    have := gram_image hT (seqFirst Z) (seqFirst Z)
    rw [← hG, ← hG'] at this
    simp only [conjTranspose_mul, Matrix.mul_assoc] at this ⊢
    exact this
  refine ⟨_, _, _, _, _, _, ⟨ho.exact, ho.proj, ho.adjoint⟩, ⟨ho'.exact, ho'.proj, ho'.adjoint⟩, ?_⟩
  rw [ho.projCoeffs, ho.advProjCoeffs, ho'.projCoeffs, ho'.advProjCoeffs]
  exact dmd_image hT hc hc' (hLR hinj) (hLR' hinj') hV

end Dmd

/-! ### Total-least-squares DMD -/

section Tls

variable (lib : PodLib 𝕜 n m) (lib' : PodLib 𝕜 n' m) (eig eig' : ∀ {r : Nat}, Matrix (Fin r) (Fin r) 𝕜 → EigOut 𝕜 r)
  (svd : Matrix (Fin (n + n)) (Fin m) 𝕜 → SvdOut 𝕜 (n + n) m) (svd' : Matrix (Fin (n' + n')) (Fin m) 𝕜 → SvdOut 𝕜 (n' + n') m)
  (T : Matrix (Fin n') (Fin n) 𝕜) (ws ws' : DirectWeights 𝕜) (t : ℝ) (rtol : Option ℝ) (idx idx' : Option (List Int))

/-- The steps after the square root of the weights. -/
theorem tls_image (ht : 0 ≤ t) (hr : ∀ t ∈ rtol, 0 ≤ t) (hfit : ws.Fits n) (hfit' : ws'.Fits n')
    (hT : Tᴴ * ws'.matrix n' * T = ws.matrix n) (hchol : ∀ p q w, ws = .d2 p q w → IsCholesky lib.cholesky (ws.matrix n))
    (hchol' : ∀ p q w, ws' = .d2 p q w → IsCholesky lib'.cholesky (ws'.matrix n'))
    (hlib : ∀ B, IsSvd B (lib.svd B)) (hlib' : ∀ B, IsSvd B (lib'.svd B)) (hsvd : ∀ B, IsSvd B (svd B)) (hsvd' : ∀ B, IsSvd B (svd' B))
    (X Y : Matrix (Fin n) (Fin m) 𝕜) (res : TlsResult 𝕜 n m) (res' : TlsResult 𝕜 n' m) (so : Option (Matrix (Fin n) (Fin n) 𝕜))
    (so' : Option (Matrix (Fin n') (Fin n') 𝕜)) (hso : directSqrtWeights lib.cholesky ws = .ok so)
    (hso' : directSqrtWeights lib'.cholesky ws' = .ok so')
    (hres : tlsDirectRest lib eig svd so X Y idx ws (some t) rtol none = .ok res)
    (hres' : tlsDirectRest lib' eig' svd' so' (T * X) (T * Y) idx' ws' (some t) rtol none = .ok res')
    (heig : EigOfProjected eig (Xᴴ * ws.matrix n * Y) res.decomp)
    (heig' : EigOfProjected eig' ((T * X)ᴴ * ws'.matrix n' * (T * Y)) res'.decomp)
    (hinj : Function.Injective res.decomp.d.eigvals) (hinj' : Function.Injective res'.decomp.d.eigvals) :
    res'.decomp.proj = res.decomp.proj ∧ ∃ exact proj adjoint exact' proj' adjoint',
      (Chosen exact idx res.exactModes ∧ Chosen proj idx res.projModes ∧ Chosen adjoint idx res.adjointModes) ∧
      (Chosen exact' idx' res'.exactModes ∧ Chosen proj' idx' res'.projModes ∧ Chosen adjoint' idx' res'.adjointModes) ∧
      SameDmd 1 1 1 res.decomp.d.eigvals res'.decomp.d.eigvals (T * exact) (T * proj) (T * adjoint) exact' proj' adjoint'
        res.projCoeffs res.advProjCoeffs res'.projCoeffs res'.advProjCoeffs := by
  obtain ⟨-, hcore, hLR, ho⟩ := tlsDirectRest_core lib eig svd idx ws t rtol none so hfit hchol hso ht hr hlib hsvd X Y res hres heig
  obtain ⟨-, hcore', hLR', ho'⟩ := tlsDirectRest_core lib' eig' svd' idx' ws' t rtol none so' hfit' hchol' hso' ht hr hlib' hsvd'
    (T * X) (T * Y) res' hres' heig'
  obtain ⟨⟨s, hs, hq, hsV, -⟩, hd⟩ := tlsDirectRest_ok lib eig svd idx ws rtol none so _ X Y res hres
  obtain ⟨⟨s', hs', hq', hsV', -⟩, hd'⟩ := tlsDirectRest_ok lib' eig' svd' idx' ws' rtol none so' _ (T * X) (T * Y) res' hres'
  obtain ⟨G, hG, hdata⟩ := directSqrtWeights_ok lib.cholesky ws hfit hchol so hso
  obtain ⟨G', hG', hdata'⟩ := directSqrtWeights_ok lib'.cholesky ws' hfit' hchol' so' hso'
  have hgram : ∀ A : Matrix (Fin n) (Fin m) 𝕜, (G' * (T * A))ᴴ * (G' * (T * A)) = (G * A)ᴴ * (G * A) := by
    intro A
    have := gram_image hT A A
    rw [← hG, ← hG'] at this
    simp only [conjTranspose_mul, Matrix.mul_assoc] at this ⊢
    exact this
  have hproj : ∀ {n : Nat} (res : TlsResult 𝕜 n m) {k : Nat} (s : Svd 𝕜 k m), res.decomp.q = s.r → HEq res.decomp.sumV s.V →
      res.decomp.proj = s.V * s.Vᴴ := by
    intro n res k s hq hV
    obtain ⟨⟨q, sumW, sumV, d⟩, _, _, _, _, _, _⟩ := res
    obtain ⟨r, U, S, V⟩ := s
    dsimp only at hq hV ⊢
    subst hq
    cases hV
    rfl
  have hP : res'.decomp.proj = res.decomp.proj := by
    rw [hdata, hdata] at hs
    rw [hdata', hdata'] at hs'
    obtain ⟨-, -, k3, -, -⟩ := svd_gram_determined ho.pos (hsvd _) (hsvd' _)
      (by rw [stackRows_gram, stackRows_gram, hgram, hgram]) ht hr s s' hs hs'
    have h1 := k3 fun _ => 1
    simp only [diagonal_one, Matrix.mul_one] at h1
    rw [hproj res s hq hsV, hproj res' s' hq' hsV', h1]
  rw [hP] at hd' hcore' ho'
  have hTP : ∀ A : Matrix (Fin n) (Fin m) 𝕜, T * A * res.decomp.proj = T * (A * res.decomp.proj) := fun A => Matrix.mul_assoc _ _ _
  rw [hTP, hTP] at hd' hcore' ho'
  have hV : SameSpectrum (‖(1 : 𝕜)‖ ^ 2) 1 res.decomp.d res'.decomp.d := by
    unfold dmdDirectPairs at hd hd'
    rw [hso] at hd
    rw [hso'] at hd'
    simp only [and_self, dite_true] at hd hd'
    exact direct_sameSpectrum ho.pos hd hd' (by rw [hdata, hdata', hgram]) hlib hlib' ht hr
  have q1 := ho.projCoeffs
  have q2 := ho.advProjCoeffs
  have p1 := ho'.projCoeffs
  have p2 := ho'.advProjCoeffs
  refine ⟨hP, _, _, _, _, _, _, ⟨ho.exact, ho.proj, ho.adjoint⟩, ⟨ho'.exact, ho'.proj, ho'.adjoint⟩, ?_⟩
  dsimp only at q1 q2 p1 p2 ⊢
  rw [q1, q2, p1, p2]
  exact dmd_image hT hcore hcore' (hLR hinj) (hLR' hinj') hV

/-- **C93.** Direct method of total-least-squares DMD, pairs of vectors: also the projection is the same. -/
theorem C93_tls_direct_pairs (ht : 0 ≤ t) (hr : ∀ t ∈ rtol, 0 ≤ t) (hfit : ws.Fits n) (hfit' : ws'.Fits n')
    (hT : Tᴴ * ws'.matrix n' * T = ws.matrix n) (hchol : ∀ p q w, ws = .d2 p q w → IsCholesky lib.cholesky (ws.matrix n))
    (hchol' : ∀ p q w, ws' = .d2 p q w → IsCholesky lib'.cholesky (ws'.matrix n'))
    (hlib : ∀ B, IsSvd B (lib.svd B)) (hlib' : ∀ B, IsSvd B (lib'.svd B)) (hsvd : ∀ B, IsSvd B (svd B)) (hsvd' : ∀ B, IsSvd B (svd' B))
    (X Y : Matrix (Fin n) (Fin m) 𝕜) (res : TlsResult 𝕜 n m) (res' : TlsResult 𝕜 n' m)
    (hres : tlsDirectPairs lib eig svd X ⟨n, m, Y⟩ idx ws (some t) rtol none = .ok res)
    (hres' : tlsDirectPairs lib' eig' svd' (T * X) ⟨n', m, T * Y⟩ idx' ws' (some t) rtol none = .ok res')
    (heig : EigOfProjected eig (Xᴴ * ws.matrix n * Y) res.decomp)
    (heig' : EigOfProjected eig' ((T * X)ᴴ * ws'.matrix n' * (T * Y)) res'.decomp)
    (hinj : Function.Injective res.decomp.d.eigvals) (hinj' : Function.Injective res'.decomp.d.eigvals) :
    res'.decomp.proj = res.decomp.proj ∧ ∃ exact proj adjoint exact' proj' adjoint',
      (Chosen exact idx res.exactModes ∧ Chosen proj idx res.projModes ∧ Chosen adjoint idx res.adjointModes) ∧
      (Chosen exact' idx' res'.exactModes ∧ Chosen proj' idx' res'.projModes ∧ Chosen adjoint' idx' res'.adjointModes) ∧
      SameDmd 1 1 1 res.decomp.d.eigvals res'.decomp.d.eigvals (T * exact) (T * proj) (T * adjoint) exact' proj' adjoint'
        res.projCoeffs res.advProjCoeffs res'.projCoeffs res'.advProjCoeffs := by
  unfold tlsDirectPairs at hres hres'
  split at hres
  · cases hres
  rename_i so hso
  split at hres'
  · cases hres'
  rename_i so' hso'
  simp only [and_self, dite_true] at hres hres'
  exact tls_image lib lib' eig eig' svd svd' T ws ws' t rtol idx idx' ht hr hfit hfit' hT hchol hchol' hlib hlib' hsvd hsvd' X Y res res'
    so so' hso hso' hres hres' heig heig' hinj hinj'

/-- **C93.** Direct method of total-least-squares DMD, sequential data. -/
theorem C93_tls_direct_sequential (ht : 0 ≤ t) (hr : ∀ t ∈ rtol, 0 ≤ t) (hfit : ws.Fits n) (hfit' : ws'.Fits n')
    (hT : Tᴴ * ws'.matrix n' * T = ws.matrix n) (hchol : ∀ p q w, ws = .d2 p q w → IsCholesky lib.cholesky (ws.matrix n))
    (hchol' : ∀ p q w, ws' = .d2 p q w → IsCholesky lib'.cholesky (ws'.matrix n'))
    (hlib : ∀ B, IsSvd B (lib.svd B)) (hlib' : ∀ B, IsSvd B (lib'.svd B)) (hsvd : ∀ B, IsSvd B (svd B)) (hsvd' : ∀ B, IsSvd B (svd' B))
    (Z : Matrix (Fin n) (Fin (m + 1)) 𝕜) (res : TlsResult 𝕜 n m) (res' : TlsResult 𝕜 n' m)
    (hres : tlsDirectSeq lib eig svd Z idx ws (some t) rtol none = .ok res)
    (hres' : tlsDirectSeq lib' eig' svd' (T * Z) idx' ws' (some t) rtol none = .ok res')
    (heig : EigOfProjected eig ((seqFirst Z)ᴴ * ws.matrix n * seqNext Z) res.decomp)
    (heig' : EigOfProjected eig' ((seqFirst (T * Z))ᴴ * ws'.matrix n' * seqNext (T * Z)) res'.decomp)
    (hinj : Function.Injective res.decomp.d.eigvals) (hinj' : Function.Injective res'.decomp.d.eigvals) :
    res'.decomp.proj = res.decomp.proj ∧ ∃ exact proj adjoint exact' proj' adjoint',
      (Chosen exact idx res.exactModes ∧ Chosen proj idx res.projModes ∧ Chosen adjoint idx res.adjointModes) ∧
      (Chosen exact' idx' res'.exactModes ∧ Chosen proj' idx' res'.projModes ∧ Chosen adjoint' idx' res'.adjointModes) ∧
      SameDmd 1 1 1 res.decomp.d.eigvals res'.decomp.d.eigvals (T * exact) (T * proj) (T * adjoint) exact' proj' adjoint'
        res.projCoeffs res.advProjCoeffs res'.projCoeffs res'.advProjCoeffs := by
  unfold tlsDirectSeq at hres hres'
  split at hres
  · cases hres
  rename_i so hso
  split at hres'
  · cases hres'
  rename_i so' hso'
  exact tls_image lib lib' eig eig' svd svd' T ws ws' t rtol idx idx' ht hr hfit hfit' hT hchol hchol' hlib hlib' hsvd hsvd' (seqFirst Z)
    (seqNext Z) res res' so so' hso hso' hres hres' heig heig' hinj hinj'

end Tls

/-! ### Examples -/

/-- A third grid point, where all vectors are zero. -/
def exampleEmbedding : Matrix (Fin 3) (Fin 2) ℝ := !![1, 0; 0, 1; 0, 0]

theorem exampleEmbedding_isometry : exampleEmbeddingᴴ * (1 : Matrix (Fin 3) (Fin 3) ℝ) * exampleEmbedding = 1 := by
  ext i j
  fin_cases i <;> fin_cases j <;> simp [exampleEmbedding, Matrix.mul_apply, Fin.sum_univ_three]

/-- One vector, and the vector that it is advanced to. -/
def exampleVec : Matrix (Fin 2) (Fin 1) ℝ := !![2; 0]
@[inherit_doc exampleVec]
def exampleAdvVec : Matrix (Fin 2) (Fin 1) ℝ := !![3; 4]

/-- POD with another grid point. -/
example : ∃ (lib : PodLib ℝ 2 3) (lib' : PodLib ℝ 3 3) (res : PodResult ℝ 2 3) (res' : PodResult ℝ 3 3),
    podDirect lib exampleData none .none (some (1 / 10 ^ 5)) none = .ok res ∧
    podDirect lib' (exampleEmbedding * exampleData) none .none (some (1 / 10 ^ 5)) none = .ok res' ∧ res'.r = res.r ∧
    ∀ (i' : Fin res'.r) (i : Fin res.r), i'.val = i.val → res'.eigvals i' = res.eigvals i := by
  obtain ⟨lib, hsvd, -⟩ := exists_podLib (𝕜 := ℝ) 2 3
  obtain ⟨lib', hsvd', -⟩ := exists_podLib (𝕜 := ℝ) 3 3
  have hrun : ∀ {n : Nat} (lib : PodLib ℝ n 3) (A : Matrix (Fin n) (Fin 3) ℝ),
      ∃ res, podDirect lib A none .none (some (1 / 10 ^ 5)) none = .ok res := by
    intro n lib A
    unfold podDirect podDirectSvd
    dsimp only
    cases hu : utilSvd lib.svd A (some (1 / 10 ^ 5)) none with
    | error e => exact absurd rfl ((C19_error_iff _ _ _ _ _).mp hu).2.1
    | ok u => exact ⟨_, rfl⟩
  obtain ⟨res, hres⟩ := hrun lib exampleData
  obtain ⟨res', hres'⟩ := hrun lib' (exampleEmbedding * exampleData)
  obtain ⟨modes, modes', -, -, h, -⟩ := C93_pod_direct lib lib' exampleData exampleEmbedding .none .none none (1 / 10 ^ 5) (by norm_num)
    (by norm_num) (by simp) trivial trivial exampleEmbedding_isometry (fun _ _ _ h => by cases h) (fun _ _ _ h => by cases h) hsvd hsvd'
    res res' hres hres'
  refine ⟨lib, lib', res, res', hres, hres', h.number, fun i' i hi => ?_⟩
  rw [h.energies i' i hi, norm_one, one_pow, one_mul]

/-- Total-least-squares DMD of one vector, with another grid point. -/
example : ∃ (lib : PodLib ℝ 2 1) (svd : Matrix (Fin 4) (Fin 1) ℝ → SvdOut ℝ 4 1) (lib' : PodLib ℝ 3 1)
    (svd' : Matrix (Fin 6) (Fin 1) ℝ → SvdOut ℝ 6 1) (res : TlsResult ℝ 2 1) (res' : TlsResult ℝ 3 1),
    tlsDirectPairs lib eigOne svd exampleVec ⟨2, 1, exampleAdvVec⟩ none .none (some (1 / 10)) none none = .ok res ∧
    tlsDirectPairs lib' eigOne svd' (exampleEmbedding * exampleVec) ⟨3, 1, exampleEmbedding * exampleAdvVec⟩ none .none (some (1 / 10)) none none =
      .ok res' ∧
    res.decomp.d.r = 1 ∧ res'.decomp.d.r = 1 ∧ res'.decomp.proj = res.decomp.proj ∧
    ∀ z, Nat.card {i // res'.decomp.d.eigvals i = z} = Nat.card {i // res.decomp.d.eigvals i = z} := by
  obtain ⟨lib, hsvd, heigh, hs, -⟩ := exists_podLib (𝕜 := ℝ) 2 1
  obtain ⟨lib4, hsvd4, -⟩ := exists_podLib (𝕜 := ℝ) 4 1
  obtain ⟨lib', hsvd', -⟩ := exists_podLib (𝕜 := ℝ) 3 1
  obtain ⟨lib6, hsvd6, -⟩ := exists_podLib (𝕜 := ℝ) 6 1
  obtain ⟨res0, c, hres0, heig0, hinj0, hr0⟩ := tls_one_snaps lib hs heigh exampleVec exampleAdvVec ((1 / 10) ^ 2) (by norm_num)
  replace hr0 := hr0 (exampleOne_posDef _ (by norm_num))
  obtain ⟨res, hres, heig, hinj⟩ := tls_one_direct lib lib4.svd hsvd exampleVec exampleAdvVec (1 / 10)
  obtain ⟨-, _, _, _, _, _, _, -, -, h0⟩ := C101_tls_pairs lib lib eigOne eigOne lib4.svd none .none .none (1 / 10) none none (by norm_num) hs
    rfl trivial trivial rfl (fun _ _ _ h => by cases h) heigh hsvd hsvd4 _ _ res0 res c hres0 hres heig0 heig hinj0 hinj
  obtain ⟨res', hres', heig', hinj'⟩ := tls_one_direct lib' lib6.svd hsvd' (exampleEmbedding * exampleVec) (exampleEmbedding * exampleAdvVec) (1 / 10)
  obtain ⟨hP, _, _, _, _, _, _, -, -, h⟩ := C93_tls_direct_pairs lib lib' eigOne eigOne lib4.svd lib6.svd exampleEmbedding .none .none (1 / 10)
    none none none (by norm_num) (by simp) trivial trivial exampleEmbedding_isometry (fun _ _ _ h => by cases h) (fun _ _ _ h => by cases h)
    hsvd hsvd' hsvd4 hsvd6 _ _ res res' hres hres' heig heig' hinj hinj'
  refine ⟨lib, lib4.svd, lib', lib6.svd, res, res', hres, hres', h0.number.trans hr0, h.number.trans (h0.number.trans hr0), hP, fun z => ?_⟩
  have := h.multiplicities z
  rwa [div_one, one_mul] at this

/-- DMD of a sequence in other units: the vectors are twice as large, the weights a quarter. -/
example : ∃ (lib : PodLib ℝ 2 2) (res res' : DmdResult ℝ 2 2),
    dmdDirectSeq lib exampleSeqEig exampleSeq none .none (some (1 / 10)) none none = .ok res ∧
    dmdDirectSeq lib exampleSeqEig ((2 : ℝ) • (1 : Matrix (Fin 2) (Fin 2) ℝ) * exampleSeq) none (.d1 2 fun _ => 1 / 4) (some (1 / 10)) none
      none = .ok res' ∧ res.decomp.r = 2 ∧ res'.decomp.r = 2 ∧
    ∀ z, Nat.card {i // res'.decomp.eigvals i = z} = Nat.card {i // res.decomp.eigvals i = z} := by
  obtain ⟨lib, hsvd, -, -, -, hu⟩ := exists_exampleLib
  have hw : (fun _ : Fin 2 => (1 : ℝ) ^ (2 : ℝ)) = exampleSeqDecomp.w := by
    ext i
    simp [exampleSeqDecomp]
  have h3 : ∀ w : Fin 2 → ℝ, w = exampleSeqDecomp.w → (⟨2, w, exampleSeqDecomp.V, exampleSeqDecomp.eigvals, exampleSeqDecomp.R,
      exampleSeqDecomp.L⟩ : DmdDecomp ℝ 2) = exampleSeqDecomp := by
    rintro w rfl
    rfl
  have hhalf : diagonal (fun _ : Fin 2 => (((1 / 4 : ℝ) ^ (0.5 : ℝ) : ℝ) : ℝ)) * ((2 : ℝ) • (1 : Matrix (Fin 2) (Fin 2) ℝ) * exampleSeq) =
      exampleSeq := by
    have h4 : ((1 / 4 : ℝ) ^ (0.5 : ℝ)) = 1 / 2 := by
      rw [show (0.5 : ℝ) = 1 / 2 by norm_num, ← Real.sqrt_eq_rpow, show (1 / 4 : ℝ) = (1 / 2) ^ 2 by norm_num, Real.sqrt_sq (by norm_num)]
    rw [h4, Matrix.smul_mul, Matrix.one_mul]
    ext i j
    rw [diagonal_mul, Matrix.smul_apply, smul_eq_mul]
    ring
  have hres : ∃ res, dmdDirectSeq lib exampleSeqEig exampleSeq none .none (some (1 / 10)) none none = .ok res ∧
      res.decomp = exampleSeqDecomp := by
    unfold dmdDirectSeq
    generalize hg : directSqrtWeights lib.cholesky (.none : DirectWeights ℝ) = z
    obtain rfl : z = .ok none := hg.symm
    dsimp only
    have h2 : (weightData none exampleSeq : Matrix (Fin 2) (Fin 3) ℝ).submatrix id Fin.castSucc = 1 := exampleSeq_first
    rw [h2]
    unfold dmdDirectRest
    rw [hu]
    exact ⟨_, rfl, h3 _ hw⟩
  have hres' : ∃ res, dmdDirectSeq lib exampleSeqEig ((2 : ℝ) • (1 : Matrix (Fin 2) (Fin 2) ℝ) * exampleSeq) none (.d1 2 fun _ => 1 / 4)
      (some (1 / 10)) none none = .ok res ∧ res.decomp = exampleSeqDecomp := by
    unfold dmdDirectSeq
    generalize hg : directSqrtWeights lib.cholesky (.d1 2 fun _ => 1 / 4 : DirectWeights ℝ) = z
    obtain rfl : z = .ok (some (diagonal fun _ : Fin 2 => (((1 / 4 : ℝ) ^ (0.5 : ℝ) : ℝ) : ℝ))) := hg.symm
    dsimp only
    have hd : weightData (some (diagonal fun _ : Fin 2 => (((1 / 4 : ℝ) ^ (0.5 : ℝ) : ℝ) : ℝ)))
      ((2 : ℝ) • (1 : Matrix (Fin 2) (Fin 2) ℝ) * exampleSeq) = exampleSeq := hhalf
    have h2 : (exampleSeq : Matrix (Fin 2) (Fin 3) ℝ).submatrix id Fin.castSucc = 1 := exampleSeq_first
    rw [hd, h2]
    unfold dmdDirectRest
    rw [hu]
    exact ⟨_, rfl, h3 _ hw⟩
  obtain ⟨res, hres, hd⟩ := hres
  obtain ⟨res', hres', hd'⟩ := hres'
  have hfit' : DirectWeights.Fits 2 (.d1 2 fun _ => 1 / 4 : DirectWeights ℝ) := ⟨rfl, fun i => by norm_num⟩
  have hW' : DirectWeights.matrix 2 (.d1 2 fun _ => 1 / 4 : DirectWeights ℝ) = (1 / 4 : ℝ) • 1 := by
    ext i j
    fin_cases i <;> fin_cases j <;> simp [DirectWeights.matrix]
  have hT : ((2 : ℝ) • (1 : Matrix (Fin 2) (Fin 2) ℝ))ᴴ * DirectWeights.matrix 2 (.d1 2 fun _ => 1 / 4 : DirectWeights ℝ) *
      ((2 : ℝ) • (1 : Matrix (Fin 2) (Fin 2) ℝ)) = DirectWeights.matrix 2 (.none : DirectWeights ℝ) := by
    rw [hW']
    ext i j
    fin_cases i <;> fin_cases j <;> simp [DirectWeights.matrix]
    all_goals norm_num
  have heig := exampleSeqDecomp_eig
  have hsame : (seqFirst ((2 : ℝ) • (1 : Matrix (Fin 2) (Fin 2) ℝ) * exampleSeq))ᴴ * DirectWeights.matrix 2 (.d1 2 fun _ => 1 / 4 : DirectWeights ℝ) *
      seqNext ((2 : ℝ) • (1 : Matrix (Fin 2) (Fin 2) ℝ) * exampleSeq) = (seqFirst exampleSeq)ᴴ * (1 : Matrix (Fin 2) (Fin 2) ℝ) * seqNext exampleSeq :=
    gram_image hT (seqFirst exampleSeq) (seqNext exampleSeq)
  obtain ⟨_, _, _, _, _, _, -, -, h⟩ := C93_dmd_direct_sequential lib lib exampleSeqEig exampleSeqEig ((2 : ℝ) • (1 : Matrix (Fin 2) (Fin 2) ℝ))
    .none (.d1 2 fun _ => 1 / 4) (1 / 10) none none none (by norm_num) (by simp) trivial hfit' hT (fun _ _ _ h => by cases h)
    (fun _ _ _ h => by cases h) hsvd hsvd exampleSeq res res' hres hres' (by rw [hd]; exact heig)
    (by
      unfold EigOfReduced
      rw [hsame, hd']
      exact heig)
    (by rw [hd]; exact exampleSeqDecomp_distinct.1) (by rw [hd']; exact exampleSeqDecomp_distinct.1)
  refine ⟨lib, res, res', hres, hres', by rw [hd]; rfl, by rw [hd']; rfl, fun z => ?_⟩
  have := h.multiplicities z
  rwa [div_one, one_mul] at this

end Modred
