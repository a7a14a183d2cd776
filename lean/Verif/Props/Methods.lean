import Verif.Lemmas.Methods
import Verif.Props.DeterminedDmd

/-!
# Different methods give the same results (C101)
-/

namespace Modred

open Matrix
open scoped ComplexOrder

variable {𝕜 : Type*} [RCLike 𝕜] {n m : Nat}

theorem sandwich_left {k r : Nat} (X : Matrix (Fin n) (Fin k) 𝕜) (B : Matrix (Fin k) (Fin r) 𝕜) (D : Matrix (Fin r) (Fin r) 𝕜) :
    (X * B) * D * (X * B)ᴴ = X * (B * D * Bᴴ) * Xᴴ := by
  rw [conjTranspose_mul]
  simp only [Matrix.mul_assoc]

/-! ### Proper orthogonal decomposition -/

/-- **C101.** The method of snapshots and the direct method give the same modes, if the tolerances of the method of snapshots are the
squares of those of the direct method. -/
theorem C101_pod (lib lib' : PodLib 𝕜 n m) (vecs : Matrix (Fin n) (Fin m) 𝕜) (weights : Option (NdArray 𝕜)) (ws : Weights 𝕜)
    (dws : DirectWeights 𝕜) (rtol : Option ℝ) (t : ℝ) (ht : 0 ≤ t) (hr : ∀ t ∈ rtol, 0 ≤ t) (hs : IsArgsort lib.argsort)
    (hws : arraysInit weights = .ok ws) (hfit : ws.Fits n) (hdfit : dws.Fits n) (hsame : ws.matrix n = dws.matrix n)
    (hchol : ∀ p q w, dws = .d2 p q w → IsCholesky lib'.cholesky (dws.matrix n))
    (hlib : ∀ C, C.IsHermitian → IsEigh C (lib.eigh C)) (hlib' : ∀ B, IsSvd B (lib'.svd B)) (res res' : PodResult 𝕜 n m)
    (corr : Matrix (Fin m) (Fin m) 𝕜)
    (hres : podSnaps lib vecs none weights (some (t ^ 2)) (rtol.map (· ^ 2)) = .ok (res, corr))
    (hres' : podDirect lib' vecs none dws (some t) rtol = .ok res') :
    ∃ (modes : Matrix (Fin n) (Fin res.r) 𝕜) (modes' : Matrix (Fin n) (Fin res'.r) 𝕜),
      res.modes = ⟨res.r, modes⟩ ∧ res'.modes = ⟨res'.r, modes'⟩ ∧ SameModes 1 res.eigvals res'.eigvals modes modes' ∧
      modes' * res'.projCoeffs = modes * res.projCoeffs := by
  obtain ⟨e, c, he, hc, h⟩ := podSnaps_cases lib vecs none weights ws _ _ hws hfit _ hres
  obtain ⟨rfl, rfl⟩ := Prod.mk.inj h
  cases hc
  obtain ⟨G, H, hGH, hG, h3⟩ := podDirect_cases lib' vecs none dws (some t) rtol hdfit hchol
  obtain ⟨e', c', he', hc', rfl⟩ := h3 res' hres'
  cases hc'
  have hC : vecsᴴ * ws.matrix n * vecs = (G * vecs)ᴴ * (G * vecs) := by
    rw [hsame, ← hG, conjTranspose_mul]
    simp only [Matrix.mul_assoc]
  rw [hC] at he
  obtain ⟨k1, k2, k3⟩ := square_determined (hlib _ (isHermitian_conjTranspose_mul_self (G * vecs))) (hlib' (G * vecs)) ht hr hs e e' he he'
  obtain ⟨-, -, hAV, -, hS, -⟩ := C19_singular_triples _ _ _ _ (hlib' _) e' he'
  have hr2 : ∀ t ∈ rtol.map (· ^ 2), 0 ≤ t := by
    intro u hu
    obtain ⟨v, -, rfl⟩ := Option.map_eq_some_iff.mp hu
    exact sq_nonneg v
  have hw := C20_positive_partial _ _ _ _ (t ^ 2) (sq_nonneg t) hs hr2 e he
  have hSpos : ∀ i, 0 < e'.S i := by
    intro i
    have h1 := k2 i (Fin.cast k1 i) rfl
    refine lt_of_le_of_ne (hS i) fun h0 => ?_
    rw [← h0, zero_pow two_ne_zero] at h1
    exact (hw _).ne h1
  have hHG : H * G = 1 := mul_eq_one_comm.mp hGH
  have hU : H * e'.U = vecs * (e'.V * diagPow (𝕜 := 𝕜) (fun i => e'.S i ^ (2 : ℝ)) (-0.5)) := by
    have h1 : e'.U = G * vecs * e'.V * diagPow (𝕜 := 𝕜) (fun i => e'.S i ^ (2 : ℝ)) (-0.5) := by
      rw [hAV, ← diagPow_inv_sq hSpos, Matrix.mul_assoc]
      unfold diagPow
      rw [diagonal_mul_diagonal]
      conv_lhs => rw [← Matrix.mul_one e'.U, ← diagonal_one]
      congr 2
      ext i
      rw [Real.rpow_neg_one, ← RCLike.ofReal_mul, mul_inv_cancel₀ (hSpos i).ne', RCLike.ofReal_one]
    rw [h1, show H * (G * vecs * e'.V * diagPow (𝕜 := 𝕜) (fun i => e'.S i ^ (2 : ℝ)) (-0.5)) =
      H * G * vecs * (e'.V * diagPow (𝕜 := 𝕜) (fun i => e'.S i ^ (2 : ℝ)) (-0.5)) by simp only [Matrix.mul_assoc], hHG, Matrix.one_mul]
  have hSpos2 : ∀ i, 0 < e'.S i ^ (2 : ℝ) := fun i => Real.rpow_pos_of_pos (hSpos i) _
  have k3' : ∀ f : ℝ → 𝕜, e'.V * diagonal (fun i => f (e'.S i ^ (2 : ℝ))) * e'.Vᴴ = e.V * diagonal (fun i => f (e.w i)) * e.Vᴴ := by
    simp only [Real.rpow_two]
    exact k3
  refine ⟨vecs * (e.V * diagPow (𝕜 := 𝕜) e.w (-0.5)), H * e'.U, ?_, rfl, ⟨k1, fun i' i hi => ?_, fun f g hfg => ?_⟩, ?_⟩
  · rw [Matrix.mul_one]
  · dsimp only
    rw [norm_one, one_pow, one_mul, Real.rpow_two]
    exact k2 i' i hi
  · dsimp only
    have hfg' : (fun i => f (e.w i)) = fun i => g (e.w i) := by
      ext i
      have := hfg _ (hw i)
      rw [norm_one, one_pow, one_mul] at this
      exact this.symm
    rw [hU, hfg', sandwich_left vecs (e.V * _), sandwich_left vecs (e'.V * _), build_weighted hw, build_weighted hSpos2, k3' fun x => g x / (x : 𝕜)]
  · dsimp only
    have h1 := k3' fun _ => 1
    simp only [diagonal_one, Matrix.mul_one] at h1
    rw [hU, Matrix.mul_assoc vecs (e.V * _), Matrix.mul_assoc vecs (e'.V * _), build_mul_proj hw, build_mul_proj hSpos2, h1]

/-! ### Dynamic mode decomposition -/

/-- The eigenvectors of the snapshot method and the right singular vectors of the direct method. -/
theorem methods_sameEigh {lib : PodLib 𝕜 n m} {eigh : Matrix (Fin m) (Fin m) 𝕜 → EighOut 𝕜 m}
    {argsort : (Fin m → ℝ) → Equiv.Perm (Fin m)} {eig eig' : ∀ {r : Nat}, Matrix (Fin r) (Fin r) 𝕜 → EigOut 𝕜 r}
    {B X Y : Matrix (Fin n) (Fin m) 𝕜} {C K : Matrix (Fin m) (Fin m) 𝕜} {cross : Svd 𝕜 n m → Matrix (Fin m) (Fin m) 𝕜}
    {idx : Option (List Int)} {t : ℝ} {rtol : Option ℝ} {d : DmdDecomp 𝕜 m} {res : DmdResult 𝕜 n m}
    (hd : dmdEigendecomp eigh argsort eig C K (some (t ^ 2)) (rtol.map (· ^ 2)) none = .ok d)
    (hres : dmdDirectRest lib eig' B cross X Y idx (some t) rtol none = .ok res) (hC : C = Bᴴ * B)
    (h : ∀ C, C.IsHermitian → IsEigh C (eigh C)) (h' : ∀ B, IsSvd B (lib.svd B)) (ht : 0 ≤ t) (hr : ∀ t ∈ rtol, 0 ≤ t)
    (hs : IsArgsort argsort) : SameSpectrum (‖(1 : 𝕜)‖ ^ 2) 1 d res.decomp := by
  subst hC
  obtain ⟨e, w, R, L, he, rfl⟩ := dmdEigendecomp_eigh hd
  obtain ⟨e', w', R', L', he', hd'⟩ := dmdDirectRest_svd hres
  rw [hd']
  intro f g hfg
  have hr2 : ∀ t ∈ rtol.map (· ^ 2), 0 ≤ t := by
    intro u hu
    obtain ⟨v, -, rfl⟩ := Option.map_eq_some_iff.mp hu
    exact sq_nonneg v
  have hw := C20_positive_partial _ _ _ _ (t ^ 2) (sq_nonneg t) hs hr2 e he
  have k3 := (square_determined (h _ (isHermitian_conjTranspose_mul_self B)) (h' B) ht hr hs e e' he he').2.2 g
  have hfg' : (fun i => f (e.w i)) = fun i => g (e.w i) := by
    ext i
    have := hfg _ (hw i)
    rw [norm_one, one_pow, one_mul] at this
    exact this.symm
  dsimp only
  simp only [Real.rpow_two]
  rw [k3, hfg', conjTranspose_one, Matrix.one_mul, Matrix.mul_one]

section Dmd

variable (lib lib' : PodLib 𝕜 n m) (eig eig' : ∀ {r : Nat}, Matrix (Fin r) (Fin r) 𝕜 → EigOut 𝕜 r)
  (weights : Option (NdArray 𝕜)) (ws : Weights 𝕜) (dws : DirectWeights 𝕜) (t : ℝ) (rtol : Option ℝ) (idx idx' : Option (List Int))

/-- **C101.** The snapshot method and the direct method for pairs of vectors. -/
theorem C101_dmd_pairs (ht : 0 ≤ t) (hr : ∀ t ∈ rtol, 0 ≤ t) (hs : IsArgsort lib.argsort) (hws : arraysInit weights = .ok ws)
    (hfit : ws.Fits n) (hdfit : dws.Fits n) (hsame : ws.matrix n = dws.matrix n)
    (hchol : ∀ p q w, dws = .d2 p q w → IsCholesky lib'.cholesky (dws.matrix n))
    (hlib : ∀ C, C.IsHermitian → IsEigh C (lib.eigh C)) (hlib' : ∀ B, IsSvd B (lib'.svd B)) (X Y : Matrix (Fin n) (Fin m) 𝕜)
    (res res' : DmdResult 𝕜 n m) (corr cross : Matrix (Fin m) (Fin m) 𝕜)
    (hres : dmdSnapsPairs lib eig X ⟨n, m, Y⟩ idx weights (some (t ^ 2)) (rtol.map (· ^ 2)) none = .ok (res, corr, cross))
    (hres' : dmdDirectPairs lib' eig' X ⟨n, m, Y⟩ idx' dws (some t) rtol none = .ok res')
    (heig : EigOfReduced eig (ws.matrix n) X Y res.decomp) (heig' : EigOfReduced eig' (dws.matrix n) X Y res'.decomp)
    (hinj : Function.Injective res.decomp.eigvals) (hinj' : Function.Injective res'.decomp.eigvals) :
    ∃ exact proj adjoint exact' proj' adjoint',
      (Chosen exact idx res.exactModes ∧ Chosen proj idx res.projModes ∧ Chosen adjoint idx res.adjointModes) ∧
      (Chosen exact' idx' res'.exactModes ∧ Chosen proj' idx' res'.projModes ∧ Chosen adjoint' idx' res'.adjointModes) ∧
      SameDmd 1 1 1 res.decomp.eigvals res'.decomp.eigvals exact proj adjoint exact' proj' adjoint'
        res.projCoeffs res.advProjCoeffs res'.projCoeffs res'.advProjCoeffs := by
  have hr2 : ∀ t ∈ rtol.map (· ^ 2), 0 ≤ t := by
    intro u hu
    obtain ⟨v, -, rfl⟩ := Option.map_eq_some_iff.mp hu
    exact sq_nonneg v
  have hW : (ws.matrix n).IsHermitian := hsame ▸ (directWeights_posDef dws hdfit).isHermitian
  have h1 : ∀ Z : Matrix (Fin n) (Fin m) 𝕜, Z = (1 : 𝕜) • (Z * (1 : Matrix (Fin m) (Fin m) 𝕜)) := fun Z => by
    rw [one_smul, Matrix.mul_one]
  have hQ : (1 : Matrix (Fin m) (Fin m) 𝕜) * 1ᴴ = 1 := by rw [conjTranspose_one, Matrix.mul_one]
  obtain ⟨rfl, rfl, hd, ho⟩ := dmdSnapsPairs_ok lib eig idx weights ws _ _ none hws hfit X Y res _ _ hres
  obtain ⟨hc, hLR⟩ := dmdEigendecomp_core _ _ eig _ _ (t ^ 2) _ none _ hd (sq_nonneg t) hr2 hs (gram_hermitian hW _)
    (hlib _ (gram_hermitian hW _)) heig
  obtain ⟨hc', hLR', ho'⟩ := dmdDirectPairs_ok lib' eig' idx' dws t rtol none hdfit hchol ht hr hlib' X Y res' hres' heig'
  have hV : SameSpectrum (‖(1 : 𝕜)‖ ^ 2) 1 res.decomp res'.decomp := by
    unfold dmdDirectPairs at hres'
    split at hres'
    · cases hres'
    rename_i so hso
    simp only [and_self, dite_true] at hres'
    obtain ⟨G, hG, hdata⟩ := directSqrtWeights_ok lib'.cholesky dws hdfit hchol so hso
    refine methods_sameEigh hd hres' ?_ hlib hlib' ht hr hs
    rw [hdata, hsame, ← hG, conjTranspose_mul]
    simp only [Matrix.mul_assoc]
  refine ⟨_, _, _, _, _, _, ⟨ho.exact, ho.proj, ho.adjoint⟩, ⟨ho'.exact, ho'.proj, ho'.adjoint⟩, ?_⟩
  rw [ho.projCoeffs, ho.advProjCoeffs, ho'.projCoeffs, ho'.advProjCoeffs]
  rw [← hsame] at hc'
  have := same_dmd (Y := Y) hQ one_ne_zero one_ne_zero hc (by simpa only [← h1] using hc') (hLR hinj) (hLR' hinj') hV
  simpa only [← h1, hsame] using this

/-- **C101.** The snapshot method and the direct method for sequential data. -/
theorem C101_dmd_sequential (ht : 0 ≤ t) (hr : ∀ t ∈ rtol, 0 ≤ t) (hs : IsArgsort lib.argsort) (hws : arraysInit weights = .ok ws)
    (hfit : ws.Fits n) (hdfit : dws.Fits n) (hsame : ws.matrix n = dws.matrix n)
    (hchol : ∀ p q w, dws = .d2 p q w → IsCholesky lib'.cholesky (dws.matrix n))
    (hlib : ∀ C, C.IsHermitian → IsEigh C (lib.eigh C)) (hlib' : ∀ B, IsSvd B (lib'.svd B)) (Z : Matrix (Fin n) (Fin (m + 1)) 𝕜)
    (res res' : DmdResult 𝕜 n m) (corr cross : Matrix (Fin m) (Fin m) 𝕜)
    (hres : dmdSnapsSeq lib eig Z idx weights (some (t ^ 2)) (rtol.map (· ^ 2)) none = .ok (res, corr, cross))
    (hres' : dmdDirectSeq lib' eig' Z idx' dws (some t) rtol none = .ok res')
    (heig : EigOfReduced eig (ws.matrix n) (seqFirst Z) (seqNext Z) res.decomp)
    (heig' : EigOfReduced eig' (dws.matrix n) (seqFirst Z) (seqNext Z) res'.decomp)
    (hinj : Function.Injective res.decomp.eigvals) (hinj' : Function.Injective res'.decomp.eigvals) :
    ∃ exact proj adjoint exact' proj' adjoint',
      (Chosen exact idx res.exactModes ∧ Chosen proj idx res.projModes ∧ Chosen adjoint idx res.adjointModes) ∧
      (Chosen exact' idx' res'.exactModes ∧ Chosen proj' idx' res'.projModes ∧ Chosen adjoint' idx' res'.adjointModes) ∧
      SameDmd 1 1 1 res.decomp.eigvals res'.decomp.eigvals exact proj adjoint exact' proj' adjoint'
        res.projCoeffs res.advProjCoeffs res'.projCoeffs res'.advProjCoeffs := by
  have hr2 : ∀ t ∈ rtol.map (· ^ 2), 0 ≤ t := by
    intro u hu
    obtain ⟨v, -, rfl⟩ := Option.map_eq_some_iff.mp hu
    exact sq_nonneg v
  have hW : (ws.matrix n).IsHermitian := hsame ▸ (directWeights_posDef dws hdfit).isHermitian
  have h1 : ∀ Z : Matrix (Fin n) (Fin m) 𝕜, Z = (1 : 𝕜) • (Z * (1 : Matrix (Fin m) (Fin m) 𝕜)) := fun Z => by
    rw [one_smul, Matrix.mul_one]
  have hQ : (1 : Matrix (Fin m) (Fin m) 𝕜) * 1ᴴ = 1 := by rw [conjTranspose_one, Matrix.mul_one]
  obtain ⟨h2, h3, hd, ho⟩ := dmdSnapsSeq_ok lib eig idx weights ws _ _ none hws hfit Z res _ _ hres
  change corr = (seqFirst Z)ᴴ * ws.matrix n * seqFirst Z at h2
  change cross = (seqFirst Z)ᴴ * ws.matrix n * seqNext Z at h3
  change DmdOutcome _ (seqFirst Z) (seqNext Z) _ _ at ho
  subst h2 h3
  obtain ⟨hc, hLR⟩ := dmdEigendecomp_core _ _ eig _ _ (t ^ 2) _ none _ hd (sq_nonneg t) hr2 hs (gram_hermitian hW _)
    (hlib _ (gram_hermitian hW _)) heig
  obtain ⟨hc', hLR', ho'⟩ := dmdDirectSeq_ok lib' eig' idx' dws t rtol none hdfit hchol ht hr hlib' Z res' hres' (seqFirst Z)
    (seqNext Z) rfl rfl heig'
  have hV : SameSpectrum (‖(1 : 𝕜)‖ ^ 2) 1 res.decomp res'.decomp := by
    unfold dmdDirectSeq at hres'
    split at hres'
    · cases hres'
    rename_i so hso
    dsimp only at hres'
    obtain ⟨G, hG, hdata⟩ := directSqrtWeights_ok lib'.cholesky dws hdfit hchol so hso
    refine methods_sameEigh hd hres' ?_ hlib hlib' ht hr hs
    change _ = ((weightData so Z).submatrix id Fin.castSucc)ᴴ * (weightData so Z).submatrix id Fin.castSucc
    rw [hdata, show (G * Z).submatrix id Fin.castSucc = G * seqFirst Z from rfl, hsame, ← hG, conjTranspose_mul]
    simp only [Matrix.mul_assoc]
  refine ⟨_, _, _, _, _, _, ⟨ho.exact, ho.proj, ho.adjoint⟩, ⟨ho'.exact, ho'.proj, ho'.adjoint⟩, ?_⟩
  rw [ho.projCoeffs, ho.advProjCoeffs, ho'.projCoeffs, ho'.advProjCoeffs]
  rw [← hsame] at hc'
  have := same_dmd (Y := seqNext Z) hQ one_ne_zero one_ne_zero hc (by simpa only [← h1] using hc') (hLR hinj) (hLR' hinj') hV
  simpa only [← h1, hsame] using this

end Dmd

/-! ### Examples -/

/-- Three vectors, and the tolerances 1e-10 and 1e-5. -/
example : ∃ (lib lib' : PodLib ℝ 2 3) (res res' : PodResult ℝ 2 3) (corr : Matrix (Fin 3) (Fin 3) ℝ),
    podSnaps lib exampleData none none (some ((1 / 10 ^ 5) ^ 2)) none = .ok (res, corr) ∧
    podDirect lib' exampleData none .none (some (1 / 10 ^ 5)) none = .ok res' ∧ res'.r = res.r ∧
    ∀ (i' : Fin res'.r) (i : Fin res.r), i'.val = i.val → res'.eigvals i' = res.eigvals i := by
  obtain ⟨lib, hsvd, heigh, hs, -⟩ := exists_podLib (𝕜 := ℝ) 2 3
  obtain ⟨e, he⟩ := C20_no_error lib.eigh lib.argsort (exampleDataᴴ * Weights.matrix 2 (Weights.none : Weights ℝ) * exampleData)
    none true ((1 / 10 ^ 5) ^ 2) (by norm_num)
  have hres : ∃ res corr, podSnaps lib exampleData none none (some ((1 / 10 ^ 5) ^ 2)) none = .ok (res, corr) := by
    refine ⟨⟨e.r, e.w, ⟨e.r, exampleData * (e.V * diagPow e.w (-0.5))⟩, diagPow e.w 0.5 * e.Vᴴ, e.V⟩,
      exampleDataᴴ * Weights.matrix 2 (Weights.none : Weights ℝ) * exampleData, ?_⟩
    unfold podSnaps
    rw [show arraysInit (none : Option (NdArray ℝ)) = .ok .none from rfl]
    dsimp only
    unfold symmIpArray
    rw [C45_formula _ (by trivial)]
    dsimp only
    rw [he]
    rfl
  have hres' : ∃ res', podDirect lib exampleData none .none (some (1 / 10 ^ 5)) none = .ok res' := by
    unfold podDirect podDirectSvd
    dsimp only
    cases hu : utilSvd lib.svd exampleData (some (1 / 10 ^ 5)) none with
    | error e => exact absurd rfl ((C19_error_iff _ _ _ _ _).mp hu).2.1
    | ok u => exact ⟨_, rfl⟩
  obtain ⟨res, corr, hres⟩ := hres
  obtain ⟨res', hres'⟩ := hres'
  obtain ⟨modes, modes', -, -, h, -⟩ := C101_pod lib lib exampleData none .none .none none (1 / 10 ^ 5) (by norm_num) (by simp) hs rfl trivial
    trivial rfl (fun _ _ _ h => by cases h) heigh hsvd res res' corr hres hres'
  refine ⟨lib, lib, res, res', corr, hres, hres', h.number, fun i' i hi => ?_⟩
  rw [h.energies i' i hi, norm_one, one_pow, one_mul]

/-- The sequence of vectors that a map with eigenvalues 1 and 2 generates. -/
example : ∃ (lib lib' : PodLib ℝ 2 2) (res res' : DmdResult ℝ 2 2) (corr cross : Matrix (Fin 2) (Fin 2) ℝ),
    dmdSnapsSeq lib exampleSeqEig exampleSeq none none (some ((1 / 10) ^ 2)) none none = .ok (res, corr, cross) ∧
    dmdDirectSeq lib' exampleSeqEig exampleSeq none .none (some (1 / 10)) none none = .ok res' ∧ res.decomp.r = 2 ∧ res'.decomp.r = 2 ∧
    ∀ z, Nat.card {i // res'.decomp.eigvals i = z} = Nat.card {i // res.decomp.eigvals i = z} := by
  obtain ⟨lib, res, corr, cross, heigh, hs, hres, hd⟩ := exampleSeq_snaps_tol ((1 / 10) ^ 2) (by norm_num) (by norm_num)
  obtain ⟨lib', res', hsvd, hres', heig, hi, -⟩ := exampleSeq_direct
  obtain ⟨_, _, _, _, _, _, -, -, h⟩ := C101_dmd_sequential lib lib' exampleSeqEig exampleSeqEig none .none .none (1 / 10) none none none
    (by norm_num) (by simp) hs rfl trivial trivial rfl (fun _ _ _ h => by cases h) heigh hsvd exampleSeq res res' corr cross hres hres'
    (by rw [hd]; exact exampleSeqDecomp_eig) heig (by rw [hd]; exact exampleSeqDecomp_distinct.1) hi
  have h2 : res.decomp.r = 2 := by rw [hd]; rfl
  refine ⟨lib, lib', res, res', corr, cross, hres, hres', h2, h.number.trans h2, fun z => ?_⟩
  have := h.multiplicities z
  rwa [div_one, one_mul] at this

/-- **C101, violated.** With the same tolerance the methods keep different numbers of modes, and therefore different eigenvalues: for the
vector (1/2), advanced to itself, and tolerance 1/3. -/
theorem C101_dmd_tolerance_violation (lib : PodLib ℝ 1 1) (eig : ∀ {r : Nat}, Matrix (Fin r) (Fin r) ℝ → EigOut ℝ r)
    (hsvd : ∀ a, IsSvd a (lib.svd a)) (heigh : ∀ a, a.IsHermitian → IsEigh a (lib.eigh a)) (hs : IsArgsort lib.argsort) :
    let vecs : Matrix (Fin 1) (Fin 1) ℝ := !![1 / 2]
    (∃ res corr cross, dmdSnapsPairs lib eig vecs ⟨1, 1, vecs⟩ none none (some (1 / 3)) none none = .ok (res, corr, cross) ∧
      res.decomp.r = 0) ∧
    ∃ res, dmdDirectPairs lib eig vecs ⟨1, 1, vecs⟩ none .none (some (1 / 3)) none none = .ok res ∧ res.decomp.r = 1 := by
  intro vecs
  obtain ⟨⟨pod, c, hpod, -, h0⟩, pod', hpod', h1, -⟩ := C55_methods_differ_violation lib hsvd heigh hs
  constructor
  · obtain ⟨⟨res, corr, cross⟩, hres⟩ := (C26_snaps_no_error lib eig (1 / 3) none none Nat.one_pos none .none rfl trivial
      (Matrix.of fun _ _ => 0) vecs vecs).2
    refine ⟨res, corr, cross, hres, ?_⟩
    obtain ⟨rfl, rfl, hd, -⟩ := dmdSnapsPairs_ok lib eig none none .none _ none none rfl trivial vecs vecs res _ _ hres
    obtain ⟨e, w, R, L, he, hd⟩ := dmdEigendecomp_eigh hd
    obtain ⟨e', c', he', -, h⟩ := podSnaps_cases lib vecs none none .none _ _ rfl trivial _ hpod
    obtain rfl := Except.ok.inj (he.symm.trans he')
    obtain ⟨rfl, -⟩ := Prod.mk.inj h
    rw [hd]
    exact h0
  · obtain ⟨res, hres⟩ := (C26_direct_no_error lib eig (1 / 3) none none Nat.one_pos (by simp) .none trivial rfl (fun _ _ _ h => by cases h)
      (Matrix.of fun _ _ => 0) vecs vecs).2
    refine ⟨res, hres, ?_⟩
    unfold dmdDirectPairs at hres
    generalize hg : directSqrtWeights lib.cholesky (.none : DirectWeights ℝ) = z at hres
    obtain rfl : z = .ok none := hg.symm
    simp only [and_self, dite_true] at hres
    obtain ⟨e, w, R, L, he, hd⟩ := dmdDirectRest_svd hres
    unfold podDirect podDirectSvd at hpod'
    dsimp only at hpod'
    have he' : utilSvd lib.svd vecs (some (1 / 3)) none = .ok e := he
    rw [he'] at hpod'
    cases hpod'
    rw [hd]
    exact h1

end Modred
