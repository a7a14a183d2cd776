import Verif.Props.Wide
import Verif.Props.DeterminedDmd

/-!
# C116: dynamic modes of more pairs that carry the same information
-/

namespace Modred

open Matrix

variable {𝕜 : Type*} [RCLike 𝕜] {n m m' : Nat}

/-- **C116.** The snapshot method: pairs of zero vectors at any places change nothing, and their coefficients are zero. -/
theorem C116_snaps_zero_pairs (lib : PodLib 𝕜 n m) (lib' : PodLib 𝕜 n m') (eig eig' : ∀ {r : Nat}, Matrix (Fin r) (Fin r) 𝕜 → EigOut 𝕜 r)
    (weights : Option (NdArray 𝕜)) (ws : Weights 𝕜) (t : ℝ) (rtol : Option ℝ) (idx idx' : Option (List Int)) (ht : 0 ≤ t) (hr : ∀ t ∈ rtol, 0 ≤ t)
    (hs : IsArgsort lib.argsort) (hs' : IsArgsort lib'.argsort) (hws : arraysInit weights = .ok ws) (hfit : ws.Fits n)
    (hW : (ws.matrix n).IsHermitian) (hlib : ∀ C, C.IsHermitian → IsEigh C (lib.eigh C))
    (hlib' : ∀ C, C.IsHermitian → IsEigh C (lib'.eigh C))
    (X Y : Matrix (Fin n) (Fin m) 𝕜) (X' Y' : Matrix (Fin n) (Fin m') 𝕜)
    (ι : Fin m → Fin m') (hι : Function.Injective ι)
    (hX : ∀ i, X'ᵀ (ι i) = Xᵀ i) (hX0 : ∀ j, (∀ i, ι i ≠ j) → X'ᵀ j = 0)
    (hY : ∀ i, Y'ᵀ (ι i) = Yᵀ i) (hY0 : ∀ j, (∀ i, ι i ≠ j) → Y'ᵀ j = 0)
    (res : DmdResult 𝕜 n m) (res' : DmdResult 𝕜 n m')
    (corr cross : Matrix (Fin m) (Fin m) 𝕜) (corr' cross' : Matrix (Fin m') (Fin m') 𝕜)
    (hres : dmdSnapsPairs lib eig X ⟨n, m, Y⟩ idx weights (some t) rtol none = .ok (res, corr, cross))
    (hres' : dmdSnapsPairs lib' eig' X' ⟨n, m', Y'⟩ idx' weights (some (t)) rtol none =
      .ok (res', corr', cross'))
    (heig : EigOfReduced eig (ws.matrix n) X Y res.decomp) (heig' : EigOfReduced eig' (ws.matrix n) X' Y' res'.decomp)
    (hinj : Function.Injective res.decomp.eigvals) (hinj' : Function.Injective res'.decomp.eigvals) :
    ∃ exact proj adjoint exact' proj' adjoint',
      (Chosen exact idx res.exactModes ∧ Chosen proj idx res.projModes ∧ Chosen adjoint idx res.adjointModes) ∧
      (Chosen exact' idx' res'.exactModes ∧ Chosen proj' idx' res'.projModes ∧ Chosen adjoint' idx' res'.adjointModes) ∧
      SameDmd 1 1 (placeRows 𝕜 ι) res.decomp.eigvals res'.decomp.eigvals exact proj adjoint
        exact' proj' adjoint' res.projCoeffs res.advProjCoeffs res'.projCoeffs res'.advProjCoeffs := by
  obtain rfl : X' = (1 : 𝕜) • (X * placeRows 𝕜 ι) := columns_of_sum fun j => by
    rw [one_smul]; exact placeRows_sum ι hι _ _ hX hX0 j
  obtain rfl : Y' = (1 : 𝕜) • (Y * placeRows 𝕜 ι) := columns_of_sum fun j => by
    rw [one_smul]; exact placeRows_sum ι hι _ _ hY hY0 j
  exact C95_snaps_pairs lib lib' eig eig' weights ws t rtol 1 1 (placeRows 𝕜 ι) idx idx' one_ne_zero one_ne_zero
    (placeRows_orthonormal ι hι) ht hr hs hs' hws hfit hW hlib hlib' X Y res res' corr cross corr' cross' hres
    (by rw [norm_one, one_pow, one_mul]; exact hres') heig heig' hinj hinj'

/-- **C116.** The snapshot method: if every pair is given `p` times in any order, then eigenvalues and modes are the same. -/
theorem C116_snaps_repeated_pairs (lib : PodLib 𝕜 n m) (lib' : PodLib 𝕜 n m') (eig eig' : ∀ {r : Nat}, Matrix (Fin r) (Fin r) 𝕜 → EigOut 𝕜 r)
    (weights : Option (NdArray 𝕜)) (ws : Weights 𝕜) (t : ℝ) (rtol : Option ℝ) (idx idx' : Option (List Int)) (ht : 0 ≤ t) (hr : ∀ t ∈ rtol, 0 ≤ t)
    (hs : IsArgsort lib.argsort) (hs' : IsArgsort lib'.argsort) (hws : arraysInit weights = .ok ws) (hfit : ws.Fits n)
    (hW : (ws.matrix n).IsHermitian) (hlib : ∀ C, C.IsHermitian → IsEigh C (lib.eigh C))
    (hlib' : ∀ C, C.IsHermitian → IsEigh C (lib'.eigh C))
    (X Y : Matrix (Fin n) (Fin m) 𝕜)
    (σ : Fin m' → Fin m) (p : Nat) (hp : 0 < p) (hσ : ∀ i, (Finset.univ.filter fun j => σ j = i).card = p)
    (res : DmdResult 𝕜 n m) (res' : DmdResult 𝕜 n m')
    (corr cross : Matrix (Fin m) (Fin m) 𝕜) (corr' cross' : Matrix (Fin m') (Fin m') 𝕜)
    (hres : dmdSnapsPairs lib eig X ⟨n, m, Y⟩ idx weights (some t) rtol none = .ok (res, corr, cross))
    (hres' : dmdSnapsPairs lib' eig' (of fun l j => X l (σ j)) ⟨n, m', (of fun l j => Y l (σ j))⟩ idx' weights (some (p * t)) rtol none =
      .ok (res', corr', cross'))
    (heig : EigOfReduced eig (ws.matrix n) X Y res.decomp) (heig' : EigOfReduced eig' (ws.matrix n) (of fun l j => X l (σ j)) (of fun l j => Y l (σ j)) res'.decomp)
    (hinj : Function.Injective res.decomp.eigvals) (hinj' : Function.Injective res'.decomp.eigvals) :
    ∃ exact proj adjoint exact' proj' adjoint',
      (Chosen exact idx res.exactModes ∧ Chosen proj idx res.projModes ∧ Chosen adjoint idx res.adjointModes) ∧
      (Chosen exact' idx' res'.exactModes ∧ Chosen proj' idx' res'.projModes ∧ Chosen adjoint' idx' res'.adjointModes) ∧
      SameDmd ((Real.sqrt p : ℝ) : 𝕜) ((Real.sqrt p : ℝ) : 𝕜) (repeatRows 𝕜 σ p) res.decomp.eigvals res'.decomp.eigvals exact proj adjoint
        exact' proj' adjoint' res.projCoeffs res.advProjCoeffs res'.projCoeffs res'.advProjCoeffs := by
  have key : ∀ {q : Nat} (Z : Matrix (Fin q) (Fin m) 𝕜), (of fun l j => Z l (σ j)) = ((Real.sqrt p : ℝ) : 𝕜) • (Z * repeatRows 𝕜 σ p) :=
    fun Z => columns_of_sum fun j => repeatRows_sum σ hp Zᵀ j
  rw [key X, key Y] at hres' heig'
  exact C95_snaps_pairs lib lib' eig eig' weights ws t rtol _ _ (repeatRows 𝕜 σ p) idx idx' (sqrt_nat_ne hp) (sqrt_nat_ne hp)
    (repeatRows_orthonormal σ hp hσ) ht hr hs hs' hws hfit hW hlib hlib' X Y res res' corr cross corr' cross' hres
    (by rw [norm_sqrt_sq]; exact hres') heig heig' hinj hinj'

/-- **C116.** The direct method: pairs of zero vectors at any places change nothing. -/
theorem C116_direct_zero_pairs (lib : PodLib 𝕜 n m) (lib' : PodLib 𝕜 n m') (eig eig' : ∀ {r : Nat}, Matrix (Fin r) (Fin r) 𝕜 → EigOut 𝕜 r)
    (ws : DirectWeights 𝕜) (t : ℝ) (rtol : Option ℝ) (idx idx' : Option (List Int)) (ht : 0 ≤ t) (hr : ∀ t ∈ rtol, 0 ≤ t)
    (hfit : ws.Fits n)
    (hchol : ∀ p q w, ws = .d2 p q w → IsCholesky lib.cholesky (ws.matrix n))
    (hchol' : ∀ p q w, ws = .d2 p q w → IsCholesky lib'.cholesky (ws.matrix n))
    (hlib : ∀ B, IsSvd B (lib.svd B)) (hlib' : ∀ B, IsSvd B (lib'.svd B))
    (X Y : Matrix (Fin n) (Fin m) 𝕜) (X' Y' : Matrix (Fin n) (Fin m') 𝕜)
    (ι : Fin m → Fin m') (hι : Function.Injective ι)
    (hX : ∀ i, X'ᵀ (ι i) = Xᵀ i) (hX0 : ∀ j, (∀ i, ι i ≠ j) → X'ᵀ j = 0)
    (hY : ∀ i, Y'ᵀ (ι i) = Yᵀ i) (hY0 : ∀ j, (∀ i, ι i ≠ j) → Y'ᵀ j = 0)
    (res : DmdResult 𝕜 n m) (res' : DmdResult 𝕜 n m')
    (hres : dmdDirectPairs lib eig X ⟨n, m, Y⟩ idx ws (some t) rtol none = .ok res)
    (hres' : dmdDirectPairs lib' eig' X' ⟨n, m', Y'⟩ idx' ws (some (t)) rtol none = .ok res')
    (heig : EigOfReduced eig (ws.matrix n) X Y res.decomp) (heig' : EigOfReduced eig' (ws.matrix n) X' Y' res'.decomp)
    (hinj : Function.Injective res.decomp.eigvals) (hinj' : Function.Injective res'.decomp.eigvals) :
    ∃ exact proj adjoint exact' proj' adjoint',
      (Chosen exact idx res.exactModes ∧ Chosen proj idx res.projModes ∧ Chosen adjoint idx res.adjointModes) ∧
      (Chosen exact' idx' res'.exactModes ∧ Chosen proj' idx' res'.projModes ∧ Chosen adjoint' idx' res'.adjointModes) ∧
      SameDmd 1 1 (placeRows 𝕜 ι) res.decomp.eigvals res'.decomp.eigvals exact proj adjoint
        exact' proj' adjoint' res.projCoeffs res.advProjCoeffs res'.projCoeffs res'.advProjCoeffs := by
  obtain rfl : X' = (1 : 𝕜) • (X * placeRows 𝕜 ι) := columns_of_sum fun j => by
    rw [one_smul]; exact placeRows_sum ι hι _ _ hX hX0 j
  obtain rfl : Y' = (1 : 𝕜) • (Y * placeRows 𝕜 ι) := columns_of_sum fun j => by
    rw [one_smul]; exact placeRows_sum ι hι _ _ hY hY0 j
  exact C95_direct_pairs lib lib' eig eig' ws t rtol 1 1 (placeRows 𝕜 ι) idx idx' one_ne_zero one_ne_zero
    (placeRows_orthonormal ι hι) ht hr hfit hchol hchol' hlib hlib' X Y res res' hres
    (by rw [norm_one, one_mul]; exact hres') heig heig' hinj hinj'

/-- **C116.** The direct method: if every pair is given `p` times in any order, then eigenvalues and modes are the same. -/
theorem C116_direct_repeated_pairs (lib : PodLib 𝕜 n m) (lib' : PodLib 𝕜 n m') (eig eig' : ∀ {r : Nat}, Matrix (Fin r) (Fin r) 𝕜 → EigOut 𝕜 r)
    (ws : DirectWeights 𝕜) (t : ℝ) (rtol : Option ℝ) (idx idx' : Option (List Int)) (ht : 0 ≤ t) (hr : ∀ t ∈ rtol, 0 ≤ t)
    (hfit : ws.Fits n)
    (hchol : ∀ p q w, ws = .d2 p q w → IsCholesky lib.cholesky (ws.matrix n))
    (hchol' : ∀ p q w, ws = .d2 p q w → IsCholesky lib'.cholesky (ws.matrix n))
    (hlib : ∀ B, IsSvd B (lib.svd B)) (hlib' : ∀ B, IsSvd B (lib'.svd B))
    (X Y : Matrix (Fin n) (Fin m) 𝕜)
    (σ : Fin m' → Fin m) (p : Nat) (hp : 0 < p) (hσ : ∀ i, (Finset.univ.filter fun j => σ j = i).card = p)
    (res : DmdResult 𝕜 n m) (res' : DmdResult 𝕜 n m')
    (hres : dmdDirectPairs lib eig X ⟨n, m, Y⟩ idx ws (some t) rtol none = .ok res)
    (hres' : dmdDirectPairs lib' eig' (of fun l j => X l (σ j)) ⟨n, m', (of fun l j => Y l (σ j))⟩ idx' ws (some (Real.sqrt p * t)) rtol none = .ok res')
    (heig : EigOfReduced eig (ws.matrix n) X Y res.decomp) (heig' : EigOfReduced eig' (ws.matrix n) (of fun l j => X l (σ j)) (of fun l j => Y l (σ j)) res'.decomp)
    (hinj : Function.Injective res.decomp.eigvals) (hinj' : Function.Injective res'.decomp.eigvals) :
    ∃ exact proj adjoint exact' proj' adjoint',
      (Chosen exact idx res.exactModes ∧ Chosen proj idx res.projModes ∧ Chosen adjoint idx res.adjointModes) ∧
      (Chosen exact' idx' res'.exactModes ∧ Chosen proj' idx' res'.projModes ∧ Chosen adjoint' idx' res'.adjointModes) ∧
      SameDmd ((Real.sqrt p : ℝ) : 𝕜) ((Real.sqrt p : ℝ) : 𝕜) (repeatRows 𝕜 σ p) res.decomp.eigvals res'.decomp.eigvals exact proj adjoint
        exact' proj' adjoint' res.projCoeffs res.advProjCoeffs res'.projCoeffs res'.advProjCoeffs := by
  have key : ∀ {q : Nat} (Z : Matrix (Fin q) (Fin m) 𝕜), (of fun l j => Z l (σ j)) = ((Real.sqrt p : ℝ) : 𝕜) • (Z * repeatRows 𝕜 σ p) :=
    fun Z => columns_of_sum fun j => repeatRows_sum σ hp Zᵀ j
  rw [key X, key Y] at hres' heig'
  exact C95_direct_pairs lib lib' eig eig' ws t rtol _ _ (repeatRows 𝕜 σ p) idx idx' (sqrt_nat_ne hp) (sqrt_nat_ne hp)
    (repeatRows_orthonormal σ hp hσ) ht hr hfit hchol hchol' hlib hlib' X Y res res' hres
    (by rw [RCLike.norm_ofReal, abs_of_nonneg (Real.sqrt_nonneg _)]; exact hres') heig heig' hinj hinj'

/-- **C116.** If both vectors of the pairs change by the same factor, the eigenvalues are the same, with their multiplicities. -/
theorem C116_same_eigenvalues {r r' : Nat} {a : 𝕜} (ha : a ≠ 0) {Q : Matrix (Fin m) (Fin m') 𝕜} {eigvals : Fin r → 𝕜}
    {eigvals' : Fin r' → 𝕜} {exact proj adjoint : Matrix (Fin n) (Fin r) 𝕜} {exact' proj' adjoint' : Matrix (Fin n) (Fin r') 𝕜}
    {coeffs adv : Matrix (Fin r) (Fin m) 𝕜} {coeffs' adv' : Matrix (Fin r') (Fin m') 𝕜}
    (h : SameDmd a a Q eigvals eigvals' exact proj adjoint exact' proj' adjoint' coeffs adv coeffs' adv') (z : 𝕜) :
    Nat.card {i // eigvals' i = z} = Nat.card {i // eigvals i = z} := by
  have := h.multiplicities z
  rwa [div_self ha, one_mul] at this

/-- Arrays with at most one entry. -/
theorem diagEig_isEig_le {r : Nat} (hr : r ≤ 1) (a : Matrix (Fin r) (Fin r) ℝ) : IsEig a (diagEig a) := by
  rcases Nat.le_one_iff_eq_zero_or_eq_one.mp hr with rfl | rfl
  · exact ⟨by ext i; exact i.elim0, by ext i; exact i.elim0, fun j => j.elim0, fun j => j.elim0⟩
  · exact diagEig_isEig a

/-- The hypotheses can be met: the number 1 is followed by the number 2, with a pair of zeros before. -/
example : ∃ (lib : PodLib ℝ 1 1) (lib' : PodLib ℝ 1 2) (res : DmdResult ℝ 1 1) (res' : DmdResult ℝ 1 2)
    (corr cross : Matrix (Fin 1) (Fin 1) ℝ) (corr' cross' : Matrix (Fin 2) (Fin 2) ℝ),
    dmdSnapsPairs lib diagEig !![1] ⟨1, 1, !![2]⟩ none none (some (1 / 2)) none none = .ok (res, corr, cross) ∧
    dmdSnapsPairs lib' diagEig !![0, 1] ⟨1, 2, !![0, 2]⟩ none none (some (1 / 2)) none none = .ok (res', corr', cross') ∧
    res'.decomp.r = res.decomp.r := by
  obtain ⟨lib, -, heigh, hs, -⟩ := exists_podLib (𝕜 := ℝ) 1 1
  obtain ⟨lib', -, heigh', hs', -⟩ := exists_podLib (𝕜 := ℝ) 1 2
  obtain ⟨-, ⟨res, corr, cross⟩, hres⟩ := C26_snaps_no_error lib diagEig (1 / 2) none none one_pos none .none rfl trivial
    (0 : Matrix (Fin 1) (Fin 2) ℝ) !![1] !![2]
  obtain ⟨-, ⟨res', corr', cross'⟩, hres'⟩ := C26_snaps_no_error lib' diagEig (1 / 2) none none two_pos none .none rfl trivial
    (0 : Matrix (Fin 1) (Fin 3) ℝ) !![0, 1] !![0, 2]
  have hX : (!![0, 1] : Matrix (Fin 1) (Fin 2) ℝ) = (1 : ℝ) • ((!![1] : Matrix (Fin 1) (Fin 1) ℝ) * placeRows ℝ (fun _ : Fin 1 => (1 : Fin 2))) := by
    ext i j
    fin_cases j <;> simp [placeRows, Matrix.vecMul, dotProduct]
  have hi : Function.Injective (fun _ : Fin 1 => (1 : Fin 2)) := fun _ _ _ => Subsingleton.elim _ _
  have hW : (Weights.matrix 1 (Weights.none : Weights ℝ)).IsHermitian := by
    rw [show Weights.matrix 1 (Weights.none : Weights ℝ) = 1 from rfl]; exact Matrix.isHermitian_one
  obtain ⟨h1, h2, hd, ho⟩ := dmdSnapsPairs_ok lib diagEig none none .none _ none none rfl trivial _ _ res _ _ hres
  obtain ⟨h1', h2', hd', ho'⟩ := dmdSnapsPairs_ok lib' diagEig none none .none _ none none rfl trivial _ _ res' _ _ hres'
  obtain ⟨e, w, R, L, he, hde⟩ := dmdEigendecomp_eigh hd
  obtain ⟨e', w', R', L', he', hde'⟩ := dmdEigendecomp_eigh hd'
  have hC := gram_scaled (Weights.matrix 1 (Weights.none : Weights ℝ)) !![1] (1 : ℝ) (placeRows ℝ (fun _ : Fin 1 => (1 : Fin 2)))
  rw [← hX, ← h1, ← h1'] at hC
  have hle : e.r ≤ 1 := by
    obtain ⟨-, -, hle, -⟩ := retained_spec hs (by simp) e he
    exact hle
  have hrr : e'.r = e.r := (eigh_wide (heigh _ (by rw [h1]; exact gram_hermitian hW _))
    (heigh' _ (by rw [h1']; exact gram_hermitian hW _)) (placeRows_orthonormal _ hi) hC (by norm_num) (by norm_num) hs hs'
    (by simp) e e' he (by rw [norm_one, one_pow, one_mul]; exact he')).1
  have hr1 : res.decomp.r ≤ 1 := by rw [hde]; exact hle
  have hr1' : res'.decomp.r ≤ 1 := by rw [hde']; exact hrr.le.trans hle
  have inj : ∀ {r : Nat} (f : Fin r → ℝ), r ≤ 1 → Function.Injective f := by
    intro r f hr i j _
    exact Fin.ext (by omega)
  obtain ⟨_, _, _, _, _, _, -, -, h⟩ := C116_snaps_zero_pairs lib lib' diagEig diagEig none .none (1 / 2) none none none
    (by norm_num) (by simp) hs hs' rfl trivial hW heigh heigh' !![1] !![2] !![0, 1] !![0, 2] (fun _ => 1) hi
    (by intro i; ext k; obtain rfl := Subsingleton.elim i 0; obtain rfl := Subsingleton.elim k 0; rfl)
    (by intro j hj; ext k; obtain rfl := Subsingleton.elim k 0; fin_cases j; · rfl
        · exact absurd rfl (hj 0))
    (by intro i; ext k; obtain rfl := Subsingleton.elim i 0; obtain rfl := Subsingleton.elim k 0; rfl)
    (by intro j hj; ext k; obtain rfl := Subsingleton.elim k 0; fin_cases j; · rfl
        · exact absurd rfl (hj 0))
    res res' corr cross corr' cross' hres hres' (diagEig_isEig_le hr1 _) (diagEig_isEig_le hr1' _) (inj _ hr1) (inj _ hr1')
  exact ⟨lib, lib', res, res', corr, cross, corr', cross', hres, hres', h.number⟩

end Modred
