import Verif.Props.WideDmd
import Verif.Props.DeterminedTlsHandles
import Verif.Props.TlsqrLimits

/-!
# C116 for handles and for total least squares
-/

namespace Modred

open Matrix

variable {𝕜 : Type*} [RCLike 𝕜] {n m m' : Nat}

/-- **C116.** Total least squares. The snapshot method: pairs of zero vectors at any places change nothing, and their coefficients are zero. -/
theorem C116_tls_snaps_zero_pairs (lib : PodLib 𝕜 n m) (lib' : PodLib 𝕜 n m') (eig eig' : ∀ {r : Nat}, Matrix (Fin r) (Fin r) 𝕜 → EigOut 𝕜 r)
    (weights : Option (NdArray 𝕜)) (ws : Weights 𝕜) (t : ℝ) (rtol : Option ℝ) (idx idx' : Option (List Int)) (ht : 0 ≤ t) (hr : ∀ t ∈ rtol, 0 ≤ t)
    (hs : IsArgsort lib.argsort) (hs' : IsArgsort lib'.argsort) (hws : arraysInit weights = .ok ws) (hfit : ws.Fits n)
    (hW : (ws.matrix n).IsHermitian) (hlib : ∀ C, C.IsHermitian → IsEigh C (lib.eigh C))
    (hlib' : ∀ C, C.IsHermitian → IsEigh C (lib'.eigh C))
    (X Y : Matrix (Fin n) (Fin m) 𝕜) (X' Y' : Matrix (Fin n) (Fin m') 𝕜)
    (ι : Fin m → Fin m') (hι : Function.Injective ι)
    (hX : ∀ i, X'ᵀ (ι i) = Xᵀ i) (hX0 : ∀ j, (∀ i, ι i ≠ j) → X'ᵀ j = 0)
    (hY : ∀ i, Y'ᵀ (ι i) = Yᵀ i) (hY0 : ∀ j, (∀ i, ι i ≠ j) → Y'ᵀ j = 0)
    (res : TlsResult 𝕜 n m) (res' : TlsResult 𝕜 n m')
    (c : TlsCorr 𝕜 m) (c' : TlsCorr 𝕜 m')
    (hres : tlsSnapsPairs lib eig X ⟨n, m, Y⟩ idx weights (some t) rtol none = .ok (res, c))
    (hres' : tlsSnapsPairs lib' eig' X' ⟨n, m', Y'⟩ idx' weights (some t) rtol none =
      .ok (res', c'))
    (heig : EigOfProjected eig (Xᴴ * ws.matrix n * Y) res.decomp) (heig' : EigOfProjected eig' (X'ᴴ * ws.matrix n * Y') res'.decomp)
    (hinj : Function.Injective res.decomp.d.eigvals) (hinj' : Function.Injective res'.decomp.d.eigvals) :
    res'.decomp.proj = (placeRows 𝕜 ι)ᴴ * res.decomp.proj * placeRows 𝕜 ι ∧ ∃ exact proj adjoint exact' proj' adjoint',
      (Chosen exact idx res.exactModes ∧ Chosen proj idx res.projModes ∧ Chosen adjoint idx res.adjointModes) ∧
      (Chosen exact' idx' res'.exactModes ∧ Chosen proj' idx' res'.projModes ∧ Chosen adjoint' idx' res'.adjointModes) ∧
      SameDmd 1 1 (placeRows 𝕜 ι) res.decomp.d.eigvals res'.decomp.d.eigvals exact proj adjoint
        exact' proj' adjoint' res.projCoeffs res.advProjCoeffs res'.projCoeffs res'.advProjCoeffs := by
  obtain rfl : X' = (1 : 𝕜) • (X * placeRows 𝕜 ι) := columns_of_sum fun j => by
    rw [one_smul]; exact placeRows_sum ι hι _ _ hX hX0 j
  obtain rfl : Y' = (1 : 𝕜) • (Y * placeRows 𝕜 ι) := columns_of_sum fun j => by
    rw [one_smul]; exact placeRows_sum ι hι _ _ hY hY0 j
  exact C102_snaps_pairs lib lib' eig eig' weights ws t rtol 1 1 (placeRows 𝕜 ι) idx idx' one_ne_zero rfl
    (placeRows_orthonormal ι hι) ht hr hs hs' hws hfit hW hlib hlib' X Y res res' c c' hres
    (by rw [norm_one, one_pow, one_mul]; exact hres') heig heig' hinj hinj'

/-- **C116.** Total least squares. The snapshot method: if every pair is given `p` times in any order, then eigenvalues and modes are the same. -/
theorem C116_tls_snaps_repeated_pairs (lib : PodLib 𝕜 n m) (lib' : PodLib 𝕜 n m') (eig eig' : ∀ {r : Nat}, Matrix (Fin r) (Fin r) 𝕜 → EigOut 𝕜 r)
    (weights : Option (NdArray 𝕜)) (ws : Weights 𝕜) (t : ℝ) (rtol : Option ℝ) (idx idx' : Option (List Int)) (ht : 0 ≤ t) (hr : ∀ t ∈ rtol, 0 ≤ t)
    (hs : IsArgsort lib.argsort) (hs' : IsArgsort lib'.argsort) (hws : arraysInit weights = .ok ws) (hfit : ws.Fits n)
    (hW : (ws.matrix n).IsHermitian) (hlib : ∀ C, C.IsHermitian → IsEigh C (lib.eigh C))
    (hlib' : ∀ C, C.IsHermitian → IsEigh C (lib'.eigh C))
    (X Y : Matrix (Fin n) (Fin m) 𝕜)
    (σ : Fin m' → Fin m) (p : Nat) (hp : 0 < p) (hσ : ∀ i, (Finset.univ.filter fun j => σ j = i).card = p)
    (res : TlsResult 𝕜 n m) (res' : TlsResult 𝕜 n m')
    (c : TlsCorr 𝕜 m) (c' : TlsCorr 𝕜 m')
    (hres : tlsSnapsPairs lib eig X ⟨n, m, Y⟩ idx weights (some t) rtol none = .ok (res, c))
    (hres' : tlsSnapsPairs lib' eig' (of fun l j => X l (σ j)) ⟨n, m', (of fun l j => Y l (σ j))⟩ idx' weights (some (p * t)) rtol none =
      .ok (res', c'))
    (heig : EigOfProjected eig (Xᴴ * ws.matrix n * Y) res.decomp) (heig' : 
      EigOfProjected eig' ((of fun l j => X l (σ j))ᴴ * ws.matrix n * (of fun l j => Y l (σ j))) res'.decomp)
    (hinj : Function.Injective res.decomp.d.eigvals) (hinj' : Function.Injective res'.decomp.d.eigvals) :
    res'.decomp.proj = (repeatRows 𝕜 σ p)ᴴ * res.decomp.proj * repeatRows 𝕜 σ p ∧ ∃ exact proj adjoint exact' proj' adjoint',
      (Chosen exact idx res.exactModes ∧ Chosen proj idx res.projModes ∧ Chosen adjoint idx res.adjointModes) ∧
      (Chosen exact' idx' res'.exactModes ∧ Chosen proj' idx' res'.projModes ∧ Chosen adjoint' idx' res'.adjointModes) ∧
      SameDmd ((Real.sqrt p : ℝ) : 𝕜) ((Real.sqrt p : ℝ) : 𝕜) (repeatRows 𝕜 σ p) res.decomp.d.eigvals res'.decomp.d.eigvals exact proj adjoint
        exact' proj' adjoint' res.projCoeffs res.advProjCoeffs res'.projCoeffs res'.advProjCoeffs := by
  have key : ∀ {q : Nat} (Z : Matrix (Fin q) (Fin m) 𝕜), (of fun l j => Z l (σ j)) = ((Real.sqrt p : ℝ) : 𝕜) • (Z * repeatRows 𝕜 σ p) :=
    fun Z => columns_of_sum fun j => repeatRows_sum σ hp Zᵀ j
  rw [key X, key Y] at hres' heig'
  exact C102_snaps_pairs lib lib' eig eig' weights ws t rtol _ _ (repeatRows 𝕜 σ p) idx idx' (sqrt_nat_ne hp) rfl
    (repeatRows_orthonormal σ hp hσ) ht hr hs hs' hws hfit hW hlib hlib' X Y res res' c c' hres
    (by rw [norm_sqrt_sq]; exact hres') heig heig' hinj hinj'

/-- **C116.** Total least squares. The direct method: pairs of zero vectors at any places change nothing. -/
theorem C116_tls_direct_zero_pairs (lib : PodLib 𝕜 n m) (lib' : PodLib 𝕜 n m') (eig eig' : ∀ {r : Nat}, Matrix (Fin r) (Fin r) 𝕜 → EigOut 𝕜 r)
    (svd : Matrix (Fin (n + n)) (Fin m) 𝕜 → SvdOut 𝕜 (n + n) m) (svd' : Matrix (Fin (n + n)) (Fin m') 𝕜 → SvdOut 𝕜 (n + n) m')
    (ws : DirectWeights 𝕜) (t : ℝ) (rtol : Option ℝ) (idx idx' : Option (List Int)) (ht : 0 ≤ t) (hr : ∀ t ∈ rtol, 0 ≤ t)
    (hfit : ws.Fits n)
    (hchol : ∀ p q w, ws = .d2 p q w → IsCholesky lib.cholesky (ws.matrix n))
    (hchol' : ∀ p q w, ws = .d2 p q w → IsCholesky lib'.cholesky (ws.matrix n))
    (hlib : ∀ B, IsSvd B (lib.svd B)) (hlib' : ∀ B, IsSvd B (lib'.svd B)) (hsvd : ∀ B, IsSvd B (svd B)) (hsvd' : ∀ B, IsSvd B (svd' B))
    (X Y : Matrix (Fin n) (Fin m) 𝕜) (X' Y' : Matrix (Fin n) (Fin m') 𝕜)
    (ι : Fin m → Fin m') (hι : Function.Injective ι)
    (hX : ∀ i, X'ᵀ (ι i) = Xᵀ i) (hX0 : ∀ j, (∀ i, ι i ≠ j) → X'ᵀ j = 0)
    (hY : ∀ i, Y'ᵀ (ι i) = Yᵀ i) (hY0 : ∀ j, (∀ i, ι i ≠ j) → Y'ᵀ j = 0)
    (res : TlsResult 𝕜 n m) (res' : TlsResult 𝕜 n m')
    (hres : tlsDirectPairs lib eig svd X ⟨n, m, Y⟩ idx ws (some t) rtol none = .ok res)
    (hres' : tlsDirectPairs lib' eig' svd' X' ⟨n, m', Y'⟩ idx' ws (some t) rtol none = .ok res')
    (heig : EigOfProjected eig (Xᴴ * ws.matrix n * Y) res.decomp) (heig' : EigOfProjected eig' (X'ᴴ * ws.matrix n * Y') res'.decomp)
    (hinj : Function.Injective res.decomp.d.eigvals) (hinj' : Function.Injective res'.decomp.d.eigvals) :
    res'.decomp.proj = (placeRows 𝕜 ι)ᴴ * res.decomp.proj * placeRows 𝕜 ι ∧ ∃ exact proj adjoint exact' proj' adjoint',
      (Chosen exact idx res.exactModes ∧ Chosen proj idx res.projModes ∧ Chosen adjoint idx res.adjointModes) ∧
      (Chosen exact' idx' res'.exactModes ∧ Chosen proj' idx' res'.projModes ∧ Chosen adjoint' idx' res'.adjointModes) ∧
      SameDmd 1 1 (placeRows 𝕜 ι) res.decomp.d.eigvals res'.decomp.d.eigvals exact proj adjoint
        exact' proj' adjoint' res.projCoeffs res.advProjCoeffs res'.projCoeffs res'.advProjCoeffs := by
  obtain rfl : X' = (1 : 𝕜) • (X * placeRows 𝕜 ι) := columns_of_sum fun j => by
    rw [one_smul]; exact placeRows_sum ι hι _ _ hX hX0 j
  obtain rfl : Y' = (1 : 𝕜) • (Y * placeRows 𝕜 ι) := columns_of_sum fun j => by
    rw [one_smul]; exact placeRows_sum ι hι _ _ hY hY0 j
  exact C102_direct_pairs lib lib' eig eig' svd svd' ws t rtol 1 1 (placeRows 𝕜 ι) idx idx' one_ne_zero rfl
    (placeRows_orthonormal ι hι) ht hr hfit hchol hchol' hlib hlib' hsvd hsvd' X Y res res' hres
    (by rw [norm_one, one_mul]; exact hres') heig heig' hinj hinj'

/-- **C116.** Total least squares. The direct method: if every pair is given `p` times in any order, then eigenvalues and modes are the same. -/
theorem C116_tls_direct_repeated_pairs (lib : PodLib 𝕜 n m) (lib' : PodLib 𝕜 n m') (eig eig' : ∀ {r : Nat}, Matrix (Fin r) (Fin r) 𝕜 → EigOut 𝕜 r)
    (svd : Matrix (Fin (n + n)) (Fin m) 𝕜 → SvdOut 𝕜 (n + n) m) (svd' : Matrix (Fin (n + n)) (Fin m') 𝕜 → SvdOut 𝕜 (n + n) m')
    (ws : DirectWeights 𝕜) (t : ℝ) (rtol : Option ℝ) (idx idx' : Option (List Int)) (ht : 0 ≤ t) (hr : ∀ t ∈ rtol, 0 ≤ t)
    (hfit : ws.Fits n)
    (hchol : ∀ p q w, ws = .d2 p q w → IsCholesky lib.cholesky (ws.matrix n))
    (hchol' : ∀ p q w, ws = .d2 p q w → IsCholesky lib'.cholesky (ws.matrix n))
    (hlib : ∀ B, IsSvd B (lib.svd B)) (hlib' : ∀ B, IsSvd B (lib'.svd B)) (hsvd : ∀ B, IsSvd B (svd B)) (hsvd' : ∀ B, IsSvd B (svd' B))
    (X Y : Matrix (Fin n) (Fin m) 𝕜)
    (σ : Fin m' → Fin m) (p : Nat) (hp : 0 < p) (hσ : ∀ i, (Finset.univ.filter fun j => σ j = i).card = p)
    (res : TlsResult 𝕜 n m) (res' : TlsResult 𝕜 n m')
    (hres : tlsDirectPairs lib eig svd X ⟨n, m, Y⟩ idx ws (some t) rtol none = .ok res)
    (hres' : tlsDirectPairs lib' eig' svd' (of fun l j => X l (σ j)) ⟨n, m', (of fun l j => Y l (σ j))⟩ idx' ws (some (Real.sqrt p * t)) rtol none = .ok res')
    (heig : EigOfProjected eig (Xᴴ * ws.matrix n * Y) res.decomp) (heig' : 
      EigOfProjected eig' ((of fun l j => X l (σ j))ᴴ * ws.matrix n * (of fun l j => Y l (σ j))) res'.decomp)
    (hinj : Function.Injective res.decomp.d.eigvals) (hinj' : Function.Injective res'.decomp.d.eigvals) :
    res'.decomp.proj = (repeatRows 𝕜 σ p)ᴴ * res.decomp.proj * repeatRows 𝕜 σ p ∧ ∃ exact proj adjoint exact' proj' adjoint',
      (Chosen exact idx res.exactModes ∧ Chosen proj idx res.projModes ∧ Chosen adjoint idx res.adjointModes) ∧
      (Chosen exact' idx' res'.exactModes ∧ Chosen proj' idx' res'.projModes ∧ Chosen adjoint' idx' res'.adjointModes) ∧
      SameDmd ((Real.sqrt p : ℝ) : 𝕜) ((Real.sqrt p : ℝ) : 𝕜) (repeatRows 𝕜 σ p) res.decomp.d.eigvals res'.decomp.d.eigvals exact proj adjoint
        exact' proj' adjoint' res.projCoeffs res.advProjCoeffs res'.projCoeffs res'.advProjCoeffs := by
  have key : ∀ {q : Nat} (Z : Matrix (Fin q) (Fin m) 𝕜), (of fun l j => Z l (σ j)) = ((Real.sqrt p : ℝ) : 𝕜) • (Z * repeatRows 𝕜 σ p) :=
    fun Z => columns_of_sum fun j => repeatRows_sum σ hp Zᵀ j
  rw [key X, key Y] at hres' heig'
  exact C102_direct_pairs lib lib' eig eig' svd svd' ws t rtol _ _ (repeatRows 𝕜 σ p) idx idx' (sqrt_nat_ne hp) rfl
    (repeatRows_orthonormal σ hp hσ) ht hr hfit hchol hchol' hlib hlib' hsvd hsvd' X Y res res' hres
    (by rw [RCLike.norm_ofReal, abs_of_nonneg (Real.sqrt_nonneg _)]; exact hres') heig heig' hinj hinj'

section Handles

variable {E : Type*} [AddCommGroup E] [Module 𝕜 E]

/-- **C116.** Handles: pairs of zero vectors are added at any places. -/
theorem C116_handles_zero_pairs (lib lib' : DmdLib 𝕜) (ip : E →ₗ⋆[𝕜] E →ₗ[𝕜] 𝕜) (t : ℝ) (rtol rtol' : Option ℝ) (g h g' h' : DmdHandles 𝕜 E)
    (hlib : lib.Lawful) (hlib' : lib'.Lawful) (hsym : ∀ x y, ip y x = star (ip x y)) (ht : 0 ≤ t)
    (vecs adv vecs' adv' : List E) (hlen : vecs.length = adv.length) (hlen' : vecs'.length = adv'.length)
    (ι : Fin vecs.length → Fin vecs'.length) (hι : Function.Injective ι)
    (hvecs : ∀ i, vecs'.get (ι i) = vecs.get i) (hvecs0 : ∀ j, (∀ i, ι i ≠ j) → vecs'.get j = 0)
    (hadv : ∀ i, adv'.get (Fin.cast hlen' (ι i)) = adv.get (Fin.cast hlen i))
    (hadv0 : ∀ j, (∀ i, ι i ≠ j) → adv'.get (Fin.cast hlen' j) = 0)
    (hrun : g.computeDecomp lib (fun x y => ip x y) vecs (some adv) (some t) rtol none = (.ok (), g'))
    (hrun' : h.computeDecomp lib' (fun x y => ip x y) vecs' (some adv') (some (t)) rtol' none = (.ok (), h'))
    (d : DmdDecomp 𝕜 vecs.length) (hd : g'.decomp = some ⟨vecs.length, d⟩)
    (d' : DmdDecomp 𝕜 vecs'.length) (hd' : h'.decomp = some ⟨vecs'.length, d'⟩)
    (heig : EigOfReducedVecs ip lib.eig vecs.get (fun j => adv.get (Fin.cast hlen j)) d)
    (heig' : EigOfReducedVecs ip lib'.eig vecs'.get (fun j => adv'.get (Fin.cast hlen' j)) d')
    (hinj : Function.Injective d.eigvals) (hinj' : Function.Injective d'.eigvals) :
    ∃ (exact proj adjoint : Fin d.r → E) (exact' proj' adjoint' : Fin d'.r → E) (c e : Matrix (Fin d.r) (Fin vecs.length) 𝕜)
      (c' e' : Matrix (Fin d'.r) (Fin vecs'.length) 𝕜),
      ((∀ l num out k, g'.computeExactModes l num none = (.ok out, k) → ChosenVecs exact l out) ∧
        (∀ l num out k, g'.computeProjModes l num none = (.ok out, k) → ChosenVecs proj l out) ∧
        (∀ l num out k, g'.computeAdjointModes l num none = (.ok out, k) → ChosenVecs adjoint l out) ∧
        g'.computeProjCoeffs = .ok (⟨d.r, vecs.length, c⟩, ⟨d.r, vecs.length, e⟩)) ∧
      ((∀ l num out k, h'.computeExactModes l num none = (.ok out, k) → ChosenVecs exact' l out) ∧
        (∀ l num out k, h'.computeProjModes l num none = (.ok out, k) → ChosenVecs proj' l out) ∧
        (∀ l num out k, h'.computeAdjointModes l num none = (.ok out, k) → ChosenVecs adjoint' l out) ∧
        h'.computeProjCoeffs = .ok (⟨d'.r, vecs'.length, c'⟩, ⟨d'.r, vecs'.length, e'⟩)) ∧
      SameDmdOf ip 1 1 (placeRows 𝕜 ι) d.eigvals d'.eigvals exact proj adjoint exact' proj' adjoint' c e c' e' :=
  C95_handles_pairs lib lib' ip t rtol rtol' 1 1 g h g' h' hlib hlib' hsym one_ne_zero one_ne_zero ht vecs adv vecs' adv' hlen
    hlen' rfl (placeRows 𝕜 ι) (placeRows_orthonormal ι hι)
    (fun j' j hj => by obtain rfl := Fin.ext hj; rw [one_smul]; exact placeRows_sum ι hι _ _ hvecs hvecs0 _)
    (fun j' j hj => by
      obtain rfl := Fin.ext hj
      rw [one_smul]
      exact placeRows_sum ι hι (fun i => adv.get (Fin.cast hlen i)) (fun j => adv'.get (Fin.cast hlen' j)) hadv hadv0 _)
    hrun (by rw [norm_one, one_pow, one_mul]; exact hrun') d hd d' hd' heig heig' hinj hinj'

/-- **C116.** Handles: every pair is given `p` times in any order. -/
theorem C116_handles_repeated_pairs (lib lib' : DmdLib 𝕜) (ip : E →ₗ⋆[𝕜] E →ₗ[𝕜] 𝕜) (t : ℝ) (rtol rtol' : Option ℝ) (g h g' h' : DmdHandles 𝕜 E)
    (hlib : lib.Lawful) (hlib' : lib'.Lawful) (hsym : ∀ x y, ip y x = star (ip x y)) (ht : 0 ≤ t)
    (vecs adv vecs' adv' : List E) (hlen : vecs.length = adv.length) (hlen' : vecs'.length = adv'.length)
    (σ : Fin vecs'.length → Fin vecs.length) (p : Nat) (hp : 0 < p) (hσ : ∀ i, (Finset.univ.filter fun j => σ j = i).card = p)
    (hvecs : ∀ j, vecs'.get j = vecs.get (σ j))
    (hadv : ∀ j, adv'.get (Fin.cast hlen' j) = adv.get (Fin.cast hlen (σ j)))
    (hrun : g.computeDecomp lib (fun x y => ip x y) vecs (some adv) (some t) rtol none = (.ok (), g'))
    (hrun' : h.computeDecomp lib' (fun x y => ip x y) vecs' (some adv') (some (p * t)) rtol' none = (.ok (), h'))
    (d : DmdDecomp 𝕜 vecs.length) (hd : g'.decomp = some ⟨vecs.length, d⟩)
    (d' : DmdDecomp 𝕜 vecs'.length) (hd' : h'.decomp = some ⟨vecs'.length, d'⟩)
    (heig : EigOfReducedVecs ip lib.eig vecs.get (fun j => adv.get (Fin.cast hlen j)) d)
    (heig' : EigOfReducedVecs ip lib'.eig vecs'.get (fun j => adv'.get (Fin.cast hlen' j)) d')
    (hinj : Function.Injective d.eigvals) (hinj' : Function.Injective d'.eigvals) :
    ∃ (exact proj adjoint : Fin d.r → E) (exact' proj' adjoint' : Fin d'.r → E) (c e : Matrix (Fin d.r) (Fin vecs.length) 𝕜)
      (c' e' : Matrix (Fin d'.r) (Fin vecs'.length) 𝕜),
      ((∀ l num out k, g'.computeExactModes l num none = (.ok out, k) → ChosenVecs exact l out) ∧
        (∀ l num out k, g'.computeProjModes l num none = (.ok out, k) → ChosenVecs proj l out) ∧
        (∀ l num out k, g'.computeAdjointModes l num none = (.ok out, k) → ChosenVecs adjoint l out) ∧
        g'.computeProjCoeffs = .ok (⟨d.r, vecs.length, c⟩, ⟨d.r, vecs.length, e⟩)) ∧
      ((∀ l num out k, h'.computeExactModes l num none = (.ok out, k) → ChosenVecs exact' l out) ∧
        (∀ l num out k, h'.computeProjModes l num none = (.ok out, k) → ChosenVecs proj' l out) ∧
        (∀ l num out k, h'.computeAdjointModes l num none = (.ok out, k) → ChosenVecs adjoint' l out) ∧
        h'.computeProjCoeffs = .ok (⟨d'.r, vecs'.length, c'⟩, ⟨d'.r, vecs'.length, e'⟩)) ∧
      SameDmdOf ip ((Real.sqrt p : ℝ) : 𝕜) ((Real.sqrt p : ℝ) : 𝕜) (repeatRows 𝕜 σ p) d.eigvals d'.eigvals exact proj adjoint exact' proj' adjoint' c e c' e' :=
  C95_handles_pairs lib lib' ip t rtol rtol' _ _ g h g' h' hlib hlib' hsym (sqrt_nat_ne hp) (sqrt_nat_ne hp) ht vecs adv vecs' adv' hlen
    hlen' rfl (repeatRows 𝕜 σ p) (repeatRows_orthonormal σ hp hσ)
    (fun j' j hj => by obtain rfl := Fin.ext hj; rw [hvecs]; exact repeatRows_sum σ hp vecs.get _)
    (fun j' j hj => by obtain rfl := Fin.ext hj; rw [hadv]; exact repeatRows_sum σ hp (fun i => adv.get (Fin.cast hlen i)) _)
    hrun (by rw [norm_sqrt_sq]; exact hrun') d hd d' hd' heig heig' hinj hinj'

/-- **C116.** Total least squares for handles: pairs of zero vectors are added at any places. -/
theorem C116_tls_handles_zero_pairs (lib lib' : DmdLib 𝕜) (ip : E →ₗ⋆[𝕜] E →ₗ[𝕜] 𝕜) (t : ℝ) (rtol rtol' : Option ℝ) (g h g' h' : TlsHandles 𝕜 E)
    (hlib : lib.Lawful) (hlib' : lib'.Lawful) (hsym : ∀ x y, ip y x = star (ip x y)) (ht : 0 ≤ t)
    (vecs adv vecs' adv' : List E) (hlen : vecs.length = adv.length) (hlen' : vecs'.length = adv'.length)
    (ι : Fin vecs.length → Fin vecs'.length) (hι : Function.Injective ι)
    (hvecs : ∀ i, vecs'.get (ι i) = vecs.get i) (hvecs0 : ∀ j, (∀ i, ι i ≠ j) → vecs'.get j = 0)
    (hadv : ∀ i, adv'.get (Fin.cast hlen' (ι i)) = adv.get (Fin.cast hlen i))
    (hadv0 : ∀ j, (∀ i, ι i ≠ j) → adv'.get (Fin.cast hlen' j) = 0)
    (hrun : g.computeDecomp lib (fun x y => ip x y) vecs (some adv) (some t) rtol none = (.ok (), g'))
    (hrun' : h.computeDecomp lib' (fun x y => ip x y) vecs' (some adv') (some (t)) rtol' none = (.ok (), h'))
    (d : TlsDecomp 𝕜 vecs.length) (hd : g'.decomp = some ⟨vecs.length, d⟩)
    (d' : TlsDecomp 𝕜 vecs'.length) (hd' : h'.decomp = some ⟨vecs'.length, d'⟩)
    (heig : EigOfProjected lib.eig (gram ip vecs.get (fun j => adv.get (Fin.cast hlen j))) d)
    (heig' : EigOfProjected lib'.eig (gram ip vecs'.get (fun j => adv'.get (Fin.cast hlen' j))) d')
    (hinj : Function.Injective d.d.eigvals) (hinj' : Function.Injective d'.d.eigvals) :
    (∀ (i' j' i j : Fin vecs'.length), i'.val = i.val → j'.val = j.val → d'.proj i' j' = ((placeRows 𝕜 ι)ᴴ * d.proj * placeRows 𝕜 ι) i j) ∧
    ∃ (exact proj adjoint : Fin d.d.r → E) (exact' proj' adjoint' : Fin d'.d.r → E) (c e : Matrix (Fin d.d.r) (Fin vecs.length) 𝕜)
      (c' e' : Matrix (Fin d'.d.r) (Fin vecs'.length) 𝕜),
      ((∀ l num out k, g'.computeExactModes l num none = (.ok out, k) → ChosenVecs exact l out) ∧
        (∀ l num out k, g'.computeProjModes l num none = (.ok out, k) → ChosenVecs proj l out) ∧
        (∀ l num out k, g'.computeAdjointModes l num none = (.ok out, k) → ChosenVecs adjoint l out) ∧
        g'.computeProjCoeffs = .ok (⟨d.d.r, vecs.length, c⟩, ⟨d.d.r, vecs.length, e⟩)) ∧
      ((∀ l num out k, h'.computeExactModes l num none = (.ok out, k) → ChosenVecs exact' l out) ∧
        (∀ l num out k, h'.computeProjModes l num none = (.ok out, k) → ChosenVecs proj' l out) ∧
        (∀ l num out k, h'.computeAdjointModes l num none = (.ok out, k) → ChosenVecs adjoint' l out) ∧
        h'.computeProjCoeffs = .ok (⟨d'.d.r, vecs'.length, c'⟩, ⟨d'.d.r, vecs'.length, e'⟩)) ∧
      SameDmdOf ip 1 1 (placeRows 𝕜 ι) d.d.eigvals d'.d.eigvals exact proj adjoint exact' proj' adjoint' c e c' e' :=
  C102_handles_pairs lib lib' ip t rtol rtol' 1 1 g h g' h' hlib hlib' hsym one_ne_zero rfl ht vecs adv vecs' adv' hlen
    hlen' rfl (placeRows 𝕜 ι) (placeRows_orthonormal ι hι)
    (fun j' j hj => by obtain rfl := Fin.ext hj; rw [one_smul]; exact placeRows_sum ι hι _ _ hvecs hvecs0 _)
    (fun j' j hj => by
      obtain rfl := Fin.ext hj
      rw [one_smul]
      exact placeRows_sum ι hι (fun i => adv.get (Fin.cast hlen i)) (fun j => adv'.get (Fin.cast hlen' j)) hadv hadv0 _)
    hrun (by rw [norm_one, one_pow, one_mul]; exact hrun') d hd d' hd' heig heig' hinj hinj'

/-- **C116.** Total least squares for handles: every pair is given `p` times in any order. -/
theorem C116_tls_handles_repeated_pairs (lib lib' : DmdLib 𝕜) (ip : E →ₗ⋆[𝕜] E →ₗ[𝕜] 𝕜) (t : ℝ) (rtol rtol' : Option ℝ) (g h g' h' : TlsHandles 𝕜 E)
    (hlib : lib.Lawful) (hlib' : lib'.Lawful) (hsym : ∀ x y, ip y x = star (ip x y)) (ht : 0 ≤ t)
    (vecs adv vecs' adv' : List E) (hlen : vecs.length = adv.length) (hlen' : vecs'.length = adv'.length)
    (σ : Fin vecs'.length → Fin vecs.length) (p : Nat) (hp : 0 < p) (hσ : ∀ i, (Finset.univ.filter fun j => σ j = i).card = p)
    (hvecs : ∀ j, vecs'.get j = vecs.get (σ j))
    (hadv : ∀ j, adv'.get (Fin.cast hlen' j) = adv.get (Fin.cast hlen (σ j)))
    (hrun : g.computeDecomp lib (fun x y => ip x y) vecs (some adv) (some t) rtol none = (.ok (), g'))
    (hrun' : h.computeDecomp lib' (fun x y => ip x y) vecs' (some adv') (some (p * t)) rtol' none = (.ok (), h'))
    (d : TlsDecomp 𝕜 vecs.length) (hd : g'.decomp = some ⟨vecs.length, d⟩)
    (d' : TlsDecomp 𝕜 vecs'.length) (hd' : h'.decomp = some ⟨vecs'.length, d'⟩)
    (heig : EigOfProjected lib.eig (gram ip vecs.get (fun j => adv.get (Fin.cast hlen j))) d)
    (heig' : EigOfProjected lib'.eig (gram ip vecs'.get (fun j => adv'.get (Fin.cast hlen' j))) d')
    (hinj : Function.Injective d.d.eigvals) (hinj' : Function.Injective d'.d.eigvals) :
    (∀ (i' j' i j : Fin vecs'.length), i'.val = i.val → j'.val = j.val → d'.proj i' j' = ((repeatRows 𝕜 σ p)ᴴ * d.proj * repeatRows 𝕜 σ p) i j) ∧
    ∃ (exact proj adjoint : Fin d.d.r → E) (exact' proj' adjoint' : Fin d'.d.r → E) (c e : Matrix (Fin d.d.r) (Fin vecs.length) 𝕜)
      (c' e' : Matrix (Fin d'.d.r) (Fin vecs'.length) 𝕜),
      ((∀ l num out k, g'.computeExactModes l num none = (.ok out, k) → ChosenVecs exact l out) ∧
        (∀ l num out k, g'.computeProjModes l num none = (.ok out, k) → ChosenVecs proj l out) ∧
        (∀ l num out k, g'.computeAdjointModes l num none = (.ok out, k) → ChosenVecs adjoint l out) ∧
        g'.computeProjCoeffs = .ok (⟨d.d.r, vecs.length, c⟩, ⟨d.d.r, vecs.length, e⟩)) ∧
      ((∀ l num out k, h'.computeExactModes l num none = (.ok out, k) → ChosenVecs exact' l out) ∧
        (∀ l num out k, h'.computeProjModes l num none = (.ok out, k) → ChosenVecs proj' l out) ∧
        (∀ l num out k, h'.computeAdjointModes l num none = (.ok out, k) → ChosenVecs adjoint' l out) ∧
        h'.computeProjCoeffs = .ok (⟨d'.d.r, vecs'.length, c'⟩, ⟨d'.d.r, vecs'.length, e'⟩)) ∧
      SameDmdOf ip ((Real.sqrt p : ℝ) : 𝕜) ((Real.sqrt p : ℝ) : 𝕜) (repeatRows 𝕜 σ p) d.d.eigvals d'.d.eigvals exact proj adjoint exact' proj' adjoint' c e c' e' :=
  C102_handles_pairs lib lib' ip t rtol rtol' _ _ g h g' h' hlib hlib' hsym (sqrt_nat_ne hp) rfl ht vecs adv vecs' adv' hlen
    hlen' rfl (repeatRows 𝕜 σ p) (repeatRows_orthonormal σ hp hσ)
    (fun j' j hj => by obtain rfl := Fin.ext hj; rw [hvecs]; exact repeatRows_sum σ hp vecs.get _)
    (fun j' j hj => by obtain rfl := Fin.ext hj; rw [hadv]; exact repeatRows_sum σ hp (fun i => adv.get (Fin.cast hlen i)) _)
    hrun (by rw [norm_sqrt_sq]; exact hrun') d hd d' hd' heig heig' hinj hinj'

end Handles

/-- **C116.** Total least squares: as many eigenvalues are retained, whatever the library says about the reduced map. -/
theorem C116_tls_number {lib : PodLib 𝕜 n m} {lib' : PodLib 𝕜 n m'} {eig eig' : ∀ {r : Nat}, Matrix (Fin r) (Fin r) 𝕜 → EigOut 𝕜 r}
    {W : Matrix (Fin n) (Fin n) 𝕜} {t : ℝ} {rtol : Option ℝ} {a b : 𝕜} {Q : Matrix (Fin m) (Fin m') 𝕜} (ha : a ≠ 0) (hab : ‖b‖ = ‖a‖)
    (hQ : Q * Qᴴ = 1) (ht : 0 ≤ t) (hr : ∀ t ∈ rtol, 0 ≤ t) (hs : IsArgsort lib.argsort) (hs' : IsArgsort lib'.argsort)
    (hW : W.IsHermitian) (hlib : ∀ C, C.IsHermitian → IsEigh C (lib.eigh C)) (hlib' : ∀ C, C.IsHermitian → IsEigh C (lib'.eigh C))
    {X Y : Matrix (Fin n) (Fin m) 𝕜} {X' Y' : Matrix (Fin n) (Fin m') 𝕜} (hX : X' = a • (X * Q)) (hY : Y' = b • (Y * Q))
    {d : TlsDecomp 𝕜 m} {d' : TlsDecomp 𝕜 m'}
    (hd : tlsEigendecomp lib.eigh lib.argsort eig (Xᴴ * W * X) (Yᴴ * W * Y) (Xᴴ * W * Y) (some t) rtol none none = .ok d)
    (hd' : tlsEigendecomp lib'.eigh lib'.argsort eig' (X'ᴴ * W * X') (Y'ᴴ * W * Y') (X'ᴴ * W * Y') (some (‖a‖ ^ 2 * t)) rtol none none =
      .ok d') : d'.d.r = d.d.r := by
  subst hX hY
  have na : 0 < ‖a‖ ^ 2 := pow_pos (norm_pos_iff.mpr ha) 2
  obtain ⟨⟨s, hs1, hs2⟩, e, w, R, L, he1, he2⟩ := tlsEigendecomp_eigh hd
  obtain ⟨⟨s', hs1', hs2'⟩, e', w', R', L', he1', he2'⟩ := tlsEigendecomp_eigh hd'
  have hP : d'.proj = Qᴴ * d.proj * Q := by
    have := (eigh_wide (s := ‖a‖ ^ 2) (Q := Q) (hlib _ (IsHermitian.add (gram_hermitian hW X) (gram_hermitian hW Y)))
      (hlib' _ (IsHermitian.add (gram_hermitian hW _) (gram_hermitian hW _))) hQ
      (by rw [gram_scaled, gram_scaled, hab, ← smul_add, ← Matrix.add_mul, ← Matrix.mul_add]) na ht hs hs' hr s s' hs1 hs1').2.2
      (fun _ => 1) (fun _ => 1) fun _ _ => rfl
    simp only [diagonal_one, Matrix.mul_one] at this
    rw [hs2', this, hs2]
  rw [he2, he2']
  rw [← gram_proj] at he1 he1'
  rw [hP, mixed_proj hQ] at he1'
  exact (eigh_wide (hlib _ (gram_hermitian hW _)) (hlib' _ (gram_hermitian hW _)) hQ (gram_scaled _ _ _ _) na ht
    hs hs' (by simp) e e' he1 he1').1

/-- The hypotheses can be met: the number 1 is followed by the number 2, with a pair of zeros before. -/
example : ∃ (lib : PodLib ℝ 1 1) (lib' : PodLib ℝ 1 2) (res : TlsResult ℝ 1 1) (res' : TlsResult ℝ 1 2) (c : TlsCorr ℝ 1)
    (c' : TlsCorr ℝ 2),
    tlsSnapsPairs lib diagEig !![1] ⟨1, 1, !![2]⟩ none none (some (1 / 2)) none none = .ok (res, c) ∧
    tlsSnapsPairs lib' diagEig !![0, 1] ⟨1, 2, !![0, 2]⟩ none none (some (1 / 2)) none none = .ok (res', c') ∧
    res'.decomp.proj = (placeRows ℝ fun _ : Fin 1 => (1 : Fin 2))ᴴ * res.decomp.proj * placeRows ℝ fun _ : Fin 1 => (1 : Fin 2) := by
  obtain ⟨lib, -, heigh, hs, -⟩ := exists_podLib (𝕜 := ℝ) 1 1
  obtain ⟨lib', -, heigh', hs', -⟩ := exists_podLib (𝕜 := ℝ) 1 2
  obtain ⟨-, ⟨res, c⟩, hres⟩ := C31_snaps_no_error lib diagEig (1 / 2) none none one_pos none .none rfl trivial
    (0 : Matrix (Fin 1) (Fin 2) ℝ) !![1] !![2]
  obtain ⟨-, ⟨res', c'⟩, hres'⟩ := C31_snaps_no_error lib' diagEig (1 / 2) none none two_pos none .none rfl trivial
    (0 : Matrix (Fin 1) (Fin 3) ℝ) !![0, 1] !![0, 2]
  have hX : ∀ x : ℝ, (!![0, x] : Matrix (Fin 1) (Fin 2) ℝ) =
      (1 : ℝ) • ((!![x] : Matrix (Fin 1) (Fin 1) ℝ) * placeRows ℝ (fun _ : Fin 1 => (1 : Fin 2))) := by
    intro x
    ext i j
    fin_cases j <;> simp [placeRows, Matrix.vecMul, dotProduct]
  have hi : Function.Injective (fun _ : Fin 1 => (1 : Fin 2)) := fun _ _ _ => Subsingleton.elim _ _
  have hW : (Weights.matrix 1 (Weights.none : Weights ℝ)).IsHermitian := by
    rw [show Weights.matrix 1 (Weights.none : Weights ℝ) = 1 from rfl]; exact Matrix.isHermitian_one
  obtain ⟨rfl, hd, ho⟩ := tlsSnapsPairs_ok lib diagEig none none .none _ none none rfl trivial _ _ res _ hres
  obtain ⟨rfl, hd', ho'⟩ := tlsSnapsPairs_ok lib' diagEig none none .none _ none none rfl trivial _ _ res' _ hres'
  have hrr : res'.decomp.d.r = res.decomp.d.r := C116_tls_number (a := (1 : ℝ)) (b := 1) one_ne_zero rfl (placeRows_orthonormal _ hi)
    (by norm_num) (by simp) hs hs' hW heigh heigh' (hX 1) (hX 2) hd (by rw [norm_one, one_pow, one_mul]; exact hd')
  have hr1 : res.decomp.d.r ≤ 1 := by
    obtain ⟨-, e, w, R, L, he1, he2⟩ := tlsEigendecomp_eigh hd
    obtain ⟨-, -, hle, -⟩ := retained_spec hs (by simp) e he1
    rw [he2]
    exact hle
  have inj : ∀ {r : Nat} (f : Fin r → ℝ), r ≤ 1 → Function.Injective f := by
    intro r f hr i j _
    exact Fin.ext (by omega)
  obtain ⟨h, -⟩ := C116_tls_snaps_zero_pairs lib lib' diagEig diagEig none .none (1 / 2) none none none
    (by norm_num) (by simp) hs hs' rfl trivial hW heigh heigh' !![1] !![2] !![0, 1] !![0, 2] (fun _ => 1) hi
    (by intro i; ext k; obtain rfl := Subsingleton.elim i 0; obtain rfl := Subsingleton.elim k 0; rfl)
    (by intro j hj; ext k; obtain rfl := Subsingleton.elim k 0; fin_cases j; · rfl
        · exact absurd rfl (hj 0))
    (by intro i; ext k; obtain rfl := Subsingleton.elim i 0; obtain rfl := Subsingleton.elim k 0; rfl)
    (by intro j hj; ext k; obtain rfl := Subsingleton.elim k 0; fin_cases j; · rfl
        · exact absurd rfl (hj 0))
    res res' _ _ hres hres' (diagEig_isEig_le hr1 _) (diagEig_isEig_le (hrr.le.trans hr1) _) (inj _ hr1) (inj _ (hrr.le.trans hr1))
  exact ⟨lib, lib', res, res', _, _, hres, hres', h⟩

end Modred
