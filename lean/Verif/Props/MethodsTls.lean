import Verif.Props.Methods
import Verif.Props.TlsqrLimits

/-!
# Total-least-squares dynamic mode decomposition: different methods give the same results (C101)
-/

namespace Modred

open Matrix
open scoped ComplexOrder

variable {𝕜 : Type*} [RCLike 𝕜] {n m : Nat}

/-- The results of the snapshot method in terms of the projected data. -/
theorem TlsOutcome.projected {W : Matrix (Fin n) (Fin n) 𝕜} {X Y : Matrix (Fin n) (Fin m) 𝕜} {idx : Option (List Int)}
    {res : TlsResult 𝕜 n m} (h : TlsOutcome (Xᴴ * W * Y) X Y idx res)
    (hc : TlsCore (Xᴴ * W * X) (Yᴴ * W * Y) (Xᴴ * W * Y) res.decomp) :
    DmdCore ((X * res.decomp.proj)ᴴ * W * (X * res.decomp.proj)) ((X * res.decomp.proj)ᴴ * W * (Y * res.decomp.proj)) res.decomp.d ∧
    Chosen (Y * res.decomp.proj * res.decomp.d.buildExact) idx res.exactModes ∧
    Chosen (X * res.decomp.proj * res.decomp.d.buildProj) idx res.projModes ∧
    Chosen (X * res.decomp.proj * res.decomp.d.buildAdjoint) idx res.adjointModes ∧
    res.advProjCoeffs = res.decomp.d.Lᴴ * (diagPow (𝕜 := 𝕜) res.decomp.d.w (-0.5) *
      (res.decomp.d.Vᴴ * ((X * res.decomp.proj)ᴴ * W * (Y * res.decomp.proj)))) := by
  have hcore := hc.core
  rw [← gram_proj, ← gram_proj] at hcore
  obtain ⟨r1, r2, r3⟩ := hc.range
  have h1 := h.exact
  have h2 := h.proj
  have h3 := h.adjoint
  rw [hc.buildExact, ← r2, ← Matrix.mul_assoc] at h1
  rw [hc.buildProj, ← r1, ← Matrix.mul_assoc] at h2
  rw [hc.buildAdjoint, ← r3, ← Matrix.mul_assoc] at h3
  exact ⟨hcore, h1, h2, h3, by rw [h.advProjCoeffs, ← gram_proj]⟩

/-- The steps of the snapshot method without a maximal number. -/
theorem tlsEigendecomp_eigh {eigh : Matrix (Fin m) (Fin m) 𝕜 → EighOut 𝕜 m} {argsort : (Fin m → ℝ) → Equiv.Perm (Fin m)}
    {eig : ∀ {r : Nat}, Matrix (Fin r) (Fin r) 𝕜 → EigOut 𝕜 r} {C C' K : Matrix (Fin m) (Fin m) 𝕜} {atol rtol rtol' : Option ℝ}
    {t : TlsDecomp 𝕜 m} (ht : tlsEigendecomp eigh argsort eig C C' K atol rtol rtol' none = .ok t) :
    (∃ s : Eigh 𝕜 m, utilEigh eigh argsort (C + C') atol rtol true = .ok s ∧ t.proj = s.V * s.Vᴴ) ∧
    ∃ (e : Eigh 𝕜 m) (w : Fin e.r → 𝕜) (R L : Matrix (Fin e.r) (Fin e.r) 𝕜),
      utilEigh eigh argsort (t.proj * C * t.proj) atol rtol' true = .ok e ∧ t.d = ⟨e.r, e.w, e.V, w, R, L⟩ := by
  obtain ⟨⟨s, hs1, hs2⟩, ⟨p, hp1, hp2⟩, -⟩ := tlsEigendecomp_ok _ _ _ _ _ _ _ _ _ _ _ ht
  obtain ⟨q, sumW, sumV, r, w, V, lam, R, L⟩ := t
  change _ = s at hs2
  change _ = p at hp2
  subst hs2 hp2
  exact ⟨⟨_, hs1, rfl⟩, _, lam, R, L, hp1, rfl⟩

section Tls

variable (lib lib' : PodLib 𝕜 n m) (eig eig' : ∀ {r : Nat}, Matrix (Fin r) (Fin r) 𝕜 → EigOut 𝕜 r)
  (svd : Matrix (Fin (n + n)) (Fin m) 𝕜 → SvdOut 𝕜 (n + n) m)
  (weights : Option (NdArray 𝕜)) (ws : Weights 𝕜) (dws : DirectWeights 𝕜) (t : ℝ) (idx idx' : Option (List Int))

/-- The steps after the correlation arrays and the square root of the weights. -/
theorem tls_methods (ht : 0 ≤ t) (hs : IsArgsort lib.argsort) (hdfit : dws.Fits n)
    (hchol : ∀ p q w, dws = .d2 p q w → IsCholesky lib'.cholesky (dws.matrix n))
    (hlib : ∀ C, C.IsHermitian → IsEigh C (lib.eigh C)) (hlib' : ∀ B, IsSvd B (lib'.svd B)) (hsvd : ∀ B, IsSvd B (svd B))
    (X Y : Matrix (Fin n) (Fin m) 𝕜) (res res' : TlsResult 𝕜 n m) (so : Option (Matrix (Fin n) (Fin n) 𝕜))
    (hd : tlsEigendecomp lib.eigh lib.argsort eig (Xᴴ * dws.matrix n * X) (Yᴴ * dws.matrix n * Y) (Xᴴ * dws.matrix n * Y)
      (some (t ^ 2)) none none none = .ok res.decomp)
    (ho : TlsOutcome (Xᴴ * dws.matrix n * Y) X Y idx res) (hso : directSqrtWeights lib'.cholesky dws = .ok so)
    (hres' : tlsDirectRest lib' eig' svd so X Y idx' dws (some t) none none = .ok res')
    (heig : EigOfProjected eig (Xᴴ * dws.matrix n * Y) res.decomp) (heig' : EigOfProjected eig' (Xᴴ * dws.matrix n * Y) res'.decomp)
    (hinj : Function.Injective res.decomp.d.eigvals) (hinj' : Function.Injective res'.decomp.d.eigvals) :
    res'.decomp.proj = res.decomp.proj ∧ ∃ exact proj adjoint exact' proj' adjoint',
      (Chosen exact idx res.exactModes ∧ Chosen proj idx res.projModes ∧ Chosen adjoint idx res.adjointModes) ∧
      (Chosen exact' idx' res'.exactModes ∧ Chosen proj' idx' res'.projModes ∧ Chosen adjoint' idx' res'.adjointModes) ∧
      SameDmd 1 1 1 res.decomp.d.eigvals res'.decomp.d.eigvals exact proj adjoint exact' proj' adjoint'
        res.projCoeffs res.advProjCoeffs res'.projCoeffs res'.advProjCoeffs := by
  have hW : (dws.matrix n).IsHermitian := (directWeights_posDef dws hdfit).isHermitian
  have h1 : ∀ Z : Matrix (Fin n) (Fin m) 𝕜, Z = (1 : 𝕜) • (Z * (1 : Matrix (Fin m) (Fin m) 𝕜)) := fun Z => by
    rw [one_smul, Matrix.mul_one]
  have hQ : (1 : Matrix (Fin m) (Fin m) 𝕜) * 1ᴴ = 1 := by rw [conjTranspose_one, Matrix.mul_one]
  obtain ⟨hc, hLR⟩ := tlsEigendecomp_core _ _ eig _ _ _ (t ^ 2) none none none _ hd (sq_nonneg t) (by simp) (by simp) hs
    (gram_hermitian hW _) (gram_hermitian hW _) hlib heig
  obtain ⟨hcore, o1, o2, o3, o4⟩ := ho.projected hc
  obtain ⟨-, hcore', hLR', ho'⟩ := tlsDirectRest_core lib' eig' svd idx' dws t none none so hdfit hchol hso ht (by simp) hlib' hsvd
    X Y res' hres' heig'
  obtain ⟨⟨s, hs1, hs2⟩, e, w, R, L, he1, he2⟩ := tlsEigendecomp_eigh hd
  obtain ⟨⟨s', hs1', hq, hsV, -⟩, hd'⟩ := tlsDirectRest_ok lib' eig' svd idx' dws none none so _ X Y res' hres'
  obtain ⟨G, hG, hdata⟩ := directSqrtWeights_ok lib'.cholesky dws hdfit hchol so hso
  have hpos : ∀ x ∈ (none : Option ℝ), 0 ≤ x := by simp
  have hP : res'.decomp.proj = res.decomp.proj := by
    rw [hdata, hdata] at hs1'
    have hsum : Xᴴ * dws.matrix n * X + Yᴴ * dws.matrix n * Y = (stackRows (G * X) (G * Y))ᴴ * stackRows (G * X) (G * Y) := by
      rw [stackRows_gram, ← hG]
      simp only [conjTranspose_mul, Matrix.mul_assoc]
    rw [hsum] at hs1
    have := (square_determined (rtol := none) (hlib _ (isHermitian_conjTranspose_mul_self _)) (hsvd _) ht hpos hs s s' hs1 hs1').2.2
      fun _ => 1
    simp only [diagonal_one, Matrix.mul_one] at this
    rw [hs2, ← this]
    obtain ⟨⟨q, sumW, sumV, d⟩, _, _, _, _, _, _⟩ := res'
    dsimp only at hq hsV ⊢
    subst hq
    cases hsV
    rfl
  rw [hP] at hd' hcore' ho'
  refine ⟨hP, _, _, _, _, _, _, ⟨o1, o2, o3⟩, ⟨ho'.exact, ho'.proj, ho'.adjoint⟩, ?_⟩
  have hV : SameSpectrum (‖(1 : 𝕜)‖ ^ 2) 1 res.decomp.d res'.decomp.d := by
    unfold dmdDirectPairs at hd'
    rw [hso] at hd'
    simp only [and_self, dite_true] at hd'
    obtain ⟨e', w', R', L', he1', he2'⟩ := dmdDirectRest_svd hd'
    change res'.decomp.d = _ at he2'
    rw [hdata] at he1'
    have hsum : res.decomp.proj * (Xᴴ * dws.matrix n * X) * res.decomp.proj =
        (G * (X * res.decomp.proj))ᴴ * (G * (X * res.decomp.proj)) := by
      rw [← gram_proj, ← hG, conjTranspose_mul G]
      simp only [Matrix.mul_assoc]
    rw [hsum] at he1
    have k3 := (square_determined (rtol := none) (hlib _ (isHermitian_conjTranspose_mul_self _)) (hlib' _) ht hpos hs e e' he1 he1').2.2
    have hw := C20_positive_partial _ _ _ _ (t ^ 2) (sq_nonneg t) hs (by simp) e he1
    rw [he2, he2']
    intro f g hfg
    have hfg' : (fun i => f (e.w i)) = fun i => g (e.w i) := by
      ext i
      have := hfg _ (hw i)
      rw [norm_one, one_pow, one_mul] at this
      exact this.symm
    dsimp only
    simp only [Real.rpow_two]
    rw [k3 g, hfg', conjTranspose_one, Matrix.one_mul, Matrix.mul_one]
  have p1 := ho'.projCoeffs
  have p2 := ho'.advProjCoeffs
  dsimp only at p1 p2 ⊢
  rw [ho.projCoeffs, o4, p1, p2]
  have := same_dmd (Y := Y * res.decomp.proj) hQ one_ne_zero one_ne_zero hcore (by simpa only [← h1] using hcore') (hLR hinj)
    (hLR' hinj') hV
  simpa only [← h1] using this

/-- **C101.** The snapshot method and the direct method for pairs of vectors. -/
theorem C101_tls_pairs (ht : 0 ≤ t) (hs : IsArgsort lib.argsort) (hws : arraysInit weights = .ok ws)
    (hfit : ws.Fits n) (hdfit : dws.Fits n) (hsame : ws.matrix n = dws.matrix n)
    (hchol : ∀ p q w, dws = .d2 p q w → IsCholesky lib'.cholesky (dws.matrix n))
    (hlib : ∀ C, C.IsHermitian → IsEigh C (lib.eigh C)) (hlib' : ∀ B, IsSvd B (lib'.svd B)) (hsvd : ∀ B, IsSvd B (svd B))
    (X Y : Matrix (Fin n) (Fin m) 𝕜) (res res' : TlsResult 𝕜 n m) (c : TlsCorr 𝕜 m)
    (hres : tlsSnapsPairs lib eig X ⟨n, m, Y⟩ idx weights (some (t ^ 2)) none none = .ok (res, c))
    (hres' : tlsDirectPairs lib' eig' svd X ⟨n, m, Y⟩ idx' dws (some t) none none = .ok res')
    (heig : EigOfProjected eig (Xᴴ * ws.matrix n * Y) res.decomp) (heig' : EigOfProjected eig' (Xᴴ * dws.matrix n * Y) res'.decomp)
    (hinj : Function.Injective res.decomp.d.eigvals) (hinj' : Function.Injective res'.decomp.d.eigvals) :
    res'.decomp.proj = res.decomp.proj ∧ ∃ exact proj adjoint exact' proj' adjoint',
      (Chosen exact idx res.exactModes ∧ Chosen proj idx res.projModes ∧ Chosen adjoint idx res.adjointModes) ∧
      (Chosen exact' idx' res'.exactModes ∧ Chosen proj' idx' res'.projModes ∧ Chosen adjoint' idx' res'.adjointModes) ∧
      SameDmd 1 1 1 res.decomp.d.eigvals res'.decomp.d.eigvals exact proj adjoint exact' proj' adjoint'
        res.projCoeffs res.advProjCoeffs res'.projCoeffs res'.advProjCoeffs := by
  obtain ⟨rfl, hd, ho⟩ := tlsSnapsPairs_ok lib eig idx weights ws _ _ none hws hfit X Y res c hres
  unfold tlsDirectPairs at hres'
  split at hres'
  · cases hres'
  rename_i so hso
  simp only [and_self, dite_true] at hres'
  dsimp only at hd ho
  rw [hsame] at hd ho heig
  exact tls_methods lib lib' eig eig' svd dws t idx idx' ht hs hdfit hchol hlib hlib' hsvd X Y res res' so hd ho hso hres' heig heig'
    hinj hinj'

/-- **C101.** The snapshot method and the direct method for sequential data. -/
theorem C101_tls_sequential (ht : 0 ≤ t) (hs : IsArgsort lib.argsort) (hws : arraysInit weights = .ok ws)
    (hfit : ws.Fits n) (hdfit : dws.Fits n) (hsame : ws.matrix n = dws.matrix n)
    (hchol : ∀ p q w, dws = .d2 p q w → IsCholesky lib'.cholesky (dws.matrix n))
    (hlib : ∀ C, C.IsHermitian → IsEigh C (lib.eigh C)) (hlib' : ∀ B, IsSvd B (lib'.svd B)) (hsvd : ∀ B, IsSvd B (svd B))
    (Z : Matrix (Fin n) (Fin (m + 1)) 𝕜) (res res' : TlsResult 𝕜 n m) (c : TlsCorr 𝕜 m)
    (hres : tlsSnapsSeq lib eig Z idx weights (some (t ^ 2)) none none = .ok (res, c))
    (hres' : tlsDirectSeq lib' eig' svd Z idx' dws (some t) none none = .ok res')
    (heig : EigOfProjected eig ((seqFirst Z)ᴴ * ws.matrix n * seqNext Z) res.decomp)
    (heig' : EigOfProjected eig' ((seqFirst Z)ᴴ * dws.matrix n * seqNext Z) res'.decomp)
    (hinj : Function.Injective res.decomp.d.eigvals) (hinj' : Function.Injective res'.decomp.d.eigvals) :
    res'.decomp.proj = res.decomp.proj ∧ ∃ exact proj adjoint exact' proj' adjoint',
      (Chosen exact idx res.exactModes ∧ Chosen proj idx res.projModes ∧ Chosen adjoint idx res.adjointModes) ∧
      (Chosen exact' idx' res'.exactModes ∧ Chosen proj' idx' res'.projModes ∧ Chosen adjoint' idx' res'.adjointModes) ∧
      SameDmd 1 1 1 res.decomp.d.eigvals res'.decomp.d.eigvals exact proj adjoint exact' proj' adjoint'
        res.projCoeffs res.advProjCoeffs res'.projCoeffs res'.advProjCoeffs := by
  obtain ⟨rfl, hd, ho⟩ := tlsSnapsSeq_ok lib eig idx weights ws _ _ none hws hfit Z res c hres
  unfold tlsDirectSeq at hres'
  split at hres'
  · cases hres'
  rename_i so hso
  dsimp only at hd ho
  rw [hsame] at hd ho heig
  exact tls_methods lib lib' eig eig' svd dws t idx idx' ht hs hdfit hchol hlib hlib' hsvd (seqFirst Z) (seqNext Z) res res' so hd ho hso
    hres' heig heig' hinj hinj'

end Tls

/-! ### Examples -/

/-- Eigenvalues and eigenvectors of arrays with one element. -/
def eigOne {r : Nat} (a : Matrix (Fin r) (Fin r) 𝕜) : EigOut 𝕜 r :=
  ⟨a.diag, 1, 1⟩

theorem eigOne_isEig {r : Nat} (hr : r ≤ 1) (a : Matrix (Fin r) (Fin r) 𝕜) : IsEig a (eigOne a) := by
  have hsub : Subsingleton (Fin r) := ⟨fun i j => Fin.ext (by have := i.isLt; have := j.isLt; omega)⟩
  have ha : diagonal a.diag = a := by
    ext i j
    rw [Subsingleton.elim j i, diagonal_apply_eq, diag_apply]
  have hne : ∀ j : Fin r, (fun i => (1 : Matrix (Fin r) (Fin r) 𝕜) i j) ≠ 0 := fun j h => by
    have := congrFun h j
    rw [one_apply_eq] at this
    exact one_ne_zero this
  refine ⟨?_, ?_, hne, hne⟩
  · change a * 1 = 1 * diagonal a.diag
    rw [ha, Matrix.mul_one, Matrix.one_mul]
  · change (1 : Matrix (Fin r) (Fin r) 𝕜)ᴴ * a = diagonal a.diag * (1 : Matrix (Fin r) (Fin r) 𝕜)ᴴ
    rw [ha, conjTranspose_one, Matrix.mul_one, Matrix.one_mul]

theorem orthonormal_columns {r : Nat} {V : Matrix (Fin m) (Fin r) 𝕜} (h : Vᴴ * V = 1) : r ≤ m := by
  have h1 : (1 : Matrix (Fin r) (Fin r) 𝕜).rank = r := by rw [rank_one, Fintype.card_fin]
  rw [← h1, ← h]
  exact (rank_mul_le_right _ _).trans ((rank_le_card_height V).trans (by rw [Fintype.card_fin]))

/-- With one vector there is at most one eigenvalue. -/
theorem tls_one (K : Matrix (Fin 1) (Fin 1) 𝕜) (t : TlsDecomp 𝕜 1) (h : t.d.Vᴴ * t.d.V = 1) :
    EigOfProjected eigOne K t ∧ Function.Injective t.d.eigvals := by
  have hr := orthonormal_columns h
  exact ⟨eigOne_isEig hr _, fun i j _ => Fin.ext (by have := i.isLt; have := j.isLt; omega)⟩

/-- The snapshot method for one vector. -/
theorem tls_one_snaps (lib : PodLib 𝕜 n 1) (hs : IsArgsort lib.argsort) (hlib : ∀ C, C.IsHermitian → IsEigh C (lib.eigh C))
    (X Y : Matrix (Fin n) (Fin 1) 𝕜) (t : ℝ) (ht : 0 ≤ t) : ∃ res c,
      tlsSnapsPairs lib eigOne X ⟨n, 1, Y⟩ none none (some t) none none = .ok (res, c) ∧
      EigOfProjected eigOne (Xᴴ * Weights.matrix n .none * Y) res.decomp ∧ Function.Injective res.decomp.d.eigvals ∧
      ((Xᴴ * X - (t : 𝕜) • 1).PosDef → res.decomp.d.r = 1) := by
  obtain ⟨-, ⟨res, c⟩, hres⟩ := C31_snaps_no_error lib eigOne t none none Nat.one_pos none .none rfl trivial 0 X Y
  have hW : (Weights.matrix n (.none : Weights 𝕜)).IsHermitian := isHermitian_one
  have hone : Weights.matrix n (.none : Weights 𝕜) = 1 := rfl
  obtain ⟨rfl, hd, -⟩ := tlsSnapsPairs_ok lib eigOne none none .none _ none none rfl trivial X Y res c hres
  obtain ⟨⟨s, hs1, hs2⟩, e, w, R, L, he1, he2⟩ := tlsEigendecomp_eigh hd
  dsimp only at hs1 he1
  have hV : res.decomp.d.Vᴴ * res.decomp.d.V = 1 := by
    rw [← gram_proj] at he1
    rw [he2]
    exact (C20_eigenpairs _ _ _ _ _ _ (hlib _ (gram_hermitian hW _)) hs e he1).1
  obtain ⟨h1, h2⟩ := tls_one (Xᴴ * Weights.matrix n .none * Y) _ hV
  refine ⟨res, _, hres, h1, h2, fun hX => ?_⟩
  have hP : res.decomp.proj = 1 := by
    rw [hs2]
    refine (eigh_posDef lib.eigh lib.argsort hs _ t ht ?_ (hlib _ (IsHermitian.add (gram_hermitian hW X) (gram_hermitian hW Y))) s hs1).2
    rw [hone, Matrix.mul_one, Matrix.mul_one, add_sub_right_comm]
    exact hX.add_posSemidef (posSemidef_conjTranspose_mul_self Y)
  rw [hP, Matrix.one_mul, Matrix.mul_one] at he1
  rw [he2]
  exact (eigh_posDef lib.eigh lib.argsort hs _ t ht (by rw [hone, Matrix.mul_one]; exact hX) (hlib _ (gram_hermitian hW X)) e he1).1

/-- The direct method for one vector. -/
theorem tls_one_direct (lib : PodLib 𝕜 n 1) (svd : Matrix (Fin (n + n)) (Fin 1) 𝕜 → SvdOut 𝕜 (n + n) 1)
    (hlib : ∀ B, IsSvd B (lib.svd B)) (X Y : Matrix (Fin n) (Fin 1) 𝕜) (t : ℝ) : ∃ res,
      tlsDirectPairs lib eigOne svd X ⟨n, 1, Y⟩ none .none (some t) none none = .ok res ∧
      EigOfProjected eigOne (Xᴴ * DirectWeights.matrix n .none * Y) res.decomp ∧ Function.Injective res.decomp.d.eigvals := by
  obtain ⟨-, res, hres⟩ := C31_direct_no_error lib eigOne t none none svd Nat.one_pos (by simp) .none trivial rfl
    (fun _ _ _ h => by cases h) 0 X Y
  refine ⟨res, hres, tls_one _ _ ?_⟩
  unfold tlsDirectPairs at hres
  generalize hg : directSqrtWeights lib.cholesky (.none : DirectWeights 𝕜) = z at hres
  obtain rfl : z = .ok none := hg.symm
  simp only [and_self, dite_true] at hres
  obtain ⟨-, hd⟩ := tlsDirectRest_ok lib eigOne svd none .none none none none _ _ _ res hres
  unfold dmdDirectPairs at hd
  rw [hg] at hd
  simp only [and_self, dite_true] at hd
  obtain ⟨e, w, R, L, he, h⟩ := dmdDirectRest_svd hd
  change res.decomp.d = _ at h
  rw [h]
  exact (C19_singular_triples _ _ _ _ (hlib _) e he).2.1

theorem exampleOne_posDef (t : ℝ) (ht : t < 4) : ((!![2; 0] : Matrix (Fin 2) (Fin 1) ℝ)ᴴ * (!![2; 0] : Matrix (Fin 2) (Fin 1) ℝ) -
    t • (1 : Matrix (Fin 1) (Fin 1) ℝ)).PosDef := by
  have h : (!![2; 0] : Matrix (Fin 2) (Fin 1) ℝ)ᴴ * (!![2; 0] : Matrix (Fin 2) (Fin 1) ℝ) - t • (1 : Matrix (Fin 1) (Fin 1) ℝ) =
      diagonal fun _ => 4 - t := by
    ext i j
    fin_cases i
    fin_cases j
    simp [Matrix.mul_apply, Fin.sum_univ_two]
    norm_num
  rw [h]
  exact PosDef.diagonal fun _ => by linarith

/-- One vector, advanced to one in another direction. -/
example : ∃ (lib : PodLib ℝ 2 1) (svd : Matrix (Fin 4) (Fin 1) ℝ → SvdOut ℝ 4 1) (res res' : TlsResult ℝ 2 1) (c : TlsCorr ℝ 1),
    tlsSnapsPairs lib eigOne !![2; 0] ⟨2, 1, !![3; 4]⟩ none none (some ((1 / 10) ^ 2)) none none = .ok (res, c) ∧
    tlsDirectPairs lib eigOne svd !![2; 0] ⟨2, 1, !![3; 4]⟩ none .none (some (1 / 10)) none none = .ok res' ∧
    res.decomp.d.r = 1 ∧ res'.decomp.d.r = 1 ∧
    ∀ z, Nat.card {i // res'.decomp.d.eigvals i = z} = Nat.card {i // res.decomp.d.eigvals i = z} := by
  obtain ⟨lib, hsvd, heigh, hs, -⟩ := exists_podLib (𝕜 := ℝ) 2 1
  obtain ⟨lib4, hsvd4, -⟩ := exists_podLib (𝕜 := ℝ) 4 1
  obtain ⟨res, c, hres, heig, hinj, hr⟩ := tls_one_snaps lib hs heigh !![2; 0] !![3; 4] ((1 / 10) ^ 2) (by norm_num)
  replace hr := hr (exampleOne_posDef _ (by norm_num))
  obtain ⟨res', hres', heig', hinj'⟩ := tls_one_direct lib lib4.svd hsvd !![2; 0] !![3; 4] (1 / 10)
  obtain ⟨-, _, _, _, _, _, _, -, -, h⟩ := C101_tls_pairs lib lib eigOne eigOne lib4.svd none .none .none (1 / 10) none none (by norm_num) hs rfl
    trivial trivial rfl (fun _ _ _ h => by cases h) heigh hsvd hsvd4 _ _ res res' c hres hres' heig heig' hinj hinj'
  refine ⟨lib, lib4.svd, res, res', c, hres, hres', hr, h.number.trans hr, fun z => ?_⟩
  have := h.multiplicities z
  rwa [div_one, one_mul] at this

end Modred
