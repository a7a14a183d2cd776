import Verif.Spec.ShiftedData
import Verif.Props.SymmetryKept

/-!
# C133: dynamic modes of time derivatives are those of the advanced vectors
-/

namespace Modred

open Matrix

variable {𝕜 : Type*} [RCLike 𝕜]

/-- Eigenvectors of a linear function of a map. -/
theorem shifted_eigenvectors {r : Nat} {α β : 𝕜} (hβ : β ≠ 0) {M M' R L R' L' : Matrix (Fin r) (Fin r) 𝕜} {z z' : Fin r → 𝕜}
    (hM : M' = α • 1 + β • M) (h1 : M * R = R * diagonal z) (hLR : Lᴴ * R = 1) (h1' : M' * R' = R' * diagonal z') (hLR' : L'ᴴ * R' = 1)
    (hinj : Function.Injective z) (hinj' : Function.Injective z') :
    ∃ σ : Fin r ≃ Fin r, ∀ i, z' i = α + β * z (σ i) ∧
      ∃ c : 𝕜, c ≠ 0 ∧ (∀ k, R' k i = c * R k (σ i)) ∧ ∀ k, L' k i = (star c)⁻¹ * L k (σ i) := by
  classical
  have hRL : R * Lᴴ = 1 := mul_eq_one_comm.mp hLR
  have hRL' : R' * L'ᴴ = 1 := mul_eq_one_comm.mp hLR'
  set w : Fin r → 𝕜 := fun j => α + β * z j with hw
  have hwi : Function.Injective w := fun i j h => hinj (mul_left_cancel₀ hβ (add_left_cancel h))
  have h2 : M' * R = R * diagonal w := by
    have hd : diagonal w = α • (1 : Matrix (Fin r) (Fin r) 𝕜) + β • diagonal z := by
      ext i j
      by_cases hij : i = j
      · subst hij
        simp [hw]
      · simp [hij]
    rw [hM, hd, Matrix.add_mul, Matrix.mul_add, Matrix.smul_mul, Matrix.smul_mul, h1, Matrix.mul_smul, Matrix.mul_smul, Matrix.one_mul,
      Matrix.mul_one]
  set Y := Lᴴ * R' with hY
  set Z := L'ᴴ * R with hZ
  have hZY : Z * Y = 1 := by
    rw [hZ, hY, Matrix.mul_assoc, ← Matrix.mul_assoc R, hRL, Matrix.one_mul, hLR']
  have eY : diagonal w * Y = Y * diagonal z' := by
    calc diagonal w * Y = Lᴴ * R * diagonal w * Lᴴ * R' := by rw [hLR, Matrix.one_mul, Matrix.mul_assoc]
      _ = Lᴴ * M' * (R * Lᴴ) * R' := by rw [Matrix.mul_assoc Lᴴ R, ← h2]; simp only [Matrix.mul_assoc]
      _ = Y * diagonal z' := by rw [hRL, Matrix.mul_one, Matrix.mul_assoc, h1', ← Matrix.mul_assoc]
  have eZ : Z * diagonal w = diagonal z' * Z := by
    calc Z * diagonal w = L'ᴴ * (M' * (R' * L'ᴴ)) * R := by rw [hRL', Matrix.mul_one, hZ, Matrix.mul_assoc, ← h2, Matrix.mul_assoc]
      _ = (L'ᴴ * R') * diagonal z' * L'ᴴ * R := by rw [← Matrix.mul_assoc M', h1']; simp only [Matrix.mul_assoc]
      _ = diagonal z' * Z := by rw [hLR', Matrix.one_mul, Matrix.mul_assoc]
  have yz : ∀ j i, Y j i ≠ 0 → z' i = w j := by
    intro j i h
    have h3 := congrFun (congrFun eY j) i
    rw [diagonal_mul, mul_diagonal, mul_comm] at h3
    exact (mul_left_cancel₀ h h3).symm
  have zz : ∀ i j, Z i j ≠ 0 → z' i = w j := by
    intro i j h
    have h3 := congrFun (congrFun eZ i) j
    rw [diagonal_mul, mul_diagonal, mul_comm] at h3
    exact (mul_right_cancel₀ h h3).symm
  have hex : ∀ i, ∃ j, Y j i ≠ 0 := by
    intro i
    by_contra hc
    push Not at hc
    have h3 := congrFun (congrFun hZY i) i
    rw [Matrix.mul_apply, one_apply_eq] at h3
    simp only [hc, mul_zero, Finset.sum_const_zero] at h3
    exact zero_ne_one h3
  choose s hs using hex
  have hsz : ∀ i, z' i = w (s i) := fun i => yz _ _ (hs i)
  have hsi : Function.Injective s := fun i j h => hinj' (by rw [hsz, hsz, h])
  have only : ∀ j i, j ≠ s i → Y j i = 0 := by
    intro j i hj
    by_contra hc
    exact hj (hwi ((yz j i hc).symm.trans (hsz i)))
  have only' : ∀ i j, j ≠ s i → Z i j = 0 := by
    intro i j hj
    by_contra hc
    exact hj (hwi ((zz i j hc).symm.trans (hsz i)))
  have hinv : ∀ i, Z i (s i) * Y (s i) i = 1 := by
    intro i
    have h3 := congrFun (congrFun hZY i) i
    rw [Matrix.mul_apply, one_apply_eq, Finset.sum_eq_single (s i)] at h3
    · exact h3
    · intro j _ hj
      rw [only j i hj, mul_zero]
    · intro h
      exact absurd (Finset.mem_univ _) h
  have hR' : R' = R * Y := by rw [hY, ← Matrix.mul_assoc, hRL, Matrix.one_mul]
  have hL' : L' = L * Zᴴ := by
    have h3 : Z * Lᴴ = L'ᴴ := by rw [hZ, Matrix.mul_assoc, hRL, Matrix.mul_one]
    have h4 := congrArg conjTranspose h3
    rw [conjTranspose_mul, conjTranspose_conjTranspose, conjTranspose_conjTranspose] at h4
    exact h4.symm
  refine ⟨Equiv.ofBijective s (Finite.injective_iff_bijective.mp hsi), fun i => ⟨hsz i, Y (s i) i, hs i, fun k => ?_, fun k => ?_⟩⟩
  · change R' k i = Y (s i) i * R k (s i)
    rw [hR', Matrix.mul_apply, Finset.sum_eq_single (s i), mul_comm]
    · intro j _ hj
      rw [only j i hj, mul_zero]
    · intro h
      exact absurd (Finset.mem_univ _) h
  · change L' k i = (star (Y (s i) i))⁻¹ * L k (s i)
    rw [hL', Matrix.mul_apply, Finset.sum_eq_single (s i), mul_comm, conjTranspose_apply]
    · congr 1
      rw [eq_inv_of_mul_eq_one_left (hinv i), star_inv₀]
    · intro j _ hj
      rw [conjTranspose_apply, only' i j hj, star_zero, mul_zero]
    · intro h
      exact absurd (Finset.mem_univ _) h

/-- Decompositions that share the decomposition of the correlation array. -/
def DmdDecomp.SameVectors {m : Nat} (d d' : DmdDecomp 𝕜 m) : Prop :=
  ∃ (z : Fin d.r → 𝕜) (R L : Matrix (Fin d.r) (Fin d.r) 𝕜), d' = ⟨d.r, d.w, d.V, z, R, L⟩

theorem dmdEigendecomp_sameVectors {m : Nat} {eigh : Matrix (Fin m) (Fin m) 𝕜 → EighOut 𝕜 m}
    {argsort : (Fin m → ℝ) → Equiv.Perm (Fin m)} {eig eig' : ∀ {r : Nat}, Matrix (Fin r) (Fin r) 𝕜 → EigOut 𝕜 r}
    {C K K' : Matrix (Fin m) (Fin m) 𝕜} {atol rtol : Option ℝ} {maxNum : Option Nat} {d d' : DmdDecomp 𝕜 m}
    (hd : dmdEigendecomp eigh argsort eig C K atol rtol maxNum = .ok d)
    (hd' : dmdEigendecomp eigh argsort eig' C K' atol rtol maxNum = .ok d') : d.SameVectors d' := by
  unfold dmdEigendecomp at hd hd'
  split at hd
  · cases hd
  rename_i e he
  rw [he] at hd'
  dsimp only at hd hd'
  split at hd
  · cases hd
  split at hd'
  · cases hd'
  cases hd
  cases hd'
  exact ⟨_, _, _, rfl⟩

/-- Exact modes times their eigenvalues. -/
theorem exact_smul {E : Type*} [AddCommGroup E] [Module 𝕜 E] {m : Nat} (Y : Fin m → E) (d : DmdDecomp 𝕜 m) (i : Fin d.r)
    (h0 : d.eigvals i ≠ 0) : d.eigvals i • combine Y d.buildExact i = combine Y d.buildProj i := by
  have h : d.buildExact = d.buildProj * diagonal fun i => (d.eigvals i)⁻¹ := by
    unfold DmdDecomp.buildExact DmdDecomp.buildProj
    simp only [Matrix.mul_assoc]
  rw [h, ← combine_combine, combine_diagonal, smul_smul, mul_inv_cancel₀ h0, one_smul]

section Vectors

variable {E : Type*} [AddCommGroup E] [Module 𝕜 E] {ip : E →ₗ⋆[𝕜] E →ₗ[𝕜] 𝕜} {m : Nat} {X Y Y' : Fin m → E} {d d' : DmdDecomp 𝕜 m}
  {α β : 𝕜}

theorem DmdCore.shifted (hβ : β ≠ 0) (hY : ∀ j, Y' j = α • X j + β • Y j) (h : DmdCore (gram ip X X) (gram ip X Y) d)
    (h' : DmdCore (gram ip X X) (gram ip X Y') d') (hsame : d.SameVectors d') (hLR : d.Lᴴ * d.R = 1) (hLR' : d'.Lᴴ * d'.R = 1)
    (hinj : Function.Injective d.eigvals) (hinj' : Function.Injective d'.eigvals) :
    ShiftedModes α β d.eigvals d'.eigvals (combine Y d.buildExact) (combine X d.buildProj) (combine X d.buildAdjoint)
      (combine Y' d'.buildExact) (combine X d'.buildProj) (combine X d'.buildAdjoint) := by
  obtain ⟨z', R', L', rfl⟩ := hsame
  have hK : gram ip X Y' = α • gram ip X X + β • gram ip X Y := by
    ext i j
    change ip (X i) (Y' j) = α * ip (X i) (X j) + β * ip (X i) (Y j)
    rw [hY, map_add, map_smul, map_smul, smul_eq_mul, smul_eq_mul]
  have hone : lowOrderMap (diagPow (𝕜 := 𝕜) d.w (-0.5)) d.V (gram ip X X) = 1 := by
    unfold lowOrderMap
    rw [← Matrix.mul_assoc (gram ip X X), h.eigen, Matrix.mul_assoc d.V, ← Matrix.mul_assoc d.Vᴴ, h.orth, Matrix.one_mul,
      diagPow_mul _ h.pos, diagPow_mul _ h.pos, show (-0.5 + (1 + -0.5) : ℝ) = 0 by norm_num]
    unfold diagPow
    simp
  have hM : lowOrderMap (diagPow (𝕜 := 𝕜) d.w (-0.5)) d.V (gram ip X Y') =
      α • 1 + β • lowOrderMap (diagPow (𝕜 := 𝕜) d.w (-0.5)) d.V (gram ip X Y) := by
    rw [← hone, hK]
    unfold lowOrderMap
    simp only [Matrix.add_mul, Matrix.mul_add, Matrix.smul_mul, Matrix.mul_smul]
  obtain ⟨σ, hσ⟩ := shifted_eigenvectors hβ hM h.right hLR h'.right hLR' hinj hinj'
  refine ⟨σ, fun i => ?_⟩
  obtain ⟨k1, c, hc, k2, k3⟩ := hσ i
  have move : ∀ {X : Fin m → E} {P : Matrix (Fin m) (Fin d.r) 𝕜} {S S' : Matrix (Fin d.r) (Fin d.r) 𝕜} {a : 𝕜},
      (∀ k, S' k i = a * S k (σ i)) → combine X (P * S') i = a • combine X (P * S) (σ i) := by
    intro X P S S' a hS
    unfold combine
    rw [Finset.smul_sum]
    refine Finset.sum_congr rfl fun k _ => ?_
    rw [smul_smul, Matrix.mul_apply, Matrix.mul_apply, Finset.mul_sum]
    congr 1
    refine Finset.sum_congr rfl fun l _ => ?_
    rw [hS]
    ring
  have hproj : ∀ Z : Fin m → E, combine Z (⟨d.r, d.w, d.V, z', R', L'⟩ : DmdDecomp 𝕜 m).buildProj i = c • combine Z d.buildProj (σ i) := by
    intro Z
    unfold DmdDecomp.buildProj
    rw [← Matrix.mul_assoc, ← Matrix.mul_assoc]
    exact move k2
  refine ⟨k1, c, hc, hproj X, ?_, fun h0 h0' => ?_⟩
  · unfold DmdDecomp.buildAdjoint
    rw [← Matrix.mul_assoc, ← Matrix.mul_assoc]
    exact move k3
  · have hsum : combine Y' (⟨d.r, d.w, d.V, z', R', L'⟩ : DmdDecomp 𝕜 m).buildProj i =
        α • combine X (⟨d.r, d.w, d.V, z', R', L'⟩ : DmdDecomp 𝕜 m).buildProj i +
          β • combine Y (⟨d.r, d.w, d.V, z', R', L'⟩ : DmdDecomp 𝕜 m).buildProj i := by
      unfold combine
      rw [Finset.smul_sum, Finset.smul_sum, ← Finset.sum_add_distrib]
      refine Finset.sum_congr rfl fun j _ => ?_
      rw [hY, smul_add, smul_comm _ α, smul_comm _ β]
    rw [exact_smul _ _ _ h0', hsum, hproj, hproj, ← exact_smul Y d (σ i) h0, smul_add, smul_comm α c, smul_comm β c, smul_smul β]

end Vectors

theorem DmdOutcome.shifted {n m : Nat} {W : Matrix (Fin n) (Fin n) 𝕜} {X Y Y' : Matrix (Fin n) (Fin m) 𝕜} {α β : 𝕜} (hβ : β ≠ 0)
    (hY : Y' = α • X + β • Y) {modeIndices modeIndices' : Option (List Int)} {res res' : DmdResult 𝕜 n m}
    (h : DmdOutcome W X Y modeIndices res) (h' : DmdOutcome W X Y' modeIndices' res')
    (hc : DmdCore (Xᴴ * W * X) (Xᴴ * W * Y) res.decomp) (hc' : DmdCore (Xᴴ * W * X) (Xᴴ * W * Y') res'.decomp)
    (hsame : res.decomp.SameVectors res'.decomp) (hLR : res.decomp.Lᴴ * res.decomp.R = 1) (hLR' : res'.decomp.Lᴴ * res'.decomp.R = 1)
    (hinj : Function.Injective res.decomp.eigvals) (hinj' : Function.Injective res'.decomp.eigvals) :
    ∃ exact proj adjoint exact' proj' adjoint', Chosen exact modeIndices res.exactModes ∧ Chosen proj modeIndices res.projModes ∧
      Chosen adjoint modeIndices res.adjointModes ∧ Chosen exact' modeIndices' res'.exactModes ∧ Chosen proj' modeIndices' res'.projModes ∧
      Chosen adjoint' modeIndices' res'.adjointModes ∧
      ShiftedModes α β res.decomp.eigvals res'.decomp.eigvals exact.col proj.col adjoint.col exact'.col proj'.col adjoint'.col := by
  refine ⟨_, _, _, _, _, _, h.exact, h.proj, h.adjoint, h'.exact, h'.proj, h'.adjoint, ?_⟩
  rw [col_mul, col_mul, col_mul, col_mul, col_mul, col_mul]
  rw [← gram_weighted, ← gram_weighted] at hc hc'
  refine hc.shifted hβ (fun j => ?_) hc' hsame hLR hLR' hinj hinj'
  ext i
  rw [hY]
  rfl

section Snaps

variable {n m : Nat} (lib : PodLib 𝕜 n m) (eig eig' : ∀ {r : Nat}, Matrix (Fin r) (Fin r) 𝕜 → EigOut 𝕜 r)
  (modeIndices modeIndices' : Option (List Int)) (weights : Option (NdArray 𝕜)) (ws : Weights 𝕜) (t : ℝ) (rtol : Option ℝ)
  (maxNum : Option Nat) {α β : 𝕜}

/-- **C133.** The snapshot method for pairs of vectors: with `α = -1 / dt` and `β = 1 / dt` the second data are time derivatives. -/
theorem C133_snaps_pairs (hβ : β ≠ 0) (ht : 0 ≤ t) (hr : ∀ t ∈ rtol, 0 ≤ t) (hs : IsArgsort lib.argsort)
    (hws : arraysInit weights = .ok ws) (hfit : ws.Fits n) (hW : (ws.matrix n).IsHermitian)
    (hlib : ∀ C : Matrix (Fin m) (Fin m) 𝕜, C.IsHermitian → IsEigh C (lib.eigh C)) (X Y : Matrix (Fin n) (Fin m) 𝕜)
    (res res' : DmdResult 𝕜 n m) (corr cross corr' cross' : Matrix (Fin m) (Fin m) 𝕜)
    (hres : dmdSnapsPairs lib eig X ⟨n, m, Y⟩ modeIndices weights (some t) rtol maxNum = .ok (res, corr, cross))
    (hres' : dmdSnapsPairs lib eig' X ⟨n, m, α • X + β • Y⟩ modeIndices' weights (some t) rtol maxNum = .ok (res', corr', cross'))
    (heig : EigOfReduced eig (ws.matrix n) X Y res.decomp) (heig' : EigOfReduced eig' (ws.matrix n) X (α • X + β • Y) res'.decomp)
    (hinj : Function.Injective res.decomp.eigvals) (hinj' : Function.Injective res'.decomp.eigvals) :
    ∃ exact proj adjoint exact' proj' adjoint', Chosen exact modeIndices res.exactModes ∧ Chosen proj modeIndices res.projModes ∧
      Chosen adjoint modeIndices res.adjointModes ∧ Chosen exact' modeIndices' res'.exactModes ∧ Chosen proj' modeIndices' res'.projModes ∧
      Chosen adjoint' modeIndices' res'.adjointModes ∧
      ShiftedModes α β res.decomp.eigvals res'.decomp.eigvals exact.col proj.col adjoint.col exact'.col proj'.col adjoint'.col := by
  obtain ⟨rfl, rfl, hd, ho⟩ := dmdSnapsPairs_ok lib eig modeIndices weights ws _ rtol maxNum hws hfit X Y res corr cross hres
  obtain ⟨rfl, rfl, hd', ho'⟩ := dmdSnapsPairs_ok lib eig' modeIndices' weights ws _ rtol maxNum hws hfit X _ res' corr' cross' hres'
  obtain ⟨hc, hLR⟩ := dmdEigendecomp_core _ _ eig _ _ t rtol maxNum _ hd ht hr hs (gram_hermitian hW _)
    (hlib _ (gram_hermitian hW _)) heig
  obtain ⟨hc', hLR'⟩ := dmdEigendecomp_core _ _ eig' _ _ t rtol maxNum _ hd' ht hr hs (gram_hermitian hW _)
    (hlib _ (gram_hermitian hW _)) heig'
  exact ho.shifted hβ rfl ho' hc hc' (dmdEigendecomp_sameVectors hd hd') (hLR hinj) (hLR' hinj') hinj hinj'

end Snaps

section Direct

variable {n m : Nat} (lib : PodLib 𝕜 n m) (eig eig' : ∀ {r : Nat}, Matrix (Fin r) (Fin r) 𝕜 → EigOut 𝕜 r)
  (modeIndices modeIndices' : Option (List Int)) (ws : DirectWeights 𝕜) (t : ℝ) (rtol : Option ℝ) (maxNum : Option Nat) {α β : 𝕜}

theorem dmdDirectPairs_sameVectors {X Y Y' : Matrix (Fin n) (Fin m) 𝕜} {atol : Option ℝ} {res res' : DmdResult 𝕜 n m}
    (hres : dmdDirectPairs lib eig X ⟨n, m, Y⟩ modeIndices ws atol rtol maxNum = .ok res)
    (hres' : dmdDirectPairs lib eig' X ⟨n, m, Y'⟩ modeIndices' ws atol rtol maxNum = .ok res') :
    res.decomp.SameVectors res'.decomp := by
  unfold dmdDirectPairs at hres hres'
  split at hres
  · cases hres
  rename_i so hso
  rw [hso] at hres'
  dsimp only at hres hres'
  rw [dif_pos ⟨rfl, rfl⟩] at hres hres'
  unfold dmdDirectRest at hres hres'
  split at hres
  · cases hres
  rename_i s hs
  rw [hs] at hres'
  dsimp only at hres hres'
  split at hres
  · cases hres
  split at hres'
  · cases hres'
  rw [dmdFinish_decomp hres, dmdFinish_decomp hres']
  exact ⟨_, _, _, rfl⟩

/-- **C133.** The direct method for pairs of vectors. -/
theorem C133_direct_pairs (hβ : β ≠ 0) (ht : 0 ≤ t) (hr : ∀ t ∈ rtol, 0 ≤ t) (hfit : ws.Fits n)
    (hchol : ∀ p q w, ws = .d2 p q w → IsCholesky lib.cholesky (ws.matrix n)) (hlib : ∀ a, IsSvd a (lib.svd a))
    (X Y : Matrix (Fin n) (Fin m) 𝕜) (res res' : DmdResult 𝕜 n m)
    (hres : dmdDirectPairs lib eig X ⟨n, m, Y⟩ modeIndices ws (some t) rtol maxNum = .ok res)
    (hres' : dmdDirectPairs lib eig' X ⟨n, m, α • X + β • Y⟩ modeIndices' ws (some t) rtol maxNum = .ok res')
    (heig : EigOfReduced eig (ws.matrix n) X Y res.decomp) (heig' : EigOfReduced eig' (ws.matrix n) X (α • X + β • Y) res'.decomp)
    (hinj : Function.Injective res.decomp.eigvals) (hinj' : Function.Injective res'.decomp.eigvals) :
    ∃ exact proj adjoint exact' proj' adjoint', Chosen exact modeIndices res.exactModes ∧ Chosen proj modeIndices res.projModes ∧
      Chosen adjoint modeIndices res.adjointModes ∧ Chosen exact' modeIndices' res'.exactModes ∧ Chosen proj' modeIndices' res'.projModes ∧
      Chosen adjoint' modeIndices' res'.adjointModes ∧
      ShiftedModes α β res.decomp.eigvals res'.decomp.eigvals exact.col proj.col adjoint.col exact'.col proj'.col adjoint'.col := by
  obtain ⟨hc, hLR, ho⟩ := dmdDirectPairs_ok lib eig modeIndices ws t rtol maxNum hfit hchol ht hr hlib X Y res hres heig
  obtain ⟨hc', hLR', ho'⟩ := dmdDirectPairs_ok lib eig' modeIndices' ws t rtol maxNum hfit hchol ht hr hlib X _ res' hres' heig'
  exact ho.shifted hβ rfl ho' hc hc' (dmdDirectPairs_sameVectors lib eig eig' modeIndices modeIndices' ws rtol maxNum hres hres')
    (hLR hinj) (hLR' hinj') hinj hinj'

end Direct

section Handles

variable {E : Type*} [AddCommGroup E] [Module 𝕜 E] (lib : DmdLib 𝕜) (ip : E →ₗ⋆[𝕜] E →ₗ[𝕜] 𝕜) (t : ℝ) (rtol rtol' : Option ℝ)
  (maxNum : Option Nat) {α β : 𝕜}

/-- **C133.** `DMDHandles` for pairs of vectors. -/
theorem C133_handles_pairs (g g' h h' : DmdHandles 𝕜 E) (hβ : β ≠ 0) (ht : 0 ≤ t) (hlib : lib.Lawful)
    (hsym : ∀ x y, ip y x = star (ip x y)) (vecs adv adv' : List E) (hlen : vecs.length = adv.length) (hlen' : vecs.length = adv'.length)
    (hadv : ∀ j : Fin vecs.length, adv'.get (Fin.cast hlen' j) = α • vecs.get j + β • adv.get (Fin.cast hlen j))
    (hrun : g.computeDecomp lib (fun x y => ip x y) vecs (some adv) (some t) rtol maxNum = (.ok (), g'))
    (hrun' : h.computeDecomp lib (fun x y => ip x y) vecs (some adv') (some t) rtol' maxNum = (.ok (), h'))
    (d d' : DmdDecomp 𝕜 vecs.length) (hd : g'.decomp = some ⟨vecs.length, d⟩) (hd' : h'.decomp = some ⟨vecs.length, d'⟩)
    (heig : EigOfReducedVecs ip lib.eig vecs.get (fun j => adv.get (Fin.cast hlen j)) d)
    (heig' : EigOfReducedVecs ip lib.eig vecs.get (fun j => adv'.get (Fin.cast hlen' j)) d')
    (hinj : Function.Injective d.eigvals) (hinj' : Function.Injective d'.eigvals) :
    ∃ (exact proj adjoint : Fin d.r → E) (exact' proj' adjoint' : Fin d'.r → E),
      (∀ l num a out g'', (a = none ∨ a = some adv) → g'.computeExactModes l num a = (.ok out, g'') → ChosenVecs exact l out) ∧
      (∀ l num a out g'', (a = none ∨ a = some vecs) → g'.computeProjModes l num a = (.ok out, g'') → ChosenVecs proj l out) ∧
      (∀ l num a out g'', (a = none ∨ a = some vecs) → g'.computeAdjointModes l num a = (.ok out, g'') → ChosenVecs adjoint l out) ∧
      (∀ l num a out g'', (a = none ∨ a = some adv') → h'.computeExactModes l num a = (.ok out, g'') → ChosenVecs exact' l out) ∧
      (∀ l num a out g'', (a = none ∨ a = some vecs) → h'.computeProjModes l num a = (.ok out, g'') → ChosenVecs proj' l out) ∧
      (∀ l num a out g'', (a = none ∨ a = some vecs) → h'.computeAdjointModes l num a = (.ok out, g'') → ChosenVecs adjoint' l out) ∧
      ShiftedModes α β d.eigvals d'.eigvals exact proj adjoint exact' proj' adjoint' := by
  obtain ⟨_, d1, hd1, rfl⟩ := computeDecomp_pairs lib _ g g' vecs adv (some t) rtol maxNum hrun
  obtain ⟨_, d2, hd2, rfl⟩ := computeDecomp_pairs lib _ h h' vecs adv' (some t) rtol' maxNum hrun'
  cases hd
  cases hd'
  obtain ⟨-, hc, hLR⟩ := handles_modes lib ip t maxNum ht hlib hsym hd1 heig
  obtain ⟨-, hc', hLR'⟩ := handles_modes lib ip t maxNum ht hlib hsym hd2 heig'
  obtain ⟨h1, h2, h3⟩ := state_pairs vecs adv hlen (handlesIp (fun x y => ip x y) vecs.get vecs.get)
    (handlesIp (fun x y => ip x y) vecs.get fun j => adv.get (Fin.cast hlen j)) d
  obtain ⟨h1', h2', h3'⟩ := state_pairs vecs adv' hlen' (handlesIp (fun x y => ip x y) vecs.get vecs.get)
    (handlesIp (fun x y => ip x y) vecs.get fun j => adv'.get (Fin.cast hlen' j)) d'
  exact ⟨_, _, _, _, _, _, h1, h2, h3, h1', h2', h3', hc.shifted hβ hadv hc' (dmdEigendecomp_sameVectors hd1 hd2) (hLR hinj) (hLR' hinj') hinj hinj'⟩

end Handles

/-! ### Example -/

/-- Eigenvectors of diagonal maps. -/
def ownEntriesEig : ∀ {r : Nat}, Matrix (Fin r) (Fin r) ℝ → EigOut ℝ r := fun a => ⟨a.diag, 1, 1⟩

theorem ownEntriesEig_isEig (a : Fin 2 → ℝ) : IsEig (diagonal a) (ownEntriesEig (diagonal a)) := by
  have hne : ∀ j : Fin 2, (fun i => (1 : Matrix (Fin 2) (Fin 2) ℝ) i j) ≠ 0 := by
    intro j h
    have := congrFun h j
    simp at this
  refine ⟨?_, ?_, hne, hne⟩ <;> simp [ownEntriesEig]

/-- One library for the maps of all diagonal data. -/
theorem exists_diagonalRuns : ∃ lib : PodLib ℝ 2 2, (∀ a, a.IsHermitian → IsEigh a (lib.eigh a)) ∧ IsArgsort lib.argsort ∧
    ∀ a : Fin 2 → ℝ, Function.Injective a → ∃ (res : DmdResult ℝ 2 2) (corr cross : Matrix (Fin 2) (Fin 2) ℝ),
      dmdSnapsPairs lib ownEntriesEig 1 ⟨2, 2, diagonal a⟩ none none (some (1 * (1 / 10))) none none = .ok (res, corr, cross) ∧
      res.decomp.r = 2 ∧ EigOfReduced ownEntriesEig ((Weights.none : Weights ℝ).matrix 2) 1 (diagonal a) res.decomp ∧
      Function.Injective res.decomp.eigvals := by
  obtain ⟨lib, heigh, hs, hu⟩ := exists_choosingLib 1 (by simp) 1 one_pos
  refine ⟨lib, heigh, hs, fun a ha => ?_⟩
  obtain ⟨⟨res, corr, cross⟩, hres⟩ := (C26_snaps_no_error lib ownEntriesEig (1 * (1 / 10)) none none Nat.zero_lt_two none .none rfl
    trivial (Matrix.of fun _ _ => 0) 1 (diagonal a)).2
  obtain ⟨h1, h2, hd, -⟩ := dmdSnapsPairs_ok lib ownEntriesEig none none .none _ none none rfl trivial 1 (diagonal a) res _ _ hres
  have h1' : corr = (1 : ℝ) • 1 := by
    rw [h1, show (Weights.none : Weights ℝ).matrix 2 = 1 from rfl]
    simp
  have h2' : cross = diagonal a := by
    rw [h2, show (Weights.none : Weights ℝ).matrix 2 = 1 from rfl]
    simp
  have hlow : lowOrderMap (diagPow (𝕜 := ℝ) (fun _ : Fin 2 => (1 : ℝ)) (-0.5)) (1 : Matrix (Fin 2) (Fin 2) ℝ) (diagonal a) =
      diagonal a := exampleSeq_low _ _ (exampleSeq_diagPow _) rfl _
  rw [h1', h2'] at hd
  unfold dmdEigendecomp at hd
  rw [hu] at hd
  have hd' := (Except.ok.inj hd).symm
  refine ⟨res, corr, cross, hres, by rw [hd']; rfl, ?_, ?_⟩
  · rw [hd']
    unfold EigOfReduced
    have hlow' : lowOrderMap (diagPow (𝕜 := ℝ) (fun _ : Fin 2 => (1 : ℝ)) (-0.5)) (1 : Matrix (Fin 2) (Fin 2) ℝ)
        ((1 : Matrix (Fin 2) (Fin 2) ℝ)ᴴ * 1 * diagonal a) = diagonal a := by
      rw [conjTranspose_one, Matrix.one_mul, Matrix.one_mul, hlow]
    change IsEig (lowOrderMap (diagPow (𝕜 := ℝ) (fun _ : Fin 2 => (1 : ℝ)) (-0.5)) (1 : Matrix (Fin 2) (Fin 2) ℝ)
      ((1 : Matrix (Fin 2) (Fin 2) ℝ)ᴴ * 1 * diagonal a)) (ownEntriesEig
        (lowOrderMap (diagPow (𝕜 := ℝ) (fun _ : Fin 2 => (1 : ℝ)) (-0.5)) (1 : Matrix (Fin 2) (Fin 2) ℝ)
          ((1 : Matrix (Fin 2) (Fin 2) ℝ)ᴴ * 1 * diagonal a)))
    rw [hlow']
    exact ownEntriesEig_isEig a
  · rw [hd']
    change Function.Injective
      (lowOrderMap (diagPow (𝕜 := ℝ) (fun _ : Fin 2 => (1 : ℝ)) (-0.5)) (1 : Matrix (Fin 2) (Fin 2) ℝ) (diagonal a)).diag
    rw [hlow, diag_diagonal]
    exact ha

/-- Advanced vectors with eigenvalues 2 and 3, and time derivatives with time step 1/10. -/
example : ∃ (lib : PodLib ℝ 2 2) (res res' : DmdResult ℝ 2 2) (corr cross corr' cross' : Matrix (Fin 2) (Fin 2) ℝ),
    dmdSnapsPairs lib ownEntriesEig 1 ⟨2, 2, diagonal ![2, 3]⟩ none none (some (1 * (1 / 10))) none none = .ok (res, corr, cross) ∧
    dmdSnapsPairs lib ownEntriesEig 1 ⟨2, 2, (-10 : ℝ) • (1 : Matrix (Fin 2) (Fin 2) ℝ) + (10 : ℝ) • diagonal ![2, 3]⟩ none none
      (some (1 * (1 / 10))) none none = .ok (res', corr', cross') ∧ res.decomp.r = 2 ∧ res'.decomp.r = 2 ∧
    ∃ exact proj adjoint exact' proj' adjoint', Chosen exact none res.exactModes ∧ Chosen proj none res.projModes ∧
      Chosen adjoint none res.adjointModes ∧ Chosen exact' none res'.exactModes ∧ Chosen proj' none res'.projModes ∧
      Chosen adjoint' none res'.adjointModes ∧
      ShiftedModes (-10) 10 res.decomp.eigvals res'.decomp.eigvals exact.col proj.col adjoint.col exact'.col proj'.col adjoint'.col := by
  obtain ⟨lib, heigh, hs, hrun⟩ := exists_diagonalRuns
  have hder : diagonal ![10, 20] = (-10 : ℝ) • (1 : Matrix (Fin 2) (Fin 2) ℝ) + (10 : ℝ) • diagonal ![2, 3] := by
    ext i j
    fin_cases i <;> fin_cases j <;> norm_num
  obtain ⟨res, corr, cross, hres, hr, hE, hinj⟩ := hrun ![2, 3] (by
    intro i j hij
    fin_cases i <;> fin_cases j <;> simp at hij ⊢)
  obtain ⟨res', corr', cross', hres', hr', hE', hinj'⟩ := hrun ![10, 20] (by
    intro i j hij
    fin_cases i <;> fin_cases j <;> simp at hij ⊢)
  rw [hder] at hres' hE'
  exact ⟨lib, res, res', corr, cross, corr', cross', hres, hres', hr, hr', C133_snaps_pairs lib ownEntriesEig ownEntriesEig none none none
    .none _ none none (by norm_num) (by norm_num) (by simp) hs rfl trivial isHermitian_one heigh _ _ res res' corr cross corr' cross'
    hres hres' hE hE' hinj hinj'⟩

end Modred
