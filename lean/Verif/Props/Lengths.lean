import Verif.Props.DeterminedDmd
import Verif.Props.TlsqrHandles
import Verif.Spec.Lengths

/-!
# Lengths of modes of dynamic mode decomposition (C96)

`util.eig_biorthog` scales left eigenvectors and leaves the right eigenvectors, which LAPACK normalises, as they are.
-/

namespace Modred

open Matrix
open scoped ComplexOrder

variable {𝕜 : Type*} [RCLike 𝕜]

/-- The library returns right eigenvectors of length one, as LAPACK does. -/
def UnitEigenvectors (eig : ∀ {r : Nat}, Matrix (Fin r) (Fin r) 𝕜 → EigOut 𝕜 r) : Prop :=
  ∀ {r : Nat} (a : Matrix (Fin r) (Fin r) 𝕜) (i : Fin r), ((eig a).Rᴴ * (eig a).R) i i = 1

section Core

variable {m : Nat} {C K : Matrix (Fin m) (Fin m) 𝕜} {d : DmdDecomp 𝕜 m}

theorem DmdCore.proj_gram (h : DmdCore C K d) : d.buildProjᴴ * C * d.buildProj = d.Rᴴ * d.R := by
  have e : C * d.V * diagPow (𝕜 := 𝕜) d.w (-0.5) = d.V * diagPow (𝕜 := 𝕜) d.w 0.5 := by
    rw [h.eigen, Matrix.mul_assoc, diagPow_mul _ h.pos, show (1 + -0.5 : ℝ) = 0.5 by norm_num]
  unfold DmdDecomp.buildProj
  rw [conjTranspose_mul, conjTranspose_mul, diagPow_conjTranspose,
    show d.Rᴴ * diagPow (𝕜 := 𝕜) d.w (-0.5) * d.Vᴴ * C * (d.V * (diagPow (𝕜 := 𝕜) d.w (-0.5) * d.R)) =
      d.Rᴴ * diagPow (𝕜 := 𝕜) d.w (-0.5) * d.Vᴴ * (C * d.V * diagPow (𝕜 := 𝕜) d.w (-0.5)) * d.R by
      simp only [Matrix.mul_assoc], e,
    show d.Rᴴ * diagPow (𝕜 := 𝕜) d.w (-0.5) * d.Vᴴ * (d.V * diagPow (𝕜 := 𝕜) d.w 0.5) * d.R =
      d.Rᴴ * (diagPow (𝕜 := 𝕜) d.w (-0.5) * (d.Vᴴ * d.V) * diagPow (𝕜 := 𝕜) d.w 0.5) * d.R by simp only [Matrix.mul_assoc],
    h.orth, Matrix.mul_one, diagPow_mul _ h.pos, show (-0.5 + 0.5 : ℝ) = 0 by norm_num, diagPow_zero, Matrix.mul_one]

theorem DmdCore.adjoint_gram (h : DmdCore C K d) : d.buildAdjointᴴ * C * d.buildAdjoint = d.Lᴴ * d.L := by
  have e : C * d.V * diagPow (𝕜 := 𝕜) d.w (-0.5) = d.V * diagPow (𝕜 := 𝕜) d.w 0.5 := by
    rw [h.eigen, Matrix.mul_assoc, diagPow_mul _ h.pos, show (1 + -0.5 : ℝ) = 0.5 by norm_num]
  unfold DmdDecomp.buildAdjoint
  rw [conjTranspose_mul, conjTranspose_mul, diagPow_conjTranspose,
    show d.Lᴴ * diagPow (𝕜 := 𝕜) d.w (-0.5) * d.Vᴴ * C * (d.V * (diagPow (𝕜 := 𝕜) d.w (-0.5) * d.L)) =
      d.Lᴴ * diagPow (𝕜 := 𝕜) d.w (-0.5) * d.Vᴴ * (C * d.V * diagPow (𝕜 := 𝕜) d.w (-0.5)) * d.L by
      simp only [Matrix.mul_assoc], e,
    show d.Lᴴ * diagPow (𝕜 := 𝕜) d.w (-0.5) * d.Vᴴ * (d.V * diagPow (𝕜 := 𝕜) d.w 0.5) * d.L =
      d.Lᴴ * (diagPow (𝕜 := 𝕜) d.w (-0.5) * (d.Vᴴ * d.V) * diagPow (𝕜 := 𝕜) d.w 0.5) * d.L by simp only [Matrix.mul_assoc],
    h.orth, Matrix.mul_one, diagPow_mul _ h.pos, show (-0.5 + 0.5 : ℝ) = 0 by norm_num, diagPow_zero, Matrix.mul_one]

theorem DmdCore.proj_exact_gram (h : DmdCore C K d) (i : Fin d.r) (h0 : d.eigvals i ≠ 0) :
    (d.buildProjᴴ * K * d.buildExact) i i = (d.Rᴴ * d.R) i i := by
  have e1 : d.buildProjᴴ * K * d.buildExact = d.Rᴴ * (lowOrderMap (diagPow (𝕜 := 𝕜) d.w (-0.5)) d.V K * d.R) *
      diagonal fun i => (d.eigvals i)⁻¹ := by
    unfold lowOrderMap DmdDecomp.buildExact DmdDecomp.buildProj
    rw [conjTranspose_mul, conjTranspose_mul, diagPow_conjTranspose]
    simp only [Matrix.mul_assoc]
  rw [e1, h.right, ← Matrix.mul_assoc, mul_diagonal, mul_diagonal, mul_assoc, mul_inv_cancel₀ h0, mul_one]

/-- What is not shorter than its product with something of length one. -/
theorem one_le_of_products {x y z z' : 𝕜} (hx : x = 1) (hz : z = 1) (hz' : z' = 1) (h : 0 ≤ RCLike.re (y - z - z' + x)) :
    1 ≤ RCLike.re y := by
  subst hx hz hz'
  simp only [map_add, map_sub, RCLike.one_re] at h
  linarith

theorem left_eigenvector_length (hLR : d.Lᴴ * d.R = 1) (hR : ∀ i, (d.Rᴴ * d.R) i i = 1) (i : Fin d.r) :
    1 ≤ RCLike.re ((d.Lᴴ * d.L) i i) := by
  have hRL : d.Rᴴ * d.L = 1 := by
    have := congrArg conjTranspose hLR
    rwa [conjTranspose_mul, conjTranspose_conjTranspose, conjTranspose_one] at this
  refine one_le_of_products (hR i) (z := (d.Lᴴ * d.R) i i) (by rw [hLR, one_apply_eq]) (z' := (d.Rᴴ * d.L) i i)
    (by rw [hRL, one_apply_eq]) ?_
  have e : (d.Lᴴ * d.L) i i - (d.Lᴴ * d.R) i i - (d.Rᴴ * d.L) i i + (d.Rᴴ * d.R) i i =
      ((d.L - d.R)ᴴ * (d.L - d.R)) i i := by
    rw [conjTranspose_sub, Matrix.sub_mul, Matrix.mul_sub, Matrix.mul_sub]
    simp only [Matrix.sub_apply]
    ring
  rw [e]
  exact (RCLike.nonneg_iff.mp ((posSemidef_conjTranspose_mul_self (d.L - d.R)).diag_nonneg (i := i))).1

end Core

theorem DmdCore.lengths {n m : Nat} {W : Matrix (Fin n) (Fin n) 𝕜} {X Y : Matrix (Fin n) (Fin m) 𝕜} {d : DmdDecomp 𝕜 m}
    (h : DmdCore (Xᴴ * W * X) (Xᴴ * W * Y) d) (hW : W.PosSemidef) (hLR : d.Lᴴ * d.R = 1) (hR : ∀ i, (d.Rᴴ * d.R) i i = 1) :
    DmdLengths W d.eigvals (Y * d.buildExact) (X * d.buildProj) (X * d.buildAdjoint) := by
  have g : ∀ {p q r s : Nat} (A : Matrix (Fin n) (Fin p) 𝕜) (B : Matrix (Fin n) (Fin q) 𝕜) (a : Matrix (Fin p) (Fin r) 𝕜)
      (b : Matrix (Fin q) (Fin s) 𝕜), (A * a)ᴴ * W * (B * b) = aᴴ * (Aᴴ * W * B) * b := by
    intro p q r s A B a b
    rw [conjTranspose_mul]
    simp only [Matrix.mul_assoc]
  have hp : ∀ i, ((X * d.buildProj)ᴴ * W * (X * d.buildProj)) i i = 1 := fun i => by rw [g, h.proj_gram, hR]
  refine ⟨hp, fun i h0 => ?_, fun i => ?_⟩
  · have h1 : ((X * d.buildProj)ᴴ * W * (Y * d.buildExact)) i i = 1 := by rw [g, h.proj_exact_gram i h0, hR]
    have h2 : ((Y * d.buildExact)ᴴ * W * (X * d.buildProj)) i i = 1 := by
      revert h1
      generalize Y * d.buildExact = A
      generalize X * d.buildProj = B
      intro h1
      have := congrArg star h1
      rwa [← conjTranspose_apply, conjTranspose_mul, conjTranspose_mul, hW.1.eq, conjTranspose_conjTranspose, star_one,
        ← Matrix.mul_assoc] at this
    refine one_le_of_products (hp i) h2 h1 ?_
    generalize Y * d.buildExact = A
    generalize X * d.buildProj = B
    have e : (Aᴴ * W * A) i i - (Aᴴ * W * B) i i - (Bᴴ * W * A) i i + (Bᴴ * W * B) i i = ((A - B)ᴴ * W * (A - B)) i i := by
      rw [conjTranspose_sub, Matrix.sub_mul, Matrix.sub_mul, Matrix.mul_sub, Matrix.mul_sub]
      simp only [Matrix.sub_apply]
      ring
    rw [e]
    exact (RCLike.nonneg_iff.mp ((hW.conjTranspose_mul_mul_same (A - B)).diag_nonneg (i := i))).1
  · rw [g, h.adjoint_gram]
    exact left_eigenvector_length hLR hR i

theorem DmdCore.lengthsOf {E : Type*} [AddCommGroup E] [Module 𝕜 E] {ip : E →ₗ⋆[𝕜] E →ₗ[𝕜] 𝕜} {m : Nat} {X Y : Fin m → E}
    {d : DmdDecomp 𝕜 m} (h : DmdCore (gram ip X X) (gram ip X Y) d) (hsym : ∀ x y, ip y x = star (ip x y))
    (hnn : ∀ x, 0 ≤ RCLike.re (ip x x)) (hLR : d.Lᴴ * d.R = 1) (hR : ∀ i, (d.Rᴴ * d.R) i i = 1) :
    DmdLengthsOf ip d.eigvals (combine Y d.buildExact) (combine X d.buildProj) (combine X d.buildAdjoint) := by
  have hp : ∀ i, ip (combine X d.buildProj i) (combine X d.buildProj i) = 1 := fun i => by
    rw [← hR i, ← h.proj_gram, ← gram_combine]
    rfl
  refine ⟨hp, fun i h0 => ?_, fun i => ?_⟩
  · have h1 : ip (combine X d.buildProj i) (combine Y d.buildExact i) = 1 := by
      rw [← hR i, ← h.proj_exact_gram i h0, ← gram_combine]
      rfl
    have h2 : ip (combine Y d.buildExact i) (combine X d.buildProj i) = 1 := by rw [hsym, h1, star_one]
    refine one_le_of_products (hp i) h2 h1 ?_
    have := hnn (combine Y d.buildExact i - combine X d.buildProj i)
    simp only [map_sub, LinearMap.sub_apply] at this
    simp only [map_sub, map_add]
    linarith
  · have := left_eigenvector_length hLR hR i
    rw [← h.adjoint_gram, ← gram_combine] at this
    exact this

/-! ### The library's eigenvectors -/

theorem eigBiorthog_unit {eig : ∀ {r : Nat}, Matrix (Fin r) (Fin r) 𝕜 → EigOut 𝕜 r} (hu : UnitEigenvectors eig) {r : Nat}
    {a : Matrix (Fin r) (Fin r) 𝕜} {w : Fin r → 𝕜} {R L : Matrix (Fin r) (Fin r) 𝕜}
    (h : eigBiorthog eig a scaleLeft = .ok (w, R, L)) (i : Fin r) : (Rᴴ * R) i i = 1 := by
  unfold eigBiorthog at h
  dsimp only at h
  rw [if_pos (by decide)] at h
  cases h
  exact hu a i

theorem dmdEigendecomp_unit {m : Nat} {eigh : Matrix (Fin m) (Fin m) 𝕜 → EighOut 𝕜 m}
    {argsort : (Fin m → ℝ) → Equiv.Perm (Fin m)} {eig : ∀ {r : Nat}, Matrix (Fin r) (Fin r) 𝕜 → EigOut 𝕜 r}
    (hu : UnitEigenvectors eig) {C K : Matrix (Fin m) (Fin m) 𝕜} {atol rtol : Option ℝ} {maxNum : Option Nat}
    {d : DmdDecomp 𝕜 m} (hd : dmdEigendecomp eigh argsort eig C K atol rtol maxNum = .ok d) (i : Fin d.r) :
    (d.Rᴴ * d.R) i i = 1 := by
  unfold dmdEigendecomp at hd
  split at hd
  · cases hd
  dsimp only at hd
  split at hd
  · cases hd
  rename_i lam R L hlr
  cases hd
  exact eigBiorthog_unit hu hlr i

theorem dmdDirectRest_unit {n m : Nat} {lib : PodLib 𝕜 n m} {eig : ∀ {r : Nat}, Matrix (Fin r) (Fin r) 𝕜 → EigOut 𝕜 r}
    (hu : UnitEigenvectors eig) {A X Y : Matrix (Fin n) (Fin m) 𝕜} {cross : Svd 𝕜 n m → Matrix (Fin m) (Fin m) 𝕜}
    {idx : Option (List Int)} {atol rtol : Option ℝ} {maxNum : Option Nat} {res : DmdResult 𝕜 n m}
    (hres : dmdDirectRest lib eig A cross X Y idx atol rtol maxNum = .ok res) (i : Fin res.decomp.r) :
    (res.decomp.Rᴴ * res.decomp.R) i i = 1 := by
  unfold dmdDirectRest at hres
  split at hres
  · cases hres
  dsimp only at hres
  split at hres
  · cases hres
  rename_i lam R L hlr
  have hd := dmdFinish_decomp hres
  revert i
  rw [hd]
  intro i
  exact eigBiorthog_unit hu hlr i

/-! ### Arrays -/

section Snaps

variable {n m : Nat} (lib : PodLib 𝕜 n m) (eig : ∀ {r : Nat}, Matrix (Fin r) (Fin r) 𝕜 → EigOut 𝕜 r)
  (modeIndices : Option (List Int)) (weights : Option (NdArray 𝕜)) (ws : Weights 𝕜) (t : ℝ) (rtol : Option ℝ)
  (maxNum : Option Nat)

/-- **C96.** The snapshot method for sequential data. -/
theorem C96_snaps_sequential (hu : UnitEigenvectors eig) (ht : 0 ≤ t) (hr : ∀ t ∈ rtol, 0 ≤ t) (hs : IsArgsort lib.argsort)
    (hws : arraysInit weights = .ok ws) (hfit : ws.Fits n) (hW : (ws.matrix n).PosSemidef)
    (hlib : ∀ C : Matrix (Fin m) (Fin m) 𝕜, C.IsHermitian → IsEigh C (lib.eigh C)) (Z : Matrix (Fin n) (Fin (m + 1)) 𝕜)
    (res : DmdResult 𝕜 n m) (corr cross : Matrix (Fin m) (Fin m) 𝕜)
    (hres : dmdSnapsSeq lib eig Z modeIndices weights (some t) rtol maxNum = .ok (res, corr, cross))
    (heig : EigOfReduced eig (ws.matrix n) (seqFirst Z) (seqNext Z) res.decomp)
    (hinj : Function.Injective res.decomp.eigvals) :
    ∃ exact proj adjoint, Chosen exact modeIndices res.exactModes ∧ Chosen proj modeIndices res.projModes ∧
      Chosen adjoint modeIndices res.adjointModes ∧ DmdLengths (ws.matrix n) res.decomp.eigvals exact proj adjoint := by
  obtain ⟨rfl, rfl, hd, ho⟩ := dmdSnapsSeq_ok lib eig modeIndices weights ws _ rtol maxNum hws hfit Z res corr cross hres
  obtain ⟨hc, hLR⟩ := dmdEigendecomp_core _ _ eig _ _ t rtol maxNum _ hd ht hr hs (gram_hermitian hW.1 _)
    (hlib _ (gram_hermitian hW.1 _)) heig
  exact ⟨_, _, _, ho.exact, ho.proj, ho.adjoint, hc.lengths hW (hLR hinj) (dmdEigendecomp_unit hu hd)⟩

/-- **C96.** The snapshot method for pairs of vectors. -/
theorem C96_snaps_pairs (hu : UnitEigenvectors eig) (ht : 0 ≤ t) (hr : ∀ t ∈ rtol, 0 ≤ t) (hs : IsArgsort lib.argsort)
    (hws : arraysInit weights = .ok ws) (hfit : ws.Fits n) (hW : (ws.matrix n).PosSemidef)
    (hlib : ∀ C : Matrix (Fin m) (Fin m) 𝕜, C.IsHermitian → IsEigh C (lib.eigh C)) (X Y : Matrix (Fin n) (Fin m) 𝕜)
    (res : DmdResult 𝕜 n m) (corr cross : Matrix (Fin m) (Fin m) 𝕜)
    (hres : dmdSnapsPairs lib eig X ⟨n, m, Y⟩ modeIndices weights (some t) rtol maxNum = .ok (res, corr, cross))
    (heig : EigOfReduced eig (ws.matrix n) X Y res.decomp) (hinj : Function.Injective res.decomp.eigvals) :
    ∃ exact proj adjoint, Chosen exact modeIndices res.exactModes ∧ Chosen proj modeIndices res.projModes ∧
      Chosen adjoint modeIndices res.adjointModes ∧ DmdLengths (ws.matrix n) res.decomp.eigvals exact proj adjoint := by
  obtain ⟨rfl, rfl, hd, ho⟩ := dmdSnapsPairs_ok lib eig modeIndices weights ws _ rtol maxNum hws hfit X Y res corr cross hres
  obtain ⟨hc, hLR⟩ := dmdEigendecomp_core _ _ eig _ _ t rtol maxNum _ hd ht hr hs (gram_hermitian hW.1 _)
    (hlib _ (gram_hermitian hW.1 _)) heig
  exact ⟨_, _, _, ho.exact, ho.proj, ho.adjoint, hc.lengths hW (hLR hinj) (dmdEigendecomp_unit hu hd)⟩

theorem tlsEigendecomp_unit (hu : UnitEigenvectors eig) {eigh : Matrix (Fin m) (Fin m) 𝕜 → EighOut 𝕜 m}
    {argsort : (Fin m → ℝ) → Equiv.Perm (Fin m)} {C C' K : Matrix (Fin m) (Fin m) 𝕜} {atol rtol rtol' : Option ℝ}
    {maxNum : Option Nat} {d : TlsDecomp 𝕜 m}
    (hd : tlsEigendecomp eigh argsort eig C C' K atol rtol rtol' maxNum = .ok d) (i : Fin d.d.r) :
    (d.d.Rᴴ * d.d.R) i i = 1 :=
  eigBiorthog_unit hu (tlsEigendecomp_ok _ _ _ _ _ _ _ _ _ _ _ hd).2.2 i

theorem TlsOutcome.lengths {W : Matrix (Fin n) (Fin n) 𝕜} {X Y : Matrix (Fin n) (Fin m) 𝕜}
    {modeIndices : Option (List Int)} {res : TlsResult 𝕜 n m} (h : TlsOutcome (Xᴴ * W * Y) X Y modeIndices res)
    (hc : TlsCore (Xᴴ * W * X) (Yᴴ * W * Y) (Xᴴ * W * Y) res.decomp) (hW : W.PosSemidef)
    (hLR : res.decomp.d.Lᴴ * res.decomp.d.R = 1) (hR : ∀ i, (res.decomp.d.Rᴴ * res.decomp.d.R) i i = 1) :
    ∃ exact proj adjoint, Chosen exact modeIndices res.exactModes ∧ Chosen proj modeIndices res.projModes ∧
      Chosen adjoint modeIndices res.adjointModes ∧ DmdLengths W res.decomp.d.eigvals exact proj adjoint := by
  have hcore := hc.core
  rw [← gram_proj, ← gram_proj] at hcore
  obtain ⟨r1, r2, r3⟩ := hc.range
  have h1 := h.exact
  have h2 := h.proj
  have h3 := h.adjoint
  rw [show Y * res.decomp.buildExact = Y * res.decomp.proj * res.decomp.d.buildExact by
    rw [hc.buildExact, Matrix.mul_assoc, r2]] at h1
  rw [show X * res.decomp.buildProj = X * res.decomp.proj * res.decomp.d.buildProj by
    rw [hc.buildProj, Matrix.mul_assoc, r1]] at h2
  rw [show X * res.decomp.buildAdjoint = X * res.decomp.proj * res.decomp.d.buildAdjoint by
    rw [hc.buildAdjoint, Matrix.mul_assoc, r3]] at h3
  exact ⟨_, _, _, h1, h2, h3, hcore.lengths hW hLR hR⟩

/-- **C96.** The snapshot method with total least squares for sequential data. -/
theorem C96_tls_snaps_sequential (hu : UnitEigenvectors eig) (ht : 0 ≤ t) (hr : ∀ t ∈ rtol, 0 ≤ t)
    (hs : IsArgsort lib.argsort) (hws : arraysInit weights = .ok ws) (hfit : ws.Fits n) (hW : (ws.matrix n).PosSemidef)
    (hlib : ∀ C : Matrix (Fin m) (Fin m) 𝕜, C.IsHermitian → IsEigh C (lib.eigh C)) (Z : Matrix (Fin n) (Fin (m + 1)) 𝕜)
    (res : TlsResult 𝕜 n m) (c : TlsCorr 𝕜 m)
    (hres : tlsSnapsSeq lib eig Z modeIndices weights (some t) rtol maxNum = .ok (res, c))
    (heig : EigOfProjected eig ((seqFirst Z)ᴴ * ws.matrix n * seqNext Z) res.decomp)
    (hinj : Function.Injective res.decomp.d.eigvals) :
    ∃ exact proj adjoint, Chosen exact modeIndices res.exactModes ∧ Chosen proj modeIndices res.projModes ∧
      Chosen adjoint modeIndices res.adjointModes ∧ DmdLengths (ws.matrix n) res.decomp.d.eigvals exact proj adjoint := by
  obtain ⟨rfl, hd, ho⟩ := tlsSnapsSeq_ok lib eig modeIndices weights ws _ rtol maxNum hws hfit Z res c hres
  obtain ⟨hc, hLR⟩ := tlsEigendecomp_core _ _ eig _ _ _ t rtol none maxNum _ hd ht hr (by simp) hs (gram_hermitian hW.1 _)
    (gram_hermitian hW.1 _) hlib heig
  exact ho.lengths hc hW (hLR hinj) (tlsEigendecomp_unit eig hu hd)

/-- **C96.** The snapshot method with total least squares for pairs of vectors. -/
theorem C96_tls_snaps_pairs (hu : UnitEigenvectors eig) (ht : 0 ≤ t) (hr : ∀ t ∈ rtol, 0 ≤ t)
    (hs : IsArgsort lib.argsort) (hws : arraysInit weights = .ok ws) (hfit : ws.Fits n) (hW : (ws.matrix n).PosSemidef)
    (hlib : ∀ C : Matrix (Fin m) (Fin m) 𝕜, C.IsHermitian → IsEigh C (lib.eigh C)) (X Y : Matrix (Fin n) (Fin m) 𝕜)
    (res : TlsResult 𝕜 n m) (c : TlsCorr 𝕜 m)
    (hres : tlsSnapsPairs lib eig X ⟨n, m, Y⟩ modeIndices weights (some t) rtol maxNum = .ok (res, c))
    (heig : EigOfProjected eig (Xᴴ * ws.matrix n * Y) res.decomp) (hinj : Function.Injective res.decomp.d.eigvals) :
    ∃ exact proj adjoint, Chosen exact modeIndices res.exactModes ∧ Chosen proj modeIndices res.projModes ∧
      Chosen adjoint modeIndices res.adjointModes ∧ DmdLengths (ws.matrix n) res.decomp.d.eigvals exact proj adjoint := by
  obtain ⟨rfl, hd, ho⟩ := tlsSnapsPairs_ok lib eig modeIndices weights ws _ rtol maxNum hws hfit X Y res c hres
  obtain ⟨hc, hLR⟩ := tlsEigendecomp_core _ _ eig _ _ _ t rtol none maxNum _ hd ht hr (by simp) hs (gram_hermitian hW.1 _)
    (gram_hermitian hW.1 _) hlib heig
  exact ho.lengths hc hW (hLR hinj) (tlsEigendecomp_unit eig hu hd)

end Snaps

section Direct

variable {n m : Nat} (lib : PodLib 𝕜 n m) (eig : ∀ {r : Nat}, Matrix (Fin r) (Fin r) 𝕜 → EigOut 𝕜 r)
  (modeIndices : Option (List Int)) (ws : DirectWeights 𝕜) (t : ℝ) (rtol : Option ℝ) (maxNum : Option Nat)

theorem dmdDirectPairs_unit (hu : UnitEigenvectors eig) {X Y : Matrix (Fin n) (Fin m) 𝕜} {res : DmdResult 𝕜 n m}
    {atol : Option ℝ} (hres : dmdDirectPairs lib eig X ⟨n, m, Y⟩ modeIndices ws atol rtol maxNum = .ok res)
    (i : Fin res.decomp.r) : (res.decomp.Rᴴ * res.decomp.R) i i = 1 := by
  unfold dmdDirectPairs at hres
  split at hres
  · cases hres
  simp only [and_self, dite_true] at hres
  exact dmdDirectRest_unit hu hres i

/-- **C96.** The direct method for sequential data. -/
theorem C96_direct_sequential (hu : UnitEigenvectors eig) (ht : 0 ≤ t) (hr : ∀ t ∈ rtol, 0 ≤ t) (hfit : ws.Fits n)
    (hchol : ∀ p q w, ws = .d2 p q w → IsCholesky lib.cholesky (ws.matrix n)) (hlib : ∀ a, IsSvd a (lib.svd a))
    (Z : Matrix (Fin n) (Fin (m + 1)) 𝕜) (res : DmdResult 𝕜 n m)
    (hres : dmdDirectSeq lib eig Z modeIndices ws (some t) rtol maxNum = .ok res)
    (heig : EigOfReduced eig (ws.matrix n) (seqFirst Z) (seqNext Z) res.decomp)
    (hinj : Function.Injective res.decomp.eigvals) :
    ∃ exact proj adjoint, Chosen exact modeIndices res.exactModes ∧ Chosen proj modeIndices res.projModes ∧
      Chosen adjoint modeIndices res.adjointModes ∧ DmdLengths (ws.matrix n) res.decomp.eigvals exact proj adjoint := by
  obtain ⟨hc, hLR, ho⟩ := dmdDirectSeq_ok lib eig modeIndices ws t rtol maxNum hfit hchol ht hr hlib Z res hres _ _ rfl rfl heig
  refine ⟨_, _, _, ho.exact, ho.proj, ho.adjoint, hc.lengths (directWeights_posDef ws hfit).posSemidef (hLR hinj) ?_⟩
  unfold dmdDirectSeq at hres
  split at hres
  · cases hres
  exact dmdDirectRest_unit hu hres

/-- **C96.** The direct method for pairs of vectors. -/
theorem C96_direct_pairs (hu : UnitEigenvectors eig) (ht : 0 ≤ t) (hr : ∀ t ∈ rtol, 0 ≤ t) (hfit : ws.Fits n)
    (hchol : ∀ p q w, ws = .d2 p q w → IsCholesky lib.cholesky (ws.matrix n)) (hlib : ∀ a, IsSvd a (lib.svd a))
    (X Y : Matrix (Fin n) (Fin m) 𝕜) (res : DmdResult 𝕜 n m)
    (hres : dmdDirectPairs lib eig X ⟨n, m, Y⟩ modeIndices ws (some t) rtol maxNum = .ok res)
    (heig : EigOfReduced eig (ws.matrix n) X Y res.decomp) (hinj : Function.Injective res.decomp.eigvals) :
    ∃ exact proj adjoint, Chosen exact modeIndices res.exactModes ∧ Chosen proj modeIndices res.projModes ∧
      Chosen adjoint modeIndices res.adjointModes ∧ DmdLengths (ws.matrix n) res.decomp.eigvals exact proj adjoint := by
  obtain ⟨hc, hLR, ho⟩ := dmdDirectPairs_ok lib eig modeIndices ws t rtol maxNum hfit hchol ht hr hlib X Y res hres heig
  exact ⟨_, _, _, ho.exact, ho.proj, ho.adjoint, hc.lengths (directWeights_posDef ws hfit).posSemidef (hLR hinj)
    (dmdDirectPairs_unit lib eig modeIndices ws rtol maxNum hu hres)⟩

variable (svd : Matrix (Fin (n + n)) (Fin m) 𝕜 → SvdOut 𝕜 (n + n) m)

theorem tlsDirectRest_lengths (hu : UnitEigenvectors eig) (so : Option (Matrix (Fin n) (Fin n) 𝕜)) (hfit : ws.Fits n)
    (hchol : ∀ p q w, ws = .d2 p q w → IsCholesky lib.cholesky (ws.matrix n))
    (hso : directSqrtWeights lib.cholesky ws = .ok so) (ht : 0 ≤ t) (hr : ∀ t ∈ rtol, 0 ≤ t)
    (hlib : ∀ a, IsSvd a (lib.svd a)) (hlib' : ∀ a, IsSvd a (svd a)) (X Y : Matrix (Fin n) (Fin m) 𝕜) (res : TlsResult 𝕜 n m)
    (hres : tlsDirectRest lib eig svd so X Y modeIndices ws (some t) rtol maxNum = .ok res)
    (heig : EigOfProjected eig (Xᴴ * ws.matrix n * Y) res.decomp) (hinj : Function.Injective res.decomp.d.eigvals) :
    ∃ exact proj adjoint, Chosen exact modeIndices res.exactModes ∧ Chosen proj modeIndices res.projModes ∧
      Chosen adjoint modeIndices res.adjointModes ∧ DmdLengths (ws.matrix n) res.decomp.d.eigvals exact proj adjoint := by
  obtain ⟨-, hc, hLR, ho⟩ := tlsDirectRest_core lib eig svd modeIndices ws t rtol maxNum so hfit hchol hso ht hr hlib hlib' X Y
    res hres heig
  obtain ⟨-, hd⟩ := tlsDirectRest_ok lib eig svd modeIndices ws rtol maxNum so _ X Y res hres
  exact ⟨_, _, _, ho.exact, ho.proj, ho.adjoint, hc.lengths (directWeights_posDef ws hfit).posSemidef (hLR hinj)
    (dmdDirectPairs_unit lib eig modeIndices ws rtol maxNum hu hd)⟩

/-- **C96.** The direct method with total least squares for sequential data. -/
theorem C96_tls_direct_sequential (hu : UnitEigenvectors eig) (ht : 0 ≤ t) (hr : ∀ t ∈ rtol, 0 ≤ t) (hfit : ws.Fits n)
    (hchol : ∀ p q w, ws = .d2 p q w → IsCholesky lib.cholesky (ws.matrix n)) (hlib : ∀ a, IsSvd a (lib.svd a))
    (hlib' : ∀ a, IsSvd a (svd a)) (Z : Matrix (Fin n) (Fin (m + 1)) 𝕜) (res : TlsResult 𝕜 n m)
    (hres : tlsDirectSeq lib eig svd Z modeIndices ws (some t) rtol maxNum = .ok res)
    (heig : EigOfProjected eig ((seqFirst Z)ᴴ * ws.matrix n * seqNext Z) res.decomp)
    (hinj : Function.Injective res.decomp.d.eigvals) :
    ∃ exact proj adjoint, Chosen exact modeIndices res.exactModes ∧ Chosen proj modeIndices res.projModes ∧
      Chosen adjoint modeIndices res.adjointModes ∧ DmdLengths (ws.matrix n) res.decomp.d.eigvals exact proj adjoint := by
  unfold tlsDirectSeq at hres
  split at hres
  · cases hres
  rename_i so hso
  exact tlsDirectRest_lengths lib eig modeIndices ws t rtol maxNum svd hu so hfit hchol hso ht hr hlib hlib' _ _ res hres heig hinj

/-- **C96.** The direct method with total least squares for pairs of vectors. -/
theorem C96_tls_direct_pairs (hu : UnitEigenvectors eig) (ht : 0 ≤ t) (hr : ∀ t ∈ rtol, 0 ≤ t) (hfit : ws.Fits n)
    (hchol : ∀ p q w, ws = .d2 p q w → IsCholesky lib.cholesky (ws.matrix n)) (hlib : ∀ a, IsSvd a (lib.svd a))
    (hlib' : ∀ a, IsSvd a (svd a)) (X Y : Matrix (Fin n) (Fin m) 𝕜) (res : TlsResult 𝕜 n m)
    (hres : tlsDirectPairs lib eig svd X ⟨n, m, Y⟩ modeIndices ws (some t) rtol maxNum = .ok res)
    (heig : EigOfProjected eig (Xᴴ * ws.matrix n * Y) res.decomp) (hinj : Function.Injective res.decomp.d.eigvals) :
    ∃ exact proj adjoint, Chosen exact modeIndices res.exactModes ∧ Chosen proj modeIndices res.projModes ∧
      Chosen adjoint modeIndices res.adjointModes ∧ DmdLengths (ws.matrix n) res.decomp.d.eigvals exact proj adjoint := by
  unfold tlsDirectPairs at hres
  split at hres
  · cases hres
  rename_i so hso
  simp only [and_self, dite_true] at hres
  exact tlsDirectRest_lengths lib eig modeIndices ws t rtol maxNum svd hu so hfit hchol hso ht hr hlib hlib' _ _ res hres heig hinj

end Direct

/-! ### Handles -/

section Handles

variable {E : Type*} [AddCommGroup E] [Module 𝕜 E] (lib : DmdLib 𝕜) (ip : E →ₗ⋆[𝕜] E →ₗ[𝕜] 𝕜) (t : ℝ) (rtol : Option ℝ)
  (maxNum : Option Nat)

/-- **C96.** `DMDHandles` for sequential data. -/
theorem C96_handles_sequential (g g' : DmdHandles 𝕜 E) (hu : UnitEigenvectors lib.eig) (ht : 0 ≤ t) (hlib : lib.Lawful)
    (hsym : ∀ x y, ip y x = star (ip x y)) (hnn : ∀ x, 0 ≤ RCLike.re (ip x x)) (vecs : List E)
    (hrun : g.computeDecomp lib (fun x y => ip x y) vecs none (some t) rtol maxNum = (.ok (), g'))
    (d : DmdDecomp 𝕜 (vecs.length - 1)) (hd : g'.decomp = some ⟨vecs.length - 1, d⟩)
    (heig : EigOfReducedVecs ip lib.eig (seqVecs vecs) (seqAdvVecs vecs) d) (hinj : Function.Injective d.eigvals) :
    ∃ exact proj adjoint : Fin d.r → E,
      (∀ l num a out g'', (a = none ∧ g.adv = none ∨ a = some vecs.tail) →
        g'.computeExactModes l num a = (.ok out, g'') → ChosenVecs exact l out) ∧
      (∀ l num a out g'', (a = none ∨ a = some vecs) →
        g'.computeProjModes l num a = (.ok out, g'') → ChosenVecs proj l out) ∧
      (∀ l num a out g'', (a = none ∨ a = some vecs) →
        g'.computeAdjointModes l num a = (.ok out, g'') → ChosenVecs adjoint l out) ∧
      DmdLengthsOf ip d.eigvals exact proj adjoint := by
  obtain ⟨d', hd', rfl⟩ := computeDecomp_seq lib _ g g' vecs (some t) rtol maxNum hrun
  cases hd
  obtain ⟨hm, hc, hLR⟩ := handles_modes lib ip t maxNum ht hlib hsym hd' heig
  obtain ⟨h1, h2, h3⟩ := state_seq vecs (handlesIp (fun x y => ip x y) (seqVecs vecs) (seqVecs vecs))
    (handlesIp (fun x y => ip x y) (seqVecs vecs) (seqAdvVecs vecs)) g.adv d hm
  exact ⟨_, _, _, h1, h2, h3, hc.lengthsOf hsym hnn (hLR hinj) (dmdEigendecomp_unit hu hd')⟩

/-- **C96.** `DMDHandles` for pairs of vectors. -/
theorem C96_handles_pairs (g g' : DmdHandles 𝕜 E) (hu : UnitEigenvectors lib.eig) (ht : 0 ≤ t) (hlib : lib.Lawful)
    (hsym : ∀ x y, ip y x = star (ip x y)) (hnn : ∀ x, 0 ≤ RCLike.re (ip x x)) (vecs adv : List E)
    (hrun : g.computeDecomp lib (fun x y => ip x y) vecs (some adv) (some t) rtol maxNum = (.ok (), g'))
    (d : DmdDecomp 𝕜 vecs.length) (hd : g'.decomp = some ⟨vecs.length, d⟩) (hlen : vecs.length = adv.length)
    (heig : EigOfReducedVecs ip lib.eig vecs.get (fun j => adv.get (Fin.cast hlen j)) d)
    (hinj : Function.Injective d.eigvals) :
    ∃ exact proj adjoint : Fin d.r → E,
      (∀ l num a out g'', (a = none ∨ a = some adv) →
        g'.computeExactModes l num a = (.ok out, g'') → ChosenVecs exact l out) ∧
      (∀ l num a out g'', (a = none ∨ a = some vecs) →
        g'.computeProjModes l num a = (.ok out, g'') → ChosenVecs proj l out) ∧
      (∀ l num a out g'', (a = none ∨ a = some vecs) →
        g'.computeAdjointModes l num a = (.ok out, g'') → ChosenVecs adjoint l out) ∧
      DmdLengthsOf ip d.eigvals exact proj adjoint := by
  obtain ⟨_, d', hd', rfl⟩ := computeDecomp_pairs lib _ g g' vecs adv (some t) rtol maxNum hrun
  cases hd
  obtain ⟨hm, hc, hLR⟩ := handles_modes lib ip t maxNum ht hlib hsym hd' heig
  obtain ⟨h1, h2, h3⟩ := state_pairs vecs adv hlen (handlesIp (fun x y => ip x y) vecs.get vecs.get)
    (handlesIp (fun x y => ip x y) vecs.get fun j => adv.get (Fin.cast hlen j)) d
  exact ⟨_, _, _, h1, h2, h3, hc.lengthsOf hsym hnn (hLR hinj) (dmdEigendecomp_unit hu hd')⟩

theorem tls_handles_lengths {m : Nat} {X Y : Fin m → E} {d : TlsDecomp 𝕜 m} (hu : UnitEigenvectors lib.eig) (ht : 0 ≤ t)
    (hlib : lib.Lawful) (hsym : ∀ x y, ip y x = star (ip x y)) (hnn : ∀ x, 0 ≤ RCLike.re (ip x x))
    (hd : tlsEigendecomp lib.eigh lib.argsort lib.eig (gram ip X X) (gram ip Y Y) (gram ip X Y) (some t) none none maxNum = .ok d)
    (heig : EigOfProjected lib.eig (gram ip X Y) d) (hinj : Function.Injective d.d.eigvals) :
    DmdLengthsOf ip d.d.eigvals (combine Y d.buildExact) (combine X d.buildProj) (combine X d.buildAdjoint) := by
  obtain ⟨hc, hLR⟩ := tlsEigendecomp_core _ _ lib.eig _ _ _ t none none maxNum d hd ht (by simp) (by simp) hlib.argsort
    (gram_herm ip hsym X) (gram_herm ip hsym Y) hlib.eigh heig
  have hcore := hc.core
  rw [← gram_proj_vecs, ← gram_proj_vecs] at hcore
  obtain ⟨r1, r2, r3⟩ := hc.range
  rw [show combine Y d.buildExact = combine (combine Y d.proj) d.d.buildExact by rw [hc.buildExact, combine_combine, r2],
    show combine X d.buildProj = combine (combine X d.proj) d.d.buildProj by rw [hc.buildProj, combine_combine, r1],
    show combine X d.buildAdjoint = combine (combine X d.proj) d.d.buildAdjoint by
      rw [hc.buildAdjoint, combine_combine, r3]]
  exact hcore.lengthsOf hsym hnn (hLR hinj) (tlsEigendecomp_unit lib.eig hu hd)

/-- **C96.** `TLSqrDMDHandles` for sequential data. -/
theorem C96_tls_handles_sequential (g g' : TlsHandles 𝕜 E) (hu : UnitEigenvectors lib.eig) (ht : 0 ≤ t) (hlib : lib.Lawful)
    (hsym : ∀ x y, ip y x = star (ip x y)) (hnn : ∀ x, 0 ≤ RCLike.re (ip x x)) (vecs : List E)
    (hrun : g.computeDecomp lib (fun x y => ip x y) vecs none (some t) rtol maxNum = (.ok (), g'))
    (d : TlsDecomp 𝕜 (vecs.length - 1)) (hd : g'.decomp = some ⟨vecs.length - 1, d⟩)
    (heig : EigOfProjected lib.eig (gram ip (seqVecs vecs) (seqAdvVecs vecs)) d) (hinj : Function.Injective d.d.eigvals) :
    ∃ exact proj adjoint : Fin d.d.r → E,
      (∀ l num a out g'', (a = none ∧ g.adv = none ∨ a = some vecs.tail) →
        g'.computeExactModes l num a = (.ok out, g'') → ChosenVecs exact l out) ∧
      (∀ l num a out g'', (a = none ∨ a = some vecs) →
        g'.computeProjModes l num a = (.ok out, g'') → ChosenVecs proj l out) ∧
      (∀ l num a out g'', (a = none ∨ a = some vecs) →
        g'.computeAdjointModes l num a = (.ok out, g'') → ChosenVecs adjoint l out) ∧
      DmdLengthsOf ip d.d.eigvals exact proj adjoint := by
  obtain ⟨d', hd', rfl⟩ := tlsComputeDecomp_seq lib _ g g' vecs (some t) rtol maxNum hrun
  cases hd
  have hm := tlsEigendecomp_pos lib maxNum hd'
  exact ⟨_, _, _, (tls_state_seq vecs _ g.adv d hm).1, (tls_state_seq vecs _ g.adv d hm).2.1,
    (tls_state_seq vecs _ g.adv d hm).2.2, tls_handles_lengths lib ip t maxNum hu ht hlib hsym hnn hd' heig hinj⟩

/-- **C96.** `TLSqrDMDHandles` for pairs of vectors. -/
theorem C96_tls_handles_pairs (g g' : TlsHandles 𝕜 E) (hu : UnitEigenvectors lib.eig) (ht : 0 ≤ t) (hlib : lib.Lawful)
    (hsym : ∀ x y, ip y x = star (ip x y)) (hnn : ∀ x, 0 ≤ RCLike.re (ip x x)) (vecs adv : List E)
    (hrun : g.computeDecomp lib (fun x y => ip x y) vecs (some adv) (some t) rtol maxNum = (.ok (), g'))
    (d : TlsDecomp 𝕜 vecs.length) (hd : g'.decomp = some ⟨vecs.length, d⟩) (hlen : vecs.length = adv.length)
    (heig : EigOfProjected lib.eig (gram ip vecs.get (fun j => adv.get (Fin.cast hlen j))) d)
    (hinj : Function.Injective d.d.eigvals) :
    ∃ exact proj adjoint : Fin d.d.r → E,
      (∀ l num a out g'', (a = none ∨ a = some adv) →
        g'.computeExactModes l num a = (.ok out, g'') → ChosenVecs exact l out) ∧
      (∀ l num a out g'', (a = none ∨ a = some vecs) →
        g'.computeProjModes l num a = (.ok out, g'') → ChosenVecs proj l out) ∧
      (∀ l num a out g'', (a = none ∨ a = some vecs) →
        g'.computeAdjointModes l num a = (.ok out, g'') → ChosenVecs adjoint l out) ∧
      DmdLengthsOf ip d.d.eigvals exact proj adjoint := by
  obtain ⟨_, d', hd', rfl⟩ := tlsComputeDecomp_pairs lib _ g g' vecs adv (some t) rtol maxNum hrun
  cases hd
  exact ⟨_, _, _, (tls_state_pairs vecs adv hlen _ d).1, (tls_state_pairs vecs adv hlen _ d).2.1,
    (tls_state_pairs vecs adv hlen _ d).2.2, tls_handles_lengths lib ip t maxNum hu ht hlib hsym hnn hd' heig hinj⟩

end Handles

/-! ### Example -/

/-- Eigenvalues 3 and 2 of the map with rows (3, 1) and (0, 2), with eigenvectors of length one. -/
noncomputable def exampleUnitEig : ∀ {r : Nat}, Matrix (Fin r) (Fin r) ℝ → EigOut ℝ r
  | 2, _ => ⟨![3, 2], !![1, 0; 1, 1], !![1, 1 / √2; 0, -(1 / √2)]⟩
  | _, _ => ⟨0, 1, 1⟩

theorem exampleUnitEig_unit : UnitEigenvectors exampleUnitEig := by
  intro r a i
  match r, a, i with
  | 0, _, i => exact i.elim0
  | 1, _, i => exact (by simp : ((1 : Matrix (Fin 1) (Fin 1) ℝ)ᴴ * (1 : Matrix (Fin 1) (Fin 1) ℝ)) i i = 1)
  | 2, _, i =>
    have h2 : (√2)⁻¹ * (√2)⁻¹ = (1 / 2 : ℝ) := by
      rw [← mul_inv, Real.mul_self_sqrt (by norm_num)]
      norm_num
    rw [Matrix.mul_apply, Fin.sum_univ_two]
    fin_cases i <;> simp [exampleUnitEig] <;> linarith
  | r + 3, _, i => exact (by simp : ((1 : Matrix (Fin (r + 3)) (Fin (r + 3)) ℝ)ᴴ * (1 : Matrix (Fin (r + 3)) (Fin (r + 3)) ℝ)) i i = 1)

theorem exampleUnitEig_isEig : IsEig (!![3, 1; 0, 2] : Matrix (Fin 2) (Fin 2) ℝ) (exampleUnitEig !![3, 1; 0, 2]) where
  right := by
    ext i j
    rw [mul_diagonal]
    fin_cases i <;> fin_cases j <;> simp [exampleUnitEig, Matrix.mul_apply, Fin.sum_univ_two] <;> ring
  left := by
    ext i j
    rw [diagonal_mul]
    fin_cases i <;> fin_cases j <;> simp [exampleUnitEig, Matrix.mul_apply, Fin.sum_univ_two] <;> norm_num
  right_nonzero := by
    intro j h
    have h0 := congrFun h 0
    fin_cases j <;> simp [exampleUnitEig] at h0
  left_nonzero := by
    intro j h
    have h0 := congrFun h 1
    fin_cases j <;> simp [exampleUnitEig] at h0

/-- Two projected modes, which are not orthogonal, of length one. -/
example : ∃ (lib : PodLib ℝ 2 2) (res : DmdResult ℝ 2 2) (corr cross : Matrix (Fin 2) (Fin 2) ℝ),
    dmdSnapsPairs lib exampleUnitEig 1 ⟨2, 2, !![3, 1; 0, 2]⟩ none none (some (1 * (1 / 10))) none none = .ok (res, corr, cross) ∧
    res.decomp.r = 2 ∧ ∃ exact proj adjoint, Chosen exact none res.exactModes ∧ Chosen proj none res.projModes ∧
      Chosen adjoint none res.adjointModes ∧ DmdLengths 1 res.decomp.eigvals exact proj adjoint := by
  obtain ⟨lib, res, corr, cross, heigh, hs, hres, hd⟩ := snaps_orthogonal 1 (by simp) 1 one_pos exampleUnitEig 1
    !![3, 1; 0, 2] (by simp) none
  refine ⟨lib, res, corr, cross, hres, by rw [hd]; rfl, ?_⟩
  refine C96_snaps_pairs lib exampleUnitEig none none .none _ none none exampleUnitEig_unit (by norm_num) (by simp) hs rfl trivial
    PosSemidef.one heigh _ _ res corr cross hres ?_ ?_
  · rw [hd]
    unfold EigOfReduced
    have hlow : lowOrderMap (diagPow (𝕜 := ℝ) (fun _ : Fin 2 => (1 : ℝ)) (-0.5)) (1 : Matrix (Fin 2) (Fin 2) ℝ)
        ((1 : Matrix (Fin 2) (Fin 2) ℝ)ᴴ * 1 * !![3, 1; 0, 2]) = !![3, 1; 0, 2] := by
      rw [exampleSeq_low _ _ (exampleSeq_diagPow _) rfl]
      simp
    change IsEig (lowOrderMap (diagPow (𝕜 := ℝ) (fun _ : Fin 2 => (1 : ℝ)) (-0.5)) (1 : Matrix (Fin 2) (Fin 2) ℝ)
      ((1 : Matrix (Fin 2) (Fin 2) ℝ)ᴴ * 1 * !![3, 1; 0, 2])) (exampleUnitEig (lowOrderMap _ _ _))
    rw [hlow]
    exact exampleUnitEig_isEig
  · rw [hd]
    refine (?_ : Function.Injective (![3, 2] : Fin 2 → ℝ))
    intro i j hij
    fin_cases i <;> fin_cases j <;> simp at hij ⊢

end Modred
