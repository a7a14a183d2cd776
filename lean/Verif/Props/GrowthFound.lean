import Verif.Spec.GrowthFound
import Verif.Props.Predict
import Verif.Props.SymmetryKept

/-!
# C135: whatever grows at one rate in the data is found
-/

namespace Modred

open Matrix
open scoped ComplexOrder

variable {𝕜 : Type*} [RCLike 𝕜]

section Vectors

variable {E : Type*} [AddCommGroup E] [Module 𝕜 E] {ip : E →ₗ⋆[𝕜] E →ₗ[𝕜] 𝕜} {m : Nat} {X Y : Fin m → E} {d : DmdDecomp 𝕜 m}

theorem DmdCore.found (h : DmdCore (gram ip X X) (gram ip X Y) d) (hLR : d.Lᴴ * d.R = 1) (hinj : Function.Injective d.eigvals)
    {coeffs : Matrix (Fin d.r) (Fin m) 𝕜} (hX : combine (combine X d.buildProj) coeffs = X) (A : E →ₗ[𝕜] E)
    (hA : ∀ j, A (X j) = Y j) : GrowthFound A X d.eigvals (combine Y d.buildExact) (combine X d.buildProj) := by
  intro x hx hx0 z hz
  have hone : lowOrderMap (diagPow (𝕜 := 𝕜) d.w (-0.5)) d.V (gram ip X X) = 1 := by
    unfold lowOrderMap
    rw [← Matrix.mul_assoc (gram ip X X), h.eigen, Matrix.mul_assoc d.V, ← Matrix.mul_assoc d.Vᴴ, h.orth, Matrix.one_mul,
      diagPow_mul _ h.pos, diagPow_mul _ h.pos, show (-0.5 + (1 + -0.5) : ℝ) = 0 by norm_num]
    unfold diagPow
    simp
  have hlow : ∀ K : Matrix (Fin m) (Fin m) 𝕜, d.buildAdjointᴴ * K * d.buildProj =
      d.Lᴴ * lowOrderMap (diagPow (𝕜 := 𝕜) d.w (-0.5)) d.V K * d.R := by
    intro K
    have hadj : d.buildAdjointᴴ = d.Lᴴ * (diagPow (𝕜 := 𝕜) d.w (-0.5) * d.Vᴴ) := by
      unfold DmdDecomp.buildAdjoint
      rw [conjTranspose_mul, conjTranspose_mul, diagPow_conjTranspose, Matrix.mul_assoc]
    rw [hadj]
    unfold DmdDecomp.buildProj lowOrderMap
    simp only [Matrix.mul_assoc]
  have h1 : gram ip (combine X d.buildAdjoint) (combine X d.buildProj) = 1 := by
    rw [gram_combine, hlow, hone, Matrix.mul_one, hLR]
  have h2 : gram ip (combine X d.buildAdjoint) (combine Y d.buildProj) = diagonal d.eigvals := by
    rw [gram_combine, hlow, h.left, Matrix.mul_assoc, hLR, Matrix.mul_one]
  have hAp : ∀ l, A (combine X d.buildProj l) = combine Y d.buildProj l := by
    intro l
    unfold combine
    rw [map_sum]
    exact Finset.sum_congr rfl fun j _ => by rw [map_smul, hA]
  obtain ⟨a, ha⟩ := (Submodule.mem_span_range_iff_exists_fun 𝕜).mp hx
  have hspan : ∃ t : Fin d.r → 𝕜, x = ∑ l, t l • combine X d.buildProj l := by
    refine ⟨coeffs *ᵥ a, ?_⟩
    rw [← ha]
    have h3 : ∀ j, X j = ∑ l, coeffs l j • combine X d.buildProj l := fun j => (congrFun hX j).symm
    calc ∑ j, a j • X j = ∑ j, ∑ l, (coeffs l j * a j) • combine X d.buildProj l := by
          refine Finset.sum_congr rfl fun j _ => ?_
          conv_lhs => rw [h3 j]
          rw [Finset.smul_sum]
          exact Finset.sum_congr rfl fun l _ => by rw [smul_smul, mul_comm]
      _ = ∑ l, (coeffs *ᵥ a) l • combine X d.buildProj l := by
          rw [Finset.sum_comm]
          refine Finset.sum_congr rfl fun l _ => ?_
          rw [← Finset.sum_smul]
          rfl
  obtain ⟨t, ht⟩ := hspan
  have key : ∀ i, d.eigvals i * t i = z * t i := by
    intro i
    have h4 : ip (combine X d.buildAdjoint i) x = t i := by
      rw [ht, map_sum, Finset.sum_eq_single i]
      · rw [map_smul, smul_eq_mul]
        have := congrFun (congrFun h1 i) i
        rw [one_apply_eq] at this
        rw [show ip (combine X d.buildAdjoint i) (combine X d.buildProj i) = 1 from this, mul_one]
      · intro l _ hl
        have := congrFun (congrFun h1 i) l
        rw [one_apply_ne hl.symm] at this
        rw [map_smul, show ip (combine X d.buildAdjoint i) (combine X d.buildProj l) = 0 from this, smul_zero]
      · intro hi
        exact absurd (Finset.mem_univ _) hi
    have h5 : ip (combine X d.buildAdjoint i) (A x) = d.eigvals i * t i := by
      rw [ht, map_sum, map_sum, Finset.sum_eq_single i]
      · rw [map_smul, map_smul, smul_eq_mul, hAp]
        have := congrFun (congrFun h2 i) i
        rw [diagonal_apply_eq] at this
        rw [show ip (combine X d.buildAdjoint i) (combine Y d.buildProj i) = d.eigvals i from this, mul_comm]
      · intro l _ hl
        have := congrFun (congrFun h2 i) l
        rw [diagonal_apply_ne _ hl.symm] at this
        rw [map_smul, map_smul, hAp, show ip (combine X d.buildAdjoint i) (combine Y d.buildProj l) = 0 from this, smul_zero]
      · intro hi
        exact absurd (Finset.mem_univ _) hi
    rw [← h5, hz, map_smul, smul_eq_mul, h4]
  have hex : ∃ i, t i ≠ 0 := by
    by_contra hc
    push Not at hc
    refine hx0 ?_
    rw [ht]
    simp [hc]
  obtain ⟨i, hi⟩ := hex
  have hzi : d.eigvals i = z := mul_right_cancel₀ hi (key i)
  have hxi : x = t i • combine X d.buildProj i := by
    rw [ht]
    refine Finset.sum_eq_single i (fun l _ hl => ?_) fun hi => absurd (Finset.mem_univ _) hi
    by_cases hl0 : t l = 0
    · rw [hl0, zero_smul]
    · exact absurd (hinj ((mul_right_cancel₀ hl0 (key l)).trans hzi.symm)) hl
  refine ⟨i, hzi, ⟨t i, hi, hxi⟩, fun hz0 => ?_⟩
  have h6 : combine Y d.buildExact i = (d.eigvals i)⁻¹ • combine Y d.buildProj i := by
    have h9 : d.buildExact = d.buildProj * diagonal fun i => (d.eigvals i)⁻¹ := by
      unfold DmdDecomp.buildExact DmdDecomp.buildProj
      simp only [Matrix.mul_assoc]
    rw [h9, ← combine_combine, combine_diagonal]
  have h7 : A (combine X d.buildProj i) = z • combine X d.buildProj i := by
    have h8 : combine X d.buildProj i = (t i)⁻¹ • x := by rw [hxi, smul_smul, inv_mul_cancel₀ hi, one_smul]
    rw [h8, map_smul, hz, smul_comm]
  rw [h6, ← hAp, h7, smul_smul, hzi, inv_mul_cancel₀ hz0, one_smul]

end Vectors

theorem DmdOutcome.found {n m : Nat} {W : Matrix (Fin n) (Fin n) 𝕜} {X Y : Matrix (Fin n) (Fin m) 𝕜}
    {modeIndices : Option (List Int)} {res : DmdResult 𝕜 n m} (h : DmdOutcome W X Y modeIndices res)
    (hc : DmdCore (Xᴴ * W * X) (Xᴴ * W * Y) res.decomp) (hW : W.PosSemidef)
    (hLR : Function.Injective res.decomp.eigvals → res.decomp.Lᴴ * res.decomp.R = 1)
    (hinj : Function.Injective res.decomp.eigvals) (hrank : res.decomp.r = X.rank)
    (A : Matrix (Fin n) (Fin n) 𝕜) (hA : A * X = Y) :
    ∃ exact proj, Chosen exact modeIndices res.exactModes ∧ Chosen proj modeIndices res.projModes ∧
      GrowthFound A.mulVecLin X.col res.decomp.eigvals exact.col proj.col := by
  have hb := (hc.best hW hLR).data hinj hrank
  refine ⟨_, _, h.exact, h.proj, ?_⟩
  rw [col_mul, col_mul]
  rw [← gram_weighted, ← gram_weighted] at hc
  have hX := congrArg Matrix.col hb
  rw [col_mul, col_mul] at hX
  refine hc.found (hLR hinj) hinj hX A.mulVecLin fun j => ?_
  rw [← hA]
  rfl

section Snaps

variable {n m : Nat} (lib : PodLib 𝕜 n m) (eig : ∀ {r : Nat}, Matrix (Fin r) (Fin r) 𝕜 → EigOut 𝕜 r)
  (modeIndices : Option (List Int)) (weights : Option (NdArray 𝕜)) (ws : Weights 𝕜)
  (t : ℝ) (rtol : Option ℝ) (maxNum : Option Nat)

/-- **C135** for the snapshot method and sequential data. -/
theorem C135_snaps_sequential (ht : 0 ≤ t) (hr : ∀ t ∈ rtol, 0 ≤ t) (hs : IsArgsort lib.argsort)
    (hws : arraysInit weights = .ok ws) (hfit : ws.Fits n) (hW : (ws.matrix n).PosSemidef)
    (hlib : ∀ C : Matrix (Fin m) (Fin m) 𝕜, C.IsHermitian → IsEigh C (lib.eigh C)) (Z : Matrix (Fin n) (Fin (m + 1)) 𝕜)
    (res : DmdResult 𝕜 n m) (corr cross : Matrix (Fin m) (Fin m) 𝕜)
    (hres : dmdSnapsSeq lib eig Z modeIndices weights (some t) rtol maxNum = .ok (res, corr, cross))
    (heig : EigOfReduced eig (ws.matrix n) (seqFirst Z) (seqNext Z) res.decomp)
    (hinj : Function.Injective res.decomp.eigvals) (hrank : res.decomp.r = (seqFirst Z).rank)
    (A : Matrix (Fin n) (Fin n) 𝕜) (hA : A * seqFirst Z = seqNext Z) :
    ∃ exact proj, Chosen exact modeIndices res.exactModes ∧ Chosen proj modeIndices res.projModes ∧
      GrowthFound A.mulVecLin (seqFirst Z).col res.decomp.eigvals exact.col proj.col := by
  obtain ⟨rfl, rfl, hd, ho⟩ := dmdSnapsSeq_ok lib eig modeIndices weights ws _ rtol maxNum hws hfit Z res corr cross hres
  obtain ⟨hc, hLR⟩ := dmdEigendecomp_core _ _ eig _ _ t rtol maxNum _ hd ht hr hs (gram_hermitian hW.isHermitian _)
    (hlib _ (gram_hermitian hW.isHermitian _)) heig
  exact ho.found hc hW hLR hinj hrank A hA

/-- **C135** for the snapshot method and pairs of vectors. -/
theorem C135_snaps_pairs (ht : 0 ≤ t) (hr : ∀ t ∈ rtol, 0 ≤ t) (hs : IsArgsort lib.argsort)
    (hws : arraysInit weights = .ok ws) (hfit : ws.Fits n) (hW : (ws.matrix n).PosSemidef)
    (hlib : ∀ C : Matrix (Fin m) (Fin m) 𝕜, C.IsHermitian → IsEigh C (lib.eigh C)) (X Y : Matrix (Fin n) (Fin m) 𝕜)
    (res : DmdResult 𝕜 n m) (corr cross : Matrix (Fin m) (Fin m) 𝕜)
    (hres : dmdSnapsPairs lib eig X ⟨n, m, Y⟩ modeIndices weights (some t) rtol maxNum = .ok (res, corr, cross))
    (heig : EigOfReduced eig (ws.matrix n) X Y res.decomp)
    (hinj : Function.Injective res.decomp.eigvals) (hrank : res.decomp.r = X.rank)
    (A : Matrix (Fin n) (Fin n) 𝕜) (hA : A * X = Y) :
    ∃ exact proj, Chosen exact modeIndices res.exactModes ∧ Chosen proj modeIndices res.projModes ∧
      GrowthFound A.mulVecLin X.col res.decomp.eigvals exact.col proj.col := by
  obtain ⟨rfl, rfl, hd, ho⟩ := dmdSnapsPairs_ok lib eig modeIndices weights ws _ rtol maxNum hws hfit X Y res corr cross hres
  obtain ⟨hc, hLR⟩ := dmdEigendecomp_core _ _ eig _ _ t rtol maxNum _ hd ht hr hs (gram_hermitian hW.isHermitian _)
    (hlib _ (gram_hermitian hW.isHermitian _)) heig
  exact ho.found hc hW hLR hinj hrank A hA

end Snaps

section Direct

variable {n m : Nat} (lib : PodLib 𝕜 n m) (eig : ∀ {r : Nat}, Matrix (Fin r) (Fin r) 𝕜 → EigOut 𝕜 r)
  (modeIndices : Option (List Int)) (ws : DirectWeights 𝕜) (t : ℝ) (rtol : Option ℝ) (maxNum : Option Nat)

/-- **C135** for the direct method and sequential data. -/
theorem C135_direct_sequential (ht : 0 ≤ t) (hr : ∀ t ∈ rtol, 0 ≤ t) (hfit : ws.Fits n)
    (hchol : ∀ p q w, ws = .d2 p q w → IsCholesky lib.cholesky (ws.matrix n)) (hlib : ∀ a, IsSvd a (lib.svd a))
    (Z : Matrix (Fin n) (Fin (m + 1)) 𝕜) (res : DmdResult 𝕜 n m)
    (hres : dmdDirectSeq lib eig Z modeIndices ws (some t) rtol maxNum = .ok res)
    (heig : EigOfReduced eig (ws.matrix n) (seqFirst Z) (seqNext Z) res.decomp)
    (hinj : Function.Injective res.decomp.eigvals) (hrank : res.decomp.r = (seqFirst Z).rank)
    (A : Matrix (Fin n) (Fin n) 𝕜) (hA : A * seqFirst Z = seqNext Z) :
    ∃ exact proj, Chosen exact modeIndices res.exactModes ∧ Chosen proj modeIndices res.projModes ∧
      GrowthFound A.mulVecLin (seqFirst Z).col res.decomp.eigvals exact.col proj.col := by
  obtain ⟨hc, hLR, ho⟩ := dmdDirectSeq_ok lib eig modeIndices ws t rtol maxNum hfit hchol ht hr hlib Z res hres _ _ rfl rfl heig
  exact ho.found hc (directWeights_posSemidef ws hfit) hLR hinj hrank A hA

/-- **C135** for the direct method and pairs of vectors. -/
theorem C135_direct_pairs (ht : 0 ≤ t) (hr : ∀ t ∈ rtol, 0 ≤ t) (hfit : ws.Fits n)
    (hchol : ∀ p q w, ws = .d2 p q w → IsCholesky lib.cholesky (ws.matrix n)) (hlib : ∀ a, IsSvd a (lib.svd a))
    (X Y : Matrix (Fin n) (Fin m) 𝕜) (res : DmdResult 𝕜 n m)
    (hres : dmdDirectPairs lib eig X ⟨n, m, Y⟩ modeIndices ws (some t) rtol maxNum = .ok res)
    (heig : EigOfReduced eig (ws.matrix n) X Y res.decomp)
    (hinj : Function.Injective res.decomp.eigvals) (hrank : res.decomp.r = X.rank)
    (A : Matrix (Fin n) (Fin n) 𝕜) (hA : A * X = Y) :
    ∃ exact proj, Chosen exact modeIndices res.exactModes ∧ Chosen proj modeIndices res.projModes ∧
      GrowthFound A.mulVecLin X.col res.decomp.eigvals exact.col proj.col := by
  obtain ⟨hc, hLR, ho⟩ := dmdDirectPairs_ok lib eig modeIndices ws t rtol maxNum hfit hchol ht hr hlib X Y res hres heig
  exact ho.found hc (directWeights_posSemidef ws hfit) hLR hinj hrank A hA

end Direct

section Handles

variable {E : Type*} [AddCommGroup E] [Module 𝕜 E] (lib : DmdLib 𝕜) (ip : E →ₗ⋆[𝕜] E →ₗ[𝕜] 𝕜) (g g' : DmdHandles 𝕜 E) (t : ℝ)
  (rtol : Option ℝ) (maxNum : Option Nat)

/-- **C135** for `DMDHandles` and sequential data. -/
theorem C135_handles_sequential (ht : 0 ≤ t) (hlib : lib.Lawful) (hsym : ∀ x y, ip y x = star (ip x y))
    (hnn : ∀ x, 0 ≤ RCLike.re (ip x x)) (hdef : ∀ v, ip v v = 0 → v = 0) (vecs : List E)
    (hrun : g.computeDecomp lib (fun x y => ip x y) vecs none (some t) rtol maxNum = (.ok (), g'))
    (d : DmdDecomp 𝕜 (vecs.length - 1)) (hd : g'.decomp = some ⟨vecs.length - 1, d⟩)
    (heig : EigOfReducedVecs ip lib.eig (seqVecs vecs) (seqAdvVecs vecs) d) (hinj : Function.Injective d.eigvals)
    (hrank : d.r = (gram ip (seqVecs vecs) (seqVecs vecs)).rank) (A : E →ₗ[𝕜] E)
    (hA : ∀ j, A (seqVecs vecs j) = seqAdvVecs vecs j) :
    ∃ exact proj : Fin d.r → E,
      (∀ l num a out g'', (a = none ∧ g.adv = none ∨ a = some vecs.tail) →
        g'.computeExactModes l num a = (.ok out, g'') → ChosenVecs exact l out) ∧
      (∀ l num a out g'', (a = none ∨ a = some vecs) →
        g'.computeProjModes l num a = (.ok out, g'') → ChosenVecs proj l out) ∧
      GrowthFound A (seqVecs vecs) d.eigvals exact proj := by
  obtain ⟨d', hd', rfl⟩ := computeDecomp_seq lib _ g g' vecs (some t) rtol maxNum hrun
  cases hd
  obtain ⟨hm, hc, hLR⟩ := handles_modes lib ip t maxNum ht hlib hsym hd' heig
  obtain ⟨h1, h2, -⟩ := state_seq vecs (handlesIp (fun x y => ip x y) (seqVecs vecs) (seqVecs vecs))
    (handlesIp (fun x y => ip x y) (seqVecs vecs) (seqAdvVecs vecs)) g.adv d hm
  exact ⟨_, _, h1, h2, hc.found (hLR hinj) hinj (funext ((hc.handleBest hsym hnn hLR).data hinj hrank hdef)) A hA⟩

/-- **C135** for `DMDHandles` and pairs of vectors. -/
theorem C135_handles_pairs (ht : 0 ≤ t) (hlib : lib.Lawful) (hsym : ∀ x y, ip y x = star (ip x y))
    (hnn : ∀ x, 0 ≤ RCLike.re (ip x x)) (hdef : ∀ v, ip v v = 0 → v = 0) (vecs adv : List E)
    (hrun : g.computeDecomp lib (fun x y => ip x y) vecs (some adv) (some t) rtol maxNum = (.ok (), g'))
    (d : DmdDecomp 𝕜 vecs.length) (hd : g'.decomp = some ⟨vecs.length, d⟩) (hlen : vecs.length = adv.length)
    (heig : EigOfReducedVecs ip lib.eig vecs.get (fun j => adv.get (Fin.cast hlen j)) d)
    (hinj : Function.Injective d.eigvals) (hrank : d.r = (gram ip vecs.get vecs.get).rank) (A : E →ₗ[𝕜] E)
    (hA : ∀ j, A (vecs.get j) = adv.get (Fin.cast hlen j)) :
    ∃ exact proj : Fin d.r → E,
      (∀ l num a out g'', (a = none ∨ a = some adv) →
        g'.computeExactModes l num a = (.ok out, g'') → ChosenVecs exact l out) ∧
      (∀ l num a out g'', (a = none ∨ a = some vecs) →
        g'.computeProjModes l num a = (.ok out, g'') → ChosenVecs proj l out) ∧
      GrowthFound A vecs.get d.eigvals exact proj := by
  obtain ⟨_, d', hd', rfl⟩ := computeDecomp_pairs lib _ g g' vecs adv (some t) rtol maxNum hrun
  cases hd
  obtain ⟨hm, hc, hLR⟩ := handles_modes lib ip t maxNum ht hlib hsym hd' heig
  obtain ⟨h1, h2, -⟩ := state_pairs vecs adv hlen (handlesIp (fun x y => ip x y) vecs.get vecs.get)
    (handlesIp (fun x y => ip x y) vecs.get fun j => adv.get (Fin.cast hlen j)) d
  exact ⟨_, _, h1, h2, hc.found (hLR hinj) hinj (funext ((hc.handleBest hsym hnn hLR).data hinj hrank hdef)) A hA⟩

end Handles

/-! ### Example -/

/-- The system `[[0, -2], [1, 3]]` multiplies (-2, 1) by 1, which is one of the eigenvalues found. -/
example : ∃ (lib : PodLib ℝ 2 2) (res : DmdResult ℝ 2 2) (corr cross : Matrix (Fin 2) (Fin 2) ℝ),
    dmdSnapsSeq lib exampleSeqEig exampleSeq none none (some (1 / 10)) none none = .ok (res, corr, cross) ∧
    ∃ exact proj : Matrix (Fin 2) (Fin res.decomp.r) ℝ, Chosen exact none res.exactModes ∧ Chosen proj none res.projModes ∧
      ∃ i, res.decomp.eigvals i = 1 ∧ (∃ c : ℝ, c ≠ 0 ∧ ![-2, 1] = c • proj.col i) ∧ exact.col i = proj.col i := by
  obtain ⟨lib, res, corr, cross, heigh, hs, hres, hd⟩ := exampleSeq_snaps
  obtain ⟨exact, proj, h1, h2, h3⟩ := C135_snaps_sequential lib exampleSeqEig none none .none (1 / 10) none none
    (by norm_num) (by simp) hs rfl trivial PosSemidef.one heigh exampleSeq res corr cross hres
    (by rw [hd]; exact exampleSeqDecomp_eig) (by rw [hd]; exact exampleSeqDecomp_distinct.1)
    (by rw [exampleSeq_first, rank_one, hd]; rfl) !![0, -2; 1, 3] (by rw [exampleSeq_first, exampleSeq_next, Matrix.mul_one])
  refine ⟨lib, res, corr, cross, hres, exact, proj, h1, h2, ?_⟩
  have h4 := h3 ![-2, 1] ?_ ?_ 1 ?_
  · obtain ⟨i, h4, h5, h6⟩ := h4
    exact ⟨i, h4, h5, h6 one_ne_zero⟩
  · rw [exampleSeq_first]
    refine (Submodule.mem_span_range_iff_exists_fun ℝ).mpr ⟨![-2, 1], ?_⟩
    ext i
    fin_cases i <;> simp [Matrix.col, Matrix.one_apply]
  · intro h
    have := congrFun h 1
    simp at this
  · ext i
    fin_cases i <;> simp [Matrix.mulVec, dotProduct, Fin.sum_univ_two] <;> norm_num

end Modred
