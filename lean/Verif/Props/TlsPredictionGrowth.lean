import Verif.Spec.TlsPredictionGrowth
import Verif.Props.PredictionGrowth

/-!
# C127: predictions of total least squares grow no faster than the data
-/

namespace Modred

open Matrix
open scoped ComplexOrder

variable {𝕜 : Type*} [RCLike 𝕜]

section Vectors

variable {E : Type*} [AddCommGroup E] [Module 𝕜 E] {ip : E →ₗ⋆[𝕜] E →ₗ[𝕜] 𝕜} {m : Nat} {X Y : Fin m → E}

/-- Vectors combined by a projection have together at most the energy of the vectors. -/
theorem energy_combine_proj (hnn : ∀ x, 0 ≤ RCLike.re (ip x x)) {P : Matrix (Fin m) (Fin m) 𝕜} (hP : Pᴴ = P) (hPP : P * P = P) :
    ∑ j, ipEnergy ip (combine X P j) ≤ ∑ j, ipEnergy ip (X j) := by
  have e : ∀ Z : Fin m → E, ∑ j, ipEnergy ip (Z j) = RCLike.re (gram ip Z Z).trace := by
    intro Z
    rw [Matrix.trace, map_sum]
    rfl
  have h1 : 0 ≤ ∑ j, ipEnergy ip (combine X (1 - P) j) := Finset.sum_nonneg fun j _ => hnn _
  rw [e, gram_combine] at h1
  rw [e, e, gram_combine, hP]
  have h2 : (P * gram ip X X * P).trace = (P * gram ip X X).trace := by
    rw [trace_mul_comm, ← Matrix.mul_assoc, hPP]
  have h3 : ((1 - P)ᴴ * gram ip X X * (1 - P)).trace = (gram ip X X).trace - (P * gram ip X X).trace := by
    have hQ : (1 - P)ᴴ = 1 - P := by
      rw [conjTranspose_sub, conjTranspose_one, hP]
    have hQQ : (1 - P) * (1 - P) = 1 - P := by
      rw [Matrix.sub_mul, Matrix.mul_sub, Matrix.mul_sub, hPP]
      simp
    rw [hQ, trace_mul_comm, ← Matrix.mul_assoc, hQQ, Matrix.sub_mul, Matrix.one_mul, trace_sub]
  rw [h3, map_sub] at h1
  rw [h2]
  linarith

theorem PredictionsBounded.total (hnn : ∀ x, 0 ≤ RCLike.re (ip x x)) {P : Matrix (Fin m) (Fin m) 𝕜} (hP : Pᴴ = P) (hPP : P * P = P)
    {r : Nat} {eigvals : Fin r → 𝕜} {proj exact : Fin r → E} {coeffs : Matrix (Fin r) (Fin m) 𝕜}
    (h : PredictionsBounded ip (combine X P) (combine Y P) eigvals proj exact coeffs) :
    TotalPredictionsBounded ip X Y eigvals proj exact coeffs := by
  have grow : ∀ q : ℝ, (∀ c : Fin m → 𝕜, ipEnergy ip (lift Y c) ≤ q ^ 2 * ipEnergy ip (lift X c)) →
      ∀ c : Fin m → 𝕜, ipEnergy ip (lift (combine Y P) c) ≤ q ^ 2 * ipEnergy ip (lift (combine X P) c) := by
    intro q hb c
    rw [lift_combine, lift_combine]
    exact hb _
  refine ⟨fun q hq hb k => ?_, fun h0 q hq hb k => ?_⟩
  · refine (Finset.sum_le_sum fun j _ => h.proj q hq (grow q hb) k j).trans ?_
    rw [← Finset.mul_sum]
    exact mul_le_mul_of_nonneg_left (energy_combine_proj hnn hP hPP) (sq_nonneg _)
  · refine (Finset.sum_le_sum fun j _ => h.exact h0 q hq (grow q hb) k j).trans ?_
    rw [← Finset.mul_sum]
    exact mul_le_mul_of_nonneg_left (energy_combine_proj hnn hP hPP) (sq_nonneg _)

theorem TlsCore.predictions (hsym : ∀ x y, ip y x = star (ip x y)) (hnn : ∀ x, 0 ≤ RCLike.re (ip x x)) {t : TlsDecomp 𝕜 m}
    (h : TlsCore (gram ip X X) (gram ip Y Y) (gram ip X Y) t) (hLR : t.d.Lᴴ * t.d.R = 1) :
    TotalPredictionsBounded ip X Y t.d.eigvals (combine X t.buildProj) (combine Y t.buildExact)
      (t.d.Lᴴ * (diagPow (𝕜 := 𝕜) t.d.w 0.5 * t.d.Vᴴ)) := by
  have hcore := h.core
  rw [← gram_proj_vecs, ← gram_proj_vecs] at hcore
  obtain ⟨r1, r2, -⟩ := h.range
  have e1 : combine Y t.buildExact = combine (combine Y t.proj) t.d.buildExact := by
    rw [h.buildExact, combine_combine, r2]
  have e2 : combine X t.buildProj = combine (combine X t.proj) t.d.buildProj := by
    rw [h.buildProj, combine_combine, r1]
  rw [e1, e2]
  exact (hcore.predictions hsym hnn hLR).total hnn t.proj_herm (t.proj_idem h.sum.orthonormal)

end Vectors

/-! ### Arrays -/

theorem TlsOutcome.predictions {n m : Nat} {W : Matrix (Fin n) (Fin n) 𝕜} {K : Matrix (Fin m) (Fin m) 𝕜} {X Y : Matrix (Fin n) (Fin m) 𝕜}
    {modeIndices : Option (List Int)} {res : TlsResult 𝕜 n m} (h : TlsOutcome K X Y modeIndices res)
    (hc : TlsCore (Xᴴ * W * X) (Yᴴ * W * Y) (Xᴴ * W * Y) res.decomp) (hW : W.PosSemidef) (hLR : res.decomp.d.Lᴴ * res.decomp.d.R = 1) :
    ∃ proj exact, Chosen proj modeIndices res.projModes ∧ Chosen exact modeIndices res.exactModes ∧
      TotalPredictionsBounded (weightedIp W) X.col Y.col res.decomp.d.eigvals proj.col exact.col res.projCoeffs := by
  refine ⟨_, _, h.proj, h.exact, ?_⟩
  rw [col_mul, col_mul, h.projCoeffs]
  exact TlsCore.predictions (weightedIp_symm hW) (weightedIp_nonneg hW) (by rw [gram_weighted, gram_weighted, gram_weighted]; exact hc) hLR

section Snaps

variable {n m : Nat} (lib : PodLib 𝕜 n m) (eig : ∀ {r : Nat}, Matrix (Fin r) (Fin r) 𝕜 → EigOut 𝕜 r)
  (modeIndices : Option (List Int)) (weights : Option (NdArray 𝕜)) (ws : Weights 𝕜)
  (t : ℝ) (rtol : Option ℝ) (maxNum : Option Nat)

/-- **C127** for total least squares, the snapshot method and sequential data. -/
theorem C127_tls_snaps_sequential (ht : 0 ≤ t) (hr : ∀ t ∈ rtol, 0 ≤ t) (hs : IsArgsort lib.argsort)
    (hws : arraysInit weights = .ok ws) (hfit : ws.Fits n) (hW : (ws.matrix n).PosSemidef)
    (hlib : ∀ C : Matrix (Fin m) (Fin m) 𝕜, C.IsHermitian → IsEigh C (lib.eigh C)) (Z : Matrix (Fin n) (Fin (m + 1)) 𝕜)
    (res : TlsResult 𝕜 n m) (c : TlsCorr 𝕜 m)
    (hres : tlsSnapsSeq lib eig Z modeIndices weights (some t) rtol maxNum = .ok (res, c))
    (heig : EigOfProjected eig ((seqFirst Z)ᴴ * ws.matrix n * seqNext Z) res.decomp) (hinj : Function.Injective res.decomp.d.eigvals) :
    ∃ proj exact, Chosen proj modeIndices res.projModes ∧ Chosen exact modeIndices res.exactModes ∧
      TotalPredictionsBounded (weightedIp (ws.matrix n)) (seqFirst Z).col (seqNext Z).col res.decomp.d.eigvals proj.col exact.col res.projCoeffs := by
  obtain ⟨rfl, hd, ho⟩ := tlsSnapsSeq_ok lib eig modeIndices weights ws _ rtol maxNum hws hfit Z res c hres
  obtain ⟨hc, hLR⟩ := tlsEigendecomp_core _ _ eig _ _ _ t rtol none maxNum _ hd ht hr (by simp) hs (gram_hermitian hW.isHermitian _)
    (gram_hermitian hW.isHermitian _) hlib heig
  exact ho.predictions hc hW (hLR hinj)

/-- **C127** for total least squares, the snapshot method and pairs of vectors. -/
theorem C127_tls_snaps_pairs (ht : 0 ≤ t) (hr : ∀ t ∈ rtol, 0 ≤ t) (hs : IsArgsort lib.argsort)
    (hws : arraysInit weights = .ok ws) (hfit : ws.Fits n) (hW : (ws.matrix n).PosSemidef)
    (hlib : ∀ C : Matrix (Fin m) (Fin m) 𝕜, C.IsHermitian → IsEigh C (lib.eigh C)) (X Y : Matrix (Fin n) (Fin m) 𝕜)
    (res : TlsResult 𝕜 n m) (c : TlsCorr 𝕜 m)
    (hres : tlsSnapsPairs lib eig X ⟨n, m, Y⟩ modeIndices weights (some t) rtol maxNum = .ok (res, c))
    (heig : EigOfProjected eig (Xᴴ * ws.matrix n * Y) res.decomp) (hinj : Function.Injective res.decomp.d.eigvals) :
    ∃ proj exact, Chosen proj modeIndices res.projModes ∧ Chosen exact modeIndices res.exactModes ∧
      TotalPredictionsBounded (weightedIp (ws.matrix n)) X.col Y.col res.decomp.d.eigvals proj.col exact.col res.projCoeffs := by
  obtain ⟨rfl, hd, ho⟩ := tlsSnapsPairs_ok lib eig modeIndices weights ws _ rtol maxNum hws hfit X Y res c hres
  obtain ⟨hc, hLR⟩ := tlsEigendecomp_core _ _ eig _ _ _ t rtol none maxNum _ hd ht hr (by simp) hs (gram_hermitian hW.isHermitian _)
    (gram_hermitian hW.isHermitian _) hlib heig
  exact ho.predictions hc hW (hLR hinj)

end Snaps

section Direct

variable {n m : Nat} (lib : PodLib 𝕜 n m) (eig : ∀ {r : Nat}, Matrix (Fin r) (Fin r) 𝕜 → EigOut 𝕜 r)
  (svd : Matrix (Fin (n + n)) (Fin m) 𝕜 → SvdOut 𝕜 (n + n) m)
  (modeIndices : Option (List Int)) (ws : DirectWeights 𝕜) (t : ℝ) (rtol : Option ℝ) (maxNum : Option Nat)

/-- **C127** for total least squares, the direct method and sequential data. -/
theorem C127_tls_direct_sequential (ht : 0 ≤ t) (hr : ∀ t ∈ rtol, 0 ≤ t) (hfit : ws.Fits n)
    (hchol : ∀ p q w, ws = .d2 p q w → IsCholesky lib.cholesky (ws.matrix n)) (hlib : ∀ a, IsSvd a (lib.svd a))
    (hlib' : ∀ a, IsSvd a (svd a)) (Z : Matrix (Fin n) (Fin (m + 1)) 𝕜) (res : TlsResult 𝕜 n m)
    (hres : tlsDirectSeq lib eig svd Z modeIndices ws (some t) rtol maxNum = .ok res)
    (heig : EigOfProjected eig ((seqFirst Z)ᴴ * ws.matrix n * seqNext Z) res.decomp) (hinj : Function.Injective res.decomp.d.eigvals) :
    ∃ proj exact, Chosen proj modeIndices res.projModes ∧ Chosen exact modeIndices res.exactModes ∧
      TotalPredictionsBounded (weightedIp (ws.matrix n)) (seqFirst Z).col (seqNext Z).col res.decomp.d.eigvals proj.col exact.col res.projCoeffs := by
  unfold tlsDirectSeq at hres
  split at hres
  · cases hres
  rename_i so hso
  obtain ⟨h1, h2, hLR, ho⟩ := tlsDirectRest_core lib eig svd modeIndices ws t rtol maxNum so hfit hchol hso ht hr hlib hlib' _ _
    res hres heig
  have hW := directWeights_posSemidef ws hfit
  obtain ⟨proj, exact, h3, h4, h5⟩ := ho.predictions h2 hW (hLR hinj)
  rw [col_mul, col_mul] at h5
  exact ⟨proj, exact, h3, h4, h5.total (weightedIp_nonneg hW) res.decomp.proj_herm (res.decomp.proj_idem h1.orthonormal)⟩

/-- **C127** for total least squares, the direct method and pairs of vectors. -/
theorem C127_tls_direct_pairs (ht : 0 ≤ t) (hr : ∀ t ∈ rtol, 0 ≤ t) (hfit : ws.Fits n)
    (hchol : ∀ p q w, ws = .d2 p q w → IsCholesky lib.cholesky (ws.matrix n)) (hlib : ∀ a, IsSvd a (lib.svd a))
    (hlib' : ∀ a, IsSvd a (svd a)) (X Y : Matrix (Fin n) (Fin m) 𝕜) (res : TlsResult 𝕜 n m)
    (hres : tlsDirectPairs lib eig svd X ⟨n, m, Y⟩ modeIndices ws (some t) rtol maxNum = .ok res)
    (heig : EigOfProjected eig (Xᴴ * ws.matrix n * Y) res.decomp) (hinj : Function.Injective res.decomp.d.eigvals) :
    ∃ proj exact, Chosen proj modeIndices res.projModes ∧ Chosen exact modeIndices res.exactModes ∧
      TotalPredictionsBounded (weightedIp (ws.matrix n)) X.col Y.col res.decomp.d.eigvals proj.col exact.col res.projCoeffs := by
  unfold tlsDirectPairs at hres
  split at hres
  · cases hres
  rename_i so hso
  simp only [and_self, dite_true] at hres
  obtain ⟨h1, h2, hLR, ho⟩ := tlsDirectRest_core lib eig svd modeIndices ws t rtol maxNum so hfit hchol hso ht hr hlib hlib' _ _
    res hres heig
  have hW := directWeights_posSemidef ws hfit
  obtain ⟨proj, exact, h3, h4, h5⟩ := ho.predictions h2 hW (hLR hinj)
  rw [col_mul, col_mul] at h5
  exact ⟨proj, exact, h3, h4, h5.total (weightedIp_nonneg hW) res.decomp.proj_herm (res.decomp.proj_idem h1.orthonormal)⟩

end Direct

section Handles

variable {E : Type*} [AddCommGroup E] [Module 𝕜 E] (lib : DmdLib 𝕜) (ip : E →ₗ⋆[𝕜] E →ₗ[𝕜] 𝕜) (t : ℝ) (rtol : Option ℝ)
  (maxNum : Option Nat)

/-- **C127** for `TLSqrDMDHandles` and a sequence of vectors. -/
theorem C127_tls_handles_sequential (g g' : TlsHandles 𝕜 E) (ht : 0 ≤ t) (hlib : lib.Lawful) (hsym : ∀ x y, ip y x = star (ip x y))
    (hnn : ∀ x, 0 ≤ RCLike.re (ip x x)) (vecs : List E)
    (hrun : g.computeDecomp lib (fun x y => ip x y) vecs none (some t) rtol maxNum = (.ok (), g'))
    (d : TlsDecomp 𝕜 (vecs.length - 1)) (hd : g'.decomp = some ⟨vecs.length - 1, d⟩)
    (heig : EigOfProjected lib.eig (gram ip (seqVecs vecs) (seqAdvVecs vecs)) d) (hinj : Function.Injective d.d.eigvals) :
    ∃ proj exact : Fin d.d.r → E,
      (∀ l num a out g'', (a = none ∨ a = some vecs) →
        g'.computeProjModes l num a = (.ok out, g'') → ChosenVecs proj l out) ∧
      (∀ l num a out g'', (a = none ∧ g.adv = none ∨ a = some vecs.tail) →
        g'.computeExactModes l num a = (.ok out, g'') → ChosenVecs exact l out) ∧
      ∃ c c', g'.computeProjCoeffs = .ok (⟨d.d.r, vecs.length - 1, c⟩, ⟨d.d.r, vecs.length - 1, c'⟩) ∧
        TotalPredictionsBounded ip (seqVecs vecs) (seqAdvVecs vecs) d.d.eigvals proj exact c := by
  obtain ⟨d', hd', rfl⟩ := tlsComputeDecomp_seq lib _ g g' vecs (some t) rtol maxNum hrun
  cases hd
  have hm := tlsEigendecomp_pos lib maxNum hd'
  obtain ⟨hc, hLR⟩ := tlsEigendecomp_core _ _ lib.eig _ _ _ t none none maxNum d hd' ht (by simp) (by simp) hlib.argsort
    (gram_herm ip hsym _) (gram_herm ip hsym _) hlib.eigh heig
  exact ⟨_, _, (tls_state_seq vecs _ g.adv d hm).2.1, (tls_state_seq vecs _ g.adv d hm).1, _, _, tlsComputeProjCoeffs_state _ _ _ _, TlsCore.predictions hsym hnn hc (hLR hinj)⟩

/-- **C127** for `TLSqrDMDHandles` and pairs of vectors. -/
theorem C127_tls_handles_pairs (g g' : TlsHandles 𝕜 E) (ht : 0 ≤ t) (hlib : lib.Lawful) (hsym : ∀ x y, ip y x = star (ip x y))
    (hnn : ∀ x, 0 ≤ RCLike.re (ip x x)) (vecs adv : List E)
    (hrun : g.computeDecomp lib (fun x y => ip x y) vecs (some adv) (some t) rtol maxNum = (.ok (), g'))
    (d : TlsDecomp 𝕜 vecs.length) (hd : g'.decomp = some ⟨vecs.length, d⟩) (hlen : vecs.length = adv.length)
    (heig : EigOfProjected lib.eig (gram ip vecs.get (fun j => adv.get (Fin.cast hlen j))) d) (hinj : Function.Injective d.d.eigvals) :
    ∃ proj exact : Fin d.d.r → E,
      (∀ l num a out g'', (a = none ∨ a = some vecs) →
        g'.computeProjModes l num a = (.ok out, g'') → ChosenVecs proj l out) ∧
      (∀ l num a out g'', (a = none ∨ a = some adv) →
        g'.computeExactModes l num a = (.ok out, g'') → ChosenVecs exact l out) ∧
      ∃ c c', g'.computeProjCoeffs = .ok (⟨d.d.r, vecs.length, c⟩, ⟨d.d.r, vecs.length, c'⟩) ∧
        TotalPredictionsBounded ip vecs.get (fun j => adv.get (Fin.cast hlen j)) d.d.eigvals proj exact c := by
  obtain ⟨_, d', hd', rfl⟩ := tlsComputeDecomp_pairs lib _ g g' vecs adv (some t) rtol maxNum hrun
  cases hd
  obtain ⟨hc, hLR⟩ := tlsEigendecomp_core _ _ lib.eig _ _ _ t none none maxNum d hd' ht (by simp) (by simp) hlib.argsort
    (gram_herm ip hsym _) (gram_herm ip hsym _) hlib.eigh heig
  exact ⟨_, _, (tls_state_pairs vecs adv hlen _ d).2.1, (tls_state_pairs vecs adv hlen _ d).1, _, _, tlsComputeProjCoeffs_state _ _ _ _, TlsCore.predictions hsym hnn hc (hLR hinj)⟩

end Handles

/-! ### Examples -/

/-- The sequence of the example. -/
example : ∃ (lib : PodLib ℝ 2 2) (res : TlsResult ℝ 2 2) (c : TlsCorr ℝ 2) (proj exact : Matrix (Fin 2) (Fin res.decomp.d.r) ℝ),
    tlsSnapsSeq lib exampleSeqEig exampleSeq none none (some (1 / 10)) none none = .ok (res, c) ∧
    Chosen proj none res.projModes ∧ Chosen exact none res.exactModes ∧
    TotalPredictionsBounded (weightedIp 1) (seqFirst exampleSeq).col (seqNext exampleSeq).col res.decomp.d.eigvals proj.col exact.col
      res.projCoeffs := by
  obtain ⟨lib, res, c, heigh, hs, hres, hq, hproj, hd, heig⟩ := exampleSeq_tls
  obtain ⟨proj, exact, h1, h2, h3⟩ := C127_tls_snaps_sequential lib exampleSeqEig none none .none (1 / 10) none none
    (by norm_num) (by simp) hs rfl trivial PosSemidef.one heigh exampleSeq res c hres heig
    (by rw [hd]; exact exampleSeqDecomp_distinct.1)
  exact ⟨lib, res, c, proj, exact, hres, h1, h2, h3⟩

/-- The same with handles. -/
example : ∃ (lib : DmdLib ℝ) (g' : TlsHandles ℝ (Fin 2 → ℝ)) (d : TlsDecomp ℝ 2) (proj exact : Fin d.d.r → Fin 2 → ℝ)
    (c c' : Matrix (Fin d.d.r) (Fin 2) ℝ),
    TlsHandles.new.computeDecomp lib (fun x y => dotIp x y) exampleVecs none (some (1 / 10)) none none = (.ok (), g') ∧
    g'.decomp = some ⟨2, d⟩ ∧ g'.computeProjCoeffs = .ok (⟨d.d.r, 2, c⟩, ⟨d.d.r, 2, c'⟩) ∧
    (∀ l num out g'', g'.computeProjModes l num none = (.ok out, g'') → ChosenVecs proj l out) ∧
    TotalPredictionsBounded dotIp (seqVecs exampleVecs) (seqAdvVecs exampleVecs) d.d.eigvals proj exact c := by
  obtain ⟨lib, hlaw, heig, hu⟩ := exists_exampleDmdLib
  obtain ⟨g', d, hrun, hd, hproj, hdd, hE⟩ := exampleVecs_tls_decomp lib hlaw heig hu TlsHandles.new
  obtain ⟨proj, exact, h1, -, c, c', h2, h3⟩ := C127_tls_handles_sequential lib dotIp (1 / 10) none none TlsHandles.new g' (by norm_num)
    hlaw dotIp_symm (fun x => by rw [dotIp_apply]; exact add_nonneg (mul_self_nonneg (x 0)) (mul_self_nonneg (x 1))) exampleVecs hrun d hd
    hE (by rw [hdd]; exact exampleSeqDecomp_distinct.1)
  exact ⟨lib, g', d, proj, exact, c, c', hrun, hd, h2, fun l num out g'' => h1 l num none out g'' (Or.inl rfl), h3⟩

end Modred
