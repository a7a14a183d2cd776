import Verif.Lemmas.LeastSquares
import Verif.Props.Optimal
import Verif.Props.Dmd
import Verif.Props.DmdHandles

/-!
# C71: dynamic mode decomposition is a least-squares fit
-/

namespace Modred

open Matrix
open scoped ComplexOrder

variable {𝕜 : Type*} [RCLike 𝕜]

theorem DmdOutcome.best {n m : Nat} {W : Matrix (Fin n) (Fin n) 𝕜} {X Y : Matrix (Fin n) (Fin m) 𝕜}
    {modeIndices : Option (List Int)} {res : DmdResult 𝕜 n m} (h : DmdOutcome W X Y modeIndices res)
    (hc : DmdCore (Xᴴ * W * X) (Xᴴ * W * Y) res.decomp) (hW : W.PosSemidef)
    (hLR : Function.Injective res.decomp.eigvals → res.decomp.Lᴴ * res.decomp.R = 1) :
    ∃ exact proj, Chosen exact modeIndices res.exactModes ∧ Chosen proj modeIndices res.projModes ∧
      DmdBest W X Y res.decomp.eigvals exact proj res.projCoeffs res.advProjCoeffs := by
  refine ⟨_, _, h.exact, h.proj, ?_⟩
  rw [h.projCoeffs, h.advProjCoeffs]
  exact hc.best hW hLR

section Snaps

variable {n m : Nat} (lib : PodLib 𝕜 n m) (eig : ∀ {r : Nat}, Matrix (Fin r) (Fin r) 𝕜 → EigOut 𝕜 r)
  (modeIndices : Option (List Int)) (weights : Option (NdArray 𝕜)) (ws : Weights 𝕜)
  (t : ℝ) (rtol : Option ℝ) (maxNum : Option Nat)

/-- **C71** for the snapshot method and sequential data. -/
theorem C71_snaps_sequential (ht : 0 ≤ t) (hr : ∀ t ∈ rtol, 0 ≤ t) (hs : IsArgsort lib.argsort)
    (hws : arraysInit weights = .ok ws) (hfit : ws.Fits n) (hW : (ws.matrix n).PosSemidef)
    (hlib : ∀ C : Matrix (Fin m) (Fin m) 𝕜, C.IsHermitian → IsEigh C (lib.eigh C)) (Z : Matrix (Fin n) (Fin (m + 1)) 𝕜)
    (res : DmdResult 𝕜 n m) (corr cross : Matrix (Fin m) (Fin m) 𝕜)
    (hres : dmdSnapsSeq lib eig Z modeIndices weights (some t) rtol maxNum = .ok (res, corr, cross))
    (heig : EigOfReduced eig (ws.matrix n) (seqFirst Z) (seqNext Z) res.decomp) :
    ∃ exact proj, Chosen exact modeIndices res.exactModes ∧ Chosen proj modeIndices res.projModes ∧
      DmdBest (ws.matrix n) (seqFirst Z) (seqNext Z) res.decomp.eigvals exact proj res.projCoeffs res.advProjCoeffs := by
  obtain ⟨rfl, rfl, hd, ho⟩ := dmdSnapsSeq_ok lib eig modeIndices weights ws _ rtol maxNum hws hfit Z res corr cross hres
  obtain ⟨hc, hLR⟩ := dmdEigendecomp_core _ _ eig _ _ t rtol maxNum _ hd ht hr hs (gram_hermitian hW.isHermitian _)
    (hlib _ (gram_hermitian hW.isHermitian _)) heig
  exact ho.best hc hW hLR

/-- **C71** for the snapshot method and pairs of vectors. -/
theorem C71_snaps_pairs (ht : 0 ≤ t) (hr : ∀ t ∈ rtol, 0 ≤ t) (hs : IsArgsort lib.argsort)
    (hws : arraysInit weights = .ok ws) (hfit : ws.Fits n) (hW : (ws.matrix n).PosSemidef)
    (hlib : ∀ C : Matrix (Fin m) (Fin m) 𝕜, C.IsHermitian → IsEigh C (lib.eigh C)) (X Y : Matrix (Fin n) (Fin m) 𝕜)
    (res : DmdResult 𝕜 n m) (corr cross : Matrix (Fin m) (Fin m) 𝕜)
    (hres : dmdSnapsPairs lib eig X ⟨n, m, Y⟩ modeIndices weights (some t) rtol maxNum = .ok (res, corr, cross))
    (heig : EigOfReduced eig (ws.matrix n) X Y res.decomp) :
    ∃ exact proj, Chosen exact modeIndices res.exactModes ∧ Chosen proj modeIndices res.projModes ∧
      DmdBest (ws.matrix n) X Y res.decomp.eigvals exact proj res.projCoeffs res.advProjCoeffs := by
  obtain ⟨rfl, rfl, hd, ho⟩ := dmdSnapsPairs_ok lib eig modeIndices weights ws _ rtol maxNum hws hfit X Y res corr cross hres
  obtain ⟨hc, hLR⟩ := dmdEigendecomp_core _ _ eig _ _ t rtol maxNum _ hd ht hr hs (gram_hermitian hW.isHermitian _)
    (hlib _ (gram_hermitian hW.isHermitian _)) heig
  exact ho.best hc hW hLR

end Snaps

section Direct

variable {n m : Nat} (lib : PodLib 𝕜 n m) (eig : ∀ {r : Nat}, Matrix (Fin r) (Fin r) 𝕜 → EigOut 𝕜 r)
  (modeIndices : Option (List Int)) (ws : DirectWeights 𝕜) (t : ℝ) (rtol : Option ℝ) (maxNum : Option Nat)

theorem directWeights_posSemidef (hfit : ws.Fits n) : (ws.matrix n).PosSemidef := by
  cases ws with
  | none => exact PosSemidef.one
  | higher => exact hfit.elim
  | d1 k w =>
    refine PosSemidef.diagonal fun i => ?_
    simpa using (RCLike.ofReal_nonneg (K := 𝕜)).2 (hfit.2 i).le
  | d2 p q w => exact hfit.2.2.posSemidef

/-- **C71** for the direct method and sequential data. -/
theorem C71_direct_sequential (ht : 0 ≤ t) (hr : ∀ t ∈ rtol, 0 ≤ t) (hfit : ws.Fits n)
    (hchol : ∀ p q w, ws = .d2 p q w → IsCholesky lib.cholesky (ws.matrix n)) (hlib : ∀ a, IsSvd a (lib.svd a))
    (Z : Matrix (Fin n) (Fin (m + 1)) 𝕜) (res : DmdResult 𝕜 n m)
    (hres : dmdDirectSeq lib eig Z modeIndices ws (some t) rtol maxNum = .ok res)
    (heig : EigOfReduced eig (ws.matrix n) (seqFirst Z) (seqNext Z) res.decomp) :
    ∃ exact proj, Chosen exact modeIndices res.exactModes ∧ Chosen proj modeIndices res.projModes ∧
      DmdBest (ws.matrix n) (seqFirst Z) (seqNext Z) res.decomp.eigvals exact proj res.projCoeffs res.advProjCoeffs := by
  obtain ⟨hc, hLR, ho⟩ := dmdDirectSeq_ok lib eig modeIndices ws t rtol maxNum hfit hchol ht hr hlib Z res hres _ _ rfl rfl heig
  exact ho.best hc (directWeights_posSemidef ws hfit) hLR

/-- **C71** for the direct method and pairs of vectors. -/
theorem C71_direct_pairs (ht : 0 ≤ t) (hr : ∀ t ∈ rtol, 0 ≤ t) (hfit : ws.Fits n)
    (hchol : ∀ p q w, ws = .d2 p q w → IsCholesky lib.cholesky (ws.matrix n)) (hlib : ∀ a, IsSvd a (lib.svd a))
    (X Y : Matrix (Fin n) (Fin m) 𝕜) (res : DmdResult 𝕜 n m)
    (hres : dmdDirectPairs lib eig X ⟨n, m, Y⟩ modeIndices ws (some t) rtol maxNum = .ok res)
    (heig : EigOfReduced eig (ws.matrix n) X Y res.decomp) :
    ∃ exact proj, Chosen exact modeIndices res.exactModes ∧ Chosen proj modeIndices res.projModes ∧
      DmdBest (ws.matrix n) X Y res.decomp.eigvals exact proj res.projCoeffs res.advProjCoeffs := by
  obtain ⟨hc, hLR, ho⟩ := dmdDirectPairs_ok lib eig modeIndices ws t rtol maxNum hfit hchol ht hr hlib X Y res hres heig
  exact ho.best hc (directWeights_posSemidef ws hfit) hLR

end Direct

section Handles

variable {E : Type*} [AddCommGroup E] [Module 𝕜 E] (lib : DmdLib 𝕜) (ip : E →ₗ⋆[𝕜] E →ₗ[𝕜] 𝕜) (g g' : DmdHandles 𝕜 E)
  (t : ℝ) (rtol : Option ℝ) (maxNum : Option Nat)

/-- **C71** for `DMDHandles` and a sequence of vectors. -/
theorem C71_handles_sequential (ht : 0 ≤ t) (hlib : lib.Lawful) (hsym : ∀ x y, ip y x = star (ip x y))
    (hnn : ∀ x, 0 ≤ RCLike.re (ip x x)) (vecs : List E)
    (hrun : g.computeDecomp lib (fun x y => ip x y) vecs none (some t) rtol maxNum = (.ok (), g'))
    (d : DmdDecomp 𝕜 (vecs.length - 1)) (hd : g'.decomp = some ⟨vecs.length - 1, d⟩)
    (heig : EigOfReducedVecs ip lib.eig (seqVecs vecs) (seqAdvVecs vecs) d) :
    ∃ exact proj : Fin d.r → E,
      (∀ l num a out g'', (a = none ∧ g.adv = none ∨ a = some vecs.tail) →
        g'.computeExactModes l num a = (.ok out, g'') → ChosenVecs exact l out) ∧
      (∀ l num a out g'', (a = none ∨ a = some vecs) →
        g'.computeProjModes l num a = (.ok out, g'') → ChosenVecs proj l out) ∧
      ∃ c c', g'.computeProjCoeffs = .ok (⟨d.r, vecs.length - 1, c⟩, ⟨d.r, vecs.length - 1, c'⟩) ∧
        DmdHandleBest ip (seqVecs vecs) (seqAdvVecs vecs) d.eigvals exact proj c c' := by
  obtain ⟨d', hd', rfl⟩ := computeDecomp_seq lib _ g g' vecs (some t) rtol maxNum hrun
  cases hd
  obtain ⟨hm, hc, hLR⟩ := handles_modes lib ip t maxNum ht hlib hsym hd' heig
  obtain ⟨h1, h2, -⟩ := state_seq vecs (handlesIp (fun x y => ip x y) (seqVecs vecs) (seqVecs vecs))
    (handlesIp (fun x y => ip x y) (seqVecs vecs) (seqAdvVecs vecs)) g.adv d hm
  exact ⟨_, _, h1, h2, _, _, computeProjCoeffs_state _ _ _ _ _, hc.handleBest hsym hnn hLR⟩

/-- **C71** for `DMDHandles` and pairs of vectors. -/
theorem C71_handles_pairs (ht : 0 ≤ t) (hlib : lib.Lawful) (hsym : ∀ x y, ip y x = star (ip x y))
    (hnn : ∀ x, 0 ≤ RCLike.re (ip x x)) (vecs adv : List E)
    (hrun : g.computeDecomp lib (fun x y => ip x y) vecs (some adv) (some t) rtol maxNum = (.ok (), g'))
    (d : DmdDecomp 𝕜 vecs.length) (hd : g'.decomp = some ⟨vecs.length, d⟩) (hlen : vecs.length = adv.length)
    (heig : EigOfReducedVecs ip lib.eig vecs.get (fun j => adv.get (Fin.cast hlen j)) d) :
    ∃ exact proj : Fin d.r → E,
      (∀ l num a out g'', (a = none ∨ a = some adv) →
        g'.computeExactModes l num a = (.ok out, g'') → ChosenVecs exact l out) ∧
      (∀ l num a out g'', (a = none ∨ a = some vecs) →
        g'.computeProjModes l num a = (.ok out, g'') → ChosenVecs proj l out) ∧
      ∃ c c', g'.computeProjCoeffs = .ok (⟨d.r, vecs.length, c⟩, ⟨d.r, vecs.length, c'⟩) ∧
        DmdHandleBest ip vecs.get (fun j => adv.get (Fin.cast hlen j)) d.eigvals exact proj c c' := by
  obtain ⟨_, d', hd', rfl⟩ := computeDecomp_pairs lib _ g g' vecs adv (some t) rtol maxNum hrun
  cases hd
  obtain ⟨hm, hc, hLR⟩ := handles_modes lib ip t maxNum ht hlib hsym hd' heig
  obtain ⟨h1, h2, -⟩ := state_pairs vecs adv hlen (handlesIp (fun x y => ip x y) vecs.get vecs.get)
    (handlesIp (fun x y => ip x y) vecs.get fun j => adv.get (Fin.cast hlen j)) d
  exact ⟨_, _, h1, h2, _, _, computeProjCoeffs_state _ _ _ _ _, hc.handleBest hsym hnn hLR⟩

end Handles

/-- The sequence of three vectors with eigenvalues 1 and 2: no other map is better, and the error is zero. -/
example : ∃ (lib : PodLib ℝ 2 2) (res : DmdResult ℝ 2 2) (corr cross : Matrix (Fin 2) (Fin 2) ℝ),
    dmdSnapsSeq lib exampleSeqEig exampleSeq none none (some (1 / 10)) none none = .ok (res, corr, cross) ∧
    ∃ exact : Matrix (Fin 2) (Fin res.decomp.r) ℝ, Chosen exact none res.exactModes ∧
      ∀ A : Matrix (Fin 2) (Fin 2) ℝ, weightedSq 1 (seqNext exampleSeq - exact * (diagonal res.decomp.eigvals * res.projCoeffs)) ≤
        weightedSq 1 (seqNext exampleSeq - A * seqFirst exampleSeq) := by
  obtain ⟨lib, res, corr, cross, heigh, hs, hres, hd⟩ := exampleSeq_snaps
  obtain ⟨exact, proj, he, hp, hb⟩ := C71_snaps_sequential lib exampleSeqEig none none .none (1 / 10) none none
    (by norm_num) (by simp) hs rfl trivial PosSemidef.one heigh exampleSeq res corr cross hres
    (by rw [hd]; exact exampleSeqDecomp_eig)
  have hi : Function.Injective res.decomp.eigvals := by rw [hd]; exact exampleSeqDecomp_distinct.1
  have h1 := hb.full hi (by rw [hd]; exact exampleSeqDecomp_distinct.2)
  rw [hb.data hi (by rw [exampleSeq_first, rank_one, hd]; rfl)] at h1
  exact ⟨lib, res, corr, cross, hres, exact, he, h1⟩

/-- The direct method, with all assumptions met. -/
example : ∃ (lib : PodLib ℝ 2 2) (res : DmdResult ℝ 2 2),
    dmdDirectSeq lib exampleSeqEig exampleSeq none .none (some (1 / 10)) none none = .ok res ∧
    ∃ exact : Matrix (Fin 2) (Fin res.decomp.r) ℝ, ∃ proj : Matrix (Fin 2) (Fin res.decomp.r) ℝ,
      Chosen exact none res.exactModes ∧ Chosen proj none res.projModes ∧ ∀ A : Matrix (Fin 2) (Fin 2) ℝ,
        weightedSq 1 (seqNext exampleSeq - exact * (diagonal res.decomp.eigvals * res.projCoeffs)) ≤
          weightedSq 1 (seqNext exampleSeq - A * (proj * res.projCoeffs)) := by
  obtain ⟨lib, res, hsvd, hres, heig, hi, h0⟩ := exampleSeq_direct
  obtain ⟨exact, proj, he, hp, hb⟩ := C71_direct_sequential lib exampleSeqEig none .none (1 / 10) none none
    (by norm_num) (by simp) trivial (fun _ _ _ h => by cases h) hsvd exampleSeq res hres heig
  exact ⟨lib, res, hres, exact, proj, he, hp, hb.full hi h0⟩

/-- Handles, with all assumptions met: the vectors are reproduced and advanced as well as can be. -/
example : ∃ (lib : DmdLib ℝ) (g' : DmdHandles ℝ (Fin 2 → ℝ)) (exact : Fin 2 → Fin 2 → ℝ) (c c' : Matrix (Fin 2) (Fin 2) ℝ),
    DmdHandles.new.computeDecomp lib (fun x y => dotIp x y) exampleVecs none (some (1 / 10)) none none = (.ok (), g') ∧
    g'.computeProjCoeffs = .ok (⟨2, 2, c⟩, ⟨2, 2, c'⟩) ∧
    (∀ l num out g'', g'.computeExactModes l num none = (.ok out, g'') → ChosenVecs exact l out) ∧
    ∀ A : (Fin 2 → ℝ) →ₗ[ℝ] Fin 2 → ℝ,
      ∑ j, dotIp (seqAdvVecs exampleVecs j - ∑ i, (exampleSeqDecomp.eigvals i * c i j) • exact i)
        (seqAdvVecs exampleVecs j - ∑ i, (exampleSeqDecomp.eigvals i * c i j) • exact i) ≤
      ∑ j, dotIp (seqAdvVecs exampleVecs j - A (seqVecs exampleVecs j)) (seqAdvVecs exampleVecs j - A (seqVecs exampleVecs j)) := by
  obtain ⟨lib, hlaw, heig, hu⟩ := exists_exampleDmdLib
  obtain ⟨g', hrun, hd⟩ := exampleVecs_decomp lib heig hu DmdHandles.new
  obtain ⟨exact, proj, hex, -, c, c', hc, hb⟩ := C71_handles_sequential lib dotIp DmdHandles.new g' (1 / 10) none none
    (by norm_num) hlaw dotIp_symm
    (fun x => by rw [dotIp_apply]; exact add_nonneg (mul_self_nonneg (x 0)) (mul_self_nonneg (x 1))) exampleVecs hrun
    exampleSeqDecomp hd (exampleVecs_eig lib heig)
  have hdata := hb.data exampleSeqDecomp_distinct.1
    (by rw [exampleVecs_corr]; exact (Matrix.rank_one (n := Fin 2) (R := ℝ)).symm)
    (by
      intro v hv
      rw [dotIp_apply] at hv
      ext i
      fin_cases i
      · change v 0 = 0
        nlinarith [mul_self_nonneg (v 0), mul_self_nonneg (v 1)]
      · change v 1 = 0
        nlinarith [mul_self_nonneg (v 0), mul_self_nonneg (v 1)])
  have hfull := hb.full exampleSeqDecomp_distinct.1 exampleSeqDecomp_distinct.2
  simp only [hdata] at hfull
  exact ⟨lib, g', exact, c, c', hrun, hc, fun l num out g'' h => hex l num none out g'' (Or.inl ⟨rfl, rfl⟩) h, hfull⟩

end Modred
