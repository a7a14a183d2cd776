import Verif.Props.PredictTls

/-!
# C59 for handles: without truncation, total least squares dynamic mode decomposition is dynamic mode decomposition
-/

namespace Modred

open Matrix

variable {𝕜 : Type*} [RCLike 𝕜] {E : Type*} [AddCommGroup E] [Module 𝕜 E] (ip : E →ₗ⋆[𝕜] E →ₗ[𝕜] 𝕜)

/-- If as many directions are retained as vectors and advanced vectors together have, the projection changes neither. -/
theorem proj_full_vecs {m : Nat} {X Y : Fin m → E} (hsym : ∀ x y, ip y x = star (ip x y)) (hnn : ∀ x, 0 ≤ RCLike.re (ip x x))
    (hdef : ∀ v, ip v v = 0 → v = 0) {q : Nat} {sumW : Fin q → ℝ} {sumV : Matrix (Fin m) (Fin q) 𝕜}
    (h : TlsProjection (gram ip X X) (gram ip Y Y) sumW sumV) (hq : q = (gram ip X X + gram ip Y Y).rank) :
    combine X (sumV * sumVᴴ) = X ∧ combine Y (sumV * sumVᴴ) = Y := by
  set S := gram ip X X + gram ip Y Y with hS
  have hSh : Sᴴ = S := by
    rw [hS, conjTranspose_add, gram_herm ip hsym X, gram_herm ip hsym Y]
  have hVS : sumV = Sᴴ * (sumV * diagPow (𝕜 := 𝕜) sumW (-1)) := by
    rw [hSh, ← Matrix.mul_assoc, h.eigen, ← diagPow_one, Matrix.mul_assoc, diagPow_mul _ h.pos,
      show (1 : ℝ) + -1 = 0 by norm_num, diagPow_zero, Matrix.mul_one]
  have hSV := span_of_rank h.orthonormal hVS hq
  have hN : S * (1 - sumV * sumVᴴ) = 0 := by
    rw [Matrix.mul_sub, Matrix.mul_one, ← Matrix.mul_assoc, hSV, sub_self]
  have hz : ∀ j, combine X (1 - sumV * sumVᴴ) j = 0 ∧ combine Y (1 - sumV * sumVᴴ) j = 0 := by
    intro j
    have h1 := congrFun (congrFun (gram_combine ip X X (1 - sumV * sumVᴴ) (1 - sumV * sumVᴴ)) j) j
    have h2 := congrFun (congrFun (gram_combine ip Y Y (1 - sumV * sumVᴴ) (1 - sumV * sumVᴴ)) j) j
    have h3 : ip (combine X (1 - sumV * sumVᴴ) j) (combine X (1 - sumV * sumVᴴ) j) +
        ip (combine Y (1 - sumV * sumVᴴ) j) (combine Y (1 - sumV * sumVᴴ) j) = 0 := by
      refine (congrArg₂ (· + ·) h1 h2).trans ?_
      rw [← Matrix.add_apply, ← Matrix.add_mul, ← Matrix.mul_add, ← hS, Matrix.mul_assoc, hN, Matrix.mul_zero]
      rfl
    have h4 := congrArg RCLike.re h3
    rw [map_add, map_zero] at h4
    have h5 := hnn (combine X (1 - sumV * sumVᴴ) j)
    have h6 := hnn (combine Y (1 - sumV * sumVᴴ) j)
    have key : ∀ v, RCLike.re (ip v v) = 0 → v = 0 := by
      intro v hv
      refine hdef _ ?_
      have h8 := RCLike.conj_eq_iff_re.mp (hsym v v).symm
      rw [← h8, hv]
      simp
    exact ⟨key _ (by linarith), key _ (by linarith)⟩
  refine ⟨funext fun j => ?_, funext fun j => ?_⟩
  · have h1 := (hz j).1
    rw [combine_sub, combine_one] at h1
    exact (sub_eq_zero.mp h1).symm
  · have h1 := (hz j).2
    rw [combine_sub, combine_one] at h1
    exact (sub_eq_zero.mp h1).symm

variable (lib : DmdLib 𝕜) (g g' : TlsHandles 𝕜 E) (t : ℝ) (rtol : Option ℝ) (maxNum : Option Nat)

/-- **C59** for `TLSqrDMDHandles` and sequential data. -/
theorem C59_handles_sequential (ht : 0 ≤ t) (hlib : lib.Lawful) (hsym : ∀ x y, ip y x = star (ip x y))
    (hnn : ∀ x, 0 ≤ RCLike.re (ip x x)) (hdef : ∀ v, ip v v = 0 → v = 0) (vecs : List E)
    (hrun : g.computeDecomp lib (fun x y => ip x y) vecs none (some t) rtol maxNum = (.ok (), g'))
    (d : TlsDecomp 𝕜 (vecs.length - 1)) (hd : g'.decomp = some ⟨vecs.length - 1, d⟩)
    (heig : EigOfProjected lib.eig (gram ip (seqVecs vecs) (seqAdvVecs vecs)) d)
    (hinj : Function.Injective d.d.eigvals) (h0 : ∀ i, d.d.eigvals i ≠ 0)
    (hq : d.q = (gram ip (seqVecs vecs) (seqVecs vecs) + gram ip (seqAdvVecs vecs) (seqAdvVecs vecs)).rank) :
    ∃ exact proj adjoint : Fin d.d.r → E,
      DmdHandleModes ip (seqVecs vecs) (seqAdvVecs vecs) d.d.w d.d.V d.d.eigvals exact proj adjoint ∧
      (∀ l num a out g'', (a = none ∧ g.adv = none ∨ a = some vecs.tail) →
        g'.computeExactModes l num a = (.ok out, g'') → ChosenVecs exact l out) ∧
      (∀ l num a out g'', (a = none ∨ a = some vecs) →
        g'.computeProjModes l num a = (.ok out, g'') → ChosenVecs proj l out) ∧
      (∀ l num a out g'', (a = none ∨ a = some vecs) →
        g'.computeAdjointModes l num a = (.ok out, g'') → ChosenVecs adjoint l out) ∧
      (∃ s, g'.computeSpectrum = .ok s ∧ DmdHandleSpectrum ip (seqVecs vecs) adjoint s) ∧
      ∃ c c', g'.computeProjCoeffs = .ok (⟨d.d.r, vecs.length - 1, c⟩, ⟨d.d.r, vecs.length - 1, c'⟩) ∧
        DmdHandleCoeffs ip (seqVecs vecs) (seqAdvVecs vecs) adjoint c c' := by
  obtain ⟨hp, exact, proj, adjoint, hm, h1, h2, h3, h4, h5⟩ := C31_handles_sequential lib ip g g' t rtol maxNum ht hlib hsym vecs hrun d
    hd heig hinj h0
  obtain ⟨e1, e2⟩ := proj_full_vecs ip hsym hnn hdef hp hq
  change combine (seqVecs vecs) d.proj = _ at e1
  change combine (seqAdvVecs vecs) d.proj = _ at e2
  rw [e1, e2] at hm h5
  rw [e1] at h4
  exact ⟨exact, proj, adjoint, hm, h1, h2, h3, h4, h5⟩

/-- **C59** for `TLSqrDMDHandles` and pairs of vectors. -/
theorem C59_handles_pairs (ht : 0 ≤ t) (hlib : lib.Lawful) (hsym : ∀ x y, ip y x = star (ip x y))
    (hnn : ∀ x, 0 ≤ RCLike.re (ip x x)) (hdef : ∀ v, ip v v = 0 → v = 0) (vecs adv : List E)
    (hrun : g.computeDecomp lib (fun x y => ip x y) vecs (some adv) (some t) rtol maxNum = (.ok (), g'))
    (d : TlsDecomp 𝕜 vecs.length) (hd : g'.decomp = some ⟨vecs.length, d⟩) (hlen : vecs.length = adv.length)
    (heig : EigOfProjected lib.eig (gram ip vecs.get (fun j => adv.get (Fin.cast hlen j))) d)
    (hinj : Function.Injective d.d.eigvals) (h0 : ∀ i, d.d.eigvals i ≠ 0)
    (hq : d.q = (gram ip vecs.get vecs.get +
      gram ip (fun j => adv.get (Fin.cast hlen j)) (fun j => adv.get (Fin.cast hlen j))).rank) :
    ∃ exact proj adjoint : Fin d.d.r → E,
      DmdHandleModes ip vecs.get (fun j => adv.get (Fin.cast hlen j)) d.d.w d.d.V d.d.eigvals exact proj adjoint ∧
      (∀ l num a out g'', (a = none ∨ a = some adv) →
        g'.computeExactModes l num a = (.ok out, g'') → ChosenVecs exact l out) ∧
      (∀ l num a out g'', (a = none ∨ a = some vecs) →
        g'.computeProjModes l num a = (.ok out, g'') → ChosenVecs proj l out) ∧
      (∀ l num a out g'', (a = none ∨ a = some vecs) →
        g'.computeAdjointModes l num a = (.ok out, g'') → ChosenVecs adjoint l out) ∧
      (∃ s, g'.computeSpectrum = .ok s ∧ DmdHandleSpectrum ip vecs.get adjoint s) ∧
      ∃ c c', g'.computeProjCoeffs = .ok (⟨d.d.r, vecs.length, c⟩, ⟨d.d.r, vecs.length, c'⟩) ∧
        DmdHandleCoeffs ip vecs.get (fun j => adv.get (Fin.cast hlen j)) adjoint c c' := by
  obtain ⟨hp, exact, proj, adjoint, hm, h1, h2, h3, h4, h5⟩ := C31_handles_pairs lib ip g g' t rtol maxNum ht hlib hsym vecs adv hrun d
    hd hlen heig hinj h0
  obtain ⟨e1, e2⟩ := proj_full_vecs ip hsym hnn hdef hp hq
  change combine vecs.get d.proj = _ at e1
  change combine (fun j => adv.get (Fin.cast hlen j)) d.proj = _ at e2
  rw [e1, e2] at hm h5
  rw [e1] at h4
  exact ⟨exact, proj, adjoint, hm, h1, h2, h3, h4, h5⟩

/-- The sequence of the example: nothing is dropped. -/
example : ∃ (lib : DmdLib ℝ) (g' : TlsHandles ℝ (Fin 2 → ℝ)) (d : TlsDecomp ℝ 2) (exact proj adjoint : Fin d.d.r → Fin 2 → ℝ),
    TlsHandles.new.computeDecomp lib (fun x y => dotIp x y) exampleVecs none (some (1 / 10)) none none = (.ok (), g') ∧
    g'.decomp = some ⟨2, d⟩ ∧
    DmdHandleModes (m := 2) dotIp (seqVecs exampleVecs) (seqAdvVecs exampleVecs) d.d.w d.d.V d.d.eigvals exact proj adjoint ∧
    ∀ l num out g'', g'.computeExactModes l num none = (.ok out, g'') → ChosenVecs exact l out := by
  obtain ⟨lib, hlaw, heig, hu⟩ := exists_exampleDmdLib
  obtain ⟨g', d, hrun, hd, hproj, hdd, hE⟩ := exampleVecs_tls_decomp lib hlaw heig hu TlsHandles.new
  have hinj : Function.Injective d.d.eigvals := by rw [hdd]; exact exampleSeqDecomp_distinct.1
  have h0 : ∀ i, d.d.eigvals i ≠ 0 := by rw [hdd]; exact exampleSeqDecomp_distinct.2
  have hp := (C31_handles_sequential lib dotIp TlsHandles.new g' (1 / 10) none none (by norm_num) hlaw dotIp_symm exampleVecs
    hrun d hd hE hinj h0).1
  have hq : d.q = 2 := by
    have h1 := congrArg Matrix.trace hp.orthonormal
    have h2 : (d.sumV * d.sumVᴴ).trace = (1 : Matrix (Fin 2) (Fin 2) ℝ).trace := congrArg Matrix.trace hproj
    rw [Matrix.trace_mul_comm] at h1
    have h3 := h2.symm.trans h1
    rw [Matrix.trace_one, Matrix.trace_one, Fintype.card_fin, Fintype.card_fin] at h3
    exact_mod_cast h3.symm
  have hrk : (gram dotIp (seqVecs exampleVecs) (seqVecs exampleVecs) + gram dotIp (seqAdvVecs exampleVecs) (seqAdvVecs exampleVecs)).rank = 2 := by
    rw [exampleVecs_corr, exampleVecs_adv]
    have h1 : ((1 : Matrix (Fin 2) (Fin 2) ℝ) + (seqNext exampleSeq)ᴴ * 1 * seqNext exampleSeq) = !![2, 3; 3, 14] := by
      rw [exampleSeq_next]
      ext i j
      fin_cases i <;> fin_cases j <;> simp [Matrix.mul_apply, Fin.sum_univ_two] <;> norm_num
    have h2 : (!![2, 3; 3, 14] : Matrix (Fin 2) (Fin 2) ℝ).rank = 2 := by
      refine (Matrix.rank_of_isUnit _ ?_).trans (Fintype.card_fin 2)
      rw [Matrix.isUnit_iff_isUnit_det, Matrix.det_fin_two]
      norm_num
    exact (congrArg Matrix.rank h1).trans h2
  obtain ⟨exact, proj, adjoint, hm, hex, -⟩ := C59_handles_sequential dotIp lib TlsHandles.new g' (1 / 10) none none
    (by norm_num) hlaw dotIp_symm
    (fun x => by rw [dotIp_apply]; exact add_nonneg (mul_self_nonneg (x 0)) (mul_self_nonneg (x 1)))
    (by
      intro v hv
      rw [dotIp_apply] at hv
      ext i
      fin_cases i
      · simp; nlinarith [mul_self_nonneg (v 0), mul_self_nonneg (v 1)]
      · simp; nlinarith [mul_self_nonneg (v 0), mul_self_nonneg (v 1)])
    exampleVecs hrun d hd hE hinj h0 (by rw [hrk, hq])
  exact ⟨lib, g', d, exact, proj, adjoint, hrun, hd, hm, fun l num out g'' h => hex l num none out g'' (Or.inl ⟨rfl, rfl⟩) h⟩

end Modred
