import Verif.Spec.Coordinates
import Verif.Props.Arrays
import Verif.Props.Bpod
import Verif.Props.TlsqrHandles

/-!
# Changes of coordinates (C93)
-/

namespace Modred

open Matrix

variable {𝕜 E F : Type*}

theorem handlesIp_image {p q : Nat} {ip : E → E → 𝕜} {ip' : F → F → 𝕜} {Ψ Φ : E → F} (h : KeepsInner ip ip' Ψ Φ)
    (rows : Fin p → E) (cols : Fin q → E) : handlesIp ip' (Ψ ∘ rows) (Φ ∘ cols) = handlesIp ip rows cols := by
  ext i j
  exact h _ _

section Combine

variable [RCLike 𝕜] [AddCommMonoid E] [Module 𝕜 E] [AddCommMonoid F] [Module 𝕜 F] (Φ : E →ₗ[𝕜] F)

theorem handlesLinCombine_image {p q : Nat} (num : Nat) (basis : Fin p → E) (coeff : Matrix (Fin p) (Fin q) 𝕜)
    (idx : Option (List Int)) :
    handlesLinCombine num (Φ ∘ basis) coeff idx = (handlesLinCombine num basis coeff idx).map (Vecs.map Φ) := by
  unfold handlesLinCombine
  cases pickCols coeff idx with
  | error e => rfl
  | ok c =>
    dsimp only
    split
    · rfl
    split
    · rfl
    · simp [Except.map, Vecs.map, map_sum]

theorem linCombineSized_image {p h q : Nat} (num : Nat) (basis : Fin p → E) (coeff : Matrix (Fin h) (Fin q) 𝕜)
    (idx : Option (List Int)) :
    linCombineSized num (Φ ∘ basis) coeff idx = (linCombineSized num basis coeff idx).map (Vecs.map Φ) := by
  unfold linCombineSized
  split
  · exact handlesLinCombine_image Φ _ _ _ _
  · cases pickCols coeff idx <;> rfl

theorem linCombineSized_list {h q : Nat} (num : Nat) (basis : List E) (coeff : Matrix (Fin h) (Fin q) 𝕜)
    (idx : Option (List Int)) :
    linCombineSized num (basis.map Φ).get coeff idx = (linCombineSized num basis.get coeff idx).map (Vecs.map Φ) := by
  rw [← linCombineSized_image]
  have hlen : (basis.map Φ).length = basis.length := by simp
  have hget : ∀ {n : Nat} (hn : n = basis.length) (f : Fin n → F), f = (Φ ∘ basis.get) ∘ Fin.cast hn →
      linCombineSized num f coeff idx = linCombineSized num (Φ ∘ basis.get) coeff idx := by
    rintro n rfl f rfl
    rfl
  refine hget hlen _ ?_
  ext i
  simp

end Combine

variable [RCLike 𝕜]

/-! ### Handles -/

section Handles

variable {ip : E → E → 𝕜} {ip' : F → F → 𝕜}

omit [RCLike 𝕜] in
/-- **C93.** `PODHandles`: for the images of the vectors, `compute_decomp` gives the same correlation array, eigenvalues and
eigenvectors, or the same error. -/
theorem C93_pod_decomp {m : Nat} {Φ : E → F} (hip : KeepsInner ip ip' Φ Φ) (eigh : Matrix (Fin m) (Fin m) 𝕜 → EighOut 𝕜 m)
    (argsort : (Fin m → ℝ) → Equiv.Perm (Fin m)) (vecs : Fin m → E) (atol rtol : Option ℝ) :
    podHandlesDecomp eigh argsort ip' (Φ ∘ vecs) atol rtol =
      (podHandlesDecomp eigh argsort ip vecs atol rtol).map (PodHandles.map Φ) := by
  unfold podHandlesDecomp handlesSymmIp
  rw [handlesIp_image hip]
  split
  · rfl
  · dsimp only
    generalize utilEigh eigh argsort (handlesIp ip vecs vecs) atol rtol true = z
    cases z <;> rfl

/-- **C93.** `BPODHandles`: adjoint vectors may be described in another way than direct ones. -/
theorem C93_bpod_decomp {md ma : Nat} {Ψ Φ : E → F} (hip : KeepsInner ip ip' Ψ Φ) (direct : Fin md → E) (adjoint : Fin ma → E)
    (numInputs numOutputs : Nat) (svd : Matrix (Fin (ma / numOutputs * numOutputs)) (Fin (md / numInputs * numInputs)) 𝕜 →
      SvdOut 𝕜 (ma / numOutputs * numOutputs) (md / numInputs * numInputs)) (atol rtol : Option ℝ) :
    bpodHandlesDecomp ip' (Φ ∘ direct) (Ψ ∘ adjoint) numInputs numOutputs svd atol rtol =
      (bpodHandlesDecomp ip direct adjoint numInputs numOutputs svd atol rtol).map (BpodHandles.map Φ Ψ) := by
  unfold bpodHandlesDecomp
  have e1 : handlesIp ip' (Ψ ∘ adjoint) (firstEntries (Φ ∘ direct) numInputs) =
      handlesIp ip adjoint (firstEntries direct numInputs) := handlesIp_image hip _ _
  have e2 : handlesIp ip' (lastVecs (Ψ ∘ adjoint) numOutputs) (Φ ∘ direct) =
      handlesIp ip (lastVecs adjoint numOutputs) direct := handlesIp_image hip _ _
  rw [e1, e2]
  split
  · rfl
  · dsimp only
    generalize bpodHankel numInputs numOutputs (handlesIp ip adjoint (firstEntries direct numInputs))
      (handlesIp ip (lastVecs adjoint numOutputs) direct) = z
    cases z with
    | error e => rfl
    | ok rows =>
      dsimp only
      generalize utilSvd svd (ofRows _ _ rows) atol rtol = y
      cases y <;> rfl

variable [AddCommMonoid E] [Module 𝕜 E] [AddCommMonoid F] [Module 𝕜 F] (Φ Ψ : E →ₗ[𝕜] F)

/-- **C93.** `PODHandles`: the modes are the images of the modes, and the coefficients are the same. -/
theorem C93_pod_modes {m : Nat} (pod : PodHandles 𝕜 E m) (idx : List Int) (num : Nat) :
    podHandlesModes (pod.map Φ) idx num = (podHandlesModes pod idx num).map (Vecs.map Φ) ∧
      podHandlesProjCoeffs (pod.map Φ) = podHandlesProjCoeffs pod :=
  ⟨handlesLinCombine_image Φ _ _ _ _, rfl⟩

/-- **C93.** `BPODHandles`: the direct modes are images like those of the direct vectors, the adjoint modes like those of the
adjoint vectors, and the coefficients are the same. -/
theorem C93_bpod_modes {md ma h w : Nat} (bpod : BpodHandles 𝕜 E md ma h w) (idx : List Int) (num : Nat) :
    bpodHandlesDirectModes (bpod.map Φ Ψ) idx num = (bpodHandlesDirectModes bpod idx num).map (Vecs.map Φ) ∧
      bpodHandlesAdjointModes (bpod.map Φ Ψ) idx num = (bpodHandlesAdjointModes bpod idx num).map (Vecs.map Ψ) ∧
      bpodHandlesDirectProjCoeffs (bpod.map Φ Ψ) = bpodHandlesDirectProjCoeffs bpod ∧
      bpodHandlesAdjointProjCoeffs (bpod.map Φ Ψ) = bpodHandlesAdjointProjCoeffs bpod :=
  ⟨linCombineSized_image Φ _ _ _ _, linCombineSized_image Ψ _ _ _ _, rfl, rfl⟩

/-- A call with the images of the vectors. -/
def DmdCall.map (Φ : E → F) : DmdCall E → DmdCall F
  | .decomp vecs adv atol rtol maxNum => .decomp (vecs.map Φ) (adv.map (List.map Φ)) atol rtol maxNum
  | .eigendecomp atol rtol maxNum => .eigendecomp atol rtol maxNum
  | .exactModes indices num adv => .exactModes indices num (adv.map (List.map Φ))
  | .projModes indices num vecs => .projModes indices num (vecs.map (List.map Φ))
  | .adjointModes indices num vecs => .adjointModes indices num (vecs.map (List.map Φ))

theorem exactModesFrom_image {m r : Nat} (vecs adv : Option (List E)) (build : Matrix (Fin m) (Fin r) 𝕜) (idx : List Int)
    (num : Nat) :
    exactModesFrom (vecs.map (List.map Φ)) (adv.map (List.map Φ)) build idx num =
      (exactModesFrom vecs adv build idx num).map (Vecs.map Φ) := by
  unfold exactModesFrom
  cases adv with
  | some adv => exact linCombineSized_list Φ _ _ _ _
  | none =>
    cases vecs with
    | none => rfl
    | some vecs =>
      simp only [Option.map_none, Option.map_some, List.length_map]
      split
      · rw [← List.map_tail]
        exact linCombineSized_list Φ _ _ _ _
      · rfl

theorem spanModesFrom_image {m r : Nat} (vecs : Option (List E)) (build : Matrix (Fin m) (Fin r) 𝕜) (idx : List Int)
    (num : Nat) :
    spanModesFrom (vecs.map (List.map Φ)) build idx num = (spanModesFrom vecs build idx num).map (Vecs.map Φ) := by
  unfold spanModesFrom
  cases vecs with
  | none => rfl
  | some vecs =>
    simp only [Option.map_some, List.length_map]
    split
    · rw [← List.map_dropLast]
      exact linCombineSized_list Φ _ _ _ _
    split
    · exact linCombineSized_list Φ _ _ _ _
    · rfl

/-! #### Dynamic mode decomposition -/

omit [RCLike 𝕜] in
theorem DmdArrays.eq_of_entries {a b : DmdArrays 𝕜} (h : a.m = b.m)
    (h1 : ∀ i j, a.corr i j = b.corr (Fin.cast h i) (Fin.cast h j))
    (h2 : ∀ i j, a.cross i j = b.cross (Fin.cast h i) (Fin.cast h j)) : a = b := by
  obtain ⟨m, c, k⟩ := a
  obtain ⟨m', c', k'⟩ := b
  dsimp only at h
  subst h
  congr 1
  · ext i j
    exact h1 i j
  · ext i j
    exact h2 i j

omit [RCLike 𝕜] in
theorem TlsArrays.eq_of_entries {a b : TlsArrays 𝕜} (h : a.m = b.m)
    (h1 : ∀ i j, a.c.corr i j = b.c.corr (Fin.cast h i) (Fin.cast h j))
    (h2 : ∀ i j, a.c.adv i j = b.c.adv (Fin.cast h i) (Fin.cast h j))
    (h3 : ∀ i j, a.c.cross i j = b.c.cross (Fin.cast h i) (Fin.cast h j)) : a = b := by
  obtain ⟨m, c, k, l⟩ := a
  obtain ⟨m', c', k', l'⟩ := b
  dsimp only at h
  subst h
  congr 2
  · ext i j
    exact h1 i j
  · ext i j
    exact h2 i j
  · ext i j
    exact h3 i j

omit [RCLike 𝕜] [AddCommMonoid E] [Module 𝕜 E] [AddCommMonoid F] [Module 𝕜 F] in
theorem dmdArraysSeq_image {Φ : E → F} (hip : KeepsInner ip ip' Φ Φ) (vecs : List E) :
    dmdArraysSeq ip' (vecs.map Φ) = dmdArraysSeq ip vecs := by
  refine DmdArrays.eq_of_entries (by simp [dmdArraysSeq]) (fun i j => ?_) (fun i j => ?_) <;>
  · simp only [dmdArraysSeq, handlesSymmIp, handlesIp, of_apply, List.get_eq_getElem, List.getElem_map, hip _ _]
    rfl

omit [RCLike 𝕜] [AddCommMonoid E] [Module 𝕜 E] [AddCommMonoid F] [Module 𝕜 F] in
theorem dmdArraysPairs_image {Φ : E → F} (hip : KeepsInner ip ip' Φ Φ) (vecs adv : List E) (h : vecs.length = adv.length)
    (h' : (vecs.map Φ).length = (adv.map Φ).length) :
    dmdArraysPairs ip' (vecs.map Φ) (adv.map Φ) h' = dmdArraysPairs ip vecs adv h := by
  refine DmdArrays.eq_of_entries (by simp [dmdArraysPairs]) (fun i j => ?_) (fun i j => ?_) <;>
  · simp only [dmdArraysPairs, handlesSymmIp, handlesIp, of_apply, submatrix_apply, List.get_eq_getElem, List.getElem_map, hip _ _]
    rfl

omit [RCLike 𝕜] [AddCommMonoid E] [Module 𝕜 E] [AddCommMonoid F] [Module 𝕜 F] in
theorem tlsArraysSeq_image {Φ : E → F} (hip : KeepsInner ip ip' Φ Φ) (vecs : List E) :
    tlsArraysSeq ip' (vecs.map Φ) = tlsArraysSeq ip vecs := by
  refine TlsArrays.eq_of_entries (by simp [tlsArraysSeq]) (fun i j => ?_) (fun i j => ?_) (fun i j => ?_) <;>
  · simp only [tlsArraysSeq, handlesSymmIp, handlesIp, of_apply, List.get_eq_getElem, List.getElem_map, hip _ _]
    rfl

omit [RCLike 𝕜] [AddCommMonoid E] [Module 𝕜 E] [AddCommMonoid F] [Module 𝕜 F] in
theorem tlsArraysPairs_image {Φ : E → F} (hip : KeepsInner ip ip' Φ Φ) (vecs adv : List E) (h : vecs.length = adv.length)
    (h' : (vecs.map Φ).length = (adv.map Φ).length) :
    tlsArraysPairs ip' (vecs.map Φ) (adv.map Φ) h' = tlsArraysPairs ip vecs adv h := by
  refine TlsArrays.eq_of_entries (by simp [tlsArraysPairs]) (fun i j => ?_) (fun i j => ?_) (fun i j => ?_) <;>
  · simp only [tlsArraysPairs, handlesSymmIp, handlesIp, of_apply, submatrix_apply, List.get_eq_getElem, List.getElem_map, hip _ _]
    rfl

variable (lib : DmdLib 𝕜)

theorem dmdEigendecomp_image (Φ : E → F) (g : DmdHandles 𝕜 E) (atol rtol : Option ℝ) (maxNum : Option Nat) :
    (g.map Φ).computeEigendecomp lib atol rtol maxNum =
      Prod.map id (DmdHandles.map Φ) (g.computeEigendecomp lib atol rtol maxNum) := by
  obtain ⟨v, a, r, d⟩ := g
  unfold DmdHandles.computeEigendecomp DmdHandles.map
  dsimp only
  cases r with
  | none => rfl
  | some r =>
    dsimp only
    generalize dmdEigendecomp lib.eigh lib.argsort lib.eig r.corr r.cross atol none maxNum = z
    cases z <;> rfl

theorem tlsEigendecomp_image (Φ : E → F) (g : TlsHandles 𝕜 E) (atol rtol : Option ℝ) (maxNum : Option Nat) :
    (g.map Φ).computeEigendecomp lib atol rtol maxNum =
      Prod.map id (TlsHandles.map Φ) (g.computeEigendecomp lib atol rtol maxNum) := by
  obtain ⟨v, a, r, d⟩ := g
  unfold TlsHandles.computeEigendecomp TlsHandles.map
  dsimp only
  cases r with
  | none => rfl
  | some r =>
    dsimp only
    generalize tlsEigendecomp lib.eigh lib.argsort lib.eig r.c.corr r.c.adv r.c.cross atol none none maxNum = z
    cases z <;> rfl

/-- **C93.** `DMDHandles`: for the images of the vectors, `compute_decomp` leaves the same decomposition, or raises the same
exception, whatever the object was used for before. -/
theorem C93_dmd_decomp {Φ : E → F} (hip : KeepsInner ip ip' Φ Φ) (g : DmdHandles 𝕜 E) (vecs : List E) (adv : Option (List E))
    (atol rtol : Option ℝ) (maxNum : Option Nat) :
    (g.map Φ).computeDecomp lib ip' (vecs.map Φ) (adv.map (List.map Φ)) atol rtol maxNum =
      Prod.map id (DmdHandles.map Φ) (g.computeDecomp lib ip vecs adv atol rtol maxNum) := by
  obtain ⟨v, a, r, d⟩ := g
  unfold DmdHandles.computeDecomp
  cases adv with
  | none =>
    simp only [Option.map_none, List.map_eq_nil_iff]
    split
    · rfl
    · rw [dmdArraysSeq_image hip]
      exact dmdEigendecomp_image lib Φ ⟨some vecs, a, some (dmdArraysSeq ip vecs), d⟩ _ _ _
  | some adv =>
    simp only [Option.map_some, List.map_eq_nil_iff]
    by_cases h : vecs.length = adv.length
    · have h' : (vecs.map Φ).length = (adv.map Φ).length := by simpa using h
      rw [dif_pos h, dif_pos h']
      split
      · rfl
      · rw [dmdArraysPairs_image hip vecs adv h h']
        exact dmdEigendecomp_image lib Φ ⟨some vecs, some adv, some (dmdArraysPairs ip vecs adv h), d⟩ _ _ _
    · have h' : ¬(vecs.map Φ).length = (adv.map Φ).length := by simpa using h
      rw [dif_neg h, dif_neg h']
      rfl

/-- **C93.** `TLSqrDMDHandles` likewise. -/
theorem C93_tls_decomp {Φ : E → F} (hip : KeepsInner ip ip' Φ Φ) (g : TlsHandles 𝕜 E) (vecs : List E) (adv : Option (List E))
    (atol rtol : Option ℝ) (maxNum : Option Nat) :
    (g.map Φ).computeDecomp lib ip' (vecs.map Φ) (adv.map (List.map Φ)) atol rtol maxNum =
      Prod.map id (TlsHandles.map Φ) (g.computeDecomp lib ip vecs adv atol rtol maxNum) := by
  obtain ⟨v, a, r, d⟩ := g
  unfold TlsHandles.computeDecomp
  cases adv with
  | none =>
    simp only [Option.map_none, List.map_eq_nil_iff]
    split
    · rfl
    · rw [tlsArraysSeq_image hip]
      exact tlsEigendecomp_image lib Φ ⟨some vecs, a, some (tlsArraysSeq ip vecs), d⟩ _ _ _
  | some adv =>
    simp only [Option.map_some, List.map_eq_nil_iff]
    by_cases h : vecs.length = adv.length
    · have h' : (vecs.map Φ).length = (adv.map Φ).length := by simpa using h
      rw [dif_pos h, dif_pos h']
      split
      · rfl
      · rw [tlsArraysPairs_image hip vecs adv h h']
        exact tlsEigendecomp_image lib Φ ⟨some vecs, some adv, some (tlsArraysPairs ip vecs adv h), d⟩ _ _ _
    · have h' : ¬(vecs.map Φ).length = (adv.map Φ).length := by simpa using h
      rw [dif_neg h, dif_neg h']
      rfl

/-- **C93.** `DMDHandles`: the modes are the images of the modes; spectral coefficients and projection coefficients are the
same. -/
theorem C93_dmd_modes (g : DmdHandles 𝕜 E) (idx : List Int) (num : Nat) (v : Option (List E)) :
    (g.map Φ).computeExactModes idx num (v.map (List.map Φ)) =
      Prod.map (Except.map (Vecs.map Φ)) (DmdHandles.map Φ) (g.computeExactModes idx num v) ∧
    (g.map Φ).computeProjModes idx num (v.map (List.map Φ)) =
      Prod.map (Except.map (Vecs.map Φ)) (DmdHandles.map Φ) (g.computeProjModes idx num v) ∧
    (g.map Φ).computeAdjointModes idx num (v.map (List.map Φ)) =
      Prod.map (Except.map (Vecs.map Φ)) (DmdHandles.map Φ) (g.computeAdjointModes idx num v) ∧
    (g.map Φ).computeSpectrum = g.computeSpectrum ∧ (g.map Φ).computeProjCoeffs = g.computeProjCoeffs := by
  obtain ⟨w, a, r, d⟩ := g
  refine ⟨?_, ?_, ?_, rfl, rfl⟩
  · unfold DmdHandles.computeExactModes
    cases d with
    | none => cases v <;> rfl
    | some s =>
      cases v with
      | none => exact Prod.ext (exactModesFrom_image Φ w a s.d.buildExact idx num) rfl
      | some v => exact Prod.ext (exactModesFrom_image Φ w (some v) s.d.buildExact idx num) rfl
  · unfold DmdHandles.computeProjModes
    cases d with
    | none => cases v <;> rfl
    | some s =>
      cases v with
      | none => exact Prod.ext (spanModesFrom_image Φ w s.d.buildProj idx num) rfl
      | some v => exact Prod.ext (spanModesFrom_image Φ (some v) s.d.buildProj idx num) rfl
  · unfold DmdHandles.computeAdjointModes
    cases d with
    | none => cases v <;> rfl
    | some s =>
      cases v with
      | none => exact Prod.ext (spanModesFrom_image Φ w s.d.buildAdjoint idx num) rfl
      | some v => exact Prod.ext (spanModesFrom_image Φ (some v) s.d.buildAdjoint idx num) rfl

/-- **C93.** `TLSqrDMDHandles` likewise. -/
theorem C93_tls_modes (g : TlsHandles 𝕜 E) (idx : List Int) (num : Nat) (v : Option (List E)) :
    (g.map Φ).computeExactModes idx num (v.map (List.map Φ)) =
      Prod.map (Except.map (Vecs.map Φ)) (TlsHandles.map Φ) (g.computeExactModes idx num v) ∧
    (g.map Φ).computeProjModes idx num (v.map (List.map Φ)) =
      Prod.map (Except.map (Vecs.map Φ)) (TlsHandles.map Φ) (g.computeProjModes idx num v) ∧
    (g.map Φ).computeAdjointModes idx num (v.map (List.map Φ)) =
      Prod.map (Except.map (Vecs.map Φ)) (TlsHandles.map Φ) (g.computeAdjointModes idx num v) ∧
    (g.map Φ).computeSpectrum = g.computeSpectrum ∧ (g.map Φ).computeProjCoeffs = g.computeProjCoeffs := by
  obtain ⟨w, a, r, d⟩ := g
  refine ⟨?_, ?_, ?_, rfl, rfl⟩
  · unfold TlsHandles.computeExactModes
    cases d with
    | none => cases v <;> rfl
    | some s =>
      cases v with
      | none => exact Prod.ext (exactModesFrom_image Φ w a s.t.buildExact idx num) rfl
      | some v => exact Prod.ext (exactModesFrom_image Φ w (some v) s.t.buildExact idx num) rfl
  · unfold TlsHandles.computeProjModes
    cases d with
    | none => cases v <;> rfl
    | some s =>
      cases v with
      | none => exact Prod.ext (spanModesFrom_image Φ w s.t.buildProj idx num) rfl
      | some v => exact Prod.ext (spanModesFrom_image Φ (some v) s.t.buildProj idx num) rfl
  · unfold TlsHandles.computeAdjointModes
    cases d with
    | none => cases v <;> rfl
    | some s =>
      cases v with
      | none => exact Prod.ext (spanModesFrom_image Φ w s.t.buildAdjoint idx num) rfl
      | some v => exact Prod.ext (spanModesFrom_image Φ (some v) s.t.buildAdjoint idx num) rfl

/-- **C93.** After any calls of the methods of `DMDHandles` with the images of vectors, the object is that after the calls with
the vectors, with the images of the vectors. -/
theorem C93_dmd_history (hip : KeepsInner ip ip' Φ Φ) (g : DmdHandles 𝕜 E) (calls : List (DmdCall E)) :
    (calls.map (DmdCall.map Φ)).foldl (DmdHandles.after lib ip') (g.map Φ) =
      (calls.foldl (DmdHandles.after lib ip) g).map Φ := by
  induction calls generalizing g with
  | nil => rfl
  | cons c calls ih =>
    have h : (g.map Φ).after lib ip' (c.map Φ) = (g.after lib ip c).map Φ := by
      cases c with
      | decomp vecs adv atol rtol maxNum => exact congrArg Prod.snd (C93_dmd_decomp lib hip g vecs adv atol rtol maxNum)
      | eigendecomp atol rtol maxNum => exact congrArg Prod.snd (dmdEigendecomp_image lib Φ g atol rtol maxNum)
      | exactModes idx num v => exact congrArg Prod.snd (C93_dmd_modes Φ g idx num v).1
      | projModes idx num v => exact congrArg Prod.snd (C93_dmd_modes Φ g idx num v).2.1
      | adjointModes idx num v => exact congrArg Prod.snd (C93_dmd_modes Φ g idx num v).2.2.1
    rw [List.map_cons, List.foldl_cons, List.foldl_cons, h]
    exact ih _

/-- **C93.** `TLSqrDMDHandles` likewise. -/
theorem C93_tls_history (hip : KeepsInner ip ip' Φ Φ) (g : TlsHandles 𝕜 E) (calls : List (DmdCall E)) :
    (calls.map (DmdCall.map Φ)).foldl (TlsHandles.after lib ip') (g.map Φ) =
      (calls.foldl (TlsHandles.after lib ip) g).map Φ := by
  induction calls generalizing g with
  | nil => rfl
  | cons c calls ih =>
    have h : (g.map Φ).after lib ip' (c.map Φ) = (g.after lib ip c).map Φ := by
      cases c with
      | decomp vecs adv atol rtol maxNum => exact congrArg Prod.snd (C93_tls_decomp lib hip g vecs adv atol rtol maxNum)
      | eigendecomp atol rtol maxNum => exact congrArg Prod.snd (tlsEigendecomp_image lib Φ g atol rtol maxNum)
      | exactModes idx num v => exact congrArg Prod.snd (C93_tls_modes Φ g idx num v).1
      | projModes idx num v => exact congrArg Prod.snd (C93_tls_modes Φ g idx num v).2.1
      | adjointModes idx num v => exact congrArg Prod.snd (C93_tls_modes Φ g idx num v).2.2.1
    rw [List.map_cons, List.foldl_cons, List.foldl_cons, h]
    exact ih _

end Handles

/-! ### Galerkin projection -/

section Galerkin

variable {ip' : F → F → 𝕜} {Φ Ψ : E → F} {r : Nat} (g : GalerkinHandles 𝕜 E r)

theorem galerkinProj_image (h : KeepsInner g.vecSpace ip' Ψ Φ) (hs : g.symmetric = true → g.adjointBasisVecs = g.basisVecs ∧ Ψ = Φ) :
    galerkinProjHandles (galerkinImage ip' Φ Ψ g) = Prod.map id (galerkinImage ip' Φ Ψ) (galerkinProjHandles g) := by
  obtain ⟨b, a, s, o, i, p, A, B, C⟩ := g
  unfold galerkinProjHandles galerkinImage handlesSymmIp handlesIpChecked
  dsimp only at h hs ⊢
  cases p with
  | some p => rfl
  | none =>
    dsimp only
    rw [handlesIp_image h]
    have e : (if s = true then (if r = 0 then .error .indexError else .ok (handlesIp ip' (Φ ∘ b) (Φ ∘ b))) else
        if r = 0 ∨ r = 0 then .error .indexError else .ok (handlesIp i a b) : Except Err (Matrix (Fin r) (Fin r) 𝕜)) =
        if s = true then (if r = 0 then .error .indexError else .ok (handlesIp i b b)) else
        if r = 0 ∨ r = 0 then .error .indexError else .ok (handlesIp i a b) := by
      by_cases h1 : s = true
      · rw [if_pos h1, if_pos h1, handlesIp_image (by rw [← (hs h1).2]; rw [(hs h1).2]; rw [(hs h1).2] at h; exact h)]
      · rw [if_neg h1, if_neg h1]
    rw [e]
    generalize (if s = true then (if r = 0 then .error .indexError else .ok (handlesIp i b b)) else
        if r = 0 ∨ r = 0 then .error .indexError else .ok (handlesIp i a b) : Except Err (Matrix (Fin r) (Fin r) 𝕜)) = z
    cases z with
    | error e => rfl
    | ok x =>
      dsimp only
      generalize npInv x = y
      cases y <;> rfl

/-- **C93.** `LTIGalerkinProjectionHandles`: for the images of the vectors, `reduce_A` and `reduce_B` return the same arrays,
or raise the same exceptions.  Adjoint basis vectors may be described in another way than the other vectors. -/
theorem C93_galerkin (h : KeepsInner g.vecSpace ip' Ψ Φ)
    (hs : g.symmetric = true → g.adjointBasisVecs = g.basisVecs ∧ Ψ = Φ) {q : Nat} (v : Fin q → E) :
    reduceAHandles (galerkinImage ip' Φ Ψ g) (Φ ∘ v) = Prod.map id (galerkinImage ip' Φ Ψ) (reduceAHandles g v) ∧
    reduceBHandles (galerkinImage ip' Φ Ψ g) (Φ ∘ v) = Prod.map id (galerkinImage ip' Φ Ψ) (reduceBHandles g v) := by
  constructor
  · unfold reduceAHandles handlesIpChecked
    rw [show handlesIp (galerkinImage ip' Φ Ψ g).vecSpace (galerkinImage ip' Φ Ψ g).adjointBasisVecs (Φ ∘ v) =
      handlesIp g.vecSpace g.adjointBasisVecs v from handlesIp_image h _ _]
    generalize (if r = 0 ∨ q = 0 then .error .indexError else .ok (handlesIp g.vecSpace g.adjointBasisVecs v) :
      Except Err (Matrix (Fin r) (Fin q) 𝕜)) = z
    cases z with
    | error e => rfl
    | ok a =>
      dsimp only
      rw [show (galerkinImage ip' Φ Ψ g).isBasisOrthonormal = g.isBasisOrthonormal from rfl]
      split
      · rfl
      · have := galerkinProj_image { g with A := some ⟨q, a⟩ } h hs
        dsimp only [galerkinImage] at this ⊢
        rw [this]
        generalize galerkinProjHandles { g with A := some ⟨q, a⟩ } = y
        obtain ⟨y, g'⟩ := y
        cases y <;> rfl
  · unfold reduceBHandles handlesIpChecked
    rw [show handlesIp (galerkinImage ip' Φ Ψ g).vecSpace (galerkinImage ip' Φ Ψ g).adjointBasisVecs (Φ ∘ v) =
      handlesIp g.vecSpace g.adjointBasisVecs v from handlesIp_image h _ _]
    generalize (if r = 0 ∨ q = 0 then .error .indexError else .ok (handlesIp g.vecSpace g.adjointBasisVecs v) :
      Except Err (Matrix (Fin r) (Fin q) 𝕜)) = z
    cases z with
    | error e => rfl
    | ok a =>
      dsimp only
      rw [show (galerkinImage ip' Φ Ψ g).isBasisOrthonormal = g.isBasisOrthonormal from rfl]
      split
      · rfl
      · have := galerkinProj_image { g with B := some ⟨q, a⟩ } h hs
        dsimp only [galerkinImage] at this ⊢
        rw [this]
        generalize galerkinProjHandles { g with B := some ⟨q, a⟩ } = y
        obtain ⟨y, g'⟩ := y
        cases y <;> rfl

end Galerkin

/-! ### Arrays -/

section Arrays

variable {n n' m : Nat} (G H : Matrix (Fin n') (Fin n) 𝕜) {ws ws' : Weights 𝕜}

theorem linCombineArrays_image {p q : Nat} (basis : Matrix (Fin n) (Fin p) 𝕜) (coeff : Matrix (Fin p) (Fin q) 𝕜)
    (idx : Option (List Int)) :
    linCombineArrays (G * basis) coeff idx = (linCombineArrays basis coeff idx).map (Cols.image G) := by
  unfold linCombineArrays
  generalize pickCols coeff idx = z
  cases z with
  | error e => rfl
  | ok c => simp only [Except.map, Cols.image, Matrix.mul_assoc]

theorem ipArray_image {p q : Nat} {G H : Matrix (Fin n') (Fin n) 𝕜} (hfit : ws.Fits n) (hfit' : ws'.Fits n')
    (hG : Hᴴ * ws'.matrix n' * G = ws.matrix n) (v1 : Matrix (Fin n) (Fin p) 𝕜) (v2 : Matrix (Fin n) (Fin q) 𝕜) :
    ipArray ws' (H * v1) (G * v2) = ipArray ws v1 v2 := by
  rw [C45_formula ws hfit, C45_formula ws' hfit', ← hG, conjTranspose_mul]
  simp only [Matrix.mul_assoc]

theorem dmdFinish_image (d : DmdDecomp 𝕜 m) (s : Matrix (Fin d.r) (Fin d.r) 𝕜) (K : Matrix (Fin m) (Fin m) 𝕜)
    (X Y : Matrix (Fin n) (Fin m) 𝕜) (idx : Option (List Int)) :
    dmdFinish d s K (G * X) (G * Y) idx = (dmdFinish d s K X Y idx).map (DmdResult.image G) := by
  unfold dmdFinish
  dsimp only
  split
  · rw [linCombineArrays_image, linCombineArrays_image, linCombineArrays_image]
    generalize linCombineArrays Y (d.V * (s * d.R) * diagonal fun i => (d.eigvals i)⁻¹) idx = z1
    generalize linCombineArrays X (d.V * (s * d.R)) idx = z2
    generalize linCombineArrays X (d.V * (s * d.L)) idx = z3
    cases z1 <;> cases z2 <;> cases z3 <;> rfl
  · rfl

theorem tlsFinish_image (t : TlsDecomp 𝕜 m) (K : Matrix (Fin m) (Fin m) 𝕜)
    (X Y : Matrix (Fin n) (Fin m) 𝕜) (idx : Option (List Int)) :
    tlsFinish t K (G * X) (G * Y) idx = (tlsFinish t K X Y idx).map (TlsResult.image G) := by
  unfold tlsFinish
  dsimp only
  split
  · rw [linCombineArrays_image, linCombineArrays_image, linCombineArrays_image]
    generalize linCombineArrays Y _ idx = z1
    generalize linCombineArrays X (t.sumV * (t.sumVᴴ * (t.d.V * (diagPow (𝕜 := 𝕜) t.d.w (-0.5) * t.d.R)))) idx = z2
    generalize linCombineArrays X (t.sumV * (t.sumVᴴ * (t.d.V * (diagPow (𝕜 := 𝕜) t.d.w (-0.5) * t.d.L)))) idx = z3
    cases z1 <;> cases z2 <;> cases z3 <;> rfl
  · rfl

variable {G H} (weights weights' : Option (NdArray 𝕜)) (lib : PodLib 𝕜 n m) (lib' : PodLib 𝕜 n' m) (idx : Option (List Int))
  (atol rtol : Option ℝ) (maxNum : Option Nat) (eig : ∀ {r : Nat}, Matrix (Fin r) (Fin r) 𝕜 → EigOut 𝕜 r)

/-- **C93.** `compute_POD_arrays_snaps_method`: for the images `G X` of the data `X`, and weights for which the inner products
are the same, the results are the same but for the modes, which are the images of the modes. -/
theorem C93_pod_snaps (hlib : SameEigh lib lib') (hw : arraysInit weights = .ok ws) (hw' : arraysInit weights' = .ok ws')
    (hfit : ws.Fits n) (hfit' : ws'.Fits n') (hG : Gᴴ * ws'.matrix n' * G = ws.matrix n) (X : Matrix (Fin n) (Fin m) 𝕜) :
    podSnaps lib' (G * X) idx weights' atol rtol =
      (podSnaps lib X idx weights atol rtol).map (Prod.map (PodResult.image G) id) := by
  unfold podSnaps symmIpArray
  rw [hw, hw', hlib.eigh, hlib.argsort]
  dsimp only
  rw [ipArray_image hfit hfit' hG]
  generalize ipArray ws X X = z
  cases z with
  | error e => rfl
  | ok C =>
    dsimp only
    generalize utilEigh lib.eigh lib.argsort C atol rtol true = y
    cases y with
    | error e => rfl
    | ok e =>
      dsimp only
      rw [linCombineArrays_image]
      generalize linCombineArrays X (e.V * diagPow e.w (-0.5)) idx = x
      cases x <;> rfl

/-- **C93.** `compute_BPOD_arrays`: adjoint vectors may be described in another way than direct ones. -/
theorem C93_bpod_arrays {md ma : Nat} (hw : arraysInit weights = .ok ws) (hw' : arraysInit weights' = .ok ws')
    (hfit : ws.Fits n) (hfit' : ws'.Fits n') (hG : Hᴴ * ws'.matrix n' * G = ws.matrix n)
    (svd : Matrix (Fin ma) (Fin md) 𝕜 → SvdOut 𝕜 ma md) (X : Matrix (Fin n) (Fin md) 𝕜) (Y : Matrix (Fin n) (Fin ma) 𝕜)
    (numInputs numOutputs : Nat) (idx' : Option (List Int)) :
    bpodArrays svd (G * X) (H * Y) numInputs numOutputs idx idx' weights' atol rtol =
      (bpodArrays svd X Y numInputs numOutputs idx idx' weights atol rtol).map (BpodResult.image G H) := by
  unfold bpodArrays
  rw [hw, hw']
  dsimp only
  rw [show firstCols (G * X) numInputs = G * firstCols X numInputs from rfl,
    show lastCols (H * Y) numOutputs = H * lastCols Y numOutputs from rfl, ipArray_image hfit hfit' hG,
    ipArray_image hfit hfit' hG]
  generalize ipArray ws Y (firstCols X numInputs) = z
  cases z with
  | error e => rfl
  | ok A =>
    dsimp only
    generalize ipArray ws (lastCols Y numOutputs) X = y
    cases y with
    | error e => rfl
    | ok B =>
      dsimp only
      generalize bpodHankel numInputs numOutputs A B = x
      cases x with
      | error e => rfl
      | ok rows =>
        dsimp only
        split
        · rfl
        · generalize utilSvd svd (ofRows ma md rows) atol rtol = w
          cases w with
          | error e => rfl
          | ok s =>
            dsimp only
            rw [linCombineArrays_image, linCombineArrays_image]
            generalize linCombineArrays X (s.V * diagPow s.S (-0.5)) idx = u
            generalize linCombineArrays Y (s.U * diagPow s.S (-0.5)) idx' = v
            cases u <;> cases v <;> rfl

/-- **C93.** `compute_DMD_arrays_snaps_method`. -/
theorem C93_dmd_snaps (hlib : SameEigh lib lib') (hw : arraysInit weights = .ok ws) (hw' : arraysInit weights' = .ok ws')
    (hfit : ws.Fits n) (hfit' : ws'.Fits n') (hG : Gᴴ * ws'.matrix n' * G = ws.matrix n) :
    (∀ Z : Matrix (Fin n) (Fin (m + 1)) 𝕜, dmdSnapsSeq lib' eig (G * Z) idx weights' atol rtol maxNum =
      (dmdSnapsSeq lib eig Z idx weights atol rtol maxNum).map (Prod.map (DmdResult.image G) id)) ∧
    ∀ X Y : Matrix (Fin n) (Fin m) 𝕜, dmdSnapsPairs lib' eig (G * X) ⟨n', m, G * Y⟩ idx weights' atol rtol maxNum =
      (dmdSnapsPairs lib eig X ⟨n, m, Y⟩ idx weights atol rtol maxNum).map (Prod.map (DmdResult.image G) id) := by
  have hrest : ∀ (C K : Matrix (Fin m) (Fin m) 𝕜) (X Y : Matrix (Fin n) (Fin m) 𝕜),
      dmdSnapsRest lib' eig C K (G * X) (G * Y) idx atol rtol maxNum =
        (dmdSnapsRest lib eig C K X Y idx atol rtol maxNum).map (DmdResult.image G) := by
    intro C K X Y
    unfold dmdSnapsRest
    rw [hlib.eigh, hlib.argsort]
    generalize dmdEigendecomp lib.eigh lib.argsort eig C K atol rtol maxNum = z
    cases z with
    | error e => rfl
    | ok d => exact dmdFinish_image G _ _ _ _ _ _
  constructor
  · intro Z
    unfold dmdSnapsSeq symmIpArray
    rw [hw, hw']
    dsimp only
    rw [ipArray_image hfit hfit' hG, show (G * Z).submatrix id Fin.castSucc = G * Z.submatrix id Fin.castSucc from rfl,
      show (G * Z).submatrix id Fin.succ = G * Z.submatrix id Fin.succ from rfl]
    generalize ipArray ws Z Z = z
    cases z with
    | error e => rfl
    | ok C =>
      dsimp only
      rw [hrest]
      generalize dmdSnapsRest lib eig (C.submatrix Fin.castSucc Fin.castSucc) (C.submatrix Fin.castSucc Fin.succ)
        (Z.submatrix id Fin.castSucc) (Z.submatrix id Fin.succ) idx atol rtol maxNum = y
      cases y <;> rfl
  · intro X Y
    unfold dmdSnapsPairs symmIpArray
    rw [hw, hw']
    simp only [and_self, dite_true]
    have e1 : Matrix.submatrix Y (Fin.cast rfl) (Fin.cast rfl) = Y := rfl
    have e2 : Matrix.submatrix (G * Y) (Fin.cast rfl) (Fin.cast rfl) = G * Y := rfl
    rw [e1, e2, ipArray_image hfit hfit' hG, ipArray_image hfit hfit' hG]
    generalize ipArray ws X X = z
    cases z with
    | error e => rfl
    | ok C =>
      dsimp only
      generalize ipArray ws X Y = x
      cases x with
      | error e => rfl
      | ok K =>
        dsimp only
        rw [hrest]
        generalize dmdSnapsRest lib eig C K X Y idx atol rtol maxNum = y
        cases y <;> rfl

/-- **C93.** `compute_TLSqrDMD_arrays_snaps_method`. -/
theorem C93_tls_snaps (hlib : SameEigh lib lib') (hw : arraysInit weights = .ok ws) (hw' : arraysInit weights' = .ok ws')
    (hfit : ws.Fits n) (hfit' : ws'.Fits n') (hG : Gᴴ * ws'.matrix n' * G = ws.matrix n) :
    (∀ Z : Matrix (Fin n) (Fin (m + 1)) 𝕜, tlsSnapsSeq lib' eig (G * Z) idx weights' atol rtol maxNum =
      (tlsSnapsSeq lib eig Z idx weights atol rtol maxNum).map (Prod.map (TlsResult.image G) id)) ∧
    ∀ X Y : Matrix (Fin n) (Fin m) 𝕜, tlsSnapsPairs lib' eig (G * X) ⟨n', m, G * Y⟩ idx weights' atol rtol maxNum =
      (tlsSnapsPairs lib eig X ⟨n, m, Y⟩ idx weights atol rtol maxNum).map (Prod.map (TlsResult.image G) id) := by
  have hrest : ∀ (C : TlsCorr 𝕜 m) (X Y : Matrix (Fin n) (Fin m) 𝕜),
      tlsSnapsRest lib' eig C (G * X) (G * Y) idx atol rtol maxNum =
        (tlsSnapsRest lib eig C X Y idx atol rtol maxNum).map (Prod.map (TlsResult.image G) id) := by
    intro C X Y
    unfold tlsSnapsRest
    rw [hlib.eigh, hlib.argsort]
    generalize tlsEigendecomp lib.eigh lib.argsort eig C.corr C.adv C.cross atol rtol none maxNum = z
    cases z with
    | error e => rfl
    | ok d =>
      dsimp only
      rw [tlsFinish_image]
      generalize tlsFinish d C.cross X Y idx = y
      cases y <;> rfl
  constructor
  · intro Z
    unfold tlsSnapsSeq symmIpArray
    rw [hw, hw']
    dsimp only
    rw [ipArray_image hfit hfit' hG, show (G * Z).submatrix id Fin.castSucc = G * Z.submatrix id Fin.castSucc from rfl,
      show (G * Z).submatrix id Fin.succ = G * Z.submatrix id Fin.succ from rfl]
    generalize ipArray ws Z Z = z
    cases z with
    | error e => rfl
    | ok C => exact hrest _ _ _
  · intro X Y
    unfold tlsSnapsPairs symmIpArray
    rw [hw, hw']
    simp only [and_self, dite_true]
    have e1 : Matrix.submatrix Y (Fin.cast rfl) (Fin.cast rfl) = Y := rfl
    have e2 : Matrix.submatrix (G * Y) (Fin.cast rfl) (Fin.cast rfl) = G * Y := rfl
    rw [e1, e2, ipArray_image hfit hfit' hG, ipArray_image hfit hfit' hG, ipArray_image hfit hfit' hG]
    generalize ipArray ws X X = z
    cases z with
    | error e => rfl
    | ok C =>
      dsimp only
      generalize ipArray ws X Y = x
      cases x with
      | error e => rfl
      | ok K =>
        dsimp only
        generalize ipArray ws Y Y = u
        cases u with
        | error e => rfl
        | ok D => exact hrest _ _ _

end Arrays

/-! ### Examples -/

/-- Grid points in another order: rows of the data and weights are permuted, and the rows of the modes too. -/
example (lib : PodLib ℝ 3 2) (lib' : PodLib ℝ 3 2) (hlib : SameEigh lib lib') (X : Matrix (Fin 3) (Fin 2) ℝ) :
    podSnaps lib' (X.submatrix ![2, 0, 1] id) none (some ⟨[3], fun i => [3, 1, 2].getD i 0⟩) (some 0) none =
      (podSnaps lib X none (some ⟨[3], fun i => [1, 2, 3].getD i 0⟩) (some 0) none).map
        (Prod.map (PodResult.image (!![0, 0, 1; 1, 0, 0; 0, 1, 0] : Matrix (Fin 3) (Fin 3) ℝ)) id) := by
  have e : X.submatrix ![2, 0, 1] id = (!![0, 0, 1; 1, 0, 0; 0, 1, 0] : Matrix (Fin 3) (Fin 3) ℝ) * X := by
    ext i j
    fin_cases i <;> simp [Matrix.mul_apply, Fin.sum_univ_three]
  rw [e]
  refine C93_pod_snaps (ws := .d1 3 fun i => [1, 2, 3].getD i 0) (ws' := .d1 3 fun i => [3, 1, 2].getD i 0) _ _ lib lib' none
    (some 0) none hlib rfl rfl rfl rfl ?_ X
  ext i j
  fin_cases i <;> fin_cases j <;> simp [Weights.matrix, Matrix.mul_apply, Fin.sum_univ_three, diagonal]

/-- Vectors in other units, with inner products scaled accordingly. -/
example : KeepsInner (fun x y : ℝ => x * y) (fun x y => x * y / 100) (fun x => 10 * x) fun x => 10 * x := by
  intro x y
  ring

end Modred
