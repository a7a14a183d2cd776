import Verif.Props.TlsqrLimits

/-!
# Total-least-squares dynamic mode decomposition on handles (C28, C29, C30, C31)
-/

namespace Modred

open Matrix
open scoped ComplexOrder

variable {𝕜 : Type*} [RCLike 𝕜] {E : Type*}

/-! ### What the methods compute -/

/-- The state after `compute_decomp` for a sequence. -/
theorem tlsComputeDecomp_seq (lib : DmdLib 𝕜) (ip : E → E → 𝕜) (g g' : TlsHandles 𝕜 E) (vecs : List E) (atol rtol : Option ℝ)
    (maxNum : Option Nat) (hrun : g.computeDecomp lib ip vecs none atol rtol maxNum = (.ok (), g')) :
    ∃ d, tlsEigendecomp lib.eigh lib.argsort lib.eig (handlesIp ip (seqVecs vecs) (seqVecs vecs))
        (handlesIp ip (seqAdvVecs vecs) (seqAdvVecs vecs))
        (handlesIp ip (seqVecs vecs) (seqAdvVecs vecs)) atol none none maxNum = .ok d ∧
      g' = ⟨some vecs, g.adv, some ⟨vecs.length - 1, handlesIp ip (seqVecs vecs) (seqVecs vecs),
        handlesIp ip (seqAdvVecs vecs) (seqAdvVecs vecs),
        handlesIp ip (seqVecs vecs) (seqAdvVecs vecs)⟩, some ⟨vecs.length - 1, d⟩⟩ := by
  unfold TlsHandles.computeDecomp at hrun
  dsimp only at hrun
  split at hrun
  · cases hrun
  unfold TlsHandles.computeEigendecomp tlsArraysSeq at hrun
  dsimp only at hrun
  split at hrun
  · cases hrun
  rename_i d hd
  cases hrun
  exact ⟨d, hd, rfl⟩

/-- The state after `compute_decomp` for pairs. -/
theorem tlsComputeDecomp_pairs (lib : DmdLib 𝕜) (ip : E → E → 𝕜) (g g' : TlsHandles 𝕜 E) (vecs adv : List E)
    (atol rtol : Option ℝ) (maxNum : Option Nat)
    (hrun : g.computeDecomp lib ip vecs (some adv) atol rtol maxNum = (.ok (), g')) :
    ∃ (h : vecs.length = adv.length) (d : _),
      tlsEigendecomp lib.eigh lib.argsort lib.eig (handlesIp ip vecs.get vecs.get)
        (handlesIp ip (fun j => adv.get (Fin.cast h j)) fun j => adv.get (Fin.cast h j))
        (handlesIp ip vecs.get fun j => adv.get (Fin.cast h j)) atol none none maxNum = .ok d ∧
      g' = ⟨some vecs, some adv, some ⟨vecs.length, handlesIp ip vecs.get vecs.get,
        handlesIp ip (fun j => adv.get (Fin.cast h j)) fun j => adv.get (Fin.cast h j),
        handlesIp ip vecs.get fun j => adv.get (Fin.cast h j)⟩, some ⟨vecs.length, d⟩⟩ := by
  unfold TlsHandles.computeDecomp at hrun
  dsimp only at hrun
  split at hrun
  swap
  · cases hrun
  rename_i h
  split at hrun
  · cases hrun
  unfold TlsHandles.computeEigendecomp tlsArraysPairs at hrun
  dsimp only at hrun
  split at hrun
  · cases hrun
  rename_i d hd
  cases hrun
  exact ⟨h, d, hd, rfl⟩

section Modes

variable [AddCommGroup E] [Module 𝕜 E] (lib : DmdLib 𝕜) (ip : E →ₗ⋆[𝕜] E →ₗ[𝕜] 𝕜) (g g' : TlsHandles 𝕜 E) (t : ℝ)
  (rtol : Option ℝ) (maxNum : Option Nat)

omit [AddCommGroup E] [Module 𝕜 E] in
theorem tlsEigendecomp_pos {m : Nat} {C C' K : Matrix (Fin m) (Fin m) 𝕜} {atol rtol rtol' : Option ℝ} {d : TlsDecomp 𝕜 m}
    (h : tlsEigendecomp lib.eigh lib.argsort lib.eig C C' K atol rtol rtol' maxNum = .ok d) : 0 < m := by
  rcases Nat.eq_zero_or_pos m with rfl | hm
  · unfold tlsEigendecomp utilEigh adjustTol npMin at h
    simp at h
  · exact hm

/-- What follows from the decomposition: modes, coefficients and spectral coefficients are those of dynamic mode
decomposition of the projected vectors. -/
theorem tls_handles_modes {m : Nat} {X Y : Fin m → E} {d : TlsDecomp 𝕜 m} (ht : 0 ≤ t) (hlib : lib.Lawful)
    (hsym : ∀ x y, ip y x = star (ip x y))
    (hd : tlsEigendecomp lib.eigh lib.argsort lib.eig (gram ip X X) (gram ip Y Y) (gram ip X Y) (some t) none none maxNum = .ok d)
    (heig : EigOfProjected lib.eig (gram ip X Y) d) :
    0 < m ∧ TlsProjection (gram ip X X) (gram ip Y Y) d.sumW d.sumV ∧
    (Function.Injective d.d.eigvals → (∀ i, d.d.eigvals i ≠ 0) →
      DmdHandleModes ip (combine X d.proj) (combine Y d.proj) d.d.w d.d.V d.d.eigvals (combine Y d.buildExact)
        (combine X d.buildProj) (combine X d.buildAdjoint)) ∧
    DmdHandleCoeffs ip (combine X d.proj) (combine Y d.proj) (combine X d.buildAdjoint)
      (d.d.Lᴴ * (diagPow (𝕜 := 𝕜) d.d.w 0.5 * d.d.Vᴴ))
      (d.d.Lᴴ * (diagPow (𝕜 := 𝕜) d.d.w (-0.5) *
        (d.d.Vᴴ * (d.sumV * (d.sumVᴴ * (gram ip X Y * (d.sumV * d.sumVᴴ))))))) ∧
    ∀ hm : 0 < m, DmdHandleSpectrum ip (combine X d.proj) (combine X d.buildAdjoint)
      (NdArray.squeeze ⟨[d.d.r], fun i => if hi : i < d.d.r then
        ‖(d.d.Lᴴ *ᵥ star (diagPow (𝕜 := 𝕜) d.d.w 0.5 *ᵥ d.d.V ⟨0, hm⟩)) ⟨i, hi⟩‖ else 0⟩) := by
  obtain ⟨hc, hLR⟩ := tlsEigendecomp_core _ _ lib.eig _ _ _ t none none maxNum d hd ht (by simp) (by simp) hlib.argsort
    (gram_herm ip hsym X) (gram_herm ip hsym Y) hlib.eigh heig
  have hcore := hc.core
  rw [← gram_proj_vecs, ← gram_proj_vecs] at hcore
  obtain ⟨r1, r2, r3⟩ := hc.range
  have e1 : combine Y d.buildExact = combine (combine Y d.proj) d.d.buildExact := by
    rw [hc.buildExact, combine_combine, r2]
  have e2 : combine X d.buildProj = combine (combine X d.proj) d.d.buildProj := by
    rw [hc.buildProj, combine_combine, r1]
  have e3 : combine X d.buildAdjoint = combine (combine X d.proj) d.d.buildAdjoint := by
    rw [hc.buildAdjoint, combine_combine, r3]
  rw [e1, e2, e3, TlsCore.advCoeffs, ← gram_proj_vecs]
  exact ⟨tlsEigendecomp_pos lib maxNum hd, hc.sum, fun hinj h0 => hcore.handleModes (hLR hinj) h0, hcore.handleCoeffs,
    fun hm => hcore.handleSpectrum hm⟩

omit [AddCommGroup E] [Module 𝕜 E] in
theorem tlsComputeProjCoeffs_state {m : Nat} (v a : Option (List E)) (c : TlsCorr 𝕜 m) (d : TlsDecomp 𝕜 m) :
    (⟨v, a, some ⟨m, c⟩, some ⟨m, d⟩⟩ : TlsHandles 𝕜 E).computeProjCoeffs =
      .ok (⟨d.d.r, m, d.d.Lᴴ * (diagPow (𝕜 := 𝕜) d.d.w 0.5 * d.d.Vᴴ)⟩,
        ⟨d.d.r, m, d.d.Lᴴ * (diagPow (𝕜 := 𝕜) d.d.w (-0.5) *
          (d.d.Vᴴ * (d.sumV * (d.sumVᴴ * (c.cross * (d.sumV * d.sumVᴴ))))))⟩) := by
  unfold TlsHandles.computeProjCoeffs
  dsimp only
  rw [dif_pos rfl]
  rfl

/-- All that the methods compute after `compute_decomp` for a sequence, in terms of the decomposition. -/
theorem tls_state_seq (vecs : List E) (c : TlsCorr 𝕜 (vecs.length - 1)) (a : Option (List E))
    (d : TlsDecomp 𝕜 (vecs.length - 1)) (hm : 0 < vecs.length - 1) :
    (∀ l num b out g'', (b = none ∧ a = none ∨ b = some vecs.tail) →
        (⟨some vecs, a, some ⟨_, c⟩, some ⟨_, d⟩⟩ : TlsHandles 𝕜 E).computeExactModes l num b = (.ok out, g'') →
        ChosenVecs (combine (seqAdvVecs vecs) d.buildExact) l out) ∧
      (∀ l num b out g'', (b = none ∨ b = some vecs) →
        (⟨some vecs, a, some ⟨_, c⟩, some ⟨_, d⟩⟩ : TlsHandles 𝕜 E).computeProjModes l num b = (.ok out, g'') →
        ChosenVecs (combine (seqVecs vecs) d.buildProj) l out) ∧
      ∀ l num b out g'', (b = none ∨ b = some vecs) →
        (⟨some vecs, a, some ⟨_, c⟩, some ⟨_, d⟩⟩ : TlsHandles 𝕜 E).computeAdjointModes l num b = (.ok out, g'') →
        ChosenVecs (combine (seqVecs vecs) d.buildAdjoint) l out := by
  have hlen : vecs.length = vecs.length - 1 + 1 := by omega
  refine ⟨?_, ?_, ?_⟩
  · rintro l num b out g'' (⟨rfl, rfl⟩ | rfl) h
    · unfold TlsHandles.computeExactModes exactModesFrom at h
      simp only [Option.isSome_none, Bool.false_eq_true, if_false, Prod.mk.injEq] at h
      rw [if_pos hlen] at h
      exact linCombineSized_chosen _ _ _ _ _ h.1 _ (seq_tail vecs)
    · unfold TlsHandles.computeExactModes exactModesFrom at h
      simp only [Option.isSome_some, if_true, Prod.mk.injEq] at h
      exact linCombineSized_chosen _ _ _ _ _ h.1 _ (seq_tail vecs)
  · rintro l num b out g'' (rfl | rfl) h <;>
    · unfold TlsHandles.computeProjModes spanModesFrom at h
      simp only [Option.isSome_none, Option.isSome_some, Bool.false_eq_true, if_false, if_true, Prod.mk.injEq] at h
      rw [if_pos hlen] at h
      exact linCombineSized_chosen _ _ _ _ _ h.1 _ (seq_dropLast vecs)
  · rintro l num b out g'' (rfl | rfl) h <;>
    · unfold TlsHandles.computeAdjointModes spanModesFrom at h
      simp only [Option.isSome_none, Option.isSome_some, Bool.false_eq_true, if_false, if_true, Prod.mk.injEq] at h
      rw [if_pos hlen] at h
      exact linCombineSized_chosen _ _ _ _ _ h.1 _ (seq_dropLast vecs)

/-- All that the methods compute after `compute_decomp` for pairs, in terms of the decomposition. -/
theorem tls_state_pairs (vecs adv : List E) (hlen : vecs.length = adv.length)
    (c : TlsCorr 𝕜 vecs.length) (d : TlsDecomp 𝕜 vecs.length) :
    (∀ l num b out g'', (b = none ∨ b = some adv) →
        (⟨some vecs, some adv, some ⟨_, c⟩, some ⟨_, d⟩⟩ : TlsHandles 𝕜 E).computeExactModes l num b = (.ok out, g'') →
        ChosenVecs (combine (fun j => adv.get (Fin.cast hlen j)) d.buildExact) l out) ∧
      (∀ l num b out g'', (b = none ∨ b = some vecs) →
        (⟨some vecs, some adv, some ⟨_, c⟩, some ⟨_, d⟩⟩ : TlsHandles 𝕜 E).computeProjModes l num b = (.ok out, g'') →
        ChosenVecs (combine vecs.get d.buildProj) l out) ∧
      ∀ l num b out g'', (b = none ∨ b = some vecs) →
        (⟨some vecs, some adv, some ⟨_, c⟩, some ⟨_, d⟩⟩ : TlsHandles 𝕜 E).computeAdjointModes l num b = (.ok out, g'') →
        ChosenVecs (combine vecs.get d.buildAdjoint) l out := by
  have hne : ¬ vecs.length = vecs.length + 1 := by omega
  refine ⟨?_, ?_, ?_⟩
  · rintro l num b out g'' (rfl | rfl) h <;>
    · unfold TlsHandles.computeExactModes exactModesFrom at h
      simp only [Option.isSome_none, Option.isSome_some, Bool.false_eq_true, if_false, if_true, Prod.mk.injEq] at h
      exact linCombineSized_chosen _ _ _ _ _ h.1 _ fun _ _ => rfl
  · rintro l num b out g'' (rfl | rfl) h <;>
    · unfold TlsHandles.computeProjModes spanModesFrom at h
      simp only [Option.isSome_none, Option.isSome_some, Bool.false_eq_true, if_false, if_true, Prod.mk.injEq] at h
      rw [if_neg hne] at h
      exact linCombineSized_chosen _ _ _ _ _ h.1 _ fun _ _ => rfl
  · rintro l num b out g'' (rfl | rfl) h <;>
    · unfold TlsHandles.computeAdjointModes spanModesFrom at h
      simp only [Option.isSome_none, Option.isSome_some, Bool.false_eq_true, if_false, if_true, Prod.mk.injEq] at h
      rw [if_neg hne] at h
      exact linCombineSized_chosen _ _ _ _ _ h.1 _ fun _ _ => rfl

/-- **C31.** After `compute_decomp` for a sequence of vectors, modes and coefficients of all methods are those of
dynamic mode decomposition of the projected vectors, for any choice of modes.  Advanced vectors given earlier must not
be kept; they are not used if the advanced vectors are given again. -/
theorem C31_handles_sequential (ht : 0 ≤ t) (hlib : lib.Lawful) (hsym : ∀ x y, ip y x = star (ip x y)) (vecs : List E)
    (hrun : g.computeDecomp lib (fun x y => ip x y) vecs none (some t) rtol maxNum = (.ok (), g'))
    (d : TlsDecomp 𝕜 (vecs.length - 1)) (hd : g'.decomp = some ⟨vecs.length - 1, d⟩)
    (heig : EigOfProjected lib.eig (gram ip (seqVecs vecs) (seqAdvVecs vecs)) d)
    (hinj : Function.Injective d.d.eigvals) (h0 : ∀ i, d.d.eigvals i ≠ 0) :
    TlsProjection (gram ip (seqVecs vecs) (seqVecs vecs)) (gram ip (seqAdvVecs vecs) (seqAdvVecs vecs)) d.sumW d.sumV ∧
    ∃ exact proj adjoint : Fin d.d.r → E,
      DmdHandleModes ip (combine (seqVecs vecs) d.proj) (combine (seqAdvVecs vecs) d.proj) d.d.w d.d.V d.d.eigvals exact proj adjoint ∧
      (∀ l num a out g'', (a = none ∧ g.adv = none ∨ a = some vecs.tail) →
        g'.computeExactModes l num a = (.ok out, g'') → ChosenVecs exact l out) ∧
      (∀ l num a out g'', (a = none ∨ a = some vecs) →
        g'.computeProjModes l num a = (.ok out, g'') → ChosenVecs proj l out) ∧
      (∀ l num a out g'', (a = none ∨ a = some vecs) →
        g'.computeAdjointModes l num a = (.ok out, g'') → ChosenVecs adjoint l out) ∧
      (∃ s, g'.computeSpectrum = .ok s ∧ DmdHandleSpectrum ip (combine (seqVecs vecs) d.proj) adjoint s) ∧
      ∃ c c', g'.computeProjCoeffs = .ok (⟨d.d.r, vecs.length - 1, c⟩, ⟨d.d.r, vecs.length - 1, c'⟩) ∧
        DmdHandleCoeffs ip (combine (seqVecs vecs) d.proj) (combine (seqAdvVecs vecs) d.proj) adjoint c c' := by
  obtain ⟨d', hd', rfl⟩ := tlsComputeDecomp_seq lib _ g g' vecs (some t) rtol maxNum hrun
  cases hd
  obtain ⟨hm, hp, hmodes, hco, hsp⟩ := tls_handles_modes lib ip t maxNum ht hlib hsym hd' heig
  refine ⟨hp, _, _, _, hmodes hinj h0, (tls_state_seq vecs _ g.adv d hm).1, (tls_state_seq vecs _ g.adv d hm).2.1, (tls_state_seq vecs _ g.adv d hm).2.2, ⟨_, ?_, hsp hm⟩, _, _,
    tlsComputeProjCoeffs_state _ _ _ _, hco⟩
  unfold TlsHandles.computeSpectrum
  dsimp only
  rw [dif_pos hm]

/-- **C31.** The same for pairs of vectors, whatever the object was used for before. -/
theorem C31_handles_pairs (ht : 0 ≤ t) (hlib : lib.Lawful) (hsym : ∀ x y, ip y x = star (ip x y)) (vecs adv : List E)
    (hrun : g.computeDecomp lib (fun x y => ip x y) vecs (some adv) (some t) rtol maxNum = (.ok (), g'))
    (d : TlsDecomp 𝕜 vecs.length) (hd : g'.decomp = some ⟨vecs.length, d⟩) (hlen : vecs.length = adv.length)
    (heig : EigOfProjected lib.eig (gram ip vecs.get (fun j => adv.get (Fin.cast hlen j))) d)
    (hinj : Function.Injective d.d.eigvals) (h0 : ∀ i, d.d.eigvals i ≠ 0) :
    TlsProjection (gram ip vecs.get vecs.get) (gram ip (fun j => adv.get (Fin.cast hlen j)) (fun j => adv.get (Fin.cast hlen j))) d.sumW d.sumV ∧
    ∃ exact proj adjoint : Fin d.d.r → E,
      DmdHandleModes ip (combine vecs.get d.proj) (combine (fun j => adv.get (Fin.cast hlen j)) d.proj) d.d.w d.d.V d.d.eigvals exact proj adjoint ∧
      (∀ l num a out g'', (a = none ∨ a = some adv) →
        g'.computeExactModes l num a = (.ok out, g'') → ChosenVecs exact l out) ∧
      (∀ l num a out g'', (a = none ∨ a = some vecs) →
        g'.computeProjModes l num a = (.ok out, g'') → ChosenVecs proj l out) ∧
      (∀ l num a out g'', (a = none ∨ a = some vecs) →
        g'.computeAdjointModes l num a = (.ok out, g'') → ChosenVecs adjoint l out) ∧
      (∃ s, g'.computeSpectrum = .ok s ∧ DmdHandleSpectrum ip (combine vecs.get d.proj) adjoint s) ∧
      ∃ c c', g'.computeProjCoeffs = .ok (⟨d.d.r, vecs.length, c⟩, ⟨d.d.r, vecs.length, c'⟩) ∧
        DmdHandleCoeffs ip (combine vecs.get d.proj) (combine (fun j => adv.get (Fin.cast hlen j)) d.proj) adjoint c c' := by
  obtain ⟨_, d', hd', rfl⟩ := tlsComputeDecomp_pairs lib _ g g' vecs adv (some t) rtol maxNum hrun
  cases hd
  obtain ⟨hm, hp, hmodes, hco, hsp⟩ := tls_handles_modes lib ip t maxNum ht hlib hsym hd' heig
  refine ⟨hp, _, _, _, hmodes hinj h0, (tls_state_pairs vecs adv hlen _ d).1, (tls_state_pairs vecs adv hlen _ d).2.1, (tls_state_pairs vecs adv hlen _ d).2.2, ⟨_, ?_, hsp hm⟩, _, _,
    tlsComputeProjCoeffs_state _ _ _ _, hco⟩
  unfold TlsHandles.computeSpectrum
  dsimp only
  rw [dif_pos hm]

/-- **C30.** Coefficients for a sequence, of real or complex data, whether or not the eigenvalues are distinct: the
spectral coefficients are the magnitudes of the projection coefficients of the first vector. -/
theorem C30_handles_sequential (ht : 0 ≤ t) (hlib : lib.Lawful) (hsym : ∀ x y, ip y x = star (ip x y)) (vecs : List E)
    (hrun : g.computeDecomp lib (fun x y => ip x y) vecs none (some t) rtol maxNum = (.ok (), g'))
    (d : TlsDecomp 𝕜 (vecs.length - 1)) (hd : g'.decomp = some ⟨vecs.length - 1, d⟩)
    (heig : EigOfProjected lib.eig (gram ip (seqVecs vecs) (seqAdvVecs vecs)) d) :
    ∃ adjoint : Fin d.d.r → E,
      (∀ l num a out g'', (a = none ∨ a = some vecs) →
        g'.computeAdjointModes l num a = (.ok out, g'') → ChosenVecs adjoint l out) ∧
      (∃ s, g'.computeSpectrum = .ok s ∧ DmdHandleSpectrum ip (combine (seqVecs vecs) d.proj) adjoint s) ∧
      ∃ c c', g'.computeProjCoeffs = .ok (⟨d.d.r, vecs.length - 1, c⟩, ⟨d.d.r, vecs.length - 1, c'⟩) ∧
        DmdHandleCoeffs ip (combine (seqVecs vecs) d.proj) (combine (seqAdvVecs vecs) d.proj) adjoint c c' := by
  obtain ⟨d', hd', rfl⟩ := tlsComputeDecomp_seq lib _ g g' vecs (some t) rtol maxNum hrun
  cases hd
  obtain ⟨hm, -, -, hco, hsp⟩ := tls_handles_modes lib ip t maxNum ht hlib hsym hd' heig
  refine ⟨_, (tls_state_seq vecs _ g.adv d hm).2.2, ⟨_, ?_, hsp hm⟩, _, _, tlsComputeProjCoeffs_state _ _ _ _, hco⟩
  unfold TlsHandles.computeSpectrum
  dsimp only
  rw [dif_pos hm]

/-- **C30.** The same for pairs. -/
theorem C30_handles_pairs (ht : 0 ≤ t) (hlib : lib.Lawful) (hsym : ∀ x y, ip y x = star (ip x y)) (vecs adv : List E)
    (hrun : g.computeDecomp lib (fun x y => ip x y) vecs (some adv) (some t) rtol maxNum = (.ok (), g'))
    (d : TlsDecomp 𝕜 vecs.length) (hd : g'.decomp = some ⟨vecs.length, d⟩) (hlen : vecs.length = adv.length)
    (heig : EigOfProjected lib.eig (gram ip vecs.get (fun j => adv.get (Fin.cast hlen j))) d) :
    ∃ adjoint : Fin d.d.r → E,
      (∀ l num a out g'', (a = none ∨ a = some vecs) →
        g'.computeAdjointModes l num a = (.ok out, g'') → ChosenVecs adjoint l out) ∧
      (∃ s, g'.computeSpectrum = .ok s ∧ DmdHandleSpectrum ip (combine vecs.get d.proj) adjoint s) ∧
      ∃ c c', g'.computeProjCoeffs = .ok (⟨d.d.r, vecs.length, c⟩, ⟨d.d.r, vecs.length, c'⟩) ∧
        DmdHandleCoeffs ip (combine vecs.get d.proj) (combine (fun j => adv.get (Fin.cast hlen j)) d.proj) adjoint c c' := by
  obtain ⟨_, d', hd', rfl⟩ := tlsComputeDecomp_pairs lib _ g g' vecs adv (some t) rtol maxNum hrun
  cases hd
  obtain ⟨hm, -, -, hco, hsp⟩ := tls_handles_modes lib ip t maxNum ht hlib hsym hd' heig
  refine ⟨_, (tls_state_pairs vecs adv hlen _ d).2.2, ⟨_, ?_, hsp hm⟩, _, _, tlsComputeProjCoeffs_state _ _ _ _, hco⟩
  unfold TlsHandles.computeSpectrum
  dsimp only
  rw [dif_pos hm]

/-- **C31.** For a sequence of at least two vectors there is no error, and none for the modes if the indices are
valid and there are as many handles as indices. -/
theorem C31_handles_sequential_no_error (ip : E → E → 𝕜) (vecs : List E) (hlen : 2 ≤ vecs.length) :
    ∃ g' d, g.computeDecomp lib ip vecs none (some t) rtol maxNum = (.ok (), g') ∧
      g'.decomp = some ⟨vecs.length - 1, d⟩ ∧ ∀ l, ValidIndices d.d.r l →
        (g.adv = none → ∃ out, (g'.computeExactModes l l.length none).1 = .ok out) ∧
        (∃ out, (g'.computeExactModes l l.length (some vecs.tail)).1 = .ok out) ∧
        (∃ out, (g'.computeProjModes l l.length none).1 = .ok out) ∧
        ∃ out, (g'.computeAdjointModes l l.length none).1 = .ok out := by
  obtain ⟨d, hd⟩ := tlsEigendecomp_all lib.eig t maxNum (by omega) lib.eigh lib.argsort
    (handlesIp ip (seqVecs vecs) (seqVecs vecs)) (handlesIp ip (seqAdvVecs vecs) (seqAdvVecs vecs))
    (handlesIp ip (seqVecs vecs) (seqAdvVecs vecs)) none none
  have h1 : vecs ≠ [] := by
    rintro rfl
    simp at hlen
  have h2 : vecs.length = vecs.length - 1 + 1 := by omega
  have ht : ∀ (build : Matrix (Fin (vecs.length - 1)) (Fin d.d.r) 𝕜) l, ValidIndices d.d.r l →
      ∃ out, linCombineSized l.length vecs.tail.get build (some l) = .ok out := by
    intro build l hl
    have e : vecs.tail.length = vecs.length - 1 := List.length_tail
    exact linCombineSized_all _ _ l hl (by omega) e
  have hh : ∀ (build : Matrix (Fin (vecs.length - 1)) (Fin d.d.r) 𝕜) l, ValidIndices d.d.r l →
      ∃ out, linCombineSized l.length vecs.dropLast.get build (some l) = .ok out := by
    intro build l hl
    have e : vecs.dropLast.length = vecs.length - 1 := List.length_dropLast
    exact linCombineSized_all _ _ l hl (by omega) e
  refine ⟨⟨some vecs, g.adv, some (tlsArraysSeq ip vecs), some ⟨vecs.length - 1, d⟩⟩, d, ?_, rfl, fun l hl => ?_⟩
  · unfold TlsHandles.computeDecomp
    dsimp only
    rw [if_neg h1]
    unfold TlsHandles.computeEigendecomp
    dsimp only
    have : tlsEigendecomp lib.eigh lib.argsort lib.eig (tlsArraysSeq ip vecs).c.corr (tlsArraysSeq ip vecs).c.adv
      (tlsArraysSeq ip vecs).c.cross (some t) none none maxNum = .ok d := hd
    rw [this]
    rfl
  · refine ⟨fun hn => ?_, ?_, ?_, ?_⟩
    · unfold TlsHandles.computeExactModes exactModesFrom
      simp only [Option.isSome_none, Bool.false_eq_true, if_false, hn]
      rw [if_pos h2]
      exact ht _ l hl
    · unfold TlsHandles.computeExactModes exactModesFrom
      simp only [Option.isSome_some, if_true]
      exact ht _ l hl
    · unfold TlsHandles.computeProjModes spanModesFrom
      simp only [Option.isSome_none, Bool.false_eq_true, if_false]
      rw [if_pos h2]
      exact hh _ l hl
    · unfold TlsHandles.computeAdjointModes spanModesFrom
      simp only [Option.isSome_none, Bool.false_eq_true, if_false]
      rw [if_pos h2]
      exact hh _ l hl

/-- **C31.** The same for pairs of vectors; numbers of vectors that differ raise `ValueError`. -/
theorem C31_handles_pairs_no_error (ip : E → E → 𝕜) (vecs adv : List E) :
    (vecs.length ≠ adv.length → (g.computeDecomp lib ip vecs (some adv) (some t) rtol maxNum).1 = .error .valueError) ∧
    (vecs.length = adv.length → vecs ≠ [] →
      ∃ g' d, g.computeDecomp lib ip vecs (some adv) (some t) rtol maxNum = (.ok (), g') ∧
      g'.decomp = some ⟨vecs.length, d⟩ ∧ ∀ l, ValidIndices d.d.r l →
        (∃ out, (g'.computeExactModes l l.length none).1 = .ok out) ∧
        (∃ out, (g'.computeProjModes l l.length none).1 = .ok out) ∧
        ∃ out, (g'.computeAdjointModes l l.length none).1 = .ok out) := by
  refine ⟨fun hne => ?_, fun hlen hne => ?_⟩
  · unfold TlsHandles.computeDecomp
    dsimp only
    rw [dif_neg hne]
  have hpos : 0 < vecs.length := List.length_pos_iff.mpr hne
  obtain ⟨d, hd⟩ := tlsEigendecomp_all lib.eig t maxNum (show 0 < (tlsArraysPairs ip vecs adv hlen).m from hpos) lib.eigh
    lib.argsort (tlsArraysPairs ip vecs adv hlen).c.corr (tlsArraysPairs ip vecs adv hlen).c.adv
    (tlsArraysPairs ip vecs adv hlen).c.cross none none
  have h2 : ¬ vecs.length = vecs.length + 1 := by omega
  refine ⟨⟨some vecs, some adv, some (tlsArraysPairs ip vecs adv hlen), some ⟨vecs.length, d⟩⟩, d, ?_, rfl, fun l hl => ?_⟩
  · unfold TlsHandles.computeDecomp
    dsimp only
    rw [dif_pos hlen, if_neg hne]
    unfold TlsHandles.computeEigendecomp
    dsimp only
    rw [hd]
    rfl
  · refine ⟨?_, ?_, ?_⟩
    · unfold TlsHandles.computeExactModes exactModesFrom
      simp only [Option.isSome_none, Bool.false_eq_true, if_false]
      exact linCombineSized_all _ _ l hl (by omega) hlen.symm
    · unfold TlsHandles.computeProjModes spanModesFrom
      simp only [Option.isSome_none, Bool.false_eq_true, if_false]
      rw [if_neg h2, if_true]
      exact linCombineSized_all _ _ l hl hpos rfl
    · unfold TlsHandles.computeAdjointModes spanModesFrom
      simp only [Option.isSome_none, Bool.false_eq_true, if_false]
      rw [if_neg h2, if_true]
      exact linCombineSized_all _ _ l hl hpos rfl

end Modes

/-! ### Tolerances -/

section HandlesTolerances

variable (lib : DmdLib 𝕜) (ip : E → E → 𝕜) (g g' : TlsHandles 𝕜 E) (t : ℝ) (rtol : Option ℝ) (maxNum : Option Nat)

/-- **C28, partial.** On handles the absolute tolerance and the maximal number are honoured for both eigendecompositions.
The relative tolerance is missing. -/
theorem C28_tls_handles_sequential_partial (ht : 0 ≤ t) (hlib : lib.Lawful) (vecs : List E)
    (hrun : g.computeDecomp lib ip vecs none (some t) rtol maxNum = (.ok (), g'))
    (d : TlsDecomp 𝕜 (vecs.length - 1)) (hd : g'.decomp = some ⟨vecs.length - 1, d⟩) :
    Retained (lib.eigh (handlesIp ip (seqVecs vecs) (seqVecs vecs) + handlesIp ip (seqAdvVecs vecs) (seqAdvVecs vecs))).w t none
      maxNum d.sumW ∧
    Retained (lib.eigh (d.proj * handlesIp ip (seqVecs vecs) (seqVecs vecs) * d.proj)).w t none maxNum d.d.w := by
  obtain ⟨d', hd', rfl⟩ := tlsComputeDecomp_seq lib _ g g' vecs (some t) rtol maxNum hrun
  cases hd
  exact tlsEigendecomp_retained _ _ lib.eig _ _ _ t none none maxNum _ hd' ht (by simp) (by simp) hlib.argsort

/-- **C28, partial.** The same for pairs. -/
theorem C28_tls_handles_pairs_partial (ht : 0 ≤ t) (hlib : lib.Lawful) (vecs adv : List E)
    (hrun : g.computeDecomp lib ip vecs (some adv) (some t) rtol maxNum = (.ok (), g'))
    (d : TlsDecomp 𝕜 vecs.length) (hd : g'.decomp = some ⟨vecs.length, d⟩) (hlen : vecs.length = adv.length) :
    Retained (lib.eigh (handlesIp ip vecs.get vecs.get +
      handlesIp ip (fun j => adv.get (Fin.cast hlen j)) fun j => adv.get (Fin.cast hlen j))).w t none maxNum d.sumW ∧
    Retained (lib.eigh (d.proj * handlesIp ip vecs.get vecs.get * d.proj)).w t none maxNum d.d.w := by
  obtain ⟨_, d', hd', rfl⟩ := tlsComputeDecomp_pairs lib _ g g' vecs adv (some t) rtol maxNum hrun
  cases hd
  exact tlsEigendecomp_retained _ _ lib.eig _ _ _ t none none maxNum _ hd' ht (by simp) (by simp) hlib.argsort

/-- **C28, violation.** On handles the relative tolerance has no effect at all. -/
theorem C28_tls_handles_ignored_violation (vecs : List E) (adv : Option (List E)) (atol rtol' : Option ℝ) :
    g.computeDecomp lib ip vecs adv atol rtol maxNum = g.computeDecomp lib ip vecs adv atol rtol' maxNum ∧
    g.computeEigendecomp lib atol rtol maxNum = g.computeEigendecomp lib atol rtol' maxNum :=
  ⟨rfl, rfl⟩

end HandlesTolerances

/-- **C28, violation.** With the relative tolerance 1/2 both eigenvalues 8 and 2 of the sum correlation array of (2, 0)
and (0, 1), taken for vectors and advanced vectors, are retained on handles, for every library and absolute tolerances
below 2. -/
theorem C28_tls_handles_violation (lib : DmdLib ℝ) (hlib : lib.Lawful) (t : ℝ) (ht : 0 ≤ t) (ht1 : t < 2)
    (g g' : TlsHandles ℝ (Fin 2 → ℝ))
    (hrun : g.computeDecomp lib (fun x y => x ⬝ᵥ y) [![2, 0], ![0, 1]] (some [![2, 0], ![0, 1]]) (some t) (some (1 / 2)) none =
      (.ok (), g')) :
    ∃ s, g'.decomp = some s ∧ ∃ i j, s.t.sumW i ≤ 1 / 2 * s.t.sumW j := by
  obtain ⟨_, d, hd, hg⟩ := tlsComputeDecomp_pairs lib _ g g' _ _ (some t) _ none hrun
  have hdec : g'.decomp = some ⟨2, d⟩ := by rw [hg]; rfl
  refine ⟨_, hdec, ?_⟩
  have hret := (C28_tls_handles_pairs_partial lib _ g g' t _ none ht hlib _ _ hrun d hdec rfl).1
  have hC : handlesIp (fun x y : Fin 2 → ℝ => x ⬝ᵥ y) (List.get [![2, 0], ![0, 1]]) (List.get [![2, 0], ![0, 1]]) +
      handlesIp (fun x y : Fin 2 → ℝ => x ⬝ᵥ y) (fun j => List.get [![2, 0], ![0, 1]] (Fin.cast rfl j))
        (fun j => List.get [![2, 0], ![0, 1]] (Fin.cast rfl j)) = diagonal ![8, 2] := by
    ext i j
    fin_cases i <;> fin_cases j <;> simp [handlesIp, dotProduct, Fin.sum_univ_two] <;> norm_num
  rw [hC] at hret
  have hE : IsEigh (diagonal ![8, 2]) (lib.eigh (diagonal ![8, 2] : Matrix (Fin 2) (Fin 2) ℝ)) :=
    hlib.eigh _ (by rw [isHermitian_diagonal_iff]; intro i; exact IsSelfAdjoint.all _)
  obtain ⟨j1, hj1⟩ := eigh_diagonal _ _ hE 1
  obtain ⟨j0, hj0⟩ := eigh_diagonal _ _ hE 0
  have hnn : ∀ k, ¬ (lib.eigh (diagonal ![8, 2] : Matrix (Fin 2) (Fin 2) ℝ)).w k < 0 := by
    intro k
    obtain ⟨i, hi⟩ := eigh_diagonal_value _ _ hE k
    rw [hi]
    fin_cases i <;> simp
  simp only [cons_val_one, cons_val_zero] at hj0 hj1
  obtain ⟨i1, hi1⟩ := (hret.complete j1 (by rw [hj1]; simpa using ht1) (by simp) fun k hk => absurd hk (hnn k)).resolve_right
    (by simp)
  obtain ⟨i0, hi0⟩ := (hret.complete j0 (by rw [hj0]; norm_num; linarith) (by simp) fun k hk => absurd hk (hnn k)).resolve_right
    (by simp)
  refine ⟨i1, i0, ?_⟩
  dsimp only
  rw [hi1, hi0, hj1, hj0]
  norm_num

/-! ### Using an object again -/

section Reuse

variable [AddCommMonoid E] [Module 𝕜 E] (lib : DmdLib 𝕜) (ip : E → E → 𝕜)

/-- What a call does to the object; methods that change nothing are left out. -/
noncomputable def TlsHandles.after (g : TlsHandles 𝕜 E) : DmdCall E → TlsHandles 𝕜 E
  | .decomp vecs adv atol rtol maxNum => (g.computeDecomp lib ip vecs adv atol rtol maxNum).2
  | .eigendecomp atol rtol maxNum => (g.computeEigendecomp lib atol rtol maxNum).2
  | .exactModes indices num adv => (g.computeExactModes indices num adv).2
  | .projModes indices num vecs => (g.computeProjModes indices num vecs).2
  | .adjointModes indices num vecs => (g.computeAdjointModes indices num vecs).2

theorem tlsComputeEigendecomp_state (g h : TlsHandles 𝕜 E) (atol rtol : Option ℝ) (maxNum : Option Nat)
    (harr : g.arrays = h.arrays) :
    (g.computeEigendecomp lib atol rtol maxNum).1 = (h.computeEigendecomp lib atol rtol maxNum).1 ∧
    ((h.computeEigendecomp lib atol rtol maxNum).1 = .ok () →
      (g.computeEigendecomp lib atol rtol maxNum).2 = { (h.computeEigendecomp lib atol rtol maxNum).2 with
        vecs := g.vecs, adv := g.adv }) := by
  obtain ⟨v, a, r, d⟩ := g
  obtain ⟨v', a', r', d'⟩ := h
  cases harr
  unfold TlsHandles.computeEigendecomp
  dsimp only
  cases r with
  | none => exact ⟨rfl, (fun h => by cases h)⟩
  | some r =>
    dsimp only
    generalize tlsEigendecomp lib.eigh lib.argsort lib.eig r.c.corr r.c.adv r.c.cross atol none none maxNum = z
    cases z with
    | error e => exact ⟨rfl, (fun h => by cases h)⟩
    | ok d => exact ⟨rfl, fun _ => rfl⟩

theorem tlsComputeEigendecomp_keeps (g : TlsHandles 𝕜 E) (atol rtol : Option ℝ) (maxNum : Option Nat) :
    (g.computeEigendecomp lib atol rtol maxNum).2.vecs = g.vecs ∧
    (g.computeEigendecomp lib atol rtol maxNum).2.adv = g.adv := by
  unfold TlsHandles.computeEigendecomp
  split
  · exact ⟨rfl, rfl⟩
  · split <;> exact ⟨rfl, rfl⟩

theorem tls_keep_both {x : TlsHandles 𝕜 E} {v a : Option (List E)} (hv : x.vecs = v) (ha : x.adv = a) :
    { x with vecs := v, adv := a } = x := by
  subst hv ha
  rfl

theorem tls_keep_vecs {x : TlsHandles 𝕜 E} {v a : Option (List E)} (hv : x.vecs = v) :
    { x with vecs := v, adv := a } = { x with adv := a } := by
  subst hv
  rfl

theorem tls_keep_adv {x : TlsHandles 𝕜 E} {a : Option (List E)} (ha : x.adv = a) : { x with adv := a } = x := by
  subst ha
  rfl

/-- **C29.** With advanced vectors, `compute_decomp` raises an error on an object used before if it does on a new one,
and otherwise leaves it like a new one. -/
theorem C29_tls_pairs (g : TlsHandles 𝕜 E) (vecs adv : List E) (atol rtol : Option ℝ) (maxNum : Option Nat) :
    (g.computeDecomp lib ip vecs (some adv) atol rtol maxNum).1 =
      (TlsHandles.new.computeDecomp lib ip vecs (some adv) atol rtol maxNum).1 ∧
    ((TlsHandles.new.computeDecomp lib ip vecs (some adv) atol rtol maxNum).1 = .ok () →
      g.computeDecomp lib ip vecs (some adv) atol rtol maxNum =
        TlsHandles.new.computeDecomp lib ip vecs (some adv) atol rtol maxNum) := by
  unfold TlsHandles.computeDecomp TlsHandles.new
  dsimp only
  by_cases hlen : vecs.length = adv.length
  swap
  · rw [dif_neg hlen, dif_neg hlen]
    exact ⟨rfl, (fun h => by cases h)⟩
  rw [dif_pos hlen, dif_pos hlen]
  by_cases hv : vecs = []
  · rw [if_pos hv, if_pos hv]
    exact ⟨rfl, (fun h => by cases h)⟩
  rw [if_neg hv, if_neg hv]
  obtain ⟨h1, h2⟩ := tlsComputeEigendecomp_state lib { g with vecs := some vecs, adv := some adv, arrays := some (tlsArraysPairs ip vecs adv hlen) }
    ⟨some vecs, some adv, some (tlsArraysPairs ip vecs adv hlen), none⟩ atol rtol maxNum rfl
  refine ⟨h1, fun h => Prod.ext h1 ((h2 h).trans ?_)⟩
  obtain ⟨h3, h4⟩ := tlsComputeEigendecomp_keeps lib
    (⟨some vecs, some adv, some (tlsArraysPairs ip vecs adv hlen), none⟩ : TlsHandles 𝕜 E) atol rtol maxNum
  exact tls_keep_both h3 h4

/-- **C29.** Without advanced vectors, the only difference between an object used before and a new one is that advanced
vectors given before are kept. -/
theorem C29_tls_sequential (g : TlsHandles 𝕜 E) (vecs : List E) (atol rtol : Option ℝ) (maxNum : Option Nat) :
    (g.computeDecomp lib ip vecs none atol rtol maxNum).1 =
      (TlsHandles.new.computeDecomp lib ip vecs none atol rtol maxNum).1 ∧
    ((TlsHandles.new.computeDecomp lib ip vecs none atol rtol maxNum).1 = .ok () →
      (g.computeDecomp lib ip vecs none atol rtol maxNum).2 =
        { (TlsHandles.new.computeDecomp lib ip vecs none atol rtol maxNum).2 with adv := g.adv }) := by
  unfold TlsHandles.computeDecomp TlsHandles.new
  dsimp only
  by_cases hv : vecs = []
  · rw [if_pos hv, if_pos hv]
    exact ⟨rfl, (fun h => by cases h)⟩
  rw [if_neg hv, if_neg hv]
  obtain ⟨h1, h2⟩ := tlsComputeEigendecomp_state lib { g with vecs := some vecs, arrays := some (tlsArraysSeq ip vecs) }
    ⟨some vecs, none, some (tlsArraysSeq ip vecs), none⟩ atol rtol maxNum rfl
  refine ⟨h1, fun h => (h2 h).trans ?_⟩
  obtain ⟨h3, h4⟩ := tlsComputeEigendecomp_keeps lib
    (⟨some vecs, none, some (tlsArraysSeq ip vecs), none⟩ : TlsHandles 𝕜 E) atol rtol maxNum
  exact tls_keep_vecs h3

/-- **C29, partial.** If none of the calls before passed advanced vectors, `compute_decomp` leaves the object like a
new one.  What is missing are calls with advanced vectors followed by `compute_decomp` for a sequence. -/
theorem C29_tls_history_partial (calls : List (DmdCall E)) (hcalls : ∀ c ∈ calls, c.NoAdv) (vecs : List E)
    (adv : Option (List E)) (atol rtol : Option ℝ) (maxNum : Option Nat)
    (hok : (TlsHandles.new.computeDecomp lib ip vecs adv atol rtol maxNum).1 = .ok ()) :
    (calls.foldl (TlsHandles.after lib ip) TlsHandles.new).computeDecomp lib ip vecs adv atol rtol maxNum =
      TlsHandles.new.computeDecomp lib ip vecs adv atol rtol maxNum := by
  have hadv : ∀ g : TlsHandles 𝕜 E, g.adv = none → (calls.foldl (TlsHandles.after lib ip) g).adv = none := by
    induction calls with
    | nil => exact fun g hg => hg
    | cons c cs ih =>
      intro g hg
      refine ih (fun c hc => hcalls c (List.mem_cons_of_mem _ hc)) _ ?_
      have hc := hcalls c List.mem_cons_self
      cases c with
      | decomp vecs adv atol rtol maxNum =>
        cases (show adv = none from hc)
        unfold TlsHandles.after TlsHandles.computeDecomp
        dsimp only
        split
        · exact hg
        · rw [(tlsComputeEigendecomp_keeps lib _ atol rtol maxNum).2]
          exact hg
      | eigendecomp atol rtol maxNum =>
        exact (tlsComputeEigendecomp_keeps lib g atol rtol maxNum).2.trans hg
      | exactModes indices num adv =>
        cases (show adv = none from hc)
        unfold TlsHandles.after TlsHandles.computeExactModes
        simp only [Option.isSome_none, Bool.false_eq_true, if_false]
        split <;> exact hg
      | projModes indices num vecs =>
        unfold TlsHandles.after TlsHandles.computeProjModes
        dsimp only
        split <;> split <;> exact hg
      | adjointModes indices num vecs =>
        unfold TlsHandles.after TlsHandles.computeAdjointModes
        dsimp only
        split <;> split <;> exact hg
  cases adv with
  | some adv => exact (C29_tls_pairs lib ip _ vecs adv atol rtol maxNum).2 hok
  | none =>
    obtain ⟨h1, h2⟩ := C29_tls_sequential lib ip (calls.foldl (TlsHandles.after lib ip) TlsHandles.new) vecs atol rtol maxNum
    refine Prod.ext h1 ((h2 hok).trans ?_)
    rw [hadv _ rfl]
    have : ((TlsHandles.new : TlsHandles 𝕜 E).computeDecomp lib ip vecs none atol rtol maxNum).2.adv = none := by
      unfold TlsHandles.computeDecomp
      dsimp only
      split
      · rfl
      · exact (tlsComputeEigendecomp_keeps lib _ atol rtol maxNum).2
    exact tls_keep_adv this

/-- **C29.** Whatever an object was used for before, projected and adjoint modes, spectral and projection coefficients
are those of the last data, and so are exact modes if the advanced vectors are given again. -/
theorem C29_tls_other_results (g : TlsHandles 𝕜 E) (vecs : List E) (atol rtol : Option ℝ) (maxNum : Option Nat)
    (hok : (TlsHandles.new.computeDecomp lib ip vecs none atol rtol maxNum).1 = .ok ()) (l : List Int) (num : Nat)
    (v : Option (List E)) (a : List E) :
    let old := (g.computeDecomp lib ip vecs none atol rtol maxNum).2
    let new := (TlsHandles.new.computeDecomp lib ip vecs none atol rtol maxNum).2
    (old.computeProjModes l num v).1 = (new.computeProjModes l num v).1 ∧
    (old.computeAdjointModes l num v).1 = (new.computeAdjointModes l num v).1 ∧
    (old.computeExactModes l num (some a)).1 = (new.computeExactModes l num (some a)).1 ∧
    old.computeSpectrum = new.computeSpectrum ∧ old.computeProjCoeffs = new.computeProjCoeffs := by
  intro old new
  have h := (C29_tls_sequential lib ip g vecs atol rtol maxNum).2 hok
  change old = { new with adv := g.adv } at h
  rw [h]
  generalize new = new
  obtain ⟨v', a', r', d'⟩ := new
  refine ⟨?_, ?_, ?_, rfl, rfl⟩
  · unfold TlsHandles.computeProjModes
    cases v <;> cases d' <;> rfl
  · unfold TlsHandles.computeAdjointModes
    cases v <;> cases d' <;> rfl
  · unfold TlsHandles.computeExactModes
    cases d' <;> rfl

/-- **C29, violation.** If advanced vectors were given before, exact modes for a sequence are linear combinations of
those and not of the vectors of the sequence. -/
theorem C29_tls_kept_advanced_vectors_violation (g g' : TlsHandles 𝕜 E) (stale vecs : List E) (hstale : g.adv = some stale)
    (atol rtol : Option ℝ) (maxNum : Option Nat)
    (hrun : g.computeDecomp lib ip vecs none atol rtol maxNum = (.ok (), g')) :
    ∃ d, g'.decomp = some ⟨vecs.length - 1, d⟩ ∧ ∀ l num,
      (g'.computeExactModes l num none).1 = linCombineSized num stale.get d.buildExact (some l) := by
  obtain ⟨d, -, rfl⟩ := tlsComputeDecomp_seq lib ip g g' vecs atol rtol maxNum hrun
  refine ⟨d, rfl, fun l num => ?_⟩
  unfold TlsHandles.computeExactModes exactModesFrom
  rw [hstale]
  rfl

end Reuse

/-! ### Examples -/

theorem exampleVecs_adv : gram dotIp (seqAdvVecs exampleVecs) (seqAdvVecs exampleVecs) =
    ((seqNext exampleSeq)ᴴ * 1 * seqNext exampleSeq : Matrix (Fin 2) (Fin 2) ℝ) := by
  rw [exampleSeq_next]
  ext i j
  change dotIp (seqAdvVecs exampleVecs i) (seqAdvVecs exampleVecs j) = _
  rw [dotIp_apply]
  fin_cases i <;> fin_cases j <;> simp [seqAdvVecs, exampleVecs, Matrix.mul_apply, Fin.sum_univ_two]

/-- The decomposition of the example on handles: nothing is projected away, and the rest is as for dynamic mode
decomposition. -/
theorem exampleVecs_tls (lib : DmdLib ℝ) (hlaw : lib.Lawful)
    (heig : ∀ {r : Nat} (a : Matrix (Fin r) (Fin r) ℝ), lib.eig a = exampleSeqEig a)
    (hu : utilEigh lib.eigh lib.argsort (1 : Matrix (Fin 2) (Fin 2) ℝ) (some (1 / 10)) none true = .ok ⟨2, fun _ => 1, 1⟩)
    (d : TlsDecomp ℝ 2) (corr adv cross : Matrix (Fin 2) (Fin 2) ℝ) (hcorr : corr = 1)
    (hadv : adv = (seqNext exampleSeq)ᴴ * 1 * seqNext exampleSeq) (hcross : cross = !![0, -2; 1, 3])
    (hd : tlsEigendecomp lib.eigh lib.argsort lib.eig corr adv cross (some (1 / 10)) none none none = .ok d) :
    d.proj = 1 ∧ d.d = exampleSeqDecomp ∧ EigOfProjected lib.eig cross d := by
  obtain ⟨⟨s, hs1, hs2⟩, ⟨p, hp1, hp2⟩, hlr⟩ := tlsEigendecomp_ok _ _ _ _ _ _ _ _ _ _ _ hd
  change _ = s at hs2
  change _ = p at hp2
  have hsum := exampleSeq_sum (1 / 10) (by norm_num)
  have hsum' : (corr + adv - ((1 / 10 : ℝ) : ℝ) • (1 : Matrix (Fin 2) (Fin 2) ℝ)).PosDef := by
    rw [hcorr, hadv, ← exampleSeq_corr]
    rw [exampleSeq_corr] at hsum ⊢
    exact hsum
  have hherm : (corr + adv).IsHermitian := by
    rw [hcorr, hadv]
    exact IsHermitian.add isHermitian_one (gram_hermitian isHermitian_one _)
  obtain ⟨-, hP⟩ := eigh_posDef lib.eigh lib.argsort hlaw.argsort _ (1 / 10) (by norm_num) hsum' (hlaw.eigh _ hherm) s hs1
  rw [← hs2] at hP
  have hproj : d.proj = 1 := hP
  have hp1' : utilEigh lib.eigh lib.argsort (1 : Matrix (Fin 2) (Fin 2) ℝ) (some (1 / 10)) none true = .ok p := by
    rw [hproj, Matrix.one_mul, Matrix.mul_one, hcorr] at hp1
    exact hp1
  rw [hu] at hp1'
  cases hp1'
  have hdd : d.d = exampleSeqDecomp := by
    rw [hproj, Matrix.one_mul, Matrix.mul_one, hcross] at hlr
    obtain ⟨q, sumW, sumV, ⟨r, w, V, lam, R, L⟩⟩ := d
    dsimp only at hp2 hlr ⊢
    cases hp2
    unfold eigBiorthog at hlr
    rw [heig] at hlr
    have : (Except.ok (exampleSeqDecomp.eigvals, exampleSeqDecomp.R, exampleSeqDecomp.L) : Except Err _) = .ok (lam, R, L) := hlr
    cases this
    rfl
  refine ⟨hproj, hdd, ?_⟩
  have := exampleVecs_eig lib heig
  unfold EigOfReducedVecs at this
  unfold EigOfProjected
  rw [hproj, Matrix.one_mul, Matrix.mul_one, hdd, hcross, ← exampleVecs_cross]
  exact this

theorem exampleVecs_tls_decomp (lib : DmdLib ℝ) (hlaw : lib.Lawful)
    (heig : ∀ {r : Nat} (a : Matrix (Fin r) (Fin r) ℝ), lib.eig a = exampleSeqEig a)
    (hu : utilEigh lib.eigh lib.argsort (1 : Matrix (Fin 2) (Fin 2) ℝ) (some (1 / 10)) none true = .ok ⟨2, fun _ => 1, 1⟩)
    (g : TlsHandles ℝ (Fin 2 → ℝ)) :
    ∃ g' d, g.computeDecomp lib (fun x y => dotIp x y) exampleVecs none (some (1 / 10)) none none = (.ok (), g') ∧
      g'.decomp = some ⟨2, d⟩ ∧ d.proj = 1 ∧ d.d = exampleSeqDecomp ∧
      EigOfProjected lib.eig (gram dotIp (seqVecs exampleVecs) (seqAdvVecs exampleVecs)) d := by
  obtain ⟨g', d, hrun, hd, -⟩ := C31_handles_sequential_no_error lib g (1 / 10) none none (fun x y => dotIp x y) exampleVecs
    (by simp [exampleVecs])
  obtain ⟨d', hd', hg⟩ := tlsComputeDecomp_seq lib _ g g' exampleVecs (some (1 / 10)) none none hrun
  refine ⟨g', d', hrun, by rw [hg]; rfl, ?_⟩
  exact exampleVecs_tls lib hlaw heig hu d' _ _ _ exampleVecs_corr exampleVecs_adv exampleVecs_cross hd'

/-- The example on handles: the spectral coefficients are those of adjoint modes that are biorthonormal to the projected
modes. -/
example : ∃ (lib : DmdLib ℝ) (g' : TlsHandles ℝ (Fin 2 → ℝ)) (out : Vecs (Fin 2 → ℝ)) (s : NdArray ℝ),
    TlsHandles.new.computeDecomp lib (fun x y => dotIp x y) exampleVecs none (some (1 / 10)) none none = (.ok (), g') ∧
    (g'.computeAdjointModes [0, 1] 2 none).1 = .ok out ∧ out.k = 2 ∧ g'.computeSpectrum = .ok s ∧
    ∀ i, s.data i.val = ‖dotIp (out.v i) ![1, 0]‖ := by
  obtain ⟨lib, hlaw, heig, hu⟩ := exists_exampleDmdLib
  obtain ⟨g', d, hrun, hd, hproj, hdd, hE⟩ := exampleVecs_tls_decomp lib hlaw heig hu TlsHandles.new
  obtain ⟨g'', d', hrun', hd', hmodes⟩ := C31_handles_sequential_no_error lib TlsHandles.new (1 / 10) none none
    (fun x y => dotIp x y) exampleVecs (by simp [exampleVecs])
  obtain rfl : g' = g'' := (Prod.ext_iff.mp (hrun.symm.trans hrun')).2
  obtain rfl : d = d' := by
    have := hd.symm.trans hd'
    cases this
    rfl
  have hr : d.d.r = 2 := by rw [hdd]; rfl
  obtain ⟨out, hout⟩ := (hmodes [0, 1] (by intro i hi; rw [hr]; simp at hi; rcases hi with rfl | rfl <;> simp)).2.2.2
  obtain ⟨adjoint, hadj, ⟨s, hs, hsp⟩, -⟩ := C30_handles_sequential lib dotIp TlsHandles.new g' (1 / 10) none none (by norm_num)
    hlaw dotIp_symm exampleVecs hrun d hd hE
  obtain ⟨hk, sel, h1, h2⟩ := hadj _ _ _ out _ (Or.inl rfl) (Prod.ext hout rfl)
  refine ⟨lib, g', out, s, hrun, hout, hk, hs, fun i => ?_⟩
  have hX : combine (seqVecs exampleVecs) d.proj (0 : Fin 2) = (![1, 0] : Fin 2 → ℝ) := by
    rw [hproj]
    unfold combine
    change ∑ x : Fin 2, (1 : Matrix (Fin 2) (Fin 2) ℝ) x 0 • seqVecs exampleVecs x = _
    rw [Fin.sum_univ_two]
    simp [seqVecs, exampleVecs]
  have hsel : (sel i).val = i.val := by
    have hi : i.val < 2 := i.isLt.trans_le hk.le
    have hc : i.val = 0 ∨ i.val = 1 := by omega
    rcases hc with hc | hc
    · have := h1 i 0 (by rw [hc]; rfl)
      unfold npAxisIndex at this
      rw [dif_pos ⟨le_refl _, by rw [hr]; norm_num⟩] at this
      rw [← Except.ok.inj this, hc]
      rfl
    · have := h1 i 1 (by rw [hc]; rfl)
      unfold npAxisIndex at this
      rw [dif_pos ⟨by norm_num, by rw [hr]; norm_num⟩] at this
      rw [← Except.ok.inj this, hc]
      rfl
  have h3 := hsp.spectral (sel i) (0 : Fin 2) rfl
  rw [hsel, ← h2] at h3
  refine h3.trans ?_
  exact congrArg (fun x => ‖dotIp (out.v i) x‖) hX

/-- A history without advanced vectors. -/
example : ∃ lib : DmdLib ℝ, ([DmdCall.decomp [![1, 0], ![5, 5]] none (some 0) none none, .exactModes [0] 1 none].foldl
      (TlsHandles.after lib fun x y => dotIp x y) TlsHandles.new).computeDecomp lib (fun x y => dotIp x y) exampleVecs none
        (some (1 / 10)) none none =
    TlsHandles.new.computeDecomp lib (fun x y => dotIp x y) exampleVecs none (some (1 / 10)) none none := by
  obtain ⟨lib, hlaw, heig, hu⟩ := exists_exampleDmdLib
  obtain ⟨g', d, hrun, -⟩ := exampleVecs_tls_decomp lib hlaw heig hu TlsHandles.new
  refine ⟨lib, C29_tls_history_partial lib _ _ ?_ _ _ _ _ _ (by rw [hrun])⟩
  intro c hc
  simp only [List.mem_cons, List.not_mem_nil, or_false] at hc
  rcases hc with rfl | rfl <;> rfl

/-- **C29, violation.** After a decomposition of the unit vectors with the advanced vectors (1, 0) and (0, 5), the
first exact mode of the sequence (1, 0), (0, 1), (-2, 3) is (-2, 5); with a new object it is (-2, 1). -/
theorem C29_tls_violation : ∃ (lib : DmdLib ℝ) (g1 g2 g2' : TlsHandles ℝ (Fin 2 → ℝ)) (out out' : Vecs (Fin 2 → ℝ)),
    lib.Lawful ∧
    TlsHandles.new.computeDecomp lib (fun x y => dotIp x y) [![1, 0], ![0, 1]] (some [![1, 0], ![0, 5]]) (some (1 / 10)) none
      none = (.ok (), g1) ∧
    g1.computeDecomp lib (fun x y => dotIp x y) exampleVecs none (some (1 / 10)) none none = (.ok (), g2) ∧
    TlsHandles.new.computeDecomp lib (fun x y => dotIp x y) exampleVecs none (some (1 / 10)) none none = (.ok (), g2') ∧
    g2.decomp = g2'.decomp ∧
    (∃ d, g2.decomp = some ⟨2, d⟩ ∧ EigOfProjected lib.eig (gram dotIp (seqVecs exampleVecs) (seqAdvVecs exampleVecs)) d ∧
      Function.Injective d.d.eigvals ∧ ∀ i, d.d.eigvals i ≠ 0) ∧
    (g2.computeExactModes [0] 1 none).1 = .ok out ∧ (g2'.computeExactModes [0] 1 none).1 = .ok out' ∧
    (∀ i, out.v i = ![-2, 5]) ∧ (∀ i, out'.v i = ![-2, 1]) ∧ out.k = 1 ∧ out'.k = 1 := by
  obtain ⟨lib, hlaw, heig, hu⟩ := exists_exampleDmdLib
  obtain ⟨g1, d1, hrun1, hd1, -⟩ := (C31_handles_pairs_no_error lib TlsHandles.new (1 / 10) none none (fun x y => dotIp x y)
    ([![1, 0], ![0, 1]] : List (Fin 2 → ℝ)) ([![1, 0], ![0, 5]] : List (Fin 2 → ℝ))).2 rfl (by simp)
  have hadv1 : g1.adv = some [![1, 0], ![0, 5]] := by
    obtain ⟨_, _, _, rfl⟩ := tlsComputeDecomp_pairs lib _ _ g1 _ _ _ _ _ hrun1
    rfl
  obtain ⟨g2', d, hrun2', hd2', hproj, hdd, hE⟩ := exampleVecs_tls_decomp lib hlaw heig hu TlsHandles.new
  have hsame := (C29_tls_sequential lib (fun x y => dotIp x y) g1 exampleVecs (some (1 / 10)) none none).2 (by rw [hrun2'])
  have hok := (C29_tls_sequential lib (fun x y => dotIp x y) g1 exampleVecs (some (1 / 10)) none none).1
  rw [hrun2'] at hsame hok
  obtain ⟨g2, hg2⟩ : ∃ g2, g2 = ({ g2' with adv := g1.adv } : TlsHandles ℝ (Fin 2 → ℝ)) := ⟨_, rfl⟩
  have hrun2 : g1.computeDecomp lib (fun x y => dotIp x y) exampleVecs none (some (1 / 10)) none none = (.ok (), g2) :=
    Prod.ext hok (hsame.trans hg2.symm)
  have hd2 : g2.decomp = some ⟨2, d⟩ := by rw [hg2]; exact hd2'
  have hr : d.d.r = 2 := by rw [hdd]; rfl
  have hvalid : ∀ i ∈ [(0 : Int)], -(d.d.r : Int) ≤ i ∧ i < d.d.r := by
    rw [hr]
    simp
  obtain ⟨d', hd', hst⟩ := C29_tls_kept_advanced_vectors_violation lib _ g1 g2 _ exampleVecs hadv1 _ _ _ hrun2
  obtain rfl : d = d' := by
    have := hd2.symm.trans hd'
    cases this
    rfl
  obtain ⟨out, hout⟩ := linCombineSized_all (List.get ([![1, 0], ![0, 5]] : List (Fin 2 → ℝ))) d.buildExact [0] hvalid (by simp) rfl
  obtain ⟨_, d', hrun3, hd3, hmodes⟩ := C31_handles_sequential_no_error lib TlsHandles.new (1 / 10) none none
    (fun x y => dotIp x y) exampleVecs (by simp [exampleVecs])
  cases (Prod.ext_iff.mp (hrun2'.symm.trans hrun3)).2
  obtain rfl : d = d' := by
    have := hd2'.symm.trans hd3
    cases this
    rfl
  obtain ⟨out', hout'⟩ := (hmodes [0] hvalid).1 rfl
  have hc := linCombineSized_chosen _ _ _ _ _ hout (List.get ([![1, 0], ![0, 5]] : List (Fin 2 → ℝ))) fun _ _ => rfl
  have hc' : ChosenVecs (combine (seqAdvVecs exampleVecs) d.buildExact) [0] out' := by
    obtain ⟨d'', -, hg⟩ := tlsComputeDecomp_seq lib _ _ g2' exampleVecs _ _ _ hrun2'
    obtain rfl : d = d'' := by
      rw [hg] at hd2'
      cases hd2'
      rfl
    rw [hg] at hout'
    exact (tls_state_seq exampleVecs _ none d (by simp [exampleVecs])).1 _ _ _ _ _ (Or.inl ⟨rfl, rfl⟩)
      (Prod.ext hout' rfl)
  have hB' : d.buildExact = d.d.buildExact := by
    have e : d.buildExact = d.proj * d.d.buildExact := by
      unfold TlsDecomp.buildExact TlsDecomp.proj DmdDecomp.buildExact
      simp only [Matrix.mul_assoc]
    rw [e, hproj, Matrix.one_mul]
  have hB : ∀ k (j : Fin d.d.r), j.val = 0 → d.buildExact k j = ![-2, 1] k := by
    rw [hB', hdd]
    intro k j hj
    obtain rfl : j = (0 : Fin 2) := Fin.ext hj
    have : exampleSeqDecomp.buildExact = (!![-2, -1 / 2; 1, 1 / 2] : Matrix (Fin 2) (Fin 2) ℝ) := by
      change (1 : Matrix (Fin 2) (Fin 2) ℝ) * (diagPow (𝕜 := ℝ) (fun _ : Fin 2 => (1 : ℝ)) (-0.5) *
        ((!![-2, -1; 1, 1] : Matrix (Fin 2) (Fin 2) ℝ) * diagonal fun i => ((![1, 2] : Fin 2 → ℝ) i)⁻¹)) = _
      rw [exampleSeq_diagPow, Matrix.one_mul, Matrix.one_mul]
      ext i j
      rw [Matrix.mul_diagonal]
      fin_cases i <;> fin_cases j <;> simp <;> norm_num
    rw [this]
    fin_cases k <;> rfl
  have hdist := exampleSeqDecomp_distinct
  rw [← hdd] at hdist
  have hzero : ∀ (o : Vecs (Fin 2 → ℝ)) (ho : o.k = 1) (sel : Fin o.k → Fin d.d.r)
      (_ : ∀ (i : Fin o.k) (j : Int), [(0 : Int)][i.val]? = some j → npAxisIndex d.d.r j = .ok (sel i)) (i : Fin o.k),
      (sel i).val = 0 := by
    intro o ho sel h1 i
    have hi : i.val = 0 := by have := i.isLt.trans_le ho.le; omega
    have := h1 i 0 (by rw [hi]; rfl)
    unfold npAxisIndex at this
    rw [dif_pos ⟨le_refl _, by rw [hr]; norm_num⟩] at this
    rw [← Except.ok.inj this]
    rfl
  refine ⟨lib, g1, g2, g2', out, out', hlaw, hrun1, hrun2, hrun2', by rw [hd2, hd2'], ⟨d, hd2, hE, hdist.1, hdist.2⟩, ?_,
    hout', ?_, ?_, hc.1, hc'.1⟩
  · rw [hst]
    exact hout
  · intro i
    obtain ⟨hk, sel, h1, h2⟩ := hc
    rw [h2]
    unfold combine
    change ∑ x : Fin 2, d.buildExact x (sel i) • List.get ([![1, 0], ![0, 5]] : List (Fin 2 → ℝ)) x = _
    rw [Fin.sum_univ_two, hB _ _ (hzero out hk sel h1 i), hB _ _ (hzero out hk sel h1 i)]
    ext k
    fin_cases k <;> simp
  · intro i
    obtain ⟨hk, sel, h1, h2⟩ := hc'
    rw [h2]
    unfold combine
    change ∑ x : Fin 2, d.buildExact x (sel i) • seqAdvVecs exampleVecs x = _
    rw [Fin.sum_univ_two, hB _ _ (hzero out' hk sel h1 i), hB _ _ (hzero out' hk sel h1 i)]
    ext k
    fin_cases k <;> simp [seqAdvVecs, exampleVecs] <;> norm_num

end Modred
