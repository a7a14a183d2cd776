import Verif.Lemmas.DmdHandles
import Verif.Props.Dmd

/-!
# Dynamic mode decomposition on handles (C26, C27, C28, C29)
-/

namespace Modred

open Matrix
open scoped ComplexOrder

variable {𝕜 : Type*} [RCLike 𝕜] {E : Type*}

/-- What is assumed of the numerical library for symmetric arrays and sorting. -/
structure DmdLib.Lawful (lib : DmdLib 𝕜) : Prop where
  eigh : ∀ {m : Nat} (a : Matrix (Fin m) (Fin m) 𝕜), a.IsHermitian → IsEigh a (lib.eigh a)
  argsort : ∀ {m : Nat}, IsArgsort (lib.argsort (m := m))

theorem exists_dmdLib (eig : ∀ {r : Nat}, Matrix (Fin r) (Fin r) 𝕜 → EigOut 𝕜 r) :
    ∃ lib : DmdLib 𝕜, lib.Lawful ∧ ∀ {r : Nat} (a : Matrix (Fin r) (Fin r) 𝕜), lib.eig a = eig a := by
  choose lib hlib using fun m => exists_podLib (𝕜 := 𝕜) 0 m
  exact ⟨⟨fun {m} => (lib m).eigh, fun {m} => (lib m).argsort, eig⟩,
    ⟨fun {m} => (hlib m).2.1, fun {m} => (hlib m).2.2.1⟩, fun _ => rfl⟩

/-! ### What the methods compute -/

section

variable [AddCommGroup E] [Module 𝕜 E]

theorem linCombineSized_chosen {p h r : Nat} (numSums : Nat) (basis : Fin p → E) (coeff : Matrix (Fin h) (Fin r) 𝕜)
    (l : List Int) (out : Vecs E) (hout : linCombineSized numSums basis coeff (some l) = .ok out) (F : Fin h → E)
    (hF : ∀ (hp : h = p) k, basis (Fin.cast hp k) = F k) : ChosenVecs (combine F coeff) l out := by
  obtain ⟨hp, h1, sel, h2, h3⟩ := linCombineSized_ok _ _ _ _ _ hout
  refine ⟨h1, sel, h2, fun i => ?_⟩
  rw [h3]
  congr 1
  ext k
  exact hF hp k

theorem npAxisIndices_ok {n : Nat} (l : List Int) (hl : ∀ i ∈ l, -(n : Int) ≤ i ∧ i < n) :
    ∃ c, npAxisIndices n l = .ok c ∧ c.length = l.length := by
  induction l with
  | nil => exact ⟨[], rfl, rfl⟩
  | cons i is ih =>
    obtain ⟨c, hc, hlen⟩ := ih fun j hj => hl j (List.mem_cons_of_mem _ hj)
    obtain ⟨h1, h2⟩ := hl i List.mem_cons_self
    have : ∃ k, npAxisIndex n i = .ok k := by
      unfold npAxisIndex
      by_cases h : 0 ≤ i
      · rw [dif_pos ⟨h, h2⟩]
        exact ⟨_, rfl⟩
      · rw [dif_neg (by omega), dif_pos ⟨by omega, h1⟩]
        exact ⟨_, rfl⟩
    obtain ⟨k, hk⟩ := this
    unfold npAxisIndices
    rw [hk, hc]
    exact ⟨_, rfl, by simp [hlen]⟩

theorem linCombineSized_all {p h r : Nat} (basis : Fin p → E) (coeff : Matrix (Fin h) (Fin r) 𝕜)
    (l : List Int) (hl : ∀ i ∈ l, -(r : Int) ≤ i ∧ i < r) (hp : 0 < p) (hph : p = h) :
    ∃ out, linCombineSized l.length basis coeff (some l) = .ok out := by
  subst hph
  obtain ⟨c, hc, hlen⟩ := npAxisIndices_ok l hl
  unfold linCombineSized handlesLinCombine pickCols
  rw [dif_pos rfl]
  dsimp only
  rw [hc]
  dsimp only
  rw [if_neg (not_not.mpr hlen.symm), if_neg (by omega)]
  exact ⟨_, rfl⟩

variable {m r : Nat}

theorem seq_tail (vecs : List E) (h : vecs.length - 1 = vecs.tail.length) (k : Fin (vecs.length - 1)) :
    vecs.tail.get (Fin.cast h k) = seqAdvVecs vecs k := by
  unfold seqAdvVecs
  simp

theorem seq_dropLast (vecs : List E) (h : vecs.length - 1 = vecs.dropLast.length) (k : Fin (vecs.length - 1)) :
    vecs.dropLast.get (Fin.cast h k) = seqVecs vecs k := by
  unfold seqVecs
  simp

end

/-- The state after `compute_decomp` for a sequence. -/
theorem computeDecomp_seq (lib : DmdLib 𝕜) (ip : E → E → 𝕜) (g g' : DmdHandles 𝕜 E) (vecs : List E) (atol rtol : Option ℝ)
    (maxNum : Option Nat) (hrun : g.computeDecomp lib ip vecs none atol rtol maxNum = (.ok (), g')) :
    ∃ d, dmdEigendecomp lib.eigh lib.argsort lib.eig (handlesIp ip (seqVecs vecs) (seqVecs vecs))
        (handlesIp ip (seqVecs vecs) (seqAdvVecs vecs)) atol none maxNum = .ok d ∧
      g' = ⟨some vecs, g.adv, some ⟨vecs.length - 1, handlesIp ip (seqVecs vecs) (seqVecs vecs),
        handlesIp ip (seqVecs vecs) (seqAdvVecs vecs)⟩, some ⟨vecs.length - 1, d⟩⟩ := by
  unfold DmdHandles.computeDecomp at hrun
  dsimp only at hrun
  split at hrun
  · cases hrun
  unfold DmdHandles.computeEigendecomp dmdArraysSeq at hrun
  dsimp only at hrun
  split at hrun
  · cases hrun
  rename_i d hd
  cases hrun
  exact ⟨d, hd, rfl⟩

/-- The state after `compute_decomp` for pairs. -/
theorem computeDecomp_pairs (lib : DmdLib 𝕜) (ip : E → E → 𝕜) (g g' : DmdHandles 𝕜 E) (vecs adv : List E)
    (atol rtol : Option ℝ) (maxNum : Option Nat)
    (hrun : g.computeDecomp lib ip vecs (some adv) atol rtol maxNum = (.ok (), g')) :
    ∃ (h : vecs.length = adv.length) (d : _),
      dmdEigendecomp lib.eigh lib.argsort lib.eig (handlesIp ip vecs.get vecs.get)
        (handlesIp ip vecs.get fun j => adv.get (Fin.cast h j)) atol none maxNum = .ok d ∧
      g' = ⟨some vecs, some adv, some ⟨vecs.length, handlesIp ip vecs.get vecs.get,
        handlesIp ip vecs.get fun j => adv.get (Fin.cast h j)⟩, some ⟨vecs.length, d⟩⟩ := by
  unfold DmdHandles.computeDecomp at hrun
  dsimp only at hrun
  split at hrun
  swap
  · cases hrun
  rename_i h
  split at hrun
  · cases hrun
  unfold DmdHandles.computeEigendecomp dmdArraysPairs at hrun
  dsimp only at hrun
  split at hrun
  · cases hrun
  rename_i d hd
  cases hrun
  exact ⟨h, d, hd, rfl⟩

section Modes

variable [AddCommGroup E] [Module 𝕜 E] (lib : DmdLib 𝕜) (ip : E →ₗ⋆[𝕜] E →ₗ[𝕜] 𝕜) (g g' : DmdHandles 𝕜 E) (t : ℝ)
  (rtol : Option ℝ) (maxNum : Option Nat)

/-- `scipy.linalg.eig` returned eigenvalues and eigenvectors of the reduced map of the result. -/
def EigOfReducedVecs {m : Nat} (eig : ∀ {r : Nat}, Matrix (Fin r) (Fin r) 𝕜 → EigOut 𝕜 r) (X Y : Fin m → E)
    (d : DmdDecomp 𝕜 m) : Prop :=
  IsEig (lowOrderMap (diagPow (𝕜 := 𝕜) d.w (-0.5)) d.V (gram ip X Y))
    (eig (lowOrderMap (diagPow (𝕜 := 𝕜) d.w (-0.5)) d.V (gram ip X Y)))

omit [AddCommGroup E] [Module 𝕜 E] in
theorem dmdEigendecomp_pos {m : Nat} {C K : Matrix (Fin m) (Fin m) 𝕜} {atol rtol : Option ℝ} {d : DmdDecomp 𝕜 m}
    (h : dmdEigendecomp lib.eigh lib.argsort lib.eig C K atol rtol maxNum = .ok d) : 0 < m := by
  rcases Nat.eq_zero_or_pos m with rfl | hm
  · unfold dmdEigendecomp utilEigh adjustTol npMin at h
    simp at h
  · exact hm

theorem gram_herm (hsym : ∀ x y, ip y x = star (ip x y)) {m : Nat} (X : Fin m → E) : (gram ip X X).IsHermitian := by
  ext i j
  exact (hsym _ _).symm

/-- The methods compute from `X` and `Y` the modes with the coefficients of the decomposition. -/
theorem handles_modes {m : Nat} {X Y : Fin m → E} {d : DmdDecomp 𝕜 m} (ht : 0 ≤ t) (hlib : lib.Lawful)
    (hsym : ∀ x y, ip y x = star (ip x y))
    (hd : dmdEigendecomp lib.eigh lib.argsort lib.eig (gram ip X X) (gram ip X Y) (some t) none maxNum = .ok d)
    (heig : EigOfReducedVecs ip lib.eig X Y d) :
    0 < m ∧ DmdCore (gram ip X X) (gram ip X Y) d ∧ (Function.Injective d.eigvals → d.Lᴴ * d.R = 1) :=
  ⟨dmdEigendecomp_pos lib maxNum hd, dmdEigendecomp_core _ _ _ _ _ t none maxNum d hd ht (by simp) hlib.argsort
    (gram_herm ip hsym X) (hlib.eigh _ (gram_herm ip hsym X)) heig⟩

omit [AddCommGroup E] [Module 𝕜 E] in
theorem computeProjCoeffs_state {m : Nat} (v a : Option (List E)) (C K : Matrix (Fin m) (Fin m) 𝕜) (d : DmdDecomp 𝕜 m) :
    (⟨v, a, some ⟨m, C, K⟩, some ⟨m, d⟩⟩ : DmdHandles 𝕜 E).computeProjCoeffs =
      .ok (⟨d.r, m, d.Lᴴ * (diagPow (𝕜 := 𝕜) d.w 0.5 * d.Vᴴ)⟩,
        ⟨d.r, m, d.Lᴴ * (diagPow (𝕜 := 𝕜) d.w (-0.5) * (d.Vᴴ * K))⟩) := by
  unfold DmdHandles.computeProjCoeffs
  dsimp only
  rw [dif_pos rfl]
  rfl

/-- All that the methods compute after `compute_decomp` for a sequence, in terms of the decomposition. -/
theorem state_seq (vecs : List E) (C K : Matrix (Fin (vecs.length - 1)) (Fin (vecs.length - 1)) 𝕜) (a : Option (List E))
    (d : DmdDecomp 𝕜 (vecs.length - 1)) (hm : 0 < vecs.length - 1) :
    (∀ l num b out g'', (b = none ∧ a = none ∨ b = some vecs.tail) →
        (⟨some vecs, a, some ⟨_, C, K⟩, some ⟨_, d⟩⟩ : DmdHandles 𝕜 E).computeExactModes l num b = (.ok out, g'') →
        ChosenVecs (combine (seqAdvVecs vecs) d.buildExact) l out) ∧
      (∀ l num b out g'', (b = none ∨ b = some vecs) →
        (⟨some vecs, a, some ⟨_, C, K⟩, some ⟨_, d⟩⟩ : DmdHandles 𝕜 E).computeProjModes l num b = (.ok out, g'') →
        ChosenVecs (combine (seqVecs vecs) d.buildProj) l out) ∧
      ∀ l num b out g'', (b = none ∨ b = some vecs) →
        (⟨some vecs, a, some ⟨_, C, K⟩, some ⟨_, d⟩⟩ : DmdHandles 𝕜 E).computeAdjointModes l num b = (.ok out, g'') →
        ChosenVecs (combine (seqVecs vecs) d.buildAdjoint) l out := by
  have hlen : vecs.length = vecs.length - 1 + 1 := by omega
  refine ⟨?_, ?_, ?_⟩
  · rintro l num b out g'' (⟨rfl, rfl⟩ | rfl) h
    · unfold DmdHandles.computeExactModes exactModesFrom at h
      simp only [Option.isSome_none, Bool.false_eq_true, if_false, Prod.mk.injEq] at h
      rw [if_pos hlen] at h
      exact linCombineSized_chosen _ _ _ _ _ h.1 _ (seq_tail vecs)
    · unfold DmdHandles.computeExactModes exactModesFrom at h
      simp only [Option.isSome_some, if_true, Prod.mk.injEq] at h
      exact linCombineSized_chosen _ _ _ _ _ h.1 _ (seq_tail vecs)
  · rintro l num b out g'' (rfl | rfl) h <;>
    · unfold DmdHandles.computeProjModes spanModesFrom at h
      simp only [Option.isSome_none, Option.isSome_some, Bool.false_eq_true, if_false, if_true, Prod.mk.injEq] at h
      rw [if_pos hlen] at h
      exact linCombineSized_chosen _ _ _ _ _ h.1 _ (seq_dropLast vecs)
  · rintro l num b out g'' (rfl | rfl) h <;>
    · unfold DmdHandles.computeAdjointModes spanModesFrom at h
      simp only [Option.isSome_none, Option.isSome_some, Bool.false_eq_true, if_false, if_true, Prod.mk.injEq] at h
      rw [if_pos hlen] at h
      exact linCombineSized_chosen _ _ _ _ _ h.1 _ (seq_dropLast vecs)

/-- All that the methods compute after `compute_decomp` for pairs, in terms of the decomposition. -/
theorem state_pairs (vecs adv : List E) (hlen : vecs.length = adv.length)
    (C K : Matrix (Fin vecs.length) (Fin vecs.length) 𝕜) (d : DmdDecomp 𝕜 vecs.length) :
    (∀ l num b out g'', (b = none ∨ b = some adv) →
        (⟨some vecs, some adv, some ⟨_, C, K⟩, some ⟨_, d⟩⟩ : DmdHandles 𝕜 E).computeExactModes l num b = (.ok out, g'') →
        ChosenVecs (combine (fun j => adv.get (Fin.cast hlen j)) d.buildExact) l out) ∧
      (∀ l num b out g'', (b = none ∨ b = some vecs) →
        (⟨some vecs, some adv, some ⟨_, C, K⟩, some ⟨_, d⟩⟩ : DmdHandles 𝕜 E).computeProjModes l num b = (.ok out, g'') →
        ChosenVecs (combine vecs.get d.buildProj) l out) ∧
      ∀ l num b out g'', (b = none ∨ b = some vecs) →
        (⟨some vecs, some adv, some ⟨_, C, K⟩, some ⟨_, d⟩⟩ : DmdHandles 𝕜 E).computeAdjointModes l num b = (.ok out, g'') →
        ChosenVecs (combine vecs.get d.buildAdjoint) l out := by
  have hne : ¬ vecs.length = vecs.length + 1 := by omega
  refine ⟨?_, ?_, ?_⟩
  · rintro l num b out g'' (rfl | rfl) h <;>
    · unfold DmdHandles.computeExactModes exactModesFrom at h
      simp only [Option.isSome_none, Option.isSome_some, Bool.false_eq_true, if_false, if_true, Prod.mk.injEq] at h
      exact linCombineSized_chosen _ _ _ _ _ h.1 _ fun _ _ => rfl
  · rintro l num b out g'' (rfl | rfl) h <;>
    · unfold DmdHandles.computeProjModes spanModesFrom at h
      simp only [Option.isSome_none, Option.isSome_some, Bool.false_eq_true, if_false, if_true, Prod.mk.injEq] at h
      rw [if_neg hne] at h
      exact linCombineSized_chosen _ _ _ _ _ h.1 _ fun _ _ => rfl
  · rintro l num b out g'' (rfl | rfl) h <;>
    · unfold DmdHandles.computeAdjointModes spanModesFrom at h
      simp only [Option.isSome_none, Option.isSome_some, Bool.false_eq_true, if_false, if_true, Prod.mk.injEq] at h
      rw [if_neg hne] at h
      exact linCombineSized_chosen _ _ _ _ _ h.1 _ fun _ _ => rfl

/-- **C26, C27.** After `compute_decomp` for a sequence of vectors, all methods that compute modes and coefficients
compute those of the same decomposition, for any choice of modes.  Advanced vectors given earlier must not be kept;
they are not used if the advanced vectors are given again. -/
theorem C26_handles_sequential (ht : 0 ≤ t) (hlib : lib.Lawful) (hsym : ∀ x y, ip y x = star (ip x y)) (vecs : List E)
    (hrun : g.computeDecomp lib (fun x y => ip x y) vecs none (some t) rtol maxNum = (.ok (), g'))
    (d : DmdDecomp 𝕜 (vecs.length - 1)) (hd : g'.decomp = some ⟨vecs.length - 1, d⟩)
    (heig : EigOfReducedVecs ip lib.eig (seqVecs vecs) (seqAdvVecs vecs) d)
    (hinj : Function.Injective d.eigvals) (h0 : ∀ i, d.eigvals i ≠ 0) :
    ∃ exact proj adjoint : Fin d.r → E,
      DmdHandleModes ip (seqVecs vecs) (seqAdvVecs vecs) d.w d.V d.eigvals exact proj adjoint ∧
      (∀ l num a out g'', (a = none ∧ g.adv = none ∨ a = some vecs.tail) →
        g'.computeExactModes l num a = (.ok out, g'') → ChosenVecs exact l out) ∧
      (∀ l num a out g'', (a = none ∨ a = some vecs) →
        g'.computeProjModes l num a = (.ok out, g'') → ChosenVecs proj l out) ∧
      (∀ l num a out g'', (a = none ∨ a = some vecs) →
        g'.computeAdjointModes l num a = (.ok out, g'') → ChosenVecs adjoint l out) ∧
      (∃ s, g'.computeSpectrum = .ok s ∧ DmdHandleSpectrum ip (seqVecs vecs) adjoint s) ∧
      ∃ c c', g'.computeProjCoeffs = .ok (⟨d.r, vecs.length - 1, c⟩, ⟨d.r, vecs.length - 1, c'⟩) ∧
        DmdHandleCoeffs ip (seqVecs vecs) (seqAdvVecs vecs) adjoint c c' := by
  obtain ⟨d', hd', rfl⟩ := computeDecomp_seq lib _ g g' vecs (some t) rtol maxNum hrun
  cases hd
  obtain ⟨hm, hc, hLR⟩ := handles_modes lib ip t maxNum ht hlib hsym hd' heig
  obtain ⟨h1, h2, h3⟩ := state_seq vecs (handlesIp (fun x y => ip x y) (seqVecs vecs) (seqVecs vecs))
    (handlesIp (fun x y => ip x y) (seqVecs vecs) (seqAdvVecs vecs)) g.adv d hm
  refine ⟨_, _, _, hc.handleModes (hLR hinj) h0, h1, h2, h3, ?_, _, _, computeProjCoeffs_state _ _ _ _ _, hc.handleCoeffs⟩
  refine ⟨_, ?_, hc.handleSpectrum hm⟩
  unfold DmdHandles.computeSpectrum
  dsimp only
  rw [dif_pos hm]

/-- **C26, C27.** The same for pairs of vectors, whatever the object was used for before. -/
theorem C26_handles_pairs (ht : 0 ≤ t) (hlib : lib.Lawful) (hsym : ∀ x y, ip y x = star (ip x y)) (vecs adv : List E)
    (hrun : g.computeDecomp lib (fun x y => ip x y) vecs (some adv) (some t) rtol maxNum = (.ok (), g'))
    (d : DmdDecomp 𝕜 vecs.length) (hd : g'.decomp = some ⟨vecs.length, d⟩) (hlen : vecs.length = adv.length)
    (heig : EigOfReducedVecs ip lib.eig vecs.get (fun j => adv.get (Fin.cast hlen j)) d)
    (hinj : Function.Injective d.eigvals) (h0 : ∀ i, d.eigvals i ≠ 0) :
    ∃ exact proj adjoint : Fin d.r → E,
      DmdHandleModes ip vecs.get (fun j => adv.get (Fin.cast hlen j)) d.w d.V d.eigvals exact proj adjoint ∧
      (∀ l num a out g'', (a = none ∨ a = some adv) →
        g'.computeExactModes l num a = (.ok out, g'') → ChosenVecs exact l out) ∧
      (∀ l num a out g'', (a = none ∨ a = some vecs) →
        g'.computeProjModes l num a = (.ok out, g'') → ChosenVecs proj l out) ∧
      (∀ l num a out g'', (a = none ∨ a = some vecs) →
        g'.computeAdjointModes l num a = (.ok out, g'') → ChosenVecs adjoint l out) ∧
      (∃ s, g'.computeSpectrum = .ok s ∧ DmdHandleSpectrum ip vecs.get adjoint s) ∧
      ∃ c c', g'.computeProjCoeffs = .ok (⟨d.r, vecs.length, c⟩, ⟨d.r, vecs.length, c'⟩) ∧
        DmdHandleCoeffs ip vecs.get (fun j => adv.get (Fin.cast hlen j)) adjoint c c' := by
  obtain ⟨_, d', hd', rfl⟩ := computeDecomp_pairs lib _ g g' vecs adv (some t) rtol maxNum hrun
  cases hd
  obtain ⟨hm, hc, hLR⟩ := handles_modes lib ip t maxNum ht hlib hsym hd' heig
  obtain ⟨h1, h2, h3⟩ := state_pairs vecs adv hlen (handlesIp (fun x y => ip x y) vecs.get vecs.get)
    (handlesIp (fun x y => ip x y) vecs.get fun j => adv.get (Fin.cast hlen j)) d
  refine ⟨_, _, _, hc.handleModes (hLR hinj) h0, h1, h2, h3, ?_, _, _, computeProjCoeffs_state _ _ _ _ _, hc.handleCoeffs⟩
  refine ⟨_, ?_, hc.handleSpectrum hm⟩
  unfold DmdHandles.computeSpectrum
  dsimp only
  rw [dif_pos hm]

/-- **C27.** Coefficients for a sequence, whether or not the eigenvalues are distinct. -/
theorem C27_handles_sequential (ht : 0 ≤ t) (hlib : lib.Lawful) (hsym : ∀ x y, ip y x = star (ip x y)) (vecs : List E)
    (hrun : g.computeDecomp lib (fun x y => ip x y) vecs none (some t) rtol maxNum = (.ok (), g'))
    (d : DmdDecomp 𝕜 (vecs.length - 1)) (hd : g'.decomp = some ⟨vecs.length - 1, d⟩)
    (heig : EigOfReducedVecs ip lib.eig (seqVecs vecs) (seqAdvVecs vecs) d) :
    ∃ adjoint : Fin d.r → E,
      (∀ l num a out g'', (a = none ∨ a = some vecs) →
        g'.computeAdjointModes l num a = (.ok out, g'') → ChosenVecs adjoint l out) ∧
      (∃ s, g'.computeSpectrum = .ok s ∧ DmdHandleSpectrum ip (seqVecs vecs) adjoint s) ∧
      ∃ c c', g'.computeProjCoeffs = .ok (⟨d.r, vecs.length - 1, c⟩, ⟨d.r, vecs.length - 1, c'⟩) ∧
        DmdHandleCoeffs ip (seqVecs vecs) (seqAdvVecs vecs) adjoint c c' := by
  obtain ⟨d', hd', rfl⟩ := computeDecomp_seq lib _ g g' vecs (some t) rtol maxNum hrun
  cases hd
  obtain ⟨hm, hc, -⟩ := handles_modes lib ip t maxNum ht hlib hsym hd' heig
  obtain ⟨-, -, h3⟩ := state_seq vecs (handlesIp (fun x y => ip x y) (seqVecs vecs) (seqVecs vecs))
    (handlesIp (fun x y => ip x y) (seqVecs vecs) (seqAdvVecs vecs)) g.adv d hm
  refine ⟨_, h3, ⟨_, ?_, hc.handleSpectrum hm⟩, _, _, computeProjCoeffs_state _ _ _ _ _, hc.handleCoeffs⟩
  unfold DmdHandles.computeSpectrum
  dsimp only
  rw [dif_pos hm]

/-- **C27.** Coefficients for pairs, whether or not the eigenvalues are distinct. -/
theorem C27_handles_pairs (ht : 0 ≤ t) (hlib : lib.Lawful) (hsym : ∀ x y, ip y x = star (ip x y)) (vecs adv : List E)
    (hrun : g.computeDecomp lib (fun x y => ip x y) vecs (some adv) (some t) rtol maxNum = (.ok (), g'))
    (d : DmdDecomp 𝕜 vecs.length) (hd : g'.decomp = some ⟨vecs.length, d⟩) (hlen : vecs.length = adv.length)
    (heig : EigOfReducedVecs ip lib.eig vecs.get (fun j => adv.get (Fin.cast hlen j)) d) :
    ∃ adjoint : Fin d.r → E,
      (∀ l num a out g'', (a = none ∨ a = some vecs) →
        g'.computeAdjointModes l num a = (.ok out, g'') → ChosenVecs adjoint l out) ∧
      (∃ s, g'.computeSpectrum = .ok s ∧ DmdHandleSpectrum ip vecs.get adjoint s) ∧
      ∃ c c', g'.computeProjCoeffs = .ok (⟨d.r, vecs.length, c⟩, ⟨d.r, vecs.length, c'⟩) ∧
        DmdHandleCoeffs ip vecs.get (fun j => adv.get (Fin.cast hlen j)) adjoint c c' := by
  obtain ⟨_, d', hd', rfl⟩ := computeDecomp_pairs lib _ g g' vecs adv (some t) rtol maxNum hrun
  cases hd
  obtain ⟨hm, hc, -⟩ := handles_modes lib ip t maxNum ht hlib hsym hd' heig
  obtain ⟨-, -, h3⟩ := state_pairs vecs adv hlen (handlesIp (fun x y => ip x y) vecs.get vecs.get)
    (handlesIp (fun x y => ip x y) vecs.get fun j => adv.get (Fin.cast hlen j)) d
  refine ⟨_, h3, ⟨_, ?_, hc.handleSpectrum hm⟩, _, _, computeProjCoeffs_state _ _ _ _ _, hc.handleCoeffs⟩
  unfold DmdHandles.computeSpectrum
  dsimp only
  rw [dif_pos hm]

/-- Valid indices of modes. -/
def ValidIndices (r : Nat) (l : List Int) : Prop := ∀ i ∈ l, -(r : Int) ≤ i ∧ i < r

/-- **C26.** For a sequence of at least two vectors there is no error, and none for the modes if the indices are
valid and there are as many handles as indices. -/
theorem C26_handles_sequential_no_error (ip : E → E → 𝕜) (vecs : List E) (hlen : 2 ≤ vecs.length) :
    ∃ g' d, g.computeDecomp lib ip vecs none (some t) rtol maxNum = (.ok (), g') ∧
      g'.decomp = some ⟨vecs.length - 1, d⟩ ∧ ∀ l, ValidIndices d.r l →
        (g.adv = none → ∃ out, (g'.computeExactModes l l.length none).1 = .ok out) ∧
        (∃ out, (g'.computeExactModes l l.length (some vecs.tail)).1 = .ok out) ∧
        (∃ out, (g'.computeProjModes l l.length none).1 = .ok out) ∧
        ∃ out, (g'.computeAdjointModes l l.length none).1 = .ok out := by
  obtain ⟨e, he⟩ := C20_no_error lib.eigh lib.argsort (handlesIp ip (seqVecs vecs) (seqVecs vecs)) none true t (by omega)
  have hd : ∃ d, dmdEigendecomp lib.eigh lib.argsort lib.eig (handlesIp ip (seqVecs vecs) (seqVecs vecs))
      (handlesIp ip (seqVecs vecs) (seqAdvVecs vecs)) (some t) none maxNum = .ok d := by
    unfold dmdEigendecomp
    rw [he]
    exact ⟨_, rfl⟩
  obtain ⟨d, hd⟩ := hd
  have h1 : vecs ≠ [] := by
    rintro rfl
    simp at hlen
  have h2 : vecs.length = vecs.length - 1 + 1 := by omega
  have ht : ∀ (build : Matrix (Fin (vecs.length - 1)) (Fin d.r) 𝕜) l, ValidIndices d.r l →
      ∃ out, linCombineSized l.length vecs.tail.get build (some l) = .ok out := by
    intro build l hl
    have e : vecs.tail.length = vecs.length - 1 := List.length_tail
    exact linCombineSized_all _ _ l hl (by omega) e
  have hh : ∀ (build : Matrix (Fin (vecs.length - 1)) (Fin d.r) 𝕜) l, ValidIndices d.r l →
      ∃ out, linCombineSized l.length vecs.dropLast.get build (some l) = .ok out := by
    intro build l hl
    have e : vecs.dropLast.length = vecs.length - 1 := List.length_dropLast
    exact linCombineSized_all _ _ l hl (by omega) e
  refine ⟨⟨some vecs, g.adv, some (dmdArraysSeq ip vecs), some ⟨vecs.length - 1, d⟩⟩, d, ?_, rfl, fun l hl => ?_⟩
  · unfold DmdHandles.computeDecomp
    dsimp only
    rw [if_neg h1]
    unfold DmdHandles.computeEigendecomp
    dsimp only
    have : dmdEigendecomp lib.eigh lib.argsort lib.eig (dmdArraysSeq ip vecs).corr (dmdArraysSeq ip vecs).cross (some t)
      none maxNum = .ok d := hd
    rw [this]
    rfl
  · refine ⟨fun hn => ?_, ?_, ?_, ?_⟩
    · unfold DmdHandles.computeExactModes exactModesFrom
      simp only [Option.isSome_none, Bool.false_eq_true, if_false, hn]
      rw [if_pos h2]
      exact ht _ l hl
    · unfold DmdHandles.computeExactModes exactModesFrom
      simp only [Option.isSome_some, if_true]
      exact ht _ l hl
    · unfold DmdHandles.computeProjModes spanModesFrom
      simp only [Option.isSome_none, Bool.false_eq_true, if_false]
      rw [if_pos h2]
      exact hh _ l hl
    · unfold DmdHandles.computeAdjointModes spanModesFrom
      simp only [Option.isSome_none, Bool.false_eq_true, if_false]
      rw [if_pos h2]
      exact hh _ l hl

/-- **C26.** The same for pairs of vectors; numbers of vectors that differ raise `ValueError`. -/
theorem C26_handles_pairs_no_error (ip : E → E → 𝕜) (vecs adv : List E) :
    (vecs.length ≠ adv.length → (g.computeDecomp lib ip vecs (some adv) (some t) rtol maxNum).1 = .error .valueError) ∧
    (vecs.length = adv.length → vecs ≠ [] →
      ∃ g' d, g.computeDecomp lib ip vecs (some adv) (some t) rtol maxNum = (.ok (), g') ∧
      g'.decomp = some ⟨vecs.length, d⟩ ∧ ∀ l, ValidIndices d.r l →
        (∃ out, (g'.computeExactModes l l.length none).1 = .ok out) ∧
        (∃ out, (g'.computeProjModes l l.length none).1 = .ok out) ∧
        ∃ out, (g'.computeAdjointModes l l.length none).1 = .ok out) := by
  refine ⟨fun hne => ?_, fun hlen hne => ?_⟩
  · unfold DmdHandles.computeDecomp
    dsimp only
    rw [dif_neg hne]
  have hpos : 0 < vecs.length := List.length_pos_iff.mpr hne
  obtain ⟨e, he⟩ := C20_no_error lib.eigh lib.argsort (handlesIp ip vecs.get vecs.get) none true t hpos
  have hd : ∃ d, dmdEigendecomp lib.eigh lib.argsort lib.eig (dmdArraysPairs ip vecs adv hlen).corr
      (dmdArraysPairs ip vecs adv hlen).cross (some t) none maxNum = .ok d := by
    unfold dmdEigendecomp
    have : utilEigh lib.eigh lib.argsort (dmdArraysPairs ip vecs adv hlen).corr (some t) none true = .ok e := he
    rw [this]
    exact ⟨_, rfl⟩
  obtain ⟨d, hd⟩ := hd
  have h2 : ¬ vecs.length = vecs.length + 1 := by omega
  refine ⟨⟨some vecs, some adv, some (dmdArraysPairs ip vecs adv hlen), some ⟨vecs.length, d⟩⟩, d, ?_, rfl, fun l hl => ?_⟩
  · unfold DmdHandles.computeDecomp
    dsimp only
    rw [dif_pos hlen, if_neg hne]
    unfold DmdHandles.computeEigendecomp
    dsimp only
    rw [hd]
    rfl
  · refine ⟨?_, ?_, ?_⟩
    · unfold DmdHandles.computeExactModes exactModesFrom
      simp only [Option.isSome_none, Bool.false_eq_true, if_false]
      exact linCombineSized_all _ _ l hl (by omega) hlen.symm
    · unfold DmdHandles.computeProjModes spanModesFrom
      simp only [Option.isSome_none, Bool.false_eq_true, if_false]
      rw [if_neg h2, if_true]
      exact linCombineSized_all _ _ l hl hpos rfl
    · unfold DmdHandles.computeAdjointModes spanModesFrom
      simp only [Option.isSome_none, Bool.false_eq_true, if_false]
      rw [if_neg h2, if_true]
      exact linCombineSized_all _ _ l hl hpos rfl

end Modes

/-! ### Tolerances -/

theorem eigh_retained {m : Nat} (eigh : Matrix (Fin m) (Fin m) 𝕜 → EighOut 𝕜 m)
    (argsort : (Fin m → ℝ) → Equiv.Perm (Fin m)) (C : Matrix (Fin m) (Fin m) 𝕜) (t : ℝ) (rtol : Option ℝ)
    (maxNum : Option Nat) (ht : 0 ≤ t) (hr : ∀ t ∈ rtol, 0 ≤ t) (hs : IsArgsort argsort) (e : Eigh 𝕜 m)
    (he : utilEigh eigh argsort C (some t) rtol true = .ok e) :
    Retained (eigh C).w t rtol maxNum (e.truncate maxNum).w := by
  obtain ⟨p, hsort, hle, hiff, hval⟩ := C20_kept_iff _ _ _ _ _ _ hs hr e he
  have hw := C20_positive_partial _ _ _ _ t ht hs hr e he
  have hcast : ∀ i : Fin e.r, e.w i = (eigh C).w (p (Fin.castLE hle i)) := fun i => (hval i _ rfl).1
  have h0 : Retained (eigh C).w t rtol none e.w := by
    refine ⟨fun i => ⟨_, hcast i⟩, fun i => ?_, fun i s hsr j => ?_, by simp, fun j h1 h2 h3 => ?_⟩
    · have := ((hiff (Fin.castLE hle i)).mp i.isLt).1.1 t rfl
      dsimp only at this
      rwa [← hcast i, abs_of_pos (hw i)] at this
    · have := ((hiff (Fin.castLE hle i)).mp i.isLt).1.2 s hsr
      dsimp only at this
      rw [← hcast i, abs_of_pos (hw i)] at this
      refine lt_of_le_of_lt (mul_le_mul_of_nonneg_left ?_ (hr s hsr)) this
      have := hsort ⟨0, (Fin.castLE hle i).pos⟩ (p.symm j) (Nat.zero_le _)
      rwa [Equiv.apply_symm_apply] at this
    · have hj : (p.symm j).val < e.r := by
        rw [hiff]
        unfold Obeys
        dsimp only
        rw [Equiv.apply_symm_apply]
        exact ⟨⟨by simpa using h1, fun s hs' => h2 s hs' _⟩, fun _ => h3⟩
      refine Or.inl ⟨⟨p.symm j, hj⟩, ?_⟩
      rw [hcast]
      congr 1
      exact Equiv.apply_symm_apply p j
  cases maxNum with
  | none => exact h0
  | some k =>
    by_cases hk : k < e.r
    · rw [show e.truncate (some k) = ⟨min k e.r, firstEntries e.w k, firstCols e.V k⟩ from if_pos hk]
      refine ⟨fun i => h0.value _, fun i => h0.above _, fun i => h0.relative _, by simp, fun j h1 h2 h3 => ?_⟩
      obtain ⟨i, hi⟩ := (h0.complete j h1 h2 h3).resolve_right (by simp)
      by_cases hik : i.val < k
      · exact Or.inl ⟨⟨i, by simp; omega⟩, hi⟩
      · refine Or.inr ⟨k, rfl, by simp; omega, fun i' => ?_⟩
        rw [← hi]
        have h4 : i'.val < min k e.r := i'.isLt
        have := hsort (Fin.castLE hle (Fin.castLE (min_le_right _ _) i')) (Fin.castLE hle i) (by
          rw [Fin.le_def]
          simp only [Fin.val_castLE]
          omega)
        rw [← hcast, ← hcast, abs_of_pos (hw _), abs_of_pos (hw _)] at this
        exact this
    · rw [show e.truncate (some k) = e from if_neg hk]
      refine ⟨h0.value, h0.above, h0.relative, ?_, fun j h1 h2 h3 => Or.inl ((h0.complete j h1 h2 h3).resolve_right (by simp))⟩
      intro k' hk'
      cases hk'
      omega

theorem svd_retained {n m : Nat} (svd : Matrix (Fin n) (Fin m) 𝕜 → SvdOut 𝕜 n m) (a : Matrix (Fin n) (Fin m) 𝕜) (t : ℝ)
    (rtol : Option ℝ) (maxNum : Option Nat) (hr : ∀ t ∈ rtol, 0 ≤ t) (hlib : IsSvd a (svd a)) (s : Svd 𝕜 n m)
    (hs : utilSvd svd a (some t) rtol = .ok s) : Retained (svd a).S t rtol maxNum (s.truncate maxNum).S := by
  obtain ⟨hle, hiff, hval⟩ := C19_kept_iff _ _ _ _ hlib hr s hs
  have hcast : ∀ i : Fin s.r, s.S i = (svd a).S (Fin.castLE hle i) := fun i => (hval i _ rfl).1
  have h0 : Retained (svd a).S t rtol none s.S := by
    refine ⟨fun i => ⟨_, hcast i⟩, fun i => ?_, fun i c hsr j => ?_, by simp, fun j h1 h2 h3 => ?_⟩
    · have := ((hiff (Fin.castLE hle i)).mp i.isLt).1 t rfl
      rwa [abs_of_nonneg (hlib.nonneg _), ← hcast i] at this
    · have := ((hiff (Fin.castLE hle i)).mp i.isLt).2 c hsr
      rw [abs_of_nonneg (hlib.nonneg (Fin.castLE hle i)), ← hcast i] at this
      refine lt_of_le_of_lt (mul_le_mul_of_nonneg_left ?_ (hr c hsr)) this
      rw [abs_of_nonneg (hlib.nonneg _), abs_of_nonneg (hlib.nonneg _)]
      exact hlib.sorted (Nat.zero_le j.val : (⟨0, _⟩ : Fin (min n m)) ≤ j)
    · have hj : j.val < s.r := by
        rw [hiff]
        exact ⟨by simpa using h1, fun c hs' => h2 c hs' _⟩
      exact Or.inl ⟨⟨j, hj⟩, hcast _⟩
  cases maxNum with
  | none => exact h0
  | some k =>
    by_cases hk : k < s.r
    · rw [show s.truncate (some k) = ⟨min k s.r, firstCols s.U k, firstEntries s.S k, firstCols s.V k⟩ from if_pos hk]
      refine ⟨fun i => h0.value _, fun i => h0.above _, fun i => h0.relative _, by simp, fun j h1 h2 h3 => ?_⟩
      obtain ⟨i, hi⟩ := (h0.complete j h1 h2 h3).resolve_right (by simp)
      by_cases hik : i.val < k
      · exact Or.inl ⟨⟨i, by simp; omega⟩, hi⟩
      · refine Or.inr ⟨k, rfl, by simp; omega, fun i' => ?_⟩
        rw [← hi]
        have h4 : i'.val < min k s.r := i'.isLt
        have := hlib.sorted (show Fin.castLE hle (Fin.castLE (min_le_right k s.r) i') ≤ Fin.castLE hle i by
          rw [Fin.le_def]
          simp only [Fin.val_castLE]
          omega)
        rw [← hcast, ← hcast] at this
        exact this
    · rw [show s.truncate (some k) = s from if_neg hk]
      refine ⟨h0.value, h0.above, h0.relative, ?_, fun j h1 h2 h3 => Or.inl ((h0.complete j h1 h2 h3).resolve_right (by simp))⟩
      intro k' hk'
      cases hk'
      omega

theorem dmdEigendecomp_retained {m : Nat} (eigh : Matrix (Fin m) (Fin m) 𝕜 → EighOut 𝕜 m)
    (argsort : (Fin m → ℝ) → Equiv.Perm (Fin m)) (eig : ∀ {r : Nat}, Matrix (Fin r) (Fin r) 𝕜 → EigOut 𝕜 r)
    (C K : Matrix (Fin m) (Fin m) 𝕜) (t : ℝ) (rtol : Option ℝ) (maxNum : Option Nat) (d : DmdDecomp 𝕜 m)
    (hd : dmdEigendecomp eigh argsort eig C K (some t) rtol maxNum = .ok d) (ht : 0 ≤ t) (hr : ∀ t ∈ rtol, 0 ≤ t)
    (hs : IsArgsort argsort) : Retained (eigh C).w t rtol maxNum d.w := by
  unfold dmdEigendecomp at hd
  split at hd
  · cases hd
  rename_i e he
  have := eigh_retained eigh argsort C t rtol maxNum ht hr hs e he
  dsimp only at hd
  generalize e.truncate maxNum = e at *
  split at hd
  · cases hd
  cases hd
  exact this

section Tolerances

variable {n m : Nat} (lib : PodLib 𝕜 n m) (eig : ∀ {r : Nat}, Matrix (Fin r) (Fin r) 𝕜 → EigOut 𝕜 r)
  (modeIndices : Option (List Int)) (t : ℝ) (rtol : Option ℝ) (maxNum : Option Nat)

/-- **C28.** The snapshot method on arrays retains what the tolerances and the maximal number admit. -/
theorem C28_snaps_sequential (ht : 0 ≤ t) (hr : ∀ t ∈ rtol, 0 ≤ t) (hs : IsArgsort lib.argsort)
    (weights : Option (NdArray 𝕜)) (ws : Weights 𝕜) (hws : arraysInit weights = .ok ws) (hfit : ws.Fits n)
    (Z : Matrix (Fin n) (Fin (m + 1)) 𝕜) (res : DmdResult 𝕜 n m) (corr cross : Matrix (Fin m) (Fin m) 𝕜)
    (hres : dmdSnapsSeq lib eig Z modeIndices weights (some t) rtol maxNum = .ok (res, corr, cross)) :
    Retained (lib.eigh ((seqFirst Z)ᴴ * ws.matrix n * seqFirst Z)).w t rtol maxNum res.decomp.w := by
  obtain ⟨rfl, rfl, hd, -⟩ := dmdSnapsSeq_ok lib eig modeIndices weights ws _ rtol maxNum hws hfit Z res corr cross hres
  exact dmdEigendecomp_retained _ _ eig _ _ t rtol maxNum _ hd ht hr hs

/-- **C28.** The same for pairs. -/
theorem C28_snaps_pairs (ht : 0 ≤ t) (hr : ∀ t ∈ rtol, 0 ≤ t) (hs : IsArgsort lib.argsort)
    (weights : Option (NdArray 𝕜)) (ws : Weights 𝕜) (hws : arraysInit weights = .ok ws) (hfit : ws.Fits n)
    (X Y : Matrix (Fin n) (Fin m) 𝕜) (res : DmdResult 𝕜 n m) (corr cross : Matrix (Fin m) (Fin m) 𝕜)
    (hres : dmdSnapsPairs lib eig X ⟨n, m, Y⟩ modeIndices weights (some t) rtol maxNum = .ok (res, corr, cross)) :
    Retained (lib.eigh (Xᴴ * ws.matrix n * X)).w t rtol maxNum res.decomp.w := by
  obtain ⟨rfl, rfl, hd, -⟩ := dmdSnapsPairs_ok lib eig modeIndices weights ws _ rtol maxNum hws hfit X Y res corr cross hres
  exact dmdEigendecomp_retained _ _ eig _ _ t rtol maxNum _ hd ht hr hs

theorem dmdDirectRest_retained (hr : ∀ t ∈ rtol, 0 ≤ t) (hlib : ∀ a, IsSvd a (lib.svd a)) (a : Matrix (Fin n) (Fin m) 𝕜)
    (cross : Svd 𝕜 n m → Matrix (Fin m) (Fin m) 𝕜) (X Y : Matrix (Fin n) (Fin m) 𝕜) (res : DmdResult 𝕜 n m)
    (hres : dmdDirectRest lib eig a cross X Y modeIndices (some t) rtol maxNum = .ok res) :
    ∃ kept : Fin res.decomp.r → ℝ, Retained (lib.svd a).S t rtol maxNum kept ∧ ∀ i, res.decomp.w i = kept i ^ 2 := by
  unfold dmdDirectRest at hres
  split at hres
  · cases hres
  rename_i s hs
  have := svd_retained lib.svd a t rtol maxNum hr (hlib a) s hs
  dsimp only at hres
  generalize s.truncate maxNum = s at *
  split at hres
  · cases hres
  rename_i lam R L hlr
  unfold dmdFinish at hres
  dsimp only at hres
  split at hres
  · split at hres
    · cases hres
    split at hres
    · cases hres
    split at hres
    · cases hres
    cases hres
    exact ⟨s.S, this, fun i => Real.rpow_two _⟩
  · cases hres

/-- **C28.** The direct method on arrays retains the singular values of the weighted data that the tolerances and the
maximal number admit. -/
theorem C28_direct_sequential (hr : ∀ t ∈ rtol, 0 ≤ t) (hlib : ∀ a, IsSvd a (lib.svd a)) (ws : DirectWeights 𝕜)
    (hfit : ws.Fits n) (hchol : ∀ p q w, ws = .d2 p q w → IsCholesky lib.cholesky (ws.matrix n))
    (Z : Matrix (Fin n) (Fin (m + 1)) 𝕜) (res : DmdResult 𝕜 n m)
    (hres : dmdDirectSeq lib eig Z modeIndices ws (some t) rtol maxNum = .ok res) :
    ∃ (G : Matrix (Fin n) (Fin n) 𝕜) (kept : Fin res.decomp.r → ℝ), Gᴴ * G = ws.matrix n ∧
      Retained (lib.svd (G * seqFirst Z)).S t rtol maxNum kept ∧ ∀ i, res.decomp.w i = kept i ^ 2 := by
  unfold dmdDirectSeq at hres
  split at hres
  · cases hres
  rename_i so hso
  obtain ⟨G, hG, hdata⟩ := directSqrtWeights_ok lib.cholesky ws hfit hchol so hso
  rw [hdata] at hres
  dsimp only at hres
  obtain ⟨kept, h1, h2⟩ := dmdDirectRest_retained lib eig modeIndices t rtol maxNum hr hlib _ _ _ _ res hres
  exact ⟨G, kept, hG, h1, h2⟩

/-- **C28.** The same for pairs. -/
theorem C28_direct_pairs (hr : ∀ t ∈ rtol, 0 ≤ t) (hlib : ∀ a, IsSvd a (lib.svd a)) (ws : DirectWeights 𝕜)
    (hfit : ws.Fits n) (hchol : ∀ p q w, ws = .d2 p q w → IsCholesky lib.cholesky (ws.matrix n))
    (X Y : Matrix (Fin n) (Fin m) 𝕜) (res : DmdResult 𝕜 n m)
    (hres : dmdDirectPairs lib eig X ⟨n, m, Y⟩ modeIndices ws (some t) rtol maxNum = .ok res) :
    ∃ (G : Matrix (Fin n) (Fin n) 𝕜) (kept : Fin res.decomp.r → ℝ), Gᴴ * G = ws.matrix n ∧
      Retained (lib.svd (G * X)).S t rtol maxNum kept ∧ ∀ i, res.decomp.w i = kept i ^ 2 := by
  unfold dmdDirectPairs at hres
  split at hres
  · cases hres
  rename_i so hso
  simp only [and_self, dite_true] at hres
  obtain ⟨G, hG, hdata⟩ := directSqrtWeights_ok lib.cholesky ws hfit hchol so hso
  rw [hdata, hdata] at hres
  obtain ⟨kept, h1, h2⟩ := dmdDirectRest_retained lib eig modeIndices t rtol maxNum hr hlib _ _ _ _ res hres
  exact ⟨G, kept, hG, h1, h2⟩

end Tolerances

section HandlesTolerances

variable (lib : DmdLib 𝕜) (ip : E → E → 𝕜) (g g' : DmdHandles 𝕜 E) (t : ℝ) (rtol : Option ℝ) (maxNum : Option Nat)

/-- **C28, partial.** On handles the absolute tolerance and the maximal number are honoured.  The relative tolerance
is missing. -/
theorem C28_handles_sequential_partial (ht : 0 ≤ t) (hlib : lib.Lawful) (vecs : List E)
    (hrun : g.computeDecomp lib ip vecs none (some t) rtol maxNum = (.ok (), g'))
    (d : DmdDecomp 𝕜 (vecs.length - 1)) (hd : g'.decomp = some ⟨vecs.length - 1, d⟩) :
    Retained (lib.eigh (handlesIp ip (seqVecs vecs) (seqVecs vecs))).w t none maxNum d.w := by
  obtain ⟨d', hd', rfl⟩ := computeDecomp_seq lib _ g g' vecs (some t) rtol maxNum hrun
  cases hd
  exact dmdEigendecomp_retained _ _ lib.eig _ _ t none maxNum _ hd' ht (by simp) hlib.argsort

/-- **C28, partial.** The same for pairs. -/
theorem C28_handles_pairs_partial (ht : 0 ≤ t) (hlib : lib.Lawful) (vecs adv : List E)
    (hrun : g.computeDecomp lib ip vecs (some adv) (some t) rtol maxNum = (.ok (), g'))
    (d : DmdDecomp 𝕜 vecs.length) (hd : g'.decomp = some ⟨vecs.length, d⟩) :
    Retained (lib.eigh (handlesIp ip vecs.get vecs.get)).w t none maxNum d.w := by
  obtain ⟨_, d', hd', rfl⟩ := computeDecomp_pairs lib _ g g' vecs adv (some t) rtol maxNum hrun
  cases hd
  exact dmdEigendecomp_retained _ _ lib.eig _ _ t none maxNum _ hd' ht (by simp) hlib.argsort

/-- **C28, violation.** On handles the relative tolerance has no effect at all. -/
theorem C28_handles_ignored_violation (vecs : List E) (adv : Option (List E)) (atol rtol' : Option ℝ) :
    g.computeDecomp lib ip vecs adv atol rtol maxNum = g.computeDecomp lib ip vecs adv atol rtol' maxNum ∧
    g.computeEigendecomp lib atol rtol maxNum = g.computeEigendecomp lib atol rtol' maxNum :=
  ⟨rfl, rfl⟩

end HandlesTolerances

/-- For a diagonal array every diagonal entry is an eigenvalue. -/
theorem eigh_diagonal {m : Nat} (c : Fin m → ℝ) (o : EighOut ℝ m) (h : IsEigh (diagonal c) o) (i : Fin m) :
    ∃ j, o.w j = c i := by
  by_contra hne
  push Not at hne
  have h0 : ∀ j, o.V i j = 0 := by
    intro j
    have h1 := congrFun (congrFun h.eigen i) j
    rw [diagonal_mul, mul_diagonal] at h1
    have h2 : (c i - o.w j) * o.V i j = 0 := by
      simp only [RCLike.ofReal_real_eq_id, id] at h1
      linarith
    exact (mul_eq_zero.mp h2).resolve_left fun h3 => hne j (by linarith)
  have h1 : o.V * o.Vᴴ = 1 := mul_eq_one_comm.mp h.orthonormal
  have h2 := congrFun (congrFun h1 i) i
  rw [Matrix.mul_apply, one_apply_eq] at h2
  simp [h0] at h2

theorem eigh_diagonal_value {m : Nat} (c : Fin m → ℝ) (o : EighOut ℝ m) (h : IsEigh (diagonal c) o) (j : Fin m) :
    ∃ i, o.w j = c i := by
  by_contra hne
  push Not at hne
  have h0 : ∀ i, o.V i j = 0 := by
    intro i
    have h1 := congrFun (congrFun h.eigen i) j
    rw [diagonal_mul, mul_diagonal] at h1
    have h2 : (c i - o.w j) * o.V i j = 0 := by
      simp only [RCLike.ofReal_real_eq_id, id] at h1
      linarith
    exact (mul_eq_zero.mp h2).resolve_left fun h3 => hne i (by linarith)
  have h2 := congrFun (congrFun h.orthonormal j) j
  rw [Matrix.mul_apply, one_apply_eq] at h2
  simp [h0] at h2

/-- **C28, violation.** The correlation array of (2, 0) and (0, 1) has the eigenvalues 4 and 1.  With the relative
tolerance 1/2 both are retained on handles, for every library and absolute tolerances below 1. -/
theorem C28_handles_violation (lib : DmdLib ℝ) (hlib : lib.Lawful) (t : ℝ) (ht : 0 ≤ t) (ht1 : t < 1)
    (g g' : DmdHandles ℝ (Fin 2 → ℝ)) (adv : List (Fin 2 → ℝ))
    (hrun : g.computeDecomp lib (fun x y => x ⬝ᵥ y) [![2, 0], ![0, 1]] (some adv) (some t) (some (1 / 2)) none = (.ok (), g')) :
    ∃ s, g'.decomp = some s ∧ ∃ i j, s.d.w i ≤ 1 / 2 * s.d.w j := by
  obtain ⟨_, d, hd, hg⟩ := computeDecomp_pairs lib _ g g' _ adv (some t) _ none hrun
  have hdec : g'.decomp = some ⟨2, d⟩ := by rw [hg]; rfl
  refine ⟨_, hdec, ?_⟩
  have hret := C28_handles_pairs_partial lib _ g g' t _ none ht hlib _ adv hrun d hdec
  have hC : handlesIp (fun x y : Fin 2 → ℝ => x ⬝ᵥ y) (List.get [![2, 0], ![0, 1]]) (List.get [![2, 0], ![0, 1]]) =
      diagonal ![4, 1] := by
    ext i j
    fin_cases i <;> fin_cases j <;> simp [handlesIp, dotProduct, Fin.sum_univ_two] <;> norm_num
  rw [hC] at hret
  have hE : IsEigh (diagonal ![4, 1]) (lib.eigh (diagonal ![4, 1] : Matrix (Fin 2) (Fin 2) ℝ)) :=
    hlib.eigh _ (by rw [isHermitian_diagonal_iff]; intro i; exact IsSelfAdjoint.all _)
  obtain ⟨j1, hj1⟩ := eigh_diagonal _ _ hE 1
  obtain ⟨j0, hj0⟩ := eigh_diagonal _ _ hE 0
  have hnn : ∀ k, ¬ (lib.eigh (diagonal ![4, 1] : Matrix (Fin 2) (Fin 2) ℝ)).w k < 0 := by
    intro k
    obtain ⟨i, hi⟩ := eigh_diagonal_value _ _ hE k
    rw [hi]
    fin_cases i <;> simp
  simp only [cons_val_one, cons_val_zero] at hj0 hj1
  obtain ⟨i1, hi1⟩ := (hret.complete j1 (by rw [hj1]; simpa using ht1) (by simp) fun k hk => absurd hk (hnn k)).resolve_right
    (by simp)
  obtain ⟨i0, hi0⟩ := (hret.complete j0 (by rw [hj0]; norm_num; linarith) (by simp) fun k hk => absurd hk (hnn k)).resolve_right
    (by simp)
  refine ⟨i1, i0, ?_⟩
  dsimp only
  rw [hi1, hi0, hj1, hj0]
  norm_num

/-! ### Using an object again -/

section Reuse

variable [AddCommMonoid E] [Module 𝕜 E] (lib : DmdLib 𝕜) (ip : E → E → 𝕜)

/-- Calls of methods of an object. -/
inductive DmdCall (E : Type*)
  | decomp (vecs : List E) (adv : Option (List E)) (atol rtol : Option ℝ) (maxNum : Option Nat)
  | eigendecomp (atol rtol : Option ℝ) (maxNum : Option Nat)
  | exactModes (indices : List Int) (num : Nat) (adv : Option (List E))
  | projModes (indices : List Int) (num : Nat) (vecs : Option (List E))
  | adjointModes (indices : List Int) (num : Nat) (vecs : Option (List E))

/-- What a call does to the object; methods that change nothing are left out. -/
noncomputable def DmdHandles.after (g : DmdHandles 𝕜 E) : DmdCall E → DmdHandles 𝕜 E
  | .decomp vecs adv atol rtol maxNum => (g.computeDecomp lib ip vecs adv atol rtol maxNum).2
  | .eigendecomp atol rtol maxNum => (g.computeEigendecomp lib atol rtol maxNum).2
  | .exactModes indices num adv => (g.computeExactModes indices num adv).2
  | .projModes indices num vecs => (g.computeProjModes indices num vecs).2
  | .adjointModes indices num vecs => (g.computeAdjointModes indices num vecs).2

/-- Calls without advanced vectors. -/
def DmdCall.NoAdv : DmdCall E → Prop
  | .decomp _ adv _ _ _ => adv = none
  | .exactModes _ _ adv => adv = none
  | _ => True

theorem computeEigendecomp_state (g h : DmdHandles 𝕜 E) (atol rtol : Option ℝ) (maxNum : Option Nat)
    (harr : g.arrays = h.arrays) :
    (g.computeEigendecomp lib atol rtol maxNum).1 = (h.computeEigendecomp lib atol rtol maxNum).1 ∧
    ((h.computeEigendecomp lib atol rtol maxNum).1 = .ok () →
      (g.computeEigendecomp lib atol rtol maxNum).2 = { (h.computeEigendecomp lib atol rtol maxNum).2 with
        vecs := g.vecs, adv := g.adv }) := by
  obtain ⟨v, a, r, d⟩ := g
  obtain ⟨v', a', r', d'⟩ := h
  cases harr
  unfold DmdHandles.computeEigendecomp
  dsimp only
  cases r with
  | none => exact ⟨rfl, (fun h => by cases h)⟩
  | some r =>
    dsimp only
    generalize dmdEigendecomp lib.eigh lib.argsort lib.eig r.corr r.cross atol none maxNum = z
    cases z with
    | error e => exact ⟨rfl, (fun h => by cases h)⟩
    | ok d => exact ⟨rfl, fun _ => rfl⟩

theorem computeEigendecomp_keeps (g : DmdHandles 𝕜 E) (atol rtol : Option ℝ) (maxNum : Option Nat) :
    (g.computeEigendecomp lib atol rtol maxNum).2.vecs = g.vecs ∧
    (g.computeEigendecomp lib atol rtol maxNum).2.adv = g.adv := by
  unfold DmdHandles.computeEigendecomp
  split
  · exact ⟨rfl, rfl⟩
  · split <;> exact ⟨rfl, rfl⟩

theorem keep_both {x : DmdHandles 𝕜 E} {v a : Option (List E)} (hv : x.vecs = v) (ha : x.adv = a) :
    { x with vecs := v, adv := a } = x := by
  subst hv ha
  rfl

theorem keep_vecs {x : DmdHandles 𝕜 E} {v a : Option (List E)} (hv : x.vecs = v) :
    { x with vecs := v, adv := a } = { x with adv := a } := by
  subst hv
  rfl

theorem keep_adv {x : DmdHandles 𝕜 E} {a : Option (List E)} (ha : x.adv = a) : { x with adv := a } = x := by
  subst ha
  rfl

/-- **C29.** With advanced vectors, `compute_decomp` raises an error on an object used before if it does on a new one,
and otherwise leaves it like a new one. -/
theorem C29_pairs (g : DmdHandles 𝕜 E) (vecs adv : List E) (atol rtol : Option ℝ) (maxNum : Option Nat) :
    (g.computeDecomp lib ip vecs (some adv) atol rtol maxNum).1 =
      (DmdHandles.new.computeDecomp lib ip vecs (some adv) atol rtol maxNum).1 ∧
    ((DmdHandles.new.computeDecomp lib ip vecs (some adv) atol rtol maxNum).1 = .ok () →
      g.computeDecomp lib ip vecs (some adv) atol rtol maxNum =
        DmdHandles.new.computeDecomp lib ip vecs (some adv) atol rtol maxNum) := by
  unfold DmdHandles.computeDecomp DmdHandles.new
  dsimp only
  by_cases hlen : vecs.length = adv.length
  swap
  · rw [dif_neg hlen, dif_neg hlen]
    exact ⟨rfl, (fun h => by cases h)⟩
  rw [dif_pos hlen, dif_pos hlen]
  by_cases hv : vecs = []
  · rw [if_pos hv, if_pos hv]
    exact ⟨rfl, (fun h => by cases h)⟩
  rw [if_neg hv, if_neg hv]
  obtain ⟨h1, h2⟩ := computeEigendecomp_state lib { g with vecs := some vecs, adv := some adv, arrays := some (dmdArraysPairs ip vecs adv hlen) }
    ⟨some vecs, some adv, some (dmdArraysPairs ip vecs adv hlen), none⟩ atol rtol maxNum rfl
  refine ⟨h1, fun h => Prod.ext h1 ((h2 h).trans ?_)⟩
  obtain ⟨h3, h4⟩ := computeEigendecomp_keeps lib
    (⟨some vecs, some adv, some (dmdArraysPairs ip vecs adv hlen), none⟩ : DmdHandles 𝕜 E) atol rtol maxNum
  exact keep_both h3 h4

/-- **C29.** Without advanced vectors, the only difference between an object used before and a new one is that advanced
vectors given before are kept. -/
theorem C29_sequential (g : DmdHandles 𝕜 E) (vecs : List E) (atol rtol : Option ℝ) (maxNum : Option Nat) :
    (g.computeDecomp lib ip vecs none atol rtol maxNum).1 =
      (DmdHandles.new.computeDecomp lib ip vecs none atol rtol maxNum).1 ∧
    ((DmdHandles.new.computeDecomp lib ip vecs none atol rtol maxNum).1 = .ok () →
      (g.computeDecomp lib ip vecs none atol rtol maxNum).2 =
        { (DmdHandles.new.computeDecomp lib ip vecs none atol rtol maxNum).2 with adv := g.adv }) := by
  unfold DmdHandles.computeDecomp DmdHandles.new
  dsimp only
  by_cases hv : vecs = []
  · rw [if_pos hv, if_pos hv]
    exact ⟨rfl, (fun h => by cases h)⟩
  rw [if_neg hv, if_neg hv]
  obtain ⟨h1, h2⟩ := computeEigendecomp_state lib { g with vecs := some vecs, arrays := some (dmdArraysSeq ip vecs) }
    ⟨some vecs, none, some (dmdArraysSeq ip vecs), none⟩ atol rtol maxNum rfl
  refine ⟨h1, fun h => (h2 h).trans ?_⟩
  obtain ⟨h3, h4⟩ := computeEigendecomp_keeps lib
    (⟨some vecs, none, some (dmdArraysSeq ip vecs), none⟩ : DmdHandles 𝕜 E) atol rtol maxNum
  exact keep_vecs h3

/-- **C29, partial.** If none of the calls before passed advanced vectors, `compute_decomp` leaves the object like a
new one.  What is missing are calls with advanced vectors followed by `compute_decomp` for a sequence. -/
theorem C29_history_partial (calls : List (DmdCall E)) (hcalls : ∀ c ∈ calls, c.NoAdv) (vecs : List E)
    (adv : Option (List E)) (atol rtol : Option ℝ) (maxNum : Option Nat)
    (hok : (DmdHandles.new.computeDecomp lib ip vecs adv atol rtol maxNum).1 = .ok ()) :
    (calls.foldl (DmdHandles.after lib ip) DmdHandles.new).computeDecomp lib ip vecs adv atol rtol maxNum =
      DmdHandles.new.computeDecomp lib ip vecs adv atol rtol maxNum := by
  have hadv : ∀ g : DmdHandles 𝕜 E, g.adv = none → (calls.foldl (DmdHandles.after lib ip) g).adv = none := by
    induction calls with
    | nil => exact fun g hg => hg
    | cons c cs ih =>
      intro g hg
      refine ih (fun c hc => hcalls c (List.mem_cons_of_mem _ hc)) _ ?_
      have hc := hcalls c List.mem_cons_self
      cases c with
      | decomp vecs adv atol rtol maxNum =>
        cases (show adv = none from hc)
        unfold DmdHandles.after DmdHandles.computeDecomp
        dsimp only
        split
        · exact hg
        · rw [(computeEigendecomp_keeps lib _ atol rtol maxNum).2]
          exact hg
      | eigendecomp atol rtol maxNum =>
        exact (computeEigendecomp_keeps lib g atol rtol maxNum).2.trans hg
      | exactModes indices num adv =>
        cases (show adv = none from hc)
        unfold DmdHandles.after DmdHandles.computeExactModes
        simp only [Option.isSome_none, Bool.false_eq_true, if_false]
        split <;> exact hg
      | projModes indices num vecs =>
        unfold DmdHandles.after DmdHandles.computeProjModes
        dsimp only
        split <;> split <;> exact hg
      | adjointModes indices num vecs =>
        unfold DmdHandles.after DmdHandles.computeAdjointModes
        dsimp only
        split <;> split <;> exact hg
  cases adv with
  | some adv => exact (C29_pairs lib ip _ vecs adv atol rtol maxNum).2 hok
  | none =>
    obtain ⟨h1, h2⟩ := C29_sequential lib ip (calls.foldl (DmdHandles.after lib ip) DmdHandles.new) vecs atol rtol maxNum
    refine Prod.ext h1 ((h2 hok).trans ?_)
    rw [hadv _ rfl]
    have : ((DmdHandles.new : DmdHandles 𝕜 E).computeDecomp lib ip vecs none atol rtol maxNum).2.adv = none := by
      unfold DmdHandles.computeDecomp
      dsimp only
      split
      · rfl
      · exact (computeEigendecomp_keeps lib _ atol rtol maxNum).2
    exact keep_adv this

/-- **C29.** Whatever an object was used for before, projected and adjoint modes, spectral and projection coefficients
are those of the last data, and so are exact modes if the advanced vectors are given again. -/
theorem C29_other_results (g : DmdHandles 𝕜 E) (vecs : List E) (atol rtol : Option ℝ) (maxNum : Option Nat)
    (hok : (DmdHandles.new.computeDecomp lib ip vecs none atol rtol maxNum).1 = .ok ()) (l : List Int) (num : Nat)
    (v : Option (List E)) (a : List E) :
    let old := (g.computeDecomp lib ip vecs none atol rtol maxNum).2
    let new := (DmdHandles.new.computeDecomp lib ip vecs none atol rtol maxNum).2
    (old.computeProjModes l num v).1 = (new.computeProjModes l num v).1 ∧
    (old.computeAdjointModes l num v).1 = (new.computeAdjointModes l num v).1 ∧
    (old.computeExactModes l num (some a)).1 = (new.computeExactModes l num (some a)).1 ∧
    old.computeSpectrum = new.computeSpectrum ∧ old.computeProjCoeffs = new.computeProjCoeffs := by
  intro old new
  have h := (C29_sequential lib ip g vecs atol rtol maxNum).2 hok
  change old = { new with adv := g.adv } at h
  rw [h]
  generalize new = new
  obtain ⟨v', a', r', d'⟩ := new
  refine ⟨?_, ?_, ?_, rfl, rfl⟩
  · unfold DmdHandles.computeProjModes
    cases v <;> cases d' <;> rfl
  · unfold DmdHandles.computeAdjointModes
    cases v <;> cases d' <;> rfl
  · unfold DmdHandles.computeExactModes
    cases d' <;> rfl

/-- **C29, violation.** If advanced vectors were given before, exact modes for a sequence are linear combinations of
those and not of the vectors of the sequence. -/
theorem C29_kept_advanced_vectors_violation (g g' : DmdHandles 𝕜 E) (stale vecs : List E) (hstale : g.adv = some stale)
    (atol rtol : Option ℝ) (maxNum : Option Nat)
    (hrun : g.computeDecomp lib ip vecs none atol rtol maxNum = (.ok (), g')) :
    ∃ d, g'.decomp = some ⟨vecs.length - 1, d⟩ ∧ ∀ l num,
      (g'.computeExactModes l num none).1 = linCombineSized num stale.get d.buildExact (some l) := by
  obtain ⟨d, -, rfl⟩ := computeDecomp_seq lib ip g g' vecs atol rtol maxNum hrun
  refine ⟨d, rfl, fun l num => ?_⟩
  unfold DmdHandles.computeExactModes exactModesFrom
  rw [hstale]
  rfl

end Reuse

/-! ### Examples -/

/-- The dot product of two numbers each. -/
noncomputable def dotIp : (Fin 2 → ℝ) →ₗ⋆[ℝ] (Fin 2 → ℝ) →ₗ[ℝ] ℝ :=
  LinearMap.mk₂'ₛₗ (starRingEnd ℝ) (RingHom.id ℝ) (fun x y => x ⬝ᵥ y) (fun _ _ _ => add_dotProduct _ _ _)
    (fun c x y => by simp) (fun _ _ _ => dotProduct_add _ _ _) (fun c x y => by simp)

theorem dotIp_apply (x y : Fin 2 → ℝ) : dotIp x y = x 0 * y 0 + x 1 * y 1 := by
  change x ⬝ᵥ y = _
  simp [dotProduct, Fin.sum_univ_two]

theorem dotIp_symm (x y : Fin 2 → ℝ) : dotIp y x = star (dotIp x y) := by
  rw [dotIp_apply, dotIp_apply, star_trivial]
  ring

/-- The vectors of `exampleSeq`. -/
def exampleVecs : List (Fin 2 → ℝ) := [![1, 0], ![0, 1], ![-2, 3]]

theorem exampleVecs_corr : gram dotIp (seqVecs exampleVecs) (seqVecs exampleVecs) = (1 : Matrix (Fin 2) (Fin 2) ℝ) := by
  have h : ∀ i j : Fin 2, dotIp (seqVecs exampleVecs i) (seqVecs exampleVecs j) = (1 : Matrix (Fin 2) (Fin 2) ℝ) i j := by
    intro i j
    rw [dotIp_apply, Matrix.one_apply]
    fin_cases i <;> fin_cases j <;> simp [seqVecs, exampleVecs]
  exact Matrix.ext h

theorem exampleVecs_cross :
    gram dotIp (seqVecs exampleVecs) (seqAdvVecs exampleVecs) = (!![0, -2; 1, 3] : Matrix (Fin 2) (Fin 2) ℝ) := by
  ext i j
  change dotIp (seqVecs exampleVecs i) (seqAdvVecs exampleVecs j) = _
  rw [dotIp_apply]
  fin_cases i <;> fin_cases j <;> simp [seqVecs, seqAdvVecs, exampleVecs]

theorem exists_exampleDmdLib : ∃ lib : DmdLib ℝ, lib.Lawful ∧
    (∀ {r : Nat} (a : Matrix (Fin r) (Fin r) ℝ), lib.eig a = exampleSeqEig a) ∧
    utilEigh lib.eigh lib.argsort (1 : Matrix (Fin 2) (Fin 2) ℝ) (some (1 / 10)) none true = .ok ⟨2, fun _ => 1, 1⟩ := by
  classical
  obtain ⟨lib, hlaw, -⟩ := exists_dmdLib (𝕜 := ℝ) exampleSeqEig
  obtain ⟨lib2, -, heigh, hs, hu, -⟩ := exists_exampleLib
  have eigh : ∀ m, ∃ f : Matrix (Fin m) (Fin m) ℝ → EighOut ℝ m, (∀ a, a.IsHermitian → IsEigh a (f a)) ∧
      ∀ h : m = 2, f = h ▸ lib2.eigh := by
    intro m
    by_cases h : m = 2
    · subst h
      exact ⟨lib2.eigh, heigh, fun _ => rfl⟩
    · exact ⟨lib.eigh, hlaw.eigh, fun h' => absurd h' h⟩
  have sort : ∀ m, ∃ f : (Fin m → ℝ) → Equiv.Perm (Fin m), IsArgsort f ∧ ∀ h : m = 2, f = h ▸ lib2.argsort := by
    intro m
    by_cases h : m = 2
    · subst h
      exact ⟨lib2.argsort, hs, fun _ => rfl⟩
    · exact ⟨lib.argsort, hlaw.argsort, fun h' => absurd h' h⟩
  choose f hf1 hf2 using eigh
  choose s hs1 hs2 using sort
  refine ⟨⟨fun {m} => f m, fun {m} => s m, exampleSeqEig⟩, ⟨fun {m} => hf1 m, fun {m} => hs1 m⟩, fun _ => rfl, ?_⟩
  have e1 : f 2 = lib2.eigh := hf2 2 rfl
  have e2 : s 2 = lib2.argsort := hs2 2 rfl
  dsimp only
  rw [e1, e2]
  exact hu

/-- The decomposition of the example on handles. -/
theorem exampleVecs_decomp (lib : DmdLib ℝ) (heig : ∀ {r : Nat} (a : Matrix (Fin r) (Fin r) ℝ), lib.eig a = exampleSeqEig a)
    (hu : utilEigh lib.eigh lib.argsort (1 : Matrix (Fin 2) (Fin 2) ℝ) (some (1 / 10)) none true = .ok ⟨2, fun _ => 1, 1⟩)
    (g : DmdHandles ℝ (Fin 2 → ℝ)) :
    ∃ g', g.computeDecomp lib (fun x y => dotIp x y) exampleVecs none (some (1 / 10)) none none = (.ok (), g') ∧
      g'.decomp = some ⟨2, exampleSeqDecomp⟩ := by
  obtain ⟨g', d, hrun, hd, -⟩ := C26_handles_sequential_no_error lib g (1 / 10) none none (fun x y => dotIp x y) exampleVecs
    (by simp [exampleVecs])
  refine ⟨g', hrun, ?_⟩
  obtain ⟨d', hd', rfl⟩ := computeDecomp_seq lib _ g g' exampleVecs (some (1 / 10)) none none hrun
  have h : dmdEigendecomp lib.eigh lib.argsort lib.eig (1 : Matrix (Fin 2) (Fin 2) ℝ) !![0, -2; 1, 3]
      (some (1 / 10)) none none = .ok exampleSeqDecomp := by
    unfold dmdEigendecomp eigBiorthog
    rw [hu]
    simp only [heig]
    rfl
  have h' : dmdEigendecomp lib.eigh lib.argsort lib.eig (gram dotIp (seqVecs exampleVecs) (seqVecs exampleVecs))
      (gram dotIp (seqVecs exampleVecs) (seqAdvVecs exampleVecs)) (some (1 / 10)) none none = .ok exampleSeqDecomp := by
    rw [exampleVecs_corr, exampleVecs_cross]
    exact h
  have : d' = exampleSeqDecomp := Except.ok.inj (hd'.symm.trans h')
  rw [this]
  rfl

theorem exampleVecs_eig (lib : DmdLib ℝ) (heig : ∀ {r : Nat} (a : Matrix (Fin r) (Fin r) ℝ), lib.eig a = exampleSeqEig a) :
    EigOfReducedVecs dotIp lib.eig (seqVecs exampleVecs) (seqAdvVecs exampleVecs) exampleSeqDecomp := by
  have := exampleSeqDecomp_eig
  unfold EigOfReduced at this
  unfold EigOfReducedVecs
  dsimp only at this ⊢
  rw [heig, exampleVecs_cross]
  rw [exampleSeq_first, exampleSeq_next, conjTranspose_one, Matrix.one_mul, Matrix.one_mul] at this
  exact this

/-- Exact modes of the example, of a new object, are eigenvectors of the map that generated the vectors. -/
example : ∃ (lib : DmdLib ℝ) (g' : DmdHandles ℝ (Fin 2 → ℝ)) (out : Vecs (Fin 2 → ℝ)),
    DmdHandles.new.computeDecomp lib (fun x y => dotIp x y) exampleVecs none (some (1 / 10)) none none = (.ok (), g') ∧
    (g'.computeExactModes [1, -2] 2 none).1 = .ok out ∧ out.k = 2 ∧
    ∀ i, ∃ c : ℝ, (c = 1 ∨ c = 2) ∧ (!![0, -2; 1, 3] : Matrix (Fin 2) (Fin 2) ℝ) *ᵥ out.v i = c • out.v i := by
  obtain ⟨lib, hlaw, heig, hu⟩ := exists_exampleDmdLib
  obtain ⟨g', hrun, hd⟩ := exampleVecs_decomp lib heig hu DmdHandles.new
  obtain ⟨g'', d, hrun', hd', hmodes⟩ := C26_handles_sequential_no_error lib DmdHandles.new (1 / 10) none none
    (fun x y => dotIp x y) exampleVecs (by simp [exampleVecs])
  obtain rfl : g' = g'' := (Prod.ext_iff.mp (hrun.symm.trans hrun')).2
  obtain ⟨exact, proj, adjoint, hm, hex, -⟩ := C26_handles_sequential lib dotIp DmdHandles.new g' (1 / 10) none none (by norm_num)
    hlaw dotIp_symm exampleVecs hrun exampleSeqDecomp hd (exampleVecs_eig lib heig) exampleSeqDecomp_distinct.1
    exampleSeqDecomp_distinct.2
  obtain rfl : exampleSeqDecomp = d := by
    have := hd.symm.trans hd'
    cases this
    rfl
  obtain ⟨out, hout⟩ := (hmodes [1, -2] (by intro i hi; simp at hi; rcases hi with rfl | rfl <;> simp [exampleSeqDecomp])).1 rfl
  have hch := hex _ _ _ out _ (Or.inl ⟨rfl, rfl⟩) (Prod.ext hout rfl)
  refine ⟨lib, g', out, hrun, hout, hch.1, fun i => ?_⟩
  obtain ⟨sel, -, hsel⟩ := hch.2
  refine ⟨exampleSeqDecomp.eigvals (sel i), ?_, ?_⟩
  · generalize sel i = k
    fin_cases k <;> simp [exampleSeqDecomp]
  · rw [hsel]
    refine hm.invariant_data ?_ ?_ (!![0, -2; 1, 3] : Matrix (Fin 2) (Fin 2) ℝ).mulVecLin ?_ ?_ (sel i)
    · rw [exampleVecs_corr]
      exact (Matrix.rank_one (n := Fin 2) (R := ℝ)).symm
    · intro v hv
      rw [dotIp_apply] at hv
      ext i
      fin_cases i
      · simp; nlinarith [mul_self_nonneg (v 0), mul_self_nonneg (v 1)]
      · simp; nlinarith [mul_self_nonneg (v 0), mul_self_nonneg (v 1)]
    · intro j
      fin_cases j <;> ext i <;> fin_cases i <;>
        simp [seqVecs, seqAdvVecs, exampleVecs, Matrix.mulVec, dotProduct, Fin.sum_univ_two]
    · intro j
      rw [Submodule.mem_span_range_iff_exists_fun]
      refine ⟨seqAdvVecs exampleVecs j, ?_⟩
      have : ∀ c : Fin 2 → ℝ, ∑ i : Fin 2, c i • seqVecs exampleVecs i = c := by
        intro c
        ext i
        fin_cases i <;> simp [seqVecs, exampleVecs, Fin.sum_univ_two]
      exact this _

/-- The functions on arrays, given the same data and relative tolerance as in `C28_handles_violation`, retain 4 only. -/
example : ∃ (lib : PodLib ℝ 2 2) (res : DmdResult ℝ 2 2) (corr cross : Matrix (Fin 2) (Fin 2) ℝ),
    dmdSnapsPairs lib exampleSeqEig !![2, 0; 0, 1] ⟨2, 2, 1⟩ none none (some 0) (some (1 / 2)) none = .ok (res, corr, cross) ∧
    (∃ i, res.decomp.w i = 4) ∧ ∀ i, res.decomp.w i = 4 := by
  obtain ⟨lib, -, heigh, hs, -⟩ := exists_podLib (𝕜 := ℝ) 2 2
  obtain ⟨-, ⟨res, corr, cross⟩, hres⟩ := C26_snaps_no_error lib exampleSeqEig 0 (some (1 / 2)) none (by norm_num) none .none rfl
    trivial (0 : Matrix (Fin 2) (Fin 3) ℝ) !![2, 0; 0, 1] 1
  have hret := C28_snaps_pairs lib exampleSeqEig none 0 (some (1 / 2)) none le_rfl (by simp) hs none .none rfl trivial
    _ _ res corr cross hres
  have hC : (!![2, 0; 0, 1] : Matrix (Fin 2) (Fin 2) ℝ)ᴴ * Weights.matrix 2 Weights.none * !![2, 0; 0, 1] = diagonal ![4, 1] := by
    ext i j
    fin_cases i <;> fin_cases j <;> simp [Weights.matrix, conjTranspose, Matrix.mul_apply, Fin.sum_univ_two] <;> norm_num
  rw [hC] at hret
  have hE : IsEigh (diagonal ![4, 1]) (lib.eigh (diagonal ![4, 1] : Matrix (Fin 2) (Fin 2) ℝ)) :=
    heigh _ (by rw [isHermitian_diagonal_iff]; intro i; exact IsSelfAdjoint.all _)
  obtain ⟨j0, hj0⟩ := eigh_diagonal _ _ hE 0
  simp only [cons_val_zero] at hj0
  have hval : ∀ k, (lib.eigh (diagonal ![4, 1] : Matrix (Fin 2) (Fin 2) ℝ)).w k = 4 ∨
      (lib.eigh (diagonal ![4, 1] : Matrix (Fin 2) (Fin 2) ℝ)).w k = 1 := by
    intro k
    obtain ⟨i, hi⟩ := eigh_diagonal_value _ _ hE k
    rw [hi]
    fin_cases i <;> simp
  refine ⟨lib, res, corr, cross, hres, ?_, fun i => ?_⟩
  · have h1 : ∀ s ∈ some (1 / 2 : ℝ), ∀ k, s * |(lib.eigh (diagonal ![4, 1] : Matrix (Fin 2) (Fin 2) ℝ)).w k| <
        |(lib.eigh (diagonal ![4, 1] : Matrix (Fin 2) (Fin 2) ℝ)).w j0| := by
      intro s hs' k
      cases hs'
      rw [hj0]
      rcases hval k with h | h <;> rw [h] <;> norm_num
    rcases hret.complete j0 (by rw [hj0]; norm_num) h1 (fun k hk => by
      rcases hval k with h | h <;> rw [h] at hk <;> norm_num at hk) with ⟨i, hi⟩ | ⟨k, hk, -⟩
    · exact ⟨i, hi.trans hj0⟩
    · cases hk
  · obtain ⟨j, hj⟩ := hret.value i
    have h := hret.relative i (1 / 2) rfl j0
    rw [hj0, hj] at h
    rcases hval j with h' | h'
    · exact hj.trans h'
    · rw [h'] at h
      norm_num at h

/-- A history without advanced vectors. -/
example : ∃ lib : DmdLib ℝ, ([DmdCall.decomp [![1, 0], ![5, 5]] none (some 0) none none, .exactModes [0] 1 none].foldl
      (DmdHandles.after lib fun x y => dotIp x y) DmdHandles.new).computeDecomp lib (fun x y => dotIp x y) exampleVecs none
        (some (1 / 10)) none none =
    DmdHandles.new.computeDecomp lib (fun x y => dotIp x y) exampleVecs none (some (1 / 10)) none none := by
  obtain ⟨lib, hlaw, heig, hu⟩ := exists_exampleDmdLib
  obtain ⟨g', hrun, -⟩ := exampleVecs_decomp lib heig hu DmdHandles.new
  refine ⟨lib, C29_history_partial lib _ _ ?_ _ _ _ _ _ (by rw [hrun])⟩
  intro c hc
  simp only [List.mem_cons, List.not_mem_nil, or_false] at hc
  rcases hc with rfl | rfl <;> rfl

/-- **C29, violation.** After a decomposition of the unit vectors with the advanced vectors (1, 0) and (0, 5), the
first exact mode of the sequence (1, 0), (0, 1), (-2, 3) is (-2, 5); with a new object it is (-2, 1), an eigenvector of
the map that takes each vector of the sequence to the next. -/
theorem C29_violation : ∃ (lib : DmdLib ℝ) (g1 g2 g2' : DmdHandles ℝ (Fin 2 → ℝ)) (out out' : Vecs (Fin 2 → ℝ)),
    lib.Lawful ∧
    DmdHandles.new.computeDecomp lib (fun x y => dotIp x y) [![1, 0], ![0, 1]] (some [![1, 0], ![0, 5]]) (some (1 / 10)) none
      none = (.ok (), g1) ∧
    g1.computeDecomp lib (fun x y => dotIp x y) exampleVecs none (some (1 / 10)) none none = (.ok (), g2) ∧
    DmdHandles.new.computeDecomp lib (fun x y => dotIp x y) exampleVecs none (some (1 / 10)) none none = (.ok (), g2') ∧
    EigOfReducedVecs dotIp lib.eig (seqVecs exampleVecs) (seqAdvVecs exampleVecs) exampleSeqDecomp ∧
    g2.decomp = some ⟨2, exampleSeqDecomp⟩ ∧ g2'.decomp = some ⟨2, exampleSeqDecomp⟩ ∧
    (g2.computeExactModes [0] 1 none).1 = .ok out ∧ (g2'.computeExactModes [0] 1 none).1 = .ok out' ∧
    (∀ i, out.v i = ![-2, 5]) ∧ (∀ i, out'.v i = ![-2, 1]) ∧ out.k = 1 ∧ out'.k = 1 := by
  obtain ⟨lib, hlaw, heig, hu⟩ := exists_exampleDmdLib
  obtain ⟨g1, d1, hrun1, hd1, -⟩ := (C26_handles_pairs_no_error lib DmdHandles.new (1 / 10) none none (fun x y => dotIp x y)
    ([![1, 0], ![0, 1]] : List (Fin 2 → ℝ)) ([![1, 0], ![0, 5]] : List (Fin 2 → ℝ))).2 rfl (by simp)
  have hadv1 : g1.adv = some [![1, 0], ![0, 5]] := by
    obtain ⟨_, _, _, rfl⟩ := computeDecomp_pairs lib _ _ g1 _ _ _ _ _ hrun1
    rfl
  obtain ⟨g2, hrun2, hd2⟩ := exampleVecs_decomp lib heig hu g1
  obtain ⟨g2', hrun2', hd2'⟩ := exampleVecs_decomp lib heig hu DmdHandles.new
  have hvalid : ∀ i ∈ [(0 : Int)], -(exampleSeqDecomp.r : Int) ≤ i ∧ i < exampleSeqDecomp.r := by
    simp [exampleSeqDecomp]
  obtain ⟨d, hd, hst⟩ := C29_kept_advanced_vectors_violation lib _ g1 g2 _ exampleVecs hadv1 _ _ _ hrun2
  obtain rfl : exampleSeqDecomp = d := by
    have := hd2.symm.trans hd
    cases this
    rfl
  obtain ⟨out, hout⟩ := linCombineSized_all (List.get ([![1, 0], ![0, 5]] : List (Fin 2 → ℝ))) exampleSeqDecomp.buildExact [0] hvalid (by simp) rfl
  obtain ⟨_, d', hrun3, hd3, hmodes⟩ := C26_handles_sequential_no_error lib DmdHandles.new (1 / 10) none none
    (fun x y => dotIp x y) exampleVecs (by simp [exampleVecs])
  cases (Prod.ext_iff.mp (hrun2'.symm.trans hrun3)).2
  obtain rfl : exampleSeqDecomp = d' := by
    have := hd2'.symm.trans hd3
    cases this
    rfl
  obtain ⟨out', hout'⟩ := (hmodes [0] hvalid).1 rfl
  have hc := linCombineSized_chosen _ _ _ _ _ hout (List.get ([![1, 0], ![0, 5]] : List (Fin 2 → ℝ))) fun _ _ => rfl
  have hc' : ChosenVecs (combine (seqAdvVecs exampleVecs) exampleSeqDecomp.buildExact) [0] out' := by
    obtain ⟨d'', -, hg⟩ := computeDecomp_seq lib _ _ g2' exampleVecs _ _ _ hrun2'
    have hdd : exampleSeqDecomp = d'' := by
      rw [hg] at hd2'
      cases hd2'
      rfl
    subst hdd
    rw [hg] at hout'
    exact (state_seq exampleVecs _ _ none exampleSeqDecomp (by simp [exampleVecs])).1 _ _ _ _ _ (Or.inl ⟨rfl, rfl⟩)
      (Prod.ext hout' rfl)
  have hB : exampleSeqDecomp.buildExact = (!![-2, -1 / 2; 1, 1 / 2] : Matrix (Fin 2) (Fin 2) ℝ) := by
    change (1 : Matrix (Fin 2) (Fin 2) ℝ) * (diagPow (𝕜 := ℝ) (fun _ : Fin 2 => (1 : ℝ)) (-0.5) *
      ((!![-2, -1; 1, 1] : Matrix (Fin 2) (Fin 2) ℝ) * diagonal fun i => ((![1, 2] : Fin 2 → ℝ) i)⁻¹)) = _
    rw [exampleSeq_diagPow, Matrix.one_mul, Matrix.one_mul]
    ext i j
    rw [Matrix.mul_diagonal]
    fin_cases i <;> fin_cases j <;> simp <;> norm_num
  refine ⟨lib, g1, g2, g2', out, out', hlaw, hrun1, hrun2, hrun2', exampleVecs_eig lib heig, hd2, hd2', ?_, hout', ?_, ?_,
    hc.1, hc'.1⟩
  · rw [hst]
    exact hout
  · intro i
    obtain ⟨hk, sel, h1, h2⟩ := hc
    have hi : i.val = 0 := by have := i.isLt.trans_le hk.le; simpa using this
    have h3 := h1 i 0 (by rw [hi]; rfl)
    have h4 : sel i = (0 : Fin 2) := (Except.ok.inj h3).symm
    rw [h2, hB, h4]
    ext k
    fin_cases k <;> simp [combine, Fin.sum_univ_two]
  · intro i
    obtain ⟨hk, sel, h1, h2⟩ := hc'
    have hi : i.val = 0 := by have := i.isLt.trans_le hk.le; simpa using this
    have h3 := h1 i 0 (by rw [hi]; rfl)
    have h4 : sel i = (0 : Fin 2) := (Except.ok.inj h3).symm
    rw [h2, hB, h4]
    change ∑ x : Fin 2, (!![-2, -1 / 2; 1, 1 / 2] : Matrix (Fin 2) (Fin 2) ℝ) x 0 • seqAdvVecs exampleVecs x = _
    rw [Fin.sum_univ_two]
    ext k
    fin_cases k <;> simp [seqAdvVecs, exampleVecs] <;> norm_num

end Modred
