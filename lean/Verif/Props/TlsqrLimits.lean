import Verif.Props.Tlsqr

/-!
# Total-least-squares dynamic mode decomposition on arrays: tolerances, no truncation, complex data (C30, C31, C58, C59)
-/

namespace Modred

open Matrix
open scoped ComplexOrder

variable {𝕜 : Type*} [RCLike 𝕜]

/-! ### No errors -/

section NoError

variable {n m : Nat} (lib : PodLib 𝕜 n m) (eig : ∀ {r : Nat}, Matrix (Fin r) (Fin r) 𝕜 → EigOut 𝕜 r)
  (t : ℝ) (rtol : Option ℝ) (maxNum : Option Nat)

theorem tlsEigendecomp_all (hm : 0 < m) (eigh : Matrix (Fin m) (Fin m) 𝕜 → EighOut 𝕜 m)
    (argsort : (Fin m → ℝ) → Equiv.Perm (Fin m)) (C C' K : Matrix (Fin m) (Fin m) 𝕜) (sumRtol projRtol : Option ℝ) :
    ∃ d, tlsEigendecomp eigh argsort eig C C' K (some t) sumRtol projRtol maxNum = .ok d := by
  obtain ⟨s, hs⟩ := C20_no_error eigh argsort (C + C') sumRtol true t hm
  obtain ⟨p, hp⟩ := C20_no_error eigh argsort (tlsProjCorr (s.truncate maxNum).V C) projRtol true t hm
  unfold tlsEigendecomp
  rw [hs]
  dsimp only
  rw [hp]
  exact ⟨_, rfl⟩

theorem tlsFinish_all (hm : 0 < m) (d : TlsDecomp 𝕜 m) (cross : Matrix (Fin m) (Fin m) 𝕜) (X Y : Matrix (Fin n) (Fin m) 𝕜) :
    ∃ res, tlsFinish d cross X Y none = .ok res := by
  unfold tlsFinish
  dsimp only
  rw [dif_pos hm]
  exact ⟨_, rfl⟩

/-- **C31.** With weights that fit there is always a result. -/
theorem C31_snaps_no_error (hm : 0 < m) (weights : Option (NdArray 𝕜)) (ws : Weights 𝕜) (hws : arraysInit weights = .ok ws)
    (hfit : ws.Fits n) (Z : Matrix (Fin n) (Fin (m + 1)) 𝕜) (X Y : Matrix (Fin n) (Fin m) 𝕜) :
    (∃ res, tlsSnapsSeq lib eig Z none weights (some t) rtol maxNum = .ok res) ∧
    ∃ res, tlsSnapsPairs lib eig X ⟨n, m, Y⟩ none weights (some t) rtol maxNum = .ok res := by
  have h : ∀ (c : TlsCorr 𝕜 m) (X Y : Matrix (Fin n) (Fin m) 𝕜), ∃ res,
      tlsSnapsRest lib eig c X Y none (some t) rtol maxNum = .ok res := by
    intro c X Y
    obtain ⟨d, hd⟩ := tlsEigendecomp_all eig t maxNum hm lib.eigh lib.argsort c.corr c.adv c.cross rtol none
    obtain ⟨res, hr⟩ := tlsFinish_all hm d c.cross X Y
    unfold tlsSnapsRest
    rw [hd]
    dsimp only
    rw [hr]
    exact ⟨_, rfl⟩
  constructor
  · unfold tlsSnapsSeq symmIpArray
    rw [hws]
    dsimp only
    rw [C45_formula ws hfit]
    exact h _ _ _
  · unfold tlsSnapsPairs symmIpArray
    rw [hws]
    simp only [and_self, dite_true]
    rw [C45_formula ws hfit, C45_formula ws hfit, C45_formula ws hfit]
    exact h _ _ _

/-- **C31.** The same for the direct method. -/
theorem C31_direct_no_error (svd : Matrix (Fin (n + n)) (Fin m) 𝕜 → SvdOut 𝕜 (n + n) m) (hm : 0 < m)
    (hn : rtol ≠ none → 0 < n) (ws : DirectWeights 𝕜) (hfit : ws.Fits n)
    (ha : ws.accepted = true) (hchol : ∀ p q w, ws = .d2 p q w → IsCholesky lib.cholesky (ws.matrix n))
    (Z : Matrix (Fin n) (Fin (m + 1)) 𝕜) (X Y : Matrix (Fin n) (Fin m) 𝕜) :
    (∃ res, tlsDirectSeq lib eig svd Z none ws (some t) rtol maxNum = .ok res) ∧
    ∃ res, tlsDirectPairs lib eig svd X ⟨n, m, Y⟩ none ws (some t) rtol maxNum = .ok res := by
  obtain ⟨so, hso⟩ := directSqrtWeights_all lib ws hfit ha hchol
  have h : ∀ X Y : Matrix (Fin n) (Fin m) 𝕜, ∃ res,
      tlsDirectRest lib eig svd so X Y none ws (some t) rtol maxNum = .ok res := by
    intro X Y
    unfold tlsDirectRest
    cases h : utilSvd svd (stackRows (weightData so X) (weightData so Y)) (some t) rtol with
    | error e =>
      obtain ⟨-, h1, h2⟩ := (C19_error_iff svd _ (some t) rtol e).mp h
      have := hn h1
      omega
    | ok s =>
      dsimp only
      obtain ⟨res, hr⟩ := (C26_direct_no_error lib eig t rtol maxNum hm hn ws hfit ha hchol (0 : Matrix (Fin n) (Fin (m + 1)) 𝕜)
        (X * ((s.truncate maxNum).V * (s.truncate maxNum).Vᴴ)) (Y * ((s.truncate maxNum).V * (s.truncate maxNum).Vᴴ))).2
      rw [hr]
      exact ⟨_, rfl⟩
  constructor
  · unfold tlsDirectSeq
    rw [hso]
    exact h _ _
  · unfold tlsDirectPairs
    rw [hso]
    simp only [and_self, dite_true]
    exact h _ _

end NoError

/-! ### Tolerances -/

theorem tlsEigendecomp_retained {m : Nat} (eigh : Matrix (Fin m) (Fin m) 𝕜 → EighOut 𝕜 m)
    (argsort : (Fin m → ℝ) → Equiv.Perm (Fin m)) (eig : ∀ {r : Nat}, Matrix (Fin r) (Fin r) 𝕜 → EigOut 𝕜 r)
    (C C' K : Matrix (Fin m) (Fin m) 𝕜) (a : ℝ) (sumRtol projRtol : Option ℝ) (maxNum : Option Nat) (t : TlsDecomp 𝕜 m)
    (ht : tlsEigendecomp eigh argsort eig C C' K (some a) sumRtol projRtol maxNum = .ok t) (ha : 0 ≤ a)
    (hr : ∀ t ∈ sumRtol, 0 ≤ t) (hr' : ∀ t ∈ projRtol, 0 ≤ t) (hs : IsArgsort argsort) :
    Retained (eigh (C + C')).w a sumRtol maxNum t.sumW ∧
    Retained (eigh (t.proj * C * t.proj)).w a projRtol maxNum t.d.w := by
  obtain ⟨⟨s, hs1, hs2⟩, ⟨p, hp1, hp2⟩, -⟩ := tlsEigendecomp_ok _ _ _ _ _ _ _ _ _ _ _ ht
  have h1 := eigh_retained eigh argsort _ a sumRtol maxNum ha hr hs s hs1
  have h2 := eigh_retained eigh argsort _ a projRtol maxNum ha hr' hs p hp1
  rw [← hs2] at h1
  rw [← hp2] at h2
  exact ⟨h1, h2⟩

section Tolerances

variable {n m : Nat} (lib : PodLib 𝕜 n m) (eig : ∀ {r : Nat}, Matrix (Fin r) (Fin r) 𝕜 → EigOut 𝕜 r)
  (modeIndices : Option (List Int)) (t : ℝ) (rtol : Option ℝ) (maxNum : Option Nat)

/-- **C58, partial.** The snapshot method retains of the sum correlation array what the tolerances and the maximal
number admit, and of the projected correlation array what the absolute tolerance and the maximal number admit.  The
relative tolerance for the latter is missing. -/
theorem C58_snaps_partial (ht : 0 ≤ t) (hr : ∀ t ∈ rtol, 0 ≤ t) (hs : IsArgsort lib.argsort)
    (weights : Option (NdArray 𝕜)) (ws : Weights 𝕜) (hws : arraysInit weights = .ok ws) (hfit : ws.Fits n)
    (Z : Matrix (Fin n) (Fin (m + 1)) 𝕜) (X Y : Matrix (Fin n) (Fin m) 𝕜) (res : TlsResult 𝕜 n m) (c : TlsCorr 𝕜 m)
    (hres : tlsSnapsPairs lib eig X ⟨n, m, Y⟩ modeIndices weights (some t) rtol maxNum = .ok (res, c) ∨
      tlsSnapsSeq lib eig Z modeIndices weights (some t) rtol maxNum = .ok (res, c) ∧ X = seqFirst Z ∧ Y = seqNext Z) :
    Retained (lib.eigh (Xᴴ * ws.matrix n * X + Yᴴ * ws.matrix n * Y)).w t rtol maxNum res.decomp.sumW ∧
    Retained (lib.eigh (res.decomp.proj * (Xᴴ * ws.matrix n * X) * res.decomp.proj)).w t none maxNum res.decomp.d.w := by
  rcases hres with hres | ⟨hres, rfl, rfl⟩
  · obtain ⟨rfl, hd, -⟩ := tlsSnapsPairs_ok lib eig modeIndices weights ws _ rtol maxNum hws hfit X Y res c hres
    exact tlsEigendecomp_retained _ _ eig _ _ _ t rtol none maxNum _ hd ht hr (by simp) hs
  · obtain ⟨rfl, hd, -⟩ := tlsSnapsSeq_ok lib eig modeIndices weights ws _ rtol maxNum hws hfit Z res c hres
    exact tlsEigendecomp_retained _ _ eig _ _ _ t rtol none maxNum _ hd ht hr (by simp) hs

/-- **C58.** The direct method retains of the stacked data and of the projected data what the tolerances and the
maximal number admit. -/
theorem C58_direct (svd : Matrix (Fin (n + n)) (Fin m) 𝕜 → SvdOut 𝕜 (n + n) m) (hr : ∀ t ∈ rtol, 0 ≤ t)
    (hlib : ∀ a, IsSvd a (lib.svd a)) (hlib' : ∀ a, IsSvd a (svd a)) (ws : DirectWeights 𝕜)
    (hfit : ws.Fits n) (hchol : ∀ p q w, ws = .d2 p q w → IsCholesky lib.cholesky (ws.matrix n))
    (Z : Matrix (Fin n) (Fin (m + 1)) 𝕜) (X Y : Matrix (Fin n) (Fin m) 𝕜) (res : TlsResult 𝕜 n m)
    (hres : tlsDirectPairs lib eig svd X ⟨n, m, Y⟩ modeIndices ws (some t) rtol maxNum = .ok res ∨
      tlsDirectSeq lib eig svd Z modeIndices ws (some t) rtol maxNum = .ok res ∧ X = seqFirst Z ∧ Y = seqNext Z) :
    ∃ (G G' : Matrix (Fin n) (Fin n) 𝕜) (kept : Fin res.decomp.q → ℝ) (kept' : Fin res.decomp.d.r → ℝ),
      Gᴴ * G = ws.matrix n ∧ G'ᴴ * G' = ws.matrix n ∧
      Retained (svd (stackRows (G * X) (G * Y))).S t rtol maxNum kept ∧ (∀ i, res.decomp.sumW i = kept i ^ 2) ∧
      Retained (lib.svd (G' * (X * res.decomp.proj))).S t rtol maxNum kept' ∧ ∀ i, res.decomp.d.w i = kept' i ^ 2 := by
  have key : ∀ so : Option (Matrix (Fin n) (Fin n) 𝕜), directSqrtWeights lib.cholesky ws = .ok so →
      tlsDirectRest lib eig svd so X Y modeIndices ws (some t) rtol maxNum = .ok res →
      ∃ (G G' : Matrix (Fin n) (Fin n) 𝕜) (kept : Fin res.decomp.q → ℝ) (kept' : Fin res.decomp.d.r → ℝ),
      Gᴴ * G = ws.matrix n ∧ G'ᴴ * G' = ws.matrix n ∧
      Retained (svd (stackRows (G * X) (G * Y))).S t rtol maxNum kept ∧ (∀ i, res.decomp.sumW i = kept i ^ 2) ∧
      Retained (lib.svd (G' * (X * res.decomp.proj))).S t rtol maxNum kept' ∧ ∀ i, res.decomp.d.w i = kept' i ^ 2 := by
    intro so hso hres
    obtain ⟨G, hG, hdata⟩ := directSqrtWeights_ok lib.cholesky ws hfit hchol so hso
    obtain ⟨⟨s, hs, hq, hV, hw⟩, hd⟩ := tlsDirectRest_ok lib eig svd modeIndices ws rtol maxNum so _ X Y res hres
    obtain ⟨G', kept', h1, h2, h3⟩ := C28_direct_pairs lib eig modeIndices t rtol maxNum hr hlib ws hfit hchol _ _ _ hd
    rw [hdata, hdata] at hs
    have h4 := svd_retained svd _ t rtol maxNum hr (hlib' _) s hs
    have h5 : ∃ kept : Fin res.decomp.q → ℝ, Retained (svd (stackRows (G * X) (G * Y))).S t rtol maxNum kept ∧
        ∀ i, res.decomp.sumW i = kept i ^ 2 := by
      obtain ⟨⟨q, sumW, sumV, d⟩, _, _, _, _, _, _⟩ := res
      dsimp only at hq hw ⊢
      subst hq
      cases hw
      exact ⟨_, h4, fun i => Real.rpow_two _⟩
    obtain ⟨kept, h6, h7⟩ := h5
    exact ⟨G, G', kept, kept', hG, h1, h6, h7, h2, h3⟩
  rcases hres with hres | ⟨hres, rfl, rfl⟩
  · unfold tlsDirectPairs at hres
    split at hres
    · cases hres
    rename_i so hso
    simp only [and_self, dite_true] at hres
    exact key so hso hres
  · unfold tlsDirectSeq at hres
    split at hres
    · cases hres
    rename_i so hso
    exact key so hso hres

end Tolerances

/-- All eigenvalues larger than the absolute tolerance are retained, and if that are all the eigenvectors span
everything. -/
theorem eigh_posDef {m : Nat} (eigh : Matrix (Fin m) (Fin m) 𝕜 → EighOut 𝕜 m) (argsort : (Fin m → ℝ) → Equiv.Perm (Fin m))
    (hs : IsArgsort argsort) (S : Matrix (Fin m) (Fin m) 𝕜) (a : ℝ) (ha : 0 ≤ a) (hS : (S - (a : 𝕜) • 1).PosDef)
    (hlib : IsEigh S (eigh S)) (s : Eigh 𝕜 m) (h : utilEigh eigh argsort S (some a) none true = .ok s) :
    s.r = m ∧ s.V * s.Vᴴ = 1 := by
  have hw : ∀ j, a < (eigh S).w j := by
    intro j
    have h1 : (eigh S).Vᴴ * (S - (a : 𝕜) • 1) * (eigh S).V = diagonal fun i => (((eigh S).w i - a : ℝ) : 𝕜) := by
      rw [Matrix.mul_sub, Matrix.sub_mul, Matrix.mul_assoc, hlib.eigen, ← Matrix.mul_assoc, hlib.orthonormal, Matrix.one_mul,
        Matrix.mul_smul, Matrix.mul_one, Matrix.smul_mul, hlib.orthonormal, ← diagonal_one, ← diagonal_smul, diagonal_sub]
      congr 1
      ext i
      simp
    have hinj : Function.Injective (eigh S).V.mulVec := by
      intro x y hxy
      have := congrArg ((eigh S).Vᴴ *ᵥ ·) hxy
      simpa [mulVec_mulVec, hlib.orthonormal] using this
    have h2 := (hS.conjTranspose_mul_mul_same hinj).diag_pos (i := j)
    rw [h1, diagonal_apply_eq, RCLike.ofReal_pos] at h2
    linarith
  obtain ⟨p, -, hle, hiff, -⟩ := C20_kept_iff _ _ _ _ _ _ hs (by simp) s h
  have hr : s.r = m := by
    refine le_antisymm hle ?_
    by_contra hlt
    push Not at hlt
    have := (hiff ⟨s.r, hlt⟩).mpr ⟨⟨?_, by simp⟩, fun _ j hj => absurd hj (not_lt.mpr (ha.trans (hw j).le))⟩
    · simp at this
    · intro t ht
      cases ht
      exact (hw _).trans_le (le_abs_self _)
  refine ⟨hr, ?_⟩
  obtain ⟨hV, -⟩ := C20_eigenpairs _ _ _ _ _ _ hlib hs s h
  obtain ⟨r, w, V⟩ := s
  dsimp only at hr hV ⊢
  subst hr
  exact mul_eq_one_comm.mp hV

/-- The same for singular values. -/
theorem svd_posDef {n m : Nat} (svd : Matrix (Fin n) (Fin m) 𝕜 → SvdOut 𝕜 n m) (A : Matrix (Fin n) (Fin m) 𝕜) (a : ℝ)
    (ha : 0 ≤ a) (hnm : m ≤ n) (hA : (Aᴴ * A - ((a ^ 2 : ℝ) : 𝕜) • 1).PosDef)
    (hlib : IsSvd A (svd A)) (s : Svd 𝕜 n m) (h : utilSvd svd A (some a) none = .ok s) :
    s.r = m ∧ s.V * s.Vᴴ = 1 := by
  have hw : ∀ j, a < (svd A).S j := by
    intro j
    have h1 : ((svd A).Vhᴴ)ᴴ * (Aᴴ * A - ((a ^ 2 : ℝ) : 𝕜) • 1) * (svd A).Vhᴴ =
        diagonal fun i => (((svd A).S i ^ 2 - a ^ 2 : ℝ) : 𝕜) := by
      have h2 : (A * (svd A).Vhᴴ)ᴴ * (A * (svd A).Vhᴴ) = diagonal fun i => (((svd A).S i ^ 2 : ℝ) : 𝕜) := by
        rw [hlib.mul_right, conjTranspose_mul, Matrix.mul_assoc, ← Matrix.mul_assoc _ (svd A).U, hlib.left, Matrix.one_mul,
          diagonal_conjTranspose, diagonal_mul_diagonal]
        congr 1
        ext i
        simp [sq]
      rw [Matrix.mul_sub, Matrix.sub_mul, Matrix.mul_smul, Matrix.mul_one, Matrix.smul_mul, conjTranspose_conjTranspose,
        hlib.right, show (svd A).Vh * (Aᴴ * A) * (svd A).Vhᴴ = (A * (svd A).Vhᴴ)ᴴ * (A * (svd A).Vhᴴ) by
          simp only [conjTranspose_mul, conjTranspose_conjTranspose, Matrix.mul_assoc], h2, ← diagonal_one, ← diagonal_smul,
        diagonal_sub]
      congr 1
      ext i
      simp
    have hinj : Function.Injective (svd A).Vhᴴ.mulVec := by
      intro x y hxy
      have := congrArg ((svd A).Vh *ᵥ ·) hxy
      simpa [mulVec_mulVec, hlib.right] using this
    have h2 := (hA.conjTranspose_mul_mul_same hinj).diag_pos (i := j)
    rw [h1, diagonal_apply_eq, RCLike.ofReal_pos] at h2
    exact lt_of_pow_lt_pow_left₀ 2 (hlib.nonneg j) (by linarith)
  obtain ⟨hle, hiff, -⟩ := C19_kept_iff _ _ _ _ hlib (by simp) s h
  have hr : s.r = m := by
    refine le_antisymm (hle.trans (min_le_right _ _)) ?_
    by_contra hlt
    push Not at hlt
    have := (hiff ⟨s.r, lt_min (hlt.trans_le hnm) hlt⟩).mpr ⟨?_, by simp⟩
    · simp at this
    · intro t ht
      cases ht
      exact (hw _).trans_le (le_abs_self _)
  refine ⟨hr, ?_⟩
  obtain ⟨-, hV, -⟩ := C19_singular_triples _ _ _ _ hlib s h
  obtain ⟨r, U, S, V⟩ := s
  dsimp only at hr hV ⊢
  subst hr
  exact mul_eq_one_comm.mp hV

/-- **C58, violation.** With the relative tolerance 1/2, the snapshot method retains for the data (2, 0), (0, 1) and the
advanced data (2, 0), (0, 3) both eigenvalues 4 and 1 of the projected correlation array, for every library. -/
theorem C58_violation (lib : PodLib ℝ 2 2) (heigh : ∀ a, a.IsHermitian → IsEigh a (lib.eigh a)) (hs : IsArgsort lib.argsort)
    (eig : ∀ {r : Nat}, Matrix (Fin r) (Fin r) ℝ → EigOut ℝ r) (res : TlsResult ℝ 2 2) (c : TlsCorr ℝ 2)
    (hres : tlsSnapsPairs lib eig (diagonal ![2, 1]) ⟨2, 2, diagonal ![2, 3]⟩ none none (some 0) (some (1 / 2)) none =
      .ok (res, c)) :
    ∃ i j, res.decomp.d.w i ≤ 1 / 2 * res.decomp.d.w j := by
  obtain ⟨h1, h2⟩ := C58_snaps_partial lib eig none 0 (some (1 / 2)) none le_rfl (by simp) hs none .none rfl trivial 0 _ _ res c
    (Or.inl hres)
  have hdiag : ∀ x : Fin 2 → ℝ, (diagonal x)ᴴ * Weights.matrix 2 Weights.none * diagonal x = diagonal fun i => x i * x i := by
    intro x
    simp [Weights.matrix, diagonal_conjTranspose]
  rw [hdiag, hdiag, diagonal_add] at h1
  rw [hdiag] at h2
  have hherm : ∀ x : Fin 2 → ℝ, (diagonal x).IsHermitian := fun x => by
    rw [isHermitian_diagonal_iff]
    intro i
    exact IsSelfAdjoint.all _
  -- both directions of the sum are retained, so the projection changes nothing
  have hproj : res.decomp.proj = 1 := by
    obtain ⟨rfl, hd, -⟩ := tlsSnapsPairs_ok lib eig none none .none _ _ _ rfl trivial _ _ res c hres
    obtain ⟨⟨s, hs1, hs2⟩, -, -⟩ := tlsEigendecomp_ok _ _ _ _ _ _ _ _ _ _ _ hd
    dsimp only at hs1
    rw [hdiag, hdiag, diagonal_add] at hs1
    change _ = s at hs2
    have hE := heigh _ (hherm fun i => ![2, 1] i * ![2, 1] i + ![2, 3] i * ![2, 3] i)
    obtain ⟨p, -, hle, hiff, -⟩ := C20_kept_iff _ _ _ _ _ _ hs (by simp) s hs1
    obtain ⟨hV, -⟩ := C20_eigenpairs _ _ _ _ _ _ hE hs s hs1
    have hval : ∀ k, (lib.eigh (diagonal fun i => ![2, 1] i * ![2, 1] i + ![2, 3] i * ![2, 3] i)).w k = 8 ∨
        (lib.eigh (diagonal fun i => ![2, 1] i * ![2, 1] i + ![2, 3] i * ![2, 3] i)).w k = 10 := by
      intro k
      obtain ⟨i, hi⟩ := eigh_diagonal_value _ _ hE k
      rw [hi]
      fin_cases i <;> simp <;> norm_num
    have hr : s.r = 2 := by
      refine le_antisymm hle ?_
      by_contra hlt
      push Not at hlt
      have := (hiff ⟨s.r, hlt⟩).mpr ⟨⟨?_, ?_⟩, fun _ j hj => ?_⟩
      · simp at this
      · intro t ht
        cases ht
        rcases hval (p ⟨s.r, hlt⟩) with h | h <;> dsimp only <;> rw [h] <;> norm_num
      · intro t ht
        cases ht
        rcases hval (p ⟨s.r, hlt⟩) with h | h <;> rcases hval (p ⟨0, (⟨s.r, hlt⟩ : Fin 2).pos⟩) with h' | h' <;> dsimp only <;>
          rw [h, h'] <;> norm_num
      · rcases hval j with h | h <;> rw [h] at hj <;> norm_num at hj
    rw [← hs2] at hr hV
    have hsq : ∀ (q : Nat) (V : Matrix (Fin 2) (Fin q) ℝ), q = 2 → Vᴴ * V = 1 → V * Vᴴ = 1 := by
      rintro q V rfl hV
      exact mul_eq_one_comm.mp hV
    exact hsq _ _ hr hV
  rw [hproj, Matrix.one_mul, Matrix.mul_one] at h2
  have hE := heigh _ (hherm fun i => ![2, 1] i * ![2, 1] i)
  obtain ⟨j0, hj0⟩ := eigh_diagonal _ _ hE 0
  obtain ⟨j1, hj1⟩ := eigh_diagonal _ _ hE 1
  have hnn : ∀ k, ¬ (lib.eigh (diagonal fun i => ![2, 1] i * ![2, 1] i)).w k < 0 := by
    intro k
    obtain ⟨i, hi⟩ := eigh_diagonal_value _ _ hE k
    rw [hi]
    fin_cases i <;> simp
  simp only [cons_val_one, cons_val_zero] at hj0 hj1
  obtain ⟨i0, hi0⟩ := (h2.complete j0 (by rw [hj0]; norm_num) (by simp) fun k hk => absurd hk (hnn k)).resolve_right (by simp)
  obtain ⟨i1, hi1⟩ := (h2.complete j1 (by rw [hj1]; norm_num) (by simp) fun k hk => absurd hk (hnn k)).resolve_right (by simp)
  refine ⟨i1, i0, ?_⟩
  rw [hi1, hi0, hj1, hj0]
  norm_num

/-! ### No truncation -/

section Full

variable {n m : Nat} {W : Matrix (Fin n) (Fin n) 𝕜} {X Y : Matrix (Fin n) (Fin m) 𝕜} {t : TlsDecomp 𝕜 m}
  {exact proj adjoint : Matrix (Fin n) (Fin t.d.r) 𝕜}

/-- **C59.** If as many directions are retained as data and advanced data together have, the projection changes neither
of them. -/
theorem C59_projection (hW : W.PosDef) (h : TlsProjection (Xᴴ * W * X) (Yᴴ * W * Y) t.sumW t.sumV)
    (hq : t.q = (Xᴴ * W * X + Yᴴ * W * Y).rank) : X * t.proj = X ∧ Y * t.proj = Y :=
  proj_full hW h hq

/-- **C59.** Then the modes are those of dynamic mode decomposition of the data themselves. -/
theorem C59_modes (hW : W.PosDef) (h : TlsProjection (Xᴴ * W * X) (Yᴴ * W * Y) t.sumW t.sumV)
    (hq : t.q = (Xᴴ * W * X + Yᴴ * W * Y).rank)
    (hm : DmdModes W (X * t.proj) (Y * t.proj) t.d.w t.d.V t.d.eigvals exact proj adjoint) :
    DmdModes W X Y t.d.w t.d.V t.d.eigvals exact proj adjoint := by
  obtain ⟨h1, h2⟩ := C59_projection hW h hq
  rwa [h1, h2] at hm

/-- **C59.** If also no direction of the data is dropped, they agree with the results of dynamic mode decomposition
that drops none either, up to the order and scale of the modes. -/
theorem C59_agrees {r' : Nat} {w' : Fin r' → ℝ} {V' : Matrix (Fin m) (Fin r') 𝕜} {eigvals' : Fin r' → 𝕜}
    {exact' proj' adjoint' : Matrix (Fin n) (Fin r') 𝕜} (hW : W.PosDef)
    (h : TlsProjection (Xᴴ * W * X) (Yᴴ * W * Y) t.sumW t.sumV) (hq : t.q = (Xᴴ * W * X + Yᴴ * W * Y).rank)
    (hm : DmdModes W (X * t.proj) (Y * t.proj) t.d.w t.d.V t.d.eigvals exact proj adjoint)
    (hm' : DmdModes W X Y w' V' eigvals' exact' proj' adjoint') (hr : t.d.r = X.rank) (hr' : r' = X.rank)
    (h0 : ∀ i, t.d.eigvals i ≠ 0) (h0' : ∀ i, eigvals' i ≠ 0) (hi : Function.Injective t.d.eigvals)
    (hi' : Function.Injective eigvals') :
    ∃ σ c, DmdSame t.d.eigvals exact proj adjoint (adjointᴴ * W * X) (adjointᴴ * W * Y) eigvals' exact' proj' adjoint'
      (adjoint'ᴴ * W * X) (adjoint'ᴴ * W * Y) σ c := by
  have hm1 := C59_modes hW h hq hm
  exact hm1.unique hm' (IsPinv.unique hW.isHermitian.eq hW.isUnit (hm1.pinv hr) (hm'.pinv hr')) hW.isHermitian.eq hW.isUnit
    h0 h0' hi hi'

end Full

section FullPrograms

variable {n m : Nat}

/-- **C59.** If the snapshot method for a sequence of vectors drops no direction in its projection, modes and coefficients are those of
dynamic mode decomposition of the data. -/
theorem C59_snaps_sequential (lib : PodLib 𝕜 n m) (eig : ∀ {r : Nat}, Matrix (Fin r) (Fin r) 𝕜 → EigOut 𝕜 r)
    (modeIndices : Option (List Int)) (weights : Option (NdArray 𝕜)) (ws : Weights 𝕜) (a : ℝ) (rtol : Option ℝ)
    (maxNum : Option Nat) (ha : 0 ≤ a) (hr : ∀ t ∈ rtol, 0 ≤ t) (hs : IsArgsort lib.argsort)
    (hws : arraysInit weights = .ok ws) (hfit : ws.Fits n) (hW : (ws.matrix n).PosDef)
    (hlib : ∀ C : Matrix (Fin m) (Fin m) 𝕜, C.IsHermitian → IsEigh C (lib.eigh C)) (Z : Matrix (Fin n) (Fin (m + 1)) 𝕜)
    (res : TlsResult 𝕜 n m) (c : TlsCorr 𝕜 m)
    (hres : tlsSnapsSeq lib eig Z modeIndices weights (some a) rtol maxNum = .ok (res, c))
    (heig : EigOfProjected eig ((seqFirst Z)ᴴ * ws.matrix n * (seqNext Z)) res.decomp) (hinj : Function.Injective res.decomp.d.eigvals)
    (h0 : ∀ i, res.decomp.d.eigvals i ≠ 0)
    (hq : res.decomp.q = ((seqFirst Z)ᴴ * ws.matrix n * (seqFirst Z) + (seqNext Z)ᴴ * ws.matrix n * (seqNext Z)).rank) :
    ∃ exact proj adjoint, Chosen exact modeIndices res.exactModes ∧ Chosen proj modeIndices res.projModes ∧
      Chosen adjoint modeIndices res.adjointModes ∧
      DmdModes (ws.matrix n) (seqFirst Z) (seqNext Z) res.decomp.d.w res.decomp.d.V res.decomp.d.eigvals exact proj adjoint ∧
      res.projCoeffs = adjointᴴ * ws.matrix n * (seqFirst Z) ∧ res.advProjCoeffs = adjointᴴ * ws.matrix n * (seqNext Z) := by
  obtain ⟨-, -, -, hp, exact, proj, adjoint, h1, h2, h3, h4, h5, h6⟩ := C31_snaps_sequential lib eig modeIndices weights ws rtol
    maxNum a ha hr hs hws hfit hW.isHermitian hlib Z res c hres heig hinj h0
  obtain ⟨e1, e2⟩ := C59_projection hW hp hq
  rw [e1] at h4 h5
  rw [e2] at h4 h6
  exact ⟨exact, proj, adjoint, h1, h2, h3, h4, h5, h6⟩

/-- **C59.** If the snapshot method for pairs of vectors drops no direction in its projection, modes and coefficients are those of
dynamic mode decomposition of the data. -/
theorem C59_snaps_pairs (lib : PodLib 𝕜 n m) (eig : ∀ {r : Nat}, Matrix (Fin r) (Fin r) 𝕜 → EigOut 𝕜 r)
    (modeIndices : Option (List Int)) (weights : Option (NdArray 𝕜)) (ws : Weights 𝕜) (a : ℝ) (rtol : Option ℝ)
    (maxNum : Option Nat) (ha : 0 ≤ a) (hr : ∀ t ∈ rtol, 0 ≤ t) (hs : IsArgsort lib.argsort)
    (hws : arraysInit weights = .ok ws) (hfit : ws.Fits n) (hW : (ws.matrix n).PosDef)
    (hlib : ∀ C : Matrix (Fin m) (Fin m) 𝕜, C.IsHermitian → IsEigh C (lib.eigh C)) (X Y : Matrix (Fin n) (Fin m) 𝕜)
    (res : TlsResult 𝕜 n m) (c : TlsCorr 𝕜 m)
    (hres : tlsSnapsPairs lib eig X ⟨n, m, Y⟩ modeIndices weights (some a) rtol maxNum = .ok (res, c))
    (heig : EigOfProjected eig (Xᴴ * ws.matrix n * Y) res.decomp) (hinj : Function.Injective res.decomp.d.eigvals)
    (h0 : ∀ i, res.decomp.d.eigvals i ≠ 0)
    (hq : res.decomp.q = (Xᴴ * ws.matrix n * X + Yᴴ * ws.matrix n * Y).rank) :
    ∃ exact proj adjoint, Chosen exact modeIndices res.exactModes ∧ Chosen proj modeIndices res.projModes ∧
      Chosen adjoint modeIndices res.adjointModes ∧
      DmdModes (ws.matrix n) X Y res.decomp.d.w res.decomp.d.V res.decomp.d.eigvals exact proj adjoint ∧
      res.projCoeffs = adjointᴴ * ws.matrix n * X ∧ res.advProjCoeffs = adjointᴴ * ws.matrix n * Y := by
  obtain ⟨-, -, -, hp, exact, proj, adjoint, h1, h2, h3, h4, h5, h6⟩ := C31_snaps_pairs lib eig modeIndices weights ws rtol
    maxNum a ha hr hs hws hfit hW.isHermitian hlib X Y res c hres heig hinj h0
  obtain ⟨e1, e2⟩ := C59_projection hW hp hq
  rw [e1] at h4 h5
  rw [e2] at h4 h6
  exact ⟨exact, proj, adjoint, h1, h2, h3, h4, h5, h6⟩

/-- **C59.** If the direct method for a sequence of vectors drops no direction in its projection, modes and coefficients are those of
dynamic mode decomposition of the data. -/
theorem C59_direct_sequential (lib : PodLib 𝕜 n m) (eig : ∀ {r : Nat}, Matrix (Fin r) (Fin r) 𝕜 → EigOut 𝕜 r)
    (svd : Matrix (Fin (n + n)) (Fin m) 𝕜 → SvdOut 𝕜 (n + n) m) (modeIndices : Option (List Int)) (ws : DirectWeights 𝕜) (a : ℝ)
    (rtol : Option ℝ) (maxNum : Option Nat) (ha : 0 ≤ a) (hr : ∀ t ∈ rtol, 0 ≤ t) (hfit : ws.Fits n)
    (hW : (ws.matrix n).PosDef) (hchol : ∀ p q w, ws = .d2 p q w → IsCholesky lib.cholesky (ws.matrix n))
    (hlib : ∀ a, IsSvd a (lib.svd a)) (hlib' : ∀ a, IsSvd a (svd a)) (Z : Matrix (Fin n) (Fin (m + 1)) 𝕜)
    (res : TlsResult 𝕜 n m) (hres : tlsDirectSeq lib eig svd Z modeIndices ws (some a) rtol maxNum = .ok res)
    (heig : EigOfProjected eig ((seqFirst Z)ᴴ * ws.matrix n * (seqNext Z)) res.decomp) (hinj : Function.Injective res.decomp.d.eigvals)
    (h0 : ∀ i, res.decomp.d.eigvals i ≠ 0)
    (hq : res.decomp.q = ((seqFirst Z)ᴴ * ws.matrix n * (seqFirst Z) + (seqNext Z)ᴴ * ws.matrix n * (seqNext Z)).rank) :
    ∃ exact proj adjoint, Chosen exact modeIndices res.exactModes ∧ Chosen proj modeIndices res.projModes ∧
      Chosen adjoint modeIndices res.adjointModes ∧
      DmdModes (ws.matrix n) (seqFirst Z) (seqNext Z) res.decomp.d.w res.decomp.d.V res.decomp.d.eigvals exact proj adjoint ∧
      DmdCoeffs (ws.matrix n) (seqFirst Z) (seqNext Z) adjoint res.projCoeffs res.advProjCoeffs res.spectralCoeffs := by
  obtain ⟨hp, exact, proj, adjoint, h1, h2, h3, h4, h5⟩ := C31_direct_sequential lib eig svd modeIndices ws a rtol
    maxNum ha hr hfit hchol hlib hlib' Z res hres heig hinj h0
  obtain ⟨e1, e2⟩ := C59_projection hW hp hq
  rw [e1, e2] at h4 h5
  exact ⟨exact, proj, adjoint, h1, h2, h3, h4, h5⟩

/-- **C59.** If the direct method for pairs of vectors drops no direction in its projection, modes and coefficients are those of
dynamic mode decomposition of the data. -/
theorem C59_direct_pairs (lib : PodLib 𝕜 n m) (eig : ∀ {r : Nat}, Matrix (Fin r) (Fin r) 𝕜 → EigOut 𝕜 r)
    (svd : Matrix (Fin (n + n)) (Fin m) 𝕜 → SvdOut 𝕜 (n + n) m) (modeIndices : Option (List Int)) (ws : DirectWeights 𝕜) (a : ℝ)
    (rtol : Option ℝ) (maxNum : Option Nat) (ha : 0 ≤ a) (hr : ∀ t ∈ rtol, 0 ≤ t) (hfit : ws.Fits n)
    (hW : (ws.matrix n).PosDef) (hchol : ∀ p q w, ws = .d2 p q w → IsCholesky lib.cholesky (ws.matrix n))
    (hlib : ∀ a, IsSvd a (lib.svd a)) (hlib' : ∀ a, IsSvd a (svd a)) (X Y : Matrix (Fin n) (Fin m) 𝕜)
    (res : TlsResult 𝕜 n m) (hres : tlsDirectPairs lib eig svd X ⟨n, m, Y⟩ modeIndices ws (some a) rtol maxNum = .ok res)
    (heig : EigOfProjected eig (Xᴴ * ws.matrix n * Y) res.decomp) (hinj : Function.Injective res.decomp.d.eigvals)
    (h0 : ∀ i, res.decomp.d.eigvals i ≠ 0)
    (hq : res.decomp.q = (Xᴴ * ws.matrix n * X + Yᴴ * ws.matrix n * Y).rank) :
    ∃ exact proj adjoint, Chosen exact modeIndices res.exactModes ∧ Chosen proj modeIndices res.projModes ∧
      Chosen adjoint modeIndices res.adjointModes ∧
      DmdModes (ws.matrix n) X Y res.decomp.d.w res.decomp.d.V res.decomp.d.eigvals exact proj adjoint ∧
      DmdCoeffs (ws.matrix n) X Y adjoint res.projCoeffs res.advProjCoeffs res.spectralCoeffs := by
  obtain ⟨hp, exact, proj, adjoint, h1, h2, h3, h4, h5⟩ := C31_direct_pairs lib eig svd modeIndices ws a rtol
    maxNum ha hr hfit hchol hlib hlib' X Y res hres heig hinj h0
  obtain ⟨e1, e2⟩ := C59_projection hW hp hq
  rw [e1, e2] at h4 h5
  exact ⟨exact, proj, adjoint, h1, h2, h3, h4, h5⟩

end FullPrograms

/-! ### Examples -/

theorem exampleSeq_sum (a : ℝ) (ha : a < 1) : ((seqFirst exampleSeq)ᴴ * 1 * seqFirst exampleSeq +
    (seqNext exampleSeq)ᴴ * 1 * seqNext exampleSeq - a • 1 : Matrix (Fin 2) (Fin 2) ℝ).PosDef := by
  have h : (seqFirst exampleSeq)ᴴ * 1 * seqFirst exampleSeq + (seqNext exampleSeq)ᴴ * 1 * seqNext exampleSeq - a • 1 =
      (1 - a) • (1 : Matrix (Fin 2) (Fin 2) ℝ) + (seqNext exampleSeq)ᴴ * seqNext exampleSeq := by
    rw [exampleSeq_first, sub_smul, one_smul]
    simp only [conjTranspose_one, Matrix.mul_one]
    abel
  rw [h]
  exact (PosDef.one.smul (by linarith)).add_posSemidef (posSemidef_conjTranspose_mul_self _)

theorem exampleSeq_corr : (seqFirst exampleSeq)ᴴ * 1 * seqFirst exampleSeq = (1 : Matrix (Fin 2) (Fin 2) ℝ) := by
  rw [exampleSeq_first]
  simp

theorem exampleSeq_cross : (seqFirst exampleSeq)ᴴ * 1 * seqNext exampleSeq = (!![0, -2; 1, 3] : Matrix (Fin 2) (Fin 2) ℝ) := by
  rw [exampleSeq_first, exampleSeq_next]
  simp

/-- In the example nothing is projected away, and the rest is as for dynamic mode decomposition. -/
theorem exampleSeq_tls : ∃ (lib : PodLib ℝ 2 2) (res : TlsResult ℝ 2 2) (c : TlsCorr ℝ 2),
    (∀ a, a.IsHermitian → IsEigh a (lib.eigh a)) ∧ IsArgsort lib.argsort ∧
    tlsSnapsSeq lib exampleSeqEig exampleSeq none none (some (1 / 10)) none none = .ok (res, c) ∧
    res.decomp.q = 2 ∧ res.decomp.proj = 1 ∧ res.decomp.d = exampleSeqDecomp ∧
    EigOfProjected exampleSeqEig ((seqFirst exampleSeq)ᴴ * 1 * seqNext exampleSeq) res.decomp := by
  obtain ⟨lib, -, heigh, hs, hu, -⟩ := exists_exampleLib
  obtain ⟨⟨⟨res, c⟩, hres⟩, -⟩ := C31_snaps_no_error lib exampleSeqEig (1 / 10) none none (by norm_num) none .none rfl trivial
    exampleSeq 0 0
  obtain ⟨rfl, hd, -⟩ := tlsSnapsSeq_ok lib exampleSeqEig none none .none _ none none rfl trivial exampleSeq res c hres
  obtain ⟨⟨s, hs1, hs2⟩, ⟨p, hp1, hp2⟩, hlr⟩ := tlsEigendecomp_ok _ _ _ _ _ _ _ _ _ _ _ hd
  change _ = s at hs2
  change _ = p at hp2
  dsimp only at hs1 hp1 hlr
  have hherm : ((seqFirst exampleSeq)ᴴ * 1 * seqFirst exampleSeq + (seqNext exampleSeq)ᴴ * 1 * seqNext exampleSeq :
      Matrix (Fin 2) (Fin 2) ℝ).IsHermitian :=
    IsHermitian.add (gram_hermitian isHermitian_one _) (gram_hermitian isHermitian_one _)
  obtain ⟨hq, hP⟩ := eigh_posDef lib.eigh lib.argsort hs _ (1 / 10) (by norm_num) (exampleSeq_sum (1 / 10) (by norm_num))
    (heigh _ hherm) s hs1
  rw [← hs2] at hq hP
  have hproj : res.decomp.proj = 1 := hP
  have e1 : res.decomp.proj * ((seqFirst exampleSeq)ᴴ * Weights.matrix 2 Weights.none * seqFirst exampleSeq) * res.decomp.proj =
      (1 : Matrix (Fin 2) (Fin 2) ℝ) := by
    rw [hproj, Matrix.one_mul, Matrix.mul_one]
    exact exampleSeq_corr
  have e2 : res.decomp.proj * ((seqFirst exampleSeq)ᴴ * Weights.matrix 2 Weights.none * seqNext exampleSeq) * res.decomp.proj =
      (!![0, -2; 1, 3] : Matrix (Fin 2) (Fin 2) ℝ) := by
    rw [hproj, Matrix.one_mul, Matrix.mul_one]
    exact exampleSeq_cross
  rw [e1, hu] at hp1
  cases hp1
  rw [e2] at hlr
  have hdd : res.decomp.d = exampleSeqDecomp := by
    obtain ⟨⟨q, sumW, sumV, ⟨r, w, V, lam, R, L⟩⟩, _, _, _, _, _, _⟩ := res
    dsimp only at hp2 hlr ⊢
    cases hp2
    have : (Except.ok (exampleSeqDecomp.eigvals, exampleSeqDecomp.R, exampleSeqDecomp.L) : Except Err _) = .ok (lam, R, L) := hlr
    cases this
    rfl
  refine ⟨lib, res, _, heigh, hs, hres, hq, hproj, hdd, ?_⟩
  have := exampleSeqDecomp_eig
  unfold EigOfReduced at this
  unfold EigOfProjected
  rw [hproj, Matrix.one_mul, Matrix.mul_one, hdd]
  exact this

/-- Eigenvalues 1 and 2, modes that are eigenvectors of the map that generated the vectors, and spectral coefficients
that are magnitudes of projection coefficients. -/
example : ∃ (lib : PodLib ℝ 2 2) (res : TlsResult ℝ 2 2) (c : TlsCorr ℝ 2),
    tlsSnapsSeq lib exampleSeqEig exampleSeq none none (some (1 / 10)) none none = .ok (res, c) ∧ res.decomp.d.r = 2 ∧
    (∃ exact : Matrix (Fin 2) (Fin res.decomp.d.r) ℝ, Chosen exact none res.exactModes ∧
      (!![0, -2; 1, 3] : Matrix (Fin 2) (Fin 2) ℝ) * exact = exact * diagonal res.decomp.d.eigvals) ∧
    ∀ i, res.spectralCoeffs.data i.val = ‖res.projCoeffs i 0‖ := by
  obtain ⟨lib, res, c, heigh, hs, hres, hq, hproj, hd, heig⟩ := exampleSeq_tls
  obtain ⟨-, -, -, hsum, exact, proj, adjoint, he, -, -, hm, -⟩ := C31_snaps_sequential lib exampleSeqEig none none .none none none
    (1 / 10) (by norm_num) (by simp) hs rfl trivial (by simp [Weights.matrix, Matrix.IsHermitian]) heigh exampleSeq res c hres
    heig (by rw [hd]; exact exampleSeqDecomp_distinct.1) (by rw [hd]; exact exampleSeqDecomp_distinct.2)
  have hpd := exampleSeq_sum 0 (by norm_num)
  rw [zero_smul, sub_zero] at hpd
  have hm' := C59_modes (W := (1 : Matrix (Fin 2) (Fin 2) ℝ)) PosDef.one hsum
    (by rw [hq]; exact ((rank_of_isUnit _ hpd.isUnit).trans (Fintype.card_fin 2)).symm) hm
  refine ⟨lib, res, c, hres, by rw [hd]; rfl, ⟨exact, he, ?_⟩, fun i => ?_⟩
  · refine C26_full_rank hm' (by rw [hd]; rfl) ?_ _ ?_
    · rw [exampleSeq_first]
      simp
    · rw [exampleSeq_first, exampleSeq_next, Matrix.mul_one]
  · exact C30_snaps_real_partial lib exampleSeqEig none none .none (1 / 10) none none (by norm_num) (by simp) hs rfl trivial
      (by simp [Weights.matrix, Matrix.IsHermitian]) heigh res c (Or.inr ⟨_, heig, hres⟩) i 0 rfl

/-- The direct method retains both directions of the stacked data. -/
example : ∃ (lib : PodLib ℝ 2 2) (svd : Matrix (Fin 4) (Fin 2) ℝ → SvdOut ℝ 4 2) (res : TlsResult ℝ 2 2),
    tlsDirectSeq lib exampleSeqEig svd exampleSeq none .none (some (1 / 10)) none none = .ok res ∧ res.decomp.proj = 1 ∧
    res.decomp.d.r = 2 ∧ ∀ i, res.spectralCoeffs.data i.val = ‖res.projCoeffs i 0‖ := by
  obtain ⟨lib4, hsvd4, -⟩ := exists_podLib (𝕜 := ℝ) 4 2
  obtain ⟨lib, hsvd, -, -, -, hu⟩ := exists_exampleLib
  obtain ⟨⟨res, hres⟩, -⟩ := C31_direct_no_error lib exampleSeqEig (1 / 10) none none lib4.svd (by norm_num) (by simp) .none
    trivial rfl (fun _ _ _ h => by cases h) exampleSeq 0 0
  have hrest : tlsDirectRest lib exampleSeqEig lib4.svd none (seqFirst exampleSeq) (seqNext exampleSeq) none .none
      (some (1 / 10)) none none = .ok res := hres
  obtain ⟨⟨s, hs, hq, hV, -⟩, hd⟩ := tlsDirectRest_ok lib exampleSeqEig lib4.svd none .none none none none _ _ _ res hrest
  change _ = s.r at hq
  change HEq _ s.V at hV
  have hgram : (stackRows (weightData none (seqFirst exampleSeq)) (weightData none (seqNext exampleSeq)))ᴴ *
      stackRows (weightData none (seqFirst exampleSeq)) (weightData none (seqNext exampleSeq)) =
      (seqFirst exampleSeq)ᴴ * 1 * seqFirst exampleSeq + (seqNext exampleSeq)ᴴ * 1 * seqNext exampleSeq := by
    rw [stackRows_gram]
    simp [weightData]
  obtain ⟨-, hP⟩ := svd_posDef (n := 4) lib4.svd _ (1 / 10) (by norm_num) (by norm_num)
    (by rw [hgram]; exact exampleSeq_sum _ (by norm_num)) (hsvd4 _) s hs
  have hproj : res.decomp.proj = 1 := by
    unfold TlsDecomp.proj
    obtain ⟨⟨q, sumW, sumV, d⟩, _, _, _, _, _, _⟩ := res
    dsimp only at hq hV ⊢
    subst hq
    cases hV
    exact hP
  rw [hproj, Matrix.mul_one, Matrix.mul_one] at hd
  -- the decomposition is that of dynamic mode decomposition
  obtain ⟨res', hres', hd'⟩ : ∃ res', dmdDirectPairs lib exampleSeqEig (seqFirst exampleSeq) ⟨2, 2, seqNext exampleSeq⟩ none .none
      (some (1 / 10)) none none = .ok res' ∧ EigOfReduced exampleSeqEig 1 (seqFirst exampleSeq) (seqNext exampleSeq) res'.decomp ∧
      res'.decomp.r = 2 := by
    unfold dmdDirectPairs
    generalize hg : directSqrtWeights lib.cholesky (.none : DirectWeights ℝ) = z
    obtain rfl : z = .ok none := hg.symm
    simp only [and_self, dite_true]
    have h2 : (weightData none (seqFirst exampleSeq) : Matrix (Fin 2) (Fin 2) ℝ) = 1 := exampleSeq_first
    unfold dmdDirectRest
    rw [h2, hu]
    have hw : (fun _ : Fin 2 => (1 : ℝ) ^ (2 : ℝ)) = exampleSeqDecomp.w := by
      ext i
      simp [exampleSeqDecomp]
    refine ⟨_, rfl, ?_, rfl⟩
    have := exampleSeqDecomp_eig
    unfold EigOfReduced at this ⊢
    rw [← hw] at this
    exact this
  obtain rfl := Except.ok.inj (hd.symm.trans hres')
  refine ⟨lib, lib4.svd, res, hres, hproj, hd'.2, fun i => ?_⟩
  refine (C30_direct lib exampleSeqEig lib4.svd none .none (1 / 10) none none (by norm_num) (by simp) trivial
    (fun _ _ _ h => by cases h) hsvd hsvd4 res (Or.inr ⟨exampleSeq, ?_, hres⟩)).2 i 0 rfl
  unfold EigOfProjected
  rw [hproj, Matrix.one_mul, Matrix.mul_one]
  exact hd'.1

/-! ### Complex data -/

/-- A unitary array. -/
noncomputable def tlsU : Matrix (Fin 2) (Fin 2) ℂ :=
  !![⟨3 / 5, 0⟩, ⟨0, 4 / 5⟩; ⟨0, 4 / 5⟩, ⟨3 / 5, 0⟩]

theorem tlsU_orth : tlsUᴴ * tlsU = 1 := by
  ext i j
  fin_cases i <;> fin_cases j <;> simp [tlsU, Matrix.mul_apply, Fin.sum_univ_two, Complex.ext_iff] <;> norm_num

theorem tlsU_orth' : tlsU * tlsUᴴ = 1 := mul_eq_one_comm.mp tlsU_orth

/-- Singular values 2 and 1. -/
noncomputable def tlsD : Matrix (Fin 2) (Fin 2) ℂ := diagonal fun i => ((![2, 1] i : ℝ) : ℂ)

/-- The linear map, with eigenvalues 1 and 2. -/
noncomputable def tlsA : Matrix (Fin 2) (Fin 2) ℂ := tlsU * diagonal ![1, 2] * tlsUᴴ

/-- The data and the advanced data. -/
noncomputable def tlsX : Matrix (Fin 2) (Fin 2) ℂ := tlsD * tlsUᴴ

/-- Eigenvalues and eigenvectors of the linear map. -/
noncomputable def tlsEig : ∀ {r : Nat}, Matrix (Fin r) (Fin r) ℂ → EigOut ℂ r
  | 2, _ => ⟨![1, 2], tlsU, tlsU⟩
  | _, _ => ⟨0, 0, 0⟩

theorem tlsEig_isEig : IsEig tlsA (tlsEig tlsA) where
  right := by
    change tlsU * diagonal ![1, 2] * tlsUᴴ * tlsU = tlsU * diagonal ![1, 2]
    rw [Matrix.mul_assoc, tlsU_orth, Matrix.mul_one]
  left := by
    change tlsUᴴ * (tlsU * diagonal ![1, 2] * tlsUᴴ) = diagonal ![1, 2] * tlsUᴴ
    rw [← Matrix.mul_assoc, ← Matrix.mul_assoc, tlsU_orth, Matrix.one_mul]
  right_nonzero := by
    intro j h
    have h0 := congrFun h j
    fin_cases j <;> simp [tlsEig, tlsU, Complex.ext_iff] at h0
  left_nonzero := by
    intro j h
    have h0 := congrFun h j
    fin_cases j <;> simp [tlsEig, tlsU, Complex.ext_iff] at h0

theorem tlsD_pow : tlsD = diagPow (𝕜 := ℂ) (![4, 1] : Fin 2 → ℝ) 0.5 ∧
    diagPow (𝕜 := ℂ) (![4, 1] : Fin 2 → ℝ) (-0.5) * tlsD = 1 ∧ tlsD * diagPow (𝕜 := ℂ) (![4, 1] : Fin 2 → ℝ) (-0.5) = 1 := by
  have h : (4 : ℝ) ^ (0.5 : ℝ) = 2 := by
    rw [show (0.5 : ℝ) = 1 / 2 by norm_num, ← Real.sqrt_eq_rpow, show (4 : ℝ) = 2 ^ 2 by norm_num,
      Real.sqrt_sq (by norm_num)]
  have h' : (4 : ℝ) ^ (-0.5 : ℝ) = 1 / 2 := by
    rw [Real.rpow_neg (by norm_num), h]
    norm_num
  have e1 : (fun i : Fin 2 => (((![4, 1] : Fin 2 → ℝ) i ^ (-0.5 : ℝ) : ℝ) : ℂ) * ((![2, 1] i : ℝ) : ℂ)) = fun _ => 1 := by
    ext i
    fin_cases i
    · simp only [Fin.zero_eta, cons_val_zero, h']
      norm_num
    · simp
  refine ⟨?_, ?_, ?_⟩
  · unfold tlsD diagPow
    congr 1
    ext i
    fin_cases i
    · simp only [Fin.zero_eta, cons_val_zero, h]
      rfl
    · simp
  · unfold tlsD diagPow
    rw [diagonal_mul_diagonal, ← diagonal_one]
    exact congrArg diagonal e1
  · unfold tlsD diagPow
    rw [diagonal_mul_diagonal, ← diagonal_one]
    refine congrArg diagonal (Eq.trans ?_ e1)
    ext i
    exact mul_comm _ _

theorem tlsX_corr : tlsXᴴ * tlsX = tlsU * diagonal (fun i => ((![4, 1] i : ℝ) : ℂ)) * tlsUᴴ := by
  unfold tlsX tlsD
  rw [conjTranspose_mul, conjTranspose_conjTranspose, diagonal_conjTranspose, Matrix.mul_assoc, ← Matrix.mul_assoc (diagonal _)
    (diagonal _), diagonal_mul_diagonal, ← Matrix.mul_assoc]
  congr 3
  ext i
  fin_cases i
  · simp
    norm_num
  · simp

/-- A library that returns this decomposition of the correlation array. -/
theorem exists_tlsLib : ∃ lib : PodLib ℂ 2 2, (∀ a, a.IsHermitian → IsEigh a (lib.eigh a)) ∧ IsArgsort lib.argsort ∧
    utilEigh lib.eigh lib.argsort (tlsXᴴ * tlsX) (some 0) none true = .ok ⟨2, ![4, 1], tlsU⟩ := by
  classical
  obtain ⟨lib, -, heigh, hs, -⟩ := exists_podLib (𝕜 := ℂ) 2 2
  refine ⟨⟨fun a => if a = tlsXᴴ * tlsX then ⟨![4, 1], tlsU⟩ else lib.eigh a,
    fun x => if Monotone (x ∘ Fin.revPerm) then Fin.revPerm else lib.argsort x, lib.svd, lib.cholesky⟩, ?_, ?_, ?_⟩
  · intro a ha
    dsimp only
    split
    · rename_i h
      subst h
      refine ⟨tlsU_orth, ?_⟩
      rw [tlsX_corr, Matrix.mul_assoc, tlsU_orth, Matrix.mul_one]
      rfl
    · exact heigh a ha
  · intro x
    dsimp only
    split
    · rename_i h
      exact h
    · exact hs x
  · have h1 : numRetained (![4, 1] : Fin 2 → ℝ) (some 0) none = .ok 2 := by
      simp only [numRetained, numAbove]
      congr 1
      rw [Finset.filter_true_of_mem]
      · rfl
      · intro i _
        fin_cases i <;> norm_num
    have h2 : adjustTol (![4, 1] : Fin 2 → ℝ) (some 0) true = .ok (some 0) := by
      simp only [adjustTol, npMin, if_true, dif_pos (Nat.zero_lt_two)]
      rw [if_neg]
      refine not_lt.mpr (Finset.le_inf' _ _ fun i _ => ?_)
      fin_cases i <;> norm_num
    unfold utilEigh
    simp only [if_true]
    have hm : Monotone ((fun i : Fin 2 => |(![4, 1] : Fin 2 → ℝ) i|) ∘ Fin.revPerm) := by
      intro i j hij
      fin_cases i <;> fin_cases j <;> simp at hij ⊢
    simp only [if_pos hm]
    have h3 : (fun i : Fin 2 => (![4, 1] : Fin 2 → ℝ) (Fin.revPerm i.rev)) = ![4, 1] := by
      ext i
      simp
    have h4 : (tlsU.submatrix id fun i : Fin 2 => Fin.revPerm i.rev) = tlsU := by
      ext i j
      simp
    rw [h3, h4, h2]
    dsimp only
    rw [h1]
    rfl

/-- **C30, violation.** For complex data the spectral coefficients of the snapshot method are in general not the
magnitudes of projection coefficients, although the eigenvalues are distinct and not zero. -/
theorem C30_violation : ∃ (lib : PodLib ℂ 2 2) (X Y : Matrix (Fin 2) (Fin 2) ℂ) (res : TlsResult ℂ 2 2) (c : TlsCorr ℂ 2),
    (∀ a, a.IsHermitian → IsEigh a (lib.eigh a)) ∧ IsArgsort lib.argsort ∧
    tlsSnapsPairs lib tlsEig X ⟨2, 2, Y⟩ none none (some 0) none none = .ok (res, c) ∧
    EigOfProjected tlsEig (Xᴴ * 1 * Y) res.decomp ∧ Function.Injective res.decomp.d.eigvals ∧
    (∀ i, res.decomp.d.eigvals i ≠ 0) ∧
    ∃ i, res.spectralCoeffs.data i.val = 34 / 25 ∧ ‖res.projCoeffs i 0‖ = 2 / 25 := by
  obtain ⟨lib, heigh, hs, hu⟩ := exists_tlsLib
  obtain ⟨-, ⟨res, c⟩, hres⟩ := C31_snaps_no_error lib tlsEig 0 none none (by norm_num) none .none rfl trivial
    0 tlsX (tlsA * tlsX)
  obtain ⟨rfl, hd, ho⟩ := tlsSnapsPairs_ok lib tlsEig none none .none _ none none rfl trivial _ _ res c hres
  obtain ⟨⟨s, hs1, hs2⟩, ⟨p, hp1, hp2⟩, hlr⟩ := tlsEigendecomp_ok _ _ _ _ _ _ _ _ _ _ _ hd
  change _ = s at hs2
  change _ = p at hp2
  have hW : Weights.matrix 2 (Weights.none : Weights ℂ) = 1 := rfl
  dsimp only at hs1 hp1 hlr
  rw [hW] at hs1 hp1 hlr
  have hpd : (tlsXᴴ * 1 * tlsX + (tlsA * tlsX)ᴴ * 1 * (tlsA * tlsX)).PosDef := by
    rw [Matrix.mul_one, Matrix.mul_one]
    refine PosDef.add_posSemidef ?_ (posSemidef_conjTranspose_mul_self _)
    refine PosDef.conjTranspose_mul_self _ ?_
    have hinv : tlsU * diagPow (𝕜 := ℂ) (![4, 1] : Fin 2 → ℝ) (-0.5) * tlsX = 1 := by
      unfold tlsX
      rw [Matrix.mul_assoc, ← Matrix.mul_assoc (diagPow _ _), tlsD_pow.2.1, Matrix.one_mul, tlsU_orth']
    intro x y hxy
    have := congrArg ((tlsU * diagPow (𝕜 := ℂ) (![4, 1] : Fin 2 → ℝ) (-0.5)) *ᵥ ·) hxy
    simpa [mulVec_mulVec, hinv] using this
  obtain ⟨-, hP⟩ := eigh_posDef lib.eigh lib.argsort hs _ 0 le_rfl (by simpa using hpd) (heigh _ hpd.isHermitian) s hs1
  rw [← hs2] at hP
  have hproj : res.decomp.proj = 1 := hP
  rw [hproj, Matrix.one_mul, Matrix.mul_one, Matrix.mul_one, hu] at hp1
  cases hp1
  have hlow : lowOrderMap (diagPow (𝕜 := ℂ) (![4, 1] : Fin 2 → ℝ) (-0.5)) tlsU (1 * (tlsXᴴ * 1 * (tlsA * tlsX)) * 1) = tlsA := by
    have hX : tlsXᴴ = tlsU * tlsD := by
      unfold tlsX
      rw [conjTranspose_mul, conjTranspose_conjTranspose]
      congr 1
      unfold tlsD
      rw [diagonal_conjTranspose]
      congr 1
      ext i
      simp
    unfold lowOrderMap
    rw [hX]
    unfold tlsX
    simp only [Matrix.one_mul, Matrix.mul_one, Matrix.mul_assoc]
    rw [← Matrix.mul_assoc tlsUᴴ tlsU, tlsU_orth, Matrix.one_mul, ← Matrix.mul_assoc tlsUᴴ tlsU, tlsU_orth, Matrix.one_mul,
      tlsD_pow.2.2, Matrix.mul_one, ← Matrix.mul_assoc, tlsD_pow.2.1, Matrix.one_mul]
  rw [hproj] at hlr
  obtain ⟨h1, h2⟩ := tlsSpectral_shape res.decomp.d.w res.decomp.d.V res.decomp.d.L ⟨0, ho.pos⟩
  have hsp := ho.spectral
  have hpc := ho.projCoeffs
  have hfin : EigOfProjected tlsEig (tlsXᴴ * 1 * (tlsA * tlsX)) res.decomp ∧ Function.Injective res.decomp.d.eigvals ∧
      (∀ i, res.decomp.d.eigvals i ≠ 0) ∧ ∃ i : Fin res.decomp.d.r,
      ‖(res.decomp.d.Lᴴ * (diagPow (𝕜 := ℂ) res.decomp.d.w 0.5 * res.decomp.d.Vᵀ)) i 0‖ = 34 / 25 ∧
      ‖(res.decomp.d.Lᴴ * (diagPow (𝕜 := ℂ) res.decomp.d.w 0.5 * res.decomp.d.Vᴴ)) i 0‖ = 2 / 25 := by
    unfold EigOfProjected
    rw [hproj]
    clear h1 h2 hsp hpc hproj hP ho hd hres hs2
    obtain ⟨⟨q, sumW, sumV, ⟨r, w, V, lam, R, L⟩⟩, _, _, _, _, _, _⟩ := res
    dsimp only at hp2 hlr ⊢
    cases hp2
    rw [hlow] at hlr ⊢
    have hL : (Matrix.of fun i j => tlsU i j / star ((tlsUᴴ * tlsU).diag j)) = tlsU := by
      rw [tlsU_orth]
      ext i j
      simp
    have : (Except.ok (![1, 2], tlsU, Matrix.of fun i j => tlsU i j / star ((tlsUᴴ * tlsU).diag j)) : Except Err _) =
      .ok (lam, R, L) := hlr
    rw [hL] at this
    cases this
    refine ⟨tlsEig_isEig, ?_, ?_, (0 : Fin 2), ?_, ?_⟩
    · intro i j hij
      fin_cases i <;> fin_cases j <;> simp at hij ⊢
    · intro i
      fin_cases i <;> simp
    · rw [← tlsD_pow.1]
      have : (tlsUᴴ * (tlsD * tlsUᵀ)) 0 0 = ((34 / 25 : ℝ) : ℂ) := by
        simp [tlsU, tlsD, Matrix.mul_apply, Fin.sum_univ_two, Complex.ext_iff]
        norm_num
      rw [this, Complex.norm_real]
      norm_num
    · rw [← tlsD_pow.1]
      have : (tlsUᴴ * (tlsD * tlsUᴴ)) 0 0 = ((2 / 25 : ℝ) : ℂ) := by
        simp [tlsU, tlsD, Matrix.mul_apply, Fin.sum_univ_two, Complex.ext_iff]
        norm_num
      rw [this, Complex.norm_real]
      norm_num
  obtain ⟨f1, f2, f3, i, f4, f5⟩ := hfin
  refine ⟨lib, tlsX, tlsA * tlsX, res, _, heigh, hs, hres, f1, f2, f3, i, ?_, ?_⟩
  · rw [hsp, h2 i]
    exact f4
  · rw [hpc]
    exact f5

end Modred
