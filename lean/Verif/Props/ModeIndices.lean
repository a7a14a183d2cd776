import Verif.Spec.ModeIndices

/-!
# C109: mode indices choose modes and change nothing else
-/

namespace Modred

open Matrix

section Choose

variable {𝕜 : Type*} {n : Nat} {E : Type*}

theorem Cols.ext_entries {a b : Cols 𝕜 n} (hk : a.k = b.k)
    (h : ∀ i (k : Nat) (ha : k < a.k) (hb : k < b.k), a.a i ⟨k, ha⟩ = b.a i ⟨k, hb⟩) : a = b := by
  obtain ⟨k, a⟩ := a
  obtain ⟨k', b⟩ := b
  dsimp only at hk
  subst hk
  congr 1
  ext i j
  exact h i j j.2 j.2

theorem npAxisIndex_emod {K : Nat} {i : Int} (h : -(K : Int) ≤ i ∧ i < K) :
    ∃ a, npAxisIndex K i = .ok a ∧ a.val = (i % K).toNat := by
  unfold npAxisIndex
  by_cases h0 : 0 ≤ i
  · rw [dif_pos ⟨h0, h.2⟩]
    exact ⟨_, rfl, by rw [Int.emod_eq_of_lt h0 h.2]⟩
  · rw [dif_neg (by omega), dif_pos ⟨by omega, h.1⟩]
    refine ⟨_, rfl, ?_⟩
    show (i + K).toNat = _
    rw [← Int.add_emod_right i K, Int.emod_eq_of_lt (by omega) (by omega)]

theorem npAxisIndices_inRange {K : Nat} (idx : List Int) (h : InRange K idx) :
    ∃ l, npAxisIndices K idx = .ok l ∧ l.map Fin.val = idx.map fun i : Int => (i % K).toNat := by
  induction idx with
  | nil => exact ⟨[], rfl, rfl⟩
  | cons i is ih =>
    obtain ⟨l, hl, hm⟩ := ih fun j hj => h j (List.mem_cons_of_mem _ hj)
    obtain ⟨a, ha, hv⟩ := npAxisIndex_emod (h i List.mem_cons_self)
    rw [npAxisIndices, ha, hl]
    exact ⟨_, rfl, by simp [hm, hv]⟩

theorem npAxisIndices_outside {K : Nat} (idx : List Int) (h : ¬ InRange K idx) :
    npAxisIndices K idx = .error .indexError := by
  induction idx with
  | nil => exact absurd (fun i hi => by simp at hi) h
  | cons i is ih =>
    rw [npAxisIndices]
    by_cases hi : -(K : Int) ≤ i ∧ i < K
    · obtain ⟨a, ha, -⟩ := npAxisIndex_emod hi
      rw [ha, ih]
      intro hr
      refine h fun j hj => ?_
      rcases List.mem_cons.1 hj with rfl | hj
      · exact hi
      · exact hr j hj
    · have : npAxisIndex K i = .error .indexError := by
        unfold npAxisIndex
        rw [dif_neg (by omega), dif_neg (by omega)]
      rw [this]

theorem pickCols_choose {K : Nat} (a : Matrix (Fin n) (Fin K) 𝕜) (idx : List Int) :
    pickCols a (some idx) = chooseCols idx ⟨K, a⟩ := by
  rw [pickCols]
  by_cases h : InRange K idx
  · obtain ⟨l, hl, hm⟩ := npAxisIndices_inRange idx h
    have hlen : l.length = idx.length := by simpa using congrArg List.length hm
    rw [hl, chooseCols, dif_pos h]
    refine congrArg Except.ok (Cols.ext_entries hlen fun i k ha hb => ?_)
    dsimp only at ha hb
    have hv : (l[k]).val = (idx[k] % K).toNat := by
      have := List.getElem_of_eq hm (i := k) (by simpa using ha)
      simpa using this
    show a i l[k] = a i _
    congr 1
    exact Fin.ext hv
  · rw [npAxisIndices_outside idx h, chooseCols, dif_neg h]

theorem linCombine_choose [RCLike 𝕜] {p q : Nat} (basis : Matrix (Fin n) (Fin p) 𝕜) (coeff : Matrix (Fin p) (Fin q) 𝕜)
    (idx : List Int) : linCombineArrays basis coeff (some idx) = chooseCols idx ⟨q, basis * coeff⟩ := by
  rw [linCombineArrays, pickCols_choose, chooseCols, chooseCols]
  by_cases h : InRange q idx
  · rw [dif_pos h, dif_pos h]; rfl
  · rw [dif_neg h, dif_neg h]

/-- What `chooseCols` is: it fails exactly for indices outside; otherwise the column at position `k` is that of the
index at position `k`, counted from the end if it is negative. -/
theorem C109_chosen (idx : List Int) (a : Cols 𝕜 n) :
    (¬ InRange a.k idx → chooseCols idx a = .error .indexError) ∧
    (InRange a.k idx → ∃ c, chooseCols idx a = .ok c ∧ ∃ hk : c.k = idx.length, ∀ k (hk' : k < idx.length),
      ∃ j : Fin a.k, ((j : Int) = idx[k] ∨ (j : Int) = idx[k] + a.k) ∧ ∀ i, c.a i ⟨k, by omega⟩ = a.a i j) := by
  refine ⟨fun h => by rw [chooseCols, dif_neg h], fun h => ?_⟩
  rw [chooseCols, dif_pos h]
  refine ⟨_, rfl, rfl, fun k hk => ⟨⟨(idx[k] % a.k).toNat, h.lt (List.getElem_mem _)⟩, ?_, fun i => rfl⟩⟩
  have hr := h _ (List.getElem_mem hk)
  dsimp only
  by_cases h0 : 0 ≤ idx[k]
  · left; rw [Int.emod_eq_of_lt h0 hr.2]; omega
  · right
    rw [← Int.add_emod_right, Int.emod_eq_of_lt (by omega) (by omega)]; omega

end Choose

section Arrays

variable {𝕜 : Type*} [RCLike 𝕜] {n m : Nat}

/-- `compute_POD_arrays_snaps_method`: with indices the result is that of all modes, with the modes of these indices. -/
theorem C109_pod_snaps (lib : PodLib 𝕜 n m) (vecs : Matrix (Fin n) (Fin m) 𝕜) (idx : List Int)
    (weights : Option (NdArray 𝕜)) (atol rtol : Option ℝ) :
    podSnaps lib vecs (some idx) weights atol rtol =
      (podSnaps lib vecs none weights atol rtol).bind fun res => (res.1.choose idx).map fun r => (r, res.2) := by
  unfold podSnaps
  cases arraysInit weights with
  | error e => rfl
  | ok ws =>
    dsimp only
    cases symmIpArray ws vecs with
    | error e => rfl
    | ok corr =>
      dsimp only
      cases utilEigh lib.eigh lib.argsort corr atol rtol true with
      | error e => rfl
      | ok e =>
        dsimp only
        rw [linCombine_choose]
        simp only [linCombineArrays, pickCols, Except.bind, PodResult.choose]
        cases chooseCols idx ⟨e.r, vecs * (e.V * diagPow e.w (-0.5))⟩ <;> rfl

/-- `compute_POD_arrays_direct_method`. -/
theorem C109_pod_direct (lib : PodLib 𝕜 n m) (vecs : Matrix (Fin n) (Fin m) 𝕜) (idx : List Int)
    (weights : DirectWeights 𝕜) (atol rtol : Option ℝ) :
    podDirect lib vecs (some idx) weights atol rtol =
      (podDirect lib vecs none weights atol rtol).bind (PodResult.choose idx) := by
  unfold podDirect
  cases podDirectSvd lib vecs weights atol rtol with
  | error e => rfl
  | ok s =>
    dsimp only
    rw [pickCols_choose]
    simp only [pickCols, Except.bind, PodResult.choose]
    cases chooseCols idx ⟨s.r, s.U⟩ <;> rfl

theorem dmdFinish_choose (d : DmdDecomp 𝕜 m) (sqrtInv : Matrix (Fin d.r) (Fin d.r) 𝕜) (cross : Matrix (Fin m) (Fin m) 𝕜)
    (vecs advVecs : Matrix (Fin n) (Fin m) 𝕜) (idx : List Int) :
    dmdFinish d sqrtInv cross vecs advVecs (some idx) =
      (dmdFinish d sqrtInv cross vecs advVecs none).bind (DmdResult.choose idx) := by
  unfold dmdFinish
  by_cases hm : 0 < m
  · simp only [dif_pos hm, linCombine_choose, Except.bind, DmdResult.choose]
    simp only [linCombineArrays, pickCols]
    cases chooseCols idx ⟨d.r, advVecs * (d.V * (sqrtInv * d.R) * diagonal fun i => (d.eigvals i)⁻¹)⟩ with
    | error e => rfl
    | ok a =>
      cases chooseCols idx ⟨d.r, vecs * (d.V * (sqrtInv * d.R))⟩ with
      | error e => rfl
      | ok b => cases chooseCols idx ⟨d.r, vecs * (d.V * (sqrtInv * d.L))⟩ <;> rfl
  · simp only [dif_neg hm]; rfl

theorem tlsFinish_choose (t : TlsDecomp 𝕜 m) (cross : Matrix (Fin m) (Fin m) 𝕜) (vecs advVecs : Matrix (Fin n) (Fin m) 𝕜)
    (idx : List Int) :
    tlsFinish t cross vecs advVecs (some idx) =
      (tlsFinish t cross vecs advVecs none).bind (TlsResult.choose idx) := by
  unfold tlsFinish
  by_cases hm : 0 < m
  · simp only [dif_pos hm, linCombine_choose, Except.bind, TlsResult.choose]
    simp only [linCombineArrays, pickCols]
    cases chooseCols idx ⟨t.d.r, advVecs * (t.sumV * (t.sumVᴴ * (t.d.V * (diagPow (𝕜 := 𝕜) t.d.w (-0.5) * t.d.R))) *
      diagonal fun i => (t.d.eigvals i)⁻¹)⟩ with
    | error e => rfl
    | ok a =>
      cases chooseCols idx ⟨t.d.r, vecs * (t.sumV * (t.sumVᴴ * (t.d.V * (diagPow (𝕜 := 𝕜) t.d.w (-0.5) * t.d.R))))⟩ with
      | error e => rfl
      | ok b =>
        cases chooseCols idx
          ⟨t.d.r, vecs * (t.sumV * (t.sumVᴴ * (t.d.V * (diagPow (𝕜 := 𝕜) t.d.w (-0.5) * t.d.L))))⟩ <;> rfl
  · simp only [dif_neg hm]; rfl

/-- `compute_BPOD_arrays`: any indices for direct and for adjoint modes. -/
theorem C109_bpod {md ma : Nat} (svd : Matrix (Fin ma) (Fin md) 𝕜 → SvdOut 𝕜 ma md) (X : Matrix (Fin n) (Fin md) 𝕜)
    (Y : Matrix (Fin n) (Fin ma) 𝕜) (numInputs numOutputs : Nat) (direct adjoint : Option (List Int))
    (weights : Option (NdArray 𝕜)) (atol rtol : Option ℝ) :
    bpodArrays svd X Y numInputs numOutputs direct adjoint weights atol rtol =
      (bpodArrays svd X Y numInputs numOutputs none none weights atol rtol).bind (BpodResult.choose direct adjoint) := by
  unfold bpodArrays
  cases arraysInit weights with
  | error e => rfl
  | ok ws =>
    dsimp only
    cases ipArray ws Y (firstCols X numInputs) with
    | error e => rfl
    | ok a =>
      dsimp only
      cases ipArray ws (lastCols Y numOutputs) X with
      | error e => rfl
      | ok b =>
        dsimp only
        cases bpodHankel numInputs numOutputs a b with
        | error e => rfl
        | ok rows =>
          dsimp only
          by_cases hs : shapeOf rows ≠ (ma, md)
          · rw [if_pos hs, if_pos hs]; rfl
          · rw [if_neg hs, if_neg hs]
            cases utilSvd svd (ofRows ma md rows) atol rtol with
            | error e => rfl
            | ok s =>
              dsimp only
              have hn : ∀ {p q : Nat} (b : Matrix (Fin n) (Fin p) 𝕜) (c : Matrix (Fin p) (Fin q) 𝕜),
                  linCombineArrays b c none = .ok ⟨q, b * c⟩ := fun _ _ => rfl
              cases direct with
              | none =>
                cases adjoint with
                | none => rfl
                | some idx =>
                  simp only [hn, linCombine_choose, Except.bind, BpodResult.choose]
                  cases chooseCols idx ⟨s.r, Y * (s.U * diagPow (𝕜 := 𝕜) s.S (-0.5))⟩ <;> rfl
              | some idx =>
                simp only [hn, linCombine_choose, Except.bind, BpodResult.choose]
                cases chooseCols idx ⟨s.r, X * (s.V * diagPow (𝕜 := 𝕜) s.S (-0.5))⟩ with
                | error e => rfl
                | ok a =>
                  cases adjoint with
                  | none => rfl
                  | some idx' =>
                    simp only [linCombine_choose]
                    cases chooseCols idx' ⟨s.r, Y * (s.U * diagPow (𝕜 := 𝕜) s.S (-0.5))⟩ <;> rfl

section Dmd

variable (lib : PodLib 𝕜 n m) (eig : ∀ {r : Nat}, Matrix (Fin r) (Fin r) 𝕜 → EigOut 𝕜 r)

theorem dmdSnapsRest_choose (corr cross : Matrix (Fin m) (Fin m) 𝕜) (vecs advVecs : Matrix (Fin n) (Fin m) 𝕜)
    (idx : List Int) (atol rtol : Option ℝ) (maxNum : Option Nat) :
    dmdSnapsRest lib eig corr cross vecs advVecs (some idx) atol rtol maxNum =
      (dmdSnapsRest lib eig corr cross vecs advVecs none atol rtol maxNum).bind (DmdResult.choose idx) := by
  unfold dmdSnapsRest
  cases dmdEigendecomp lib.eigh lib.argsort eig corr cross atol rtol maxNum with
  | error e => rfl
  | ok d => exact dmdFinish_choose ..

/-- `compute_DMD_arrays_snaps_method` for a sequence of vectors. -/
theorem C109_dmd_snaps_sequential (vecs : Matrix (Fin n) (Fin (m + 1)) 𝕜) (idx : List Int) (weights : Option (NdArray 𝕜))
    (atol rtol : Option ℝ) (maxNum : Option Nat) :
    dmdSnapsSeq lib eig vecs (some idx) weights atol rtol maxNum =
      (dmdSnapsSeq lib eig vecs none weights atol rtol maxNum).bind fun res =>
        (res.1.choose idx).map fun r => (r, res.2) := by
  unfold dmdSnapsSeq
  cases arraysInit weights with
  | error e => rfl
  | ok ws =>
    dsimp only
    cases symmIpArray ws vecs with
    | error e => rfl
    | ok ex =>
      dsimp only
      rw [dmdSnapsRest_choose]
      cases dmdSnapsRest lib eig (ex.submatrix Fin.castSucc Fin.castSucc) (ex.submatrix Fin.castSucc Fin.succ)
          (vecs.submatrix id Fin.castSucc) (vecs.submatrix id Fin.succ) none atol rtol maxNum with
      | error e => rfl
      | ok res =>
        simp only [Except.bind]
        cases res.choose idx <;> rfl

/-- `compute_DMD_arrays_snaps_method` with advanced vectors. -/
theorem C109_dmd_snaps_pairs (vecs : Matrix (Fin n) (Fin m) 𝕜) (advVecs : Arr 𝕜) (idx : List Int)
    (weights : Option (NdArray 𝕜)) (atol rtol : Option ℝ) (maxNum : Option Nat) :
    dmdSnapsPairs lib eig vecs advVecs (some idx) weights atol rtol maxNum =
      (dmdSnapsPairs lib eig vecs advVecs none weights atol rtol maxNum).bind fun res =>
        (res.1.choose idx).map fun r => (r, res.2) := by
  unfold dmdSnapsPairs
  cases arraysInit weights with
  | error e => rfl
  | ok ws =>
    dsimp only
    by_cases h : advVecs.m = n ∧ advVecs.n = m
    · rw [dif_pos h, dif_pos h]
      cases symmIpArray ws vecs with
      | error e => rfl
      | ok corr =>
        dsimp only
        cases ipArray ws vecs (advVecs.a.submatrix (Fin.cast h.1.symm) (Fin.cast h.2.symm)) with
        | error e => rfl
        | ok cross =>
          dsimp only
          rw [dmdSnapsRest_choose]
          cases dmdSnapsRest lib eig corr cross vecs (advVecs.a.submatrix (Fin.cast h.1.symm) (Fin.cast h.2.symm)) none
              atol rtol maxNum with
          | error e => rfl
          | ok res =>
            simp only [Except.bind]
            cases res.choose idx <;> rfl
    · rw [dif_neg h, dif_neg h]; rfl

theorem dmdDirectRest_choose (weighted : Matrix (Fin n) (Fin m) 𝕜) (cross : Svd 𝕜 n m → Matrix (Fin m) (Fin m) 𝕜)
    (vecs advVecs : Matrix (Fin n) (Fin m) 𝕜) (idx : List Int) (atol rtol : Option ℝ) (maxNum : Option Nat) :
    dmdDirectRest lib eig weighted cross vecs advVecs (some idx) atol rtol maxNum =
      (dmdDirectRest lib eig weighted cross vecs advVecs none atol rtol maxNum).bind (DmdResult.choose idx) := by
  unfold dmdDirectRest
  cases utilSvd lib.svd weighted atol rtol with
  | error e => rfl
  | ok s =>
    dsimp only
    cases eigBiorthog eig (lowOrderMap (diagPow (𝕜 := 𝕜) (s.truncate maxNum).S (-1)) (s.truncate maxNum).V
      (cross (s.truncate maxNum))) scaleLeft with
    | error e => rfl
    | ok d => exact dmdFinish_choose ..

/-- `compute_DMD_arrays_direct_method` for a sequence of vectors. -/
theorem C109_dmd_direct_sequential (vecs : Matrix (Fin n) (Fin (m + 1)) 𝕜) (idx : List Int) (weights : DirectWeights 𝕜)
    (atol rtol : Option ℝ) (maxNum : Option Nat) :
    dmdDirectSeq lib eig vecs (some idx) weights atol rtol maxNum =
      (dmdDirectSeq lib eig vecs none weights atol rtol maxNum).bind (DmdResult.choose idx) := by
  unfold dmdDirectSeq
  cases directSqrtWeights lib.cholesky weights with
  | error e => rfl
  | ok w => exact dmdDirectRest_choose ..

/-- `compute_DMD_arrays_direct_method` with advanced vectors. -/
theorem C109_dmd_direct_pairs (vecs : Matrix (Fin n) (Fin m) 𝕜) (advVecs : Arr 𝕜) (idx : List Int)
    (weights : DirectWeights 𝕜) (atol rtol : Option ℝ) (maxNum : Option Nat) :
    dmdDirectPairs lib eig vecs advVecs (some idx) weights atol rtol maxNum =
      (dmdDirectPairs lib eig vecs advVecs none weights atol rtol maxNum).bind (DmdResult.choose idx) := by
  unfold dmdDirectPairs
  cases directSqrtWeights lib.cholesky weights with
  | error e => rfl
  | ok w =>
    dsimp only
    by_cases h : advVecs.m = n ∧ advVecs.n = m
    · rw [dif_pos h, dif_pos h]
      exact dmdDirectRest_choose ..
    · rw [dif_neg h, dif_neg h]; rfl

theorem tlsSnapsRest_choose (c : TlsCorr 𝕜 m) (vecs advVecs : Matrix (Fin n) (Fin m) 𝕜) (idx : List Int)
    (atol rtol : Option ℝ) (maxNum : Option Nat) :
    tlsSnapsRest lib eig c vecs advVecs (some idx) atol rtol maxNum =
      (tlsSnapsRest lib eig c vecs advVecs none atol rtol maxNum).bind fun res =>
        (res.1.choose idx).map fun r => (r, res.2) := by
  unfold tlsSnapsRest
  cases tlsEigendecomp lib.eigh lib.argsort eig c.corr c.adv c.cross atol rtol none maxNum with
  | error e => rfl
  | ok t =>
    dsimp only
    rw [tlsFinish_choose]
    cases tlsFinish t c.cross vecs advVecs none with
    | error e => rfl
    | ok res =>
      simp only [Except.bind]
      cases res.choose idx <;> rfl

/-- `compute_TLSqrDMD_arrays_snaps_method` for a sequence of vectors. -/
theorem C109_tls_snaps_sequential (vecs : Matrix (Fin n) (Fin (m + 1)) 𝕜) (idx : List Int) (weights : Option (NdArray 𝕜))
    (atol rtol : Option ℝ) (maxNum : Option Nat) :
    tlsSnapsSeq lib eig vecs (some idx) weights atol rtol maxNum =
      (tlsSnapsSeq lib eig vecs none weights atol rtol maxNum).bind fun res =>
        (res.1.choose idx).map fun r => (r, res.2) := by
  unfold tlsSnapsSeq
  cases arraysInit weights with
  | error e => rfl
  | ok ws =>
    dsimp only
    cases symmIpArray ws vecs with
    | error e => rfl
    | ok ex => exact tlsSnapsRest_choose ..

/-- `compute_TLSqrDMD_arrays_snaps_method` with advanced vectors. -/
theorem C109_tls_snaps_pairs (vecs : Matrix (Fin n) (Fin m) 𝕜) (advVecs : Arr 𝕜) (idx : List Int)
    (weights : Option (NdArray 𝕜)) (atol rtol : Option ℝ) (maxNum : Option Nat) :
    tlsSnapsPairs lib eig vecs advVecs (some idx) weights atol rtol maxNum =
      (tlsSnapsPairs lib eig vecs advVecs none weights atol rtol maxNum).bind fun res =>
        (res.1.choose idx).map fun r => (r, res.2) := by
  unfold tlsSnapsPairs
  cases arraysInit weights with
  | error e => rfl
  | ok ws =>
    dsimp only
    by_cases h : advVecs.m = n ∧ advVecs.n = m
    · rw [dif_pos h, dif_pos h]
      cases symmIpArray ws vecs with
      | error e => rfl
      | ok corr =>
        dsimp only
        cases ipArray ws vecs (advVecs.a.submatrix (Fin.cast h.1.symm) (Fin.cast h.2.symm)) with
        | error e => rfl
        | ok cross =>
          dsimp only
          cases symmIpArray ws (advVecs.a.submatrix (Fin.cast h.1.symm) (Fin.cast h.2.symm)) with
          | error e => rfl
          | ok adv => exact tlsSnapsRest_choose ..
    · rw [dif_neg h, dif_neg h]; rfl

variable (svd : Matrix (Fin (n + n)) (Fin m) 𝕜 → SvdOut 𝕜 (n + n) m)

theorem tlsDirectRest_choose (sqrtWeights : Option (Matrix (Fin n) (Fin n) 𝕜)) (vecs advVecs : Matrix (Fin n) (Fin m) 𝕜)
    (idx : List Int) (weights : DirectWeights 𝕜) (atol rtol : Option ℝ) (maxNum : Option Nat) :
    tlsDirectRest lib eig svd sqrtWeights vecs advVecs (some idx) weights atol rtol maxNum =
      (tlsDirectRest lib eig svd sqrtWeights vecs advVecs none weights atol rtol maxNum).bind (TlsResult.choose idx) := by
  unfold tlsDirectRest
  cases utilSvd svd (stackRows (weightData sqrtWeights vecs) (weightData sqrtWeights advVecs)) atol rtol with
  | error e => rfl
  | ok s =>
    dsimp only
    rw [C109_dmd_direct_pairs]
    cases dmdDirectPairs lib eig (vecs * ((s.truncate maxNum).V * (s.truncate maxNum).Vᴴ))
      ⟨n, m, advVecs * ((s.truncate maxNum).V * (s.truncate maxNum).Vᴴ)⟩ none weights atol rtol maxNum with
    | error e => rfl
    | ok res =>
      simp only [Except.bind, DmdResult.choose, TlsResult.choose]
      cases chooseCols idx res.exactModes with
      | error e => rfl
      | ok a =>
        cases chooseCols idx res.projModes with
        | error e => rfl
        | ok b => cases chooseCols idx res.adjointModes <;> rfl

/-- `compute_TLSqrDMD_arrays_direct_method` for a sequence of vectors. -/
theorem C109_tls_direct_sequential (vecs : Matrix (Fin n) (Fin (m + 1)) 𝕜) (idx : List Int) (weights : DirectWeights 𝕜)
    (atol rtol : Option ℝ) (maxNum : Option Nat) :
    tlsDirectSeq lib eig svd vecs (some idx) weights atol rtol maxNum =
      (tlsDirectSeq lib eig svd vecs none weights atol rtol maxNum).bind (TlsResult.choose idx) := by
  unfold tlsDirectSeq
  cases directSqrtWeights lib.cholesky weights with
  | error e => rfl
  | ok w => exact tlsDirectRest_choose ..

/-- `compute_TLSqrDMD_arrays_direct_method` with advanced vectors. -/
theorem C109_tls_direct_pairs (vecs : Matrix (Fin n) (Fin m) 𝕜) (advVecs : Arr 𝕜) (idx : List Int)
    (weights : DirectWeights 𝕜) (atol rtol : Option ℝ) (maxNum : Option Nat) :
    tlsDirectPairs lib eig svd vecs advVecs (some idx) weights atol rtol maxNum =
      (tlsDirectPairs lib eig svd vecs advVecs none weights atol rtol maxNum).bind (TlsResult.choose idx) := by
  unfold tlsDirectPairs
  cases directSqrtWeights lib.cholesky weights with
  | error e => rfl
  | ok w =>
    dsimp only
    by_cases h : advVecs.m = n ∧ advVecs.n = m
    · rw [dif_pos h, dif_pos h]
      exact tlsDirectRest_choose ..
    · rw [dif_neg h, dif_neg h]; rfl

end Dmd

end Arrays

end Modred
