import Verif.Spec.Constraints
import Verif.Props.Pod
import Verif.Props.Bpod
import Verif.Props.Tlsqr
import Verif.Props.TlsqrHandles

/-!
# C118: modes obey every linear constraint that the vectors obey
-/

namespace Modred

open Matrix

variable {𝕜 : Type*} [RCLike 𝕜]

section Subspaces

variable {n m : Nat}

/-- Obeying constraints, and being unchanged by a linear map, in terms of arrays. -/
theorem colsIn_constrained {k : Nat} (L : Matrix (Fin k) (Fin n) 𝕜) (X : Matrix (Fin n) (Fin m) 𝕜) :
    ColsIn (constrained L) X ↔ L * X = 0 := by
  constructor
  · intro h
    ext i j
    have := congrFun (LinearMap.mem_ker.mp (h j)) i
    simpa [Matrix.mulVecLin_apply, Matrix.mulVec, dotProduct, Matrix.mul_apply] using this
  · intro h j
    refine LinearMap.mem_ker.mpr ?_
    ext i
    have := congrFun (congrFun h i) j
    simpa [Matrix.mulVecLin_apply, Matrix.mulVec, dotProduct, Matrix.mul_apply] using this

theorem colsIn_unchanged (T : Matrix (Fin n) (Fin n) 𝕜) (X : Matrix (Fin n) (Fin m) 𝕜) :
    ColsIn (unchanged T) X ↔ T * X = X := by
  unfold unchanged
  rw [colsIn_constrained, Matrix.sub_mul, Matrix.one_mul, sub_eq_zero]

variable (S : Submodule 𝕜 (Fin n → 𝕜))

theorem ColsIn.mul {X : Matrix (Fin n) (Fin m) 𝕜} (h : ColsIn S X) {q : Nat} (c : Matrix (Fin m) (Fin q) 𝕜) :
    ColsIn S (X * c) := by
  intro j
  have : (fun i => (X * c) i j) = ∑ k, c k j • fun i => X i k := by
    ext i
    simp [Matrix.mul_apply, mul_comm]
  rw [this]
  exact S.sum_mem fun k _ => S.smul_mem _ (h k)

theorem ColsIn.cols {X : Matrix (Fin n) (Fin m) 𝕜} (h : ColsIn S X) {q : Nat} (f : Fin q → Fin m) :
    ColsIn S (X.submatrix id f) := fun j => h (f j)

theorem colsIn_linCombine {p q : Nat} (basis : Matrix (Fin n) (Fin p) 𝕜) (coeff : Matrix (Fin p) (Fin q) 𝕜)
    (idx : Option (List Int)) (c : Cols 𝕜 n) (h : linCombineArrays basis coeff idx = .ok c) (hS : ColsIn S basis) :
    ColsIn S c.a := by
  unfold linCombineArrays at h
  split at h
  · cases h
  · cases h
    exact hS.mul S _

variable {E : Type*} [AddCommGroup E] [Module 𝕜 E] (T : Submodule 𝕜 E)

theorem combine_mem {p r : Nat} (basis : Fin p → E) (coeff : Matrix (Fin p) (Fin r) 𝕜) (hT : ∀ i, basis i ∈ T) (j : Fin r) :
    combine basis coeff j ∈ T := by
  unfold combine
  exact T.sum_mem fun k _ => T.smul_mem _ (hT k)

theorem vecsIn_sized {p h r : Nat} (numSums : Nat) (basis : Fin p → E) (coeff : Matrix (Fin h) (Fin r) 𝕜)
    (l : List Int) (out : Vecs E) (hout : linCombineSized numSums basis coeff (some l) = .ok out)
    (hT : ∀ i, basis i ∈ T) : VecsIn T out := by
  obtain ⟨hp, -, sel, -, hv⟩ := linCombineSized_ok _ _ _ _ _ hout
  intro i
  rw [hv i]
  exact combine_mem T _ _ (fun k => hT _) _

end Subspaces

section Pod

variable {n m : Nat} (lib : PodLib 𝕜 n m) (vecs : Matrix (Fin n) (Fin m) 𝕜) (idx : Option (List Int))
  (S : Submodule 𝕜 (Fin n → 𝕜))

/-- **C118**: modes of the method of snapshots lie in every subspace that contains the vectors, whatever the library returns and
whatever the weights and tolerances are. -/
theorem C118_pod_snaps (weights : Option (NdArray 𝕜)) (atol rtol : Option ℝ) (res : PodResult 𝕜 n m × Matrix (Fin m) (Fin m) 𝕜)
    (hres : podSnaps lib vecs idx weights atol rtol = .ok res) (hS : ColsIn S vecs) : ColsIn S res.1.modes.a := by
  unfold podSnaps at hres
  split at hres
  · cases hres
  split at hres
  · cases hres
  split at hres
  · cases hres
  dsimp only at hres
  split at hres
  · cases hres
  rename_i modes hmodes
  cases hres
  exact colsIn_linCombine S _ _ _ _ hmodes hS

/-- **C118**: modes of the direct method lie in every subspace that contains the vectors, if the library returns a singular
value decomposition and values that are zero are not retained. -/
theorem C118_pod_direct (ws : DirectWeights 𝕜) (hfit : ws.Fits n)
    (hchol : ∀ p q w, ws = .d2 p q w → IsCholesky lib.cholesky (ws.matrix n))
    (hlib : ∀ a, IsSvd a (lib.svd a)) (t : ℝ) (ht : 0 ≤ t) (rtol : Option ℝ) (hr : ∀ t ∈ rtol, 0 ≤ t) (res : PodResult 𝕜 n m)
    (hres : podDirect lib vecs idx ws (some t) rtol = .ok res) (hS : ColsIn S vecs) : ColsIn S res.modes.a := by
  obtain ⟨G, H, hGH, -, hcases⟩ := podDirect_cases lib vecs idx ws (some t) rtol hfit hchol
  obtain ⟨s, c, hs, hc, rfl⟩ := hcases res hres
  obtain ⟨-, -, hAV, -, -, -⟩ := C19_singular_triples _ _ _ _ (hlib (G * vecs)) s hs
  obtain ⟨hle, hk, hkeep⟩ := C19_kept_iff _ _ _ _ (hlib (G * vecs)) hr s hs
  have hpos : ∀ i, 0 < s.S i := by
    intro i
    have hi := i.isLt
    have h1 := ((hk ⟨i, by omega⟩).mp hi).1 t rfl
    rw [(hkeep i ⟨i, by omega⟩ rfl).1]
    rw [abs_of_nonneg ((hlib (G * vecs)).nonneg _)] at h1
    exact lt_of_le_of_lt ht h1
  have hinv : (diagonal fun i => (s.S i : 𝕜)) * (diagonal fun i => (s.S i : 𝕜)⁻¹) = 1 := by
    rw [diagonal_mul_diagonal, ← diagonal_one]
    congr 1
    ext i
    exact mul_inv_cancel₀ (RCLike.ofReal_ne_zero.mpr (hpos i).ne')
  have hHG : H * G = 1 := mul_eq_one_comm.mp hGH
  have hU : H * s.U = vecs * (s.V * diagonal fun i => (s.S i : 𝕜)⁻¹) := by
    calc H * s.U = H * (s.U * ((diagonal fun i => (s.S i : 𝕜)) * diagonal fun i => (s.S i : 𝕜)⁻¹)) := by
          rw [hinv, Matrix.mul_one]
      _ = H * (G * vecs * s.V * diagonal fun i => (s.S i : 𝕜)⁻¹) := by
          rw [hAV, Matrix.mul_assoc s.U]
      _ = H * G * vecs * (s.V * diagonal fun i => (s.S i : 𝕜)⁻¹) := by simp only [Matrix.mul_assoc]
      _ = _ := by rw [hHG, Matrix.one_mul]
  obtain ⟨sel, h1, -, -⟩ := pickCols_ok _ _ _ hc
  dsimp only
  rw [h1, hU]
  exact (hS.mul S _).cols S _

/-- **C118**: modes put by `PODHandles` lie in every subspace that contains the vectors, whatever the inner product and the
library are. -/
theorem C118_pod_handles {E : Type*} [AddCommGroup E] [Module 𝕜 E] (T : Submodule 𝕜 E)
    (eigh : Matrix (Fin m) (Fin m) 𝕜 → EighOut 𝕜 m) (argsort : (Fin m → ℝ) → Equiv.Perm (Fin m)) (ip : E → E → 𝕜)
    (v : Fin m → E) (atol rtol : Option ℝ) (pod : PodHandles 𝕜 E m)
    (hpod : podHandlesDecomp eigh argsort ip v atol rtol = .ok pod) (l : List Int) (k : Nat) (modes : Vecs E)
    (hmodes : podHandlesModes pod l k = .ok modes) (hT : ∀ i, v i ∈ T) : VecsIn T modes := by
  obtain ⟨sel, -, -, hv⟩ := podHandlesModes_cases pod l k modes hmodes
  have hvecs : pod.vecs = v := by
    unfold podHandlesDecomp at hpod
    split at hpod
    · cases hpod
    dsimp only at hpod
    split at hpod
    · cases hpod
    · cases hpod
      rfl
  intro i
  rw [hv i, hvecs]
  exact combine_mem T _ _ hT _

end Pod

section Bpod

variable {n md ma : Nat}

/-- **C118**: direct modes lie in every subspace that contains the direct vectors, and adjoint modes in every subspace that
contains the adjoint vectors. -/
theorem C118_bpod_arrays (svd : Matrix (Fin ma) (Fin md) 𝕜 → SvdOut 𝕜 ma md) (X : Matrix (Fin n) (Fin md) 𝕜)
    (Y : Matrix (Fin n) (Fin ma) 𝕜) (p q : Nat) (idxD idxA : Option (List Int)) (weights : Option (NdArray 𝕜))
    (atol rtol : Option ℝ) (res : BpodResult 𝕜 n md ma)
    (hres : bpodArrays svd X Y p q idxD idxA weights atol rtol = .ok res) (S : Submodule 𝕜 (Fin n → 𝕜)) :
    (ColsIn S X → ColsIn S res.directModes.a) ∧ (ColsIn S Y → ColsIn S res.adjointModes.a) := by
  unfold bpodArrays at hres
  split at hres
  · cases hres
  split at hres
  · cases hres
  split at hres
  · cases hres
  split at hres
  · cases hres
  dsimp only at hres
  split at hres
  · cases hres
  split at hres
  · cases hres
  split at hres
  · cases hres
  rename_i dm hdm
  split at hres
  · cases hres
  rename_i am ham
  cases hres
  exact ⟨colsIn_linCombine S _ _ _ _ hdm, colsIn_linCombine S _ _ _ _ ham⟩

variable {E : Type*} [AddCommGroup E] [Module 𝕜 E]

theorem C118_bpod_handles (ip : E → E → 𝕜) (X : Fin md → E) (Y : Fin ma → E) (p q : Nat)
    (svd : Matrix (Fin (ma / q * q)) (Fin (md / p * p)) 𝕜 → SvdOut 𝕜 (ma / q * q) (md / p * p)) (atol rtol : Option ℝ)
    (b : BpodHandles 𝕜 E md ma (ma / q * q) (md / p * p)) (hb : bpodHandlesDecomp ip X Y p q svd atol rtol = .ok b)
    (l : List Int) (num : Nat) (out : Vecs E) (T : Submodule 𝕜 E) :
    (bpodHandlesDirectModes b l num = .ok out → (∀ i, X i ∈ T) → VecsIn T out) ∧
      (bpodHandlesAdjointModes b l num = .ok out → (∀ i, Y i ∈ T) → VecsIn T out) := by
  obtain ⟨rows, s, -, -, rfl⟩ := bpodHandlesDecomp_cases _ _ _ _ _ _ _ _ b hb
  exact ⟨fun h => vecsIn_sized T _ _ _ _ _ h, fun h => vecsIn_sized T _ _ _ _ _ h⟩

end Bpod

section Dmd

variable {n m : Nat} (S : Submodule 𝕜 (Fin n → 𝕜))

theorem colsIn_dmdFinish (d : DmdDecomp 𝕜 m) (sqrtInv : Matrix (Fin d.r) (Fin d.r) 𝕜) (cross : Matrix (Fin m) (Fin m) 𝕜)
    (X Y : Matrix (Fin n) (Fin m) 𝕜) (idx : Option (List Int)) (res : DmdResult 𝕜 n m)
    (hres : dmdFinish d sqrtInv cross X Y idx = .ok res) :
    (ColsIn S Y → ColsIn S res.exactModes.a) ∧ (ColsIn S X → ColsIn S res.projModes.a ∧ ColsIn S res.adjointModes.a) := by
  unfold dmdFinish at hres
  dsimp only at hres
  split at hres
  · split at hres
    · cases hres
    rename_i e he
    split at hres
    · cases hres
    rename_i p hp
    split at hres
    · cases hres
    rename_i a ha
    cases hres
    exact ⟨colsIn_linCombine S _ _ _ _ he, fun h => ⟨colsIn_linCombine S _ _ _ _ hp h, colsIn_linCombine S _ _ _ _ ha h⟩⟩
  · cases hres

theorem colsIn_tlsFinish (t : TlsDecomp 𝕜 m) (cross : Matrix (Fin m) (Fin m) 𝕜)
    (X Y : Matrix (Fin n) (Fin m) 𝕜) (idx : Option (List Int)) (res : TlsResult 𝕜 n m)
    (hres : tlsFinish t cross X Y idx = .ok res) :
    (ColsIn S Y → ColsIn S res.exactModes.a) ∧ (ColsIn S X → ColsIn S res.projModes.a ∧ ColsIn S res.adjointModes.a) := by
  unfold tlsFinish at hres
  dsimp only at hres
  split at hres
  · split at hres
    · cases hres
    rename_i e he
    split at hres
    · cases hres
    rename_i p hp
    split at hres
    · cases hres
    rename_i a ha
    cases hres
    exact ⟨colsIn_linCombine S _ _ _ _ he, fun h => ⟨colsIn_linCombine S _ _ _ _ hp h, colsIn_linCombine S _ _ _ _ ha h⟩⟩
  · cases hres

variable (lib : PodLib 𝕜 n m) (eig : ∀ {r : Nat}, Matrix (Fin r) (Fin r) 𝕜 → EigOut 𝕜 r) (idx : Option (List Int))
  (atol rtol : Option ℝ) (maxNum : Option Nat)

theorem colsIn_dmdSnapsRest (C K : Matrix (Fin m) (Fin m) 𝕜) (X Y : Matrix (Fin n) (Fin m) 𝕜) (res : DmdResult 𝕜 n m)
    (hres : dmdSnapsRest lib eig C K X Y idx atol rtol maxNum = .ok res) :
    (ColsIn S Y → ColsIn S res.exactModes.a) ∧ (ColsIn S X → ColsIn S res.projModes.a ∧ ColsIn S res.adjointModes.a) := by
  unfold dmdSnapsRest at hres
  split at hres
  · cases hres
  · exact colsIn_dmdFinish S _ _ _ _ _ _ _ hres

/-- **C118**: all modes of a sequence lie in every subspace that contains its vectors, whatever the library returns; moreover the
exact modes only depend on all vectors but the first, and the others only on all but the last. -/
theorem C118_dmd_snaps_seq (Z : Matrix (Fin n) (Fin (m + 1)) 𝕜) (weights : Option (NdArray 𝕜))
    (res : DmdResult 𝕜 n m × Matrix (Fin m) (Fin m) 𝕜 × Matrix (Fin m) (Fin m) 𝕜)
    (hres : dmdSnapsSeq lib eig Z idx weights atol rtol maxNum = .ok res) :
    (ColsIn S (Z.submatrix id Fin.succ) → ColsIn S res.1.exactModes.a) ∧
      (ColsIn S (Z.submatrix id Fin.castSucc) → ColsIn S res.1.projModes.a ∧ ColsIn S res.1.adjointModes.a) := by
  unfold dmdSnapsSeq at hres
  split at hres
  · cases hres
  split at hres
  · cases hres
  dsimp only at hres
  split at hres
  · cases hres
  rename_i r hr
  cases hres
  exact colsIn_dmdSnapsRest S lib eig idx atol rtol maxNum _ _ _ _ _ hr

/-- **C118**: exact modes lie in every subspace that contains the advanced vectors, projected and adjoint modes in every subspace
that contains the vectors, whatever the library returns. -/
theorem C118_dmd_snaps_pairs (X Y : Matrix (Fin n) (Fin m) 𝕜) (weights : Option (NdArray 𝕜))
    (res : DmdResult 𝕜 n m × Matrix (Fin m) (Fin m) 𝕜 × Matrix (Fin m) (Fin m) 𝕜)
    (hres : dmdSnapsPairs lib eig X ⟨n, m, Y⟩ idx weights atol rtol maxNum = .ok res) :
    (ColsIn S Y → ColsIn S res.1.exactModes.a) ∧
      (ColsIn S X → ColsIn S res.1.projModes.a ∧ ColsIn S res.1.adjointModes.a) := by
  unfold dmdSnapsPairs at hres
  split at hres
  · cases hres
  rw [dif_pos ⟨rfl, rfl⟩] at hres
  dsimp only at hres
  split at hres
  · cases hres
  split at hres
  · cases hres
  split at hres
  · cases hres
  rename_i r hr
  cases hres
  exact colsIn_dmdSnapsRest S lib eig idx atol rtol maxNum _ _ _ _ _ hr

theorem colsIn_dmdDirectRest (A : Matrix (Fin n) (Fin m) 𝕜) (cross : Svd 𝕜 n m → Matrix (Fin m) (Fin m) 𝕜)
    (X Y : Matrix (Fin n) (Fin m) 𝕜) (res : DmdResult 𝕜 n m)
    (hres : dmdDirectRest lib eig A cross X Y idx atol rtol maxNum = .ok res) :
    (ColsIn S Y → ColsIn S res.exactModes.a) ∧ (ColsIn S X → ColsIn S res.projModes.a ∧ ColsIn S res.adjointModes.a) := by
  unfold dmdDirectRest at hres
  split at hres
  · cases hres
  dsimp only at hres
  split at hres
  · cases hres
  · exact colsIn_dmdFinish S _ _ _ _ _ _ _ hres

theorem C118_dmd_direct_seq (Z : Matrix (Fin n) (Fin (m + 1)) 𝕜) (ws : DirectWeights 𝕜) (res : DmdResult 𝕜 n m)
    (hres : dmdDirectSeq lib eig Z idx ws atol rtol maxNum = .ok res) :
    (ColsIn S (Z.submatrix id Fin.succ) → ColsIn S res.exactModes.a) ∧
      (ColsIn S (Z.submatrix id Fin.castSucc) → ColsIn S res.projModes.a ∧ ColsIn S res.adjointModes.a) := by
  unfold dmdDirectSeq at hres
  split at hres
  · cases hres
  · exact colsIn_dmdDirectRest S lib eig idx atol rtol maxNum _ _ _ _ _ hres

theorem C118_dmd_direct_pairs (X Y : Matrix (Fin n) (Fin m) 𝕜) (ws : DirectWeights 𝕜) (res : DmdResult 𝕜 n m)
    (hres : dmdDirectPairs lib eig X ⟨n, m, Y⟩ idx ws atol rtol maxNum = .ok res) :
    (ColsIn S Y → ColsIn S res.exactModes.a) ∧ (ColsIn S X → ColsIn S res.projModes.a ∧ ColsIn S res.adjointModes.a) := by
  unfold dmdDirectPairs at hres
  split at hres
  · cases hres
  rw [dif_pos ⟨rfl, rfl⟩] at hres
  exact colsIn_dmdDirectRest S lib eig idx atol rtol maxNum _ _ _ _ _ hres

theorem colsIn_tlsSnapsRest (c : TlsCorr 𝕜 m) (X Y : Matrix (Fin n) (Fin m) 𝕜) (res : TlsResult 𝕜 n m × TlsCorr 𝕜 m)
    (hres : tlsSnapsRest lib eig c X Y idx atol rtol maxNum = .ok res) :
    (ColsIn S Y → ColsIn S res.1.exactModes.a) ∧
      (ColsIn S X → ColsIn S res.1.projModes.a ∧ ColsIn S res.1.adjointModes.a) := by
  unfold tlsSnapsRest at hres
  split at hres
  · cases hres
  split at hres
  · cases hres
  rename_i r hr
  cases hres
  exact colsIn_tlsFinish S _ _ _ _ _ _ hr

/-- **C118** for total least squares, a sequence of vectors. -/
theorem C118_tls_snaps_seq (Z : Matrix (Fin n) (Fin (m + 1)) 𝕜) (weights : Option (NdArray 𝕜))
    (res : TlsResult 𝕜 n m × TlsCorr 𝕜 m) (hres : tlsSnapsSeq lib eig Z idx weights atol rtol maxNum = .ok res) :
    (ColsIn S (Z.submatrix id Fin.succ) → ColsIn S res.1.exactModes.a) ∧
      (ColsIn S (Z.submatrix id Fin.castSucc) → ColsIn S res.1.projModes.a ∧ ColsIn S res.1.adjointModes.a) := by
  unfold tlsSnapsSeq at hres
  split at hres
  · cases hres
  split at hres
  · cases hres
  exact colsIn_tlsSnapsRest S lib eig idx atol rtol maxNum _ _ _ _ hres

theorem C118_tls_snaps_pairs (X Y : Matrix (Fin n) (Fin m) 𝕜) (weights : Option (NdArray 𝕜))
    (res : TlsResult 𝕜 n m × TlsCorr 𝕜 m)
    (hres : tlsSnapsPairs lib eig X ⟨n, m, Y⟩ idx weights atol rtol maxNum = .ok res) :
    (ColsIn S Y → ColsIn S res.1.exactModes.a) ∧
      (ColsIn S X → ColsIn S res.1.projModes.a ∧ ColsIn S res.1.adjointModes.a) := by
  unfold tlsSnapsPairs at hres
  split at hres
  · cases hres
  rw [dif_pos ⟨rfl, rfl⟩] at hres
  dsimp only at hres
  split at hres
  · cases hres
  split at hres
  · cases hres
  split at hres
  · cases hres
  exact colsIn_tlsSnapsRest S lib eig idx atol rtol maxNum _ _ _ _ hres

variable (svd : Matrix (Fin (n + n)) (Fin m) 𝕜 → SvdOut 𝕜 (n + n) m)

theorem colsIn_tlsDirectRest (so : Option (Matrix (Fin n) (Fin n) 𝕜)) (X Y : Matrix (Fin n) (Fin m) 𝕜) (ws : DirectWeights 𝕜)
    (res : TlsResult 𝕜 n m) (hres : tlsDirectRest lib eig svd so X Y idx ws atol rtol maxNum = .ok res) :
    (ColsIn S Y → ColsIn S res.exactModes.a) ∧ (ColsIn S X → ColsIn S res.projModes.a ∧ ColsIn S res.adjointModes.a) := by
  unfold tlsDirectRest at hres
  split at hres
  · cases hres
  dsimp only at hres
  split at hres
  · cases hres
  rename_i r hr
  cases hres
  obtain ⟨h1, h2⟩ := C118_dmd_direct_pairs S lib eig idx atol rtol maxNum _ _ _ _ hr
  exact ⟨fun h => h1 (h.mul S _), fun h => h2 (h.mul S _)⟩

theorem C118_tls_direct_seq (Z : Matrix (Fin n) (Fin (m + 1)) 𝕜) (ws : DirectWeights 𝕜) (res : TlsResult 𝕜 n m)
    (hres : tlsDirectSeq lib eig svd Z idx ws atol rtol maxNum = .ok res) :
    (ColsIn S (Z.submatrix id Fin.succ) → ColsIn S res.exactModes.a) ∧
      (ColsIn S (Z.submatrix id Fin.castSucc) → ColsIn S res.projModes.a ∧ ColsIn S res.adjointModes.a) := by
  unfold tlsDirectSeq at hres
  split at hres
  · cases hres
  · exact colsIn_tlsDirectRest S lib eig idx atol rtol maxNum svd _ _ _ _ _ hres

theorem C118_tls_direct_pairs (X Y : Matrix (Fin n) (Fin m) 𝕜) (ws : DirectWeights 𝕜) (res : TlsResult 𝕜 n m)
    (hres : tlsDirectPairs lib eig svd X ⟨n, m, Y⟩ idx ws atol rtol maxNum = .ok res) :
    (ColsIn S Y → ColsIn S res.exactModes.a) ∧ (ColsIn S X → ColsIn S res.projModes.a ∧ ColsIn S res.adjointModes.a) := by
  unfold tlsDirectPairs at hres
  split at hres
  · cases hres
  rw [dif_pos ⟨rfl, rfl⟩] at hres
  exact colsIn_tlsDirectRest S lib eig idx atol rtol maxNum svd _ _ _ _ _ hres

end Dmd

section DmdHandles

variable {E : Type*} [AddCommGroup E] [Module 𝕜 E] (T : Submodule 𝕜 E) {m r : Nat}

theorem vecsIn_exact (vecs adv : Option (List E)) (build : Matrix (Fin m) (Fin r) 𝕜) (l : List Int) (num : Nat) (out : Vecs E)
    (h : exactModesFrom vecs adv build l num = .ok out) (hadv : ListIn T adv)
    (hvecs : adv = none → ListIn T (vecs.map List.tail)) : VecsIn T out := by
  unfold exactModesFrom at h
  split at h
  · rename_i a
    exact vecsIn_sized T _ _ _ _ _ h fun i => hadv a rfl _ (List.get_mem _ _)
  · split at h
    · rename_i v
      split at h
      · exact vecsIn_sized T _ _ _ _ _ h fun i => hvecs rfl _ rfl _ (List.get_mem _ _)
      · cases h
    · cases h

theorem vecsIn_span (vecs : Option (List E)) (build : Matrix (Fin m) (Fin r) 𝕜) (l : List Int) (num : Nat) (out : Vecs E)
    (h : spanModesFrom vecs build l num = .ok out)
    (hvecs : ∀ a ∈ vecs, (∀ v ∈ a.dropLast, v ∈ T) ∧ (a.length = m → ∀ v ∈ a, v ∈ T)) : VecsIn T out := by
  unfold spanModesFrom at h
  split at h
  · cases h
  rename_i a
  split at h
  · exact vecsIn_sized T _ _ _ _ _ h fun i => (hvecs a rfl).1 _ (List.get_mem _ _)
  split at h
  · rename_i h0 h1
    exact vecsIn_sized T _ _ _ _ _ h fun i => (hvecs a rfl).2 h1 _ (List.get_mem _ _)
  · cases h

/-- **C118**: modes put by `DMDHandles` lie in every subspace that contains the vectors of which they are made, whatever the
decomposition is: exact modes are made of the advanced vectors that the object has afterwards or, if it has none, of all vectors
but the first; projected and adjoint modes of the vectors, but for the last if there is one more than the decomposition has. -/
theorem C118_dmd_handles (g g' : DmdHandles 𝕜 E) (l : List Int) (num : Nat) (b : Option (List E)) (out : Vecs E) :
    (g.computeExactModes l num b = (.ok out, g') → ListIn T g'.adv →
      (g'.adv = none → ListIn T (g'.vecs.map List.tail)) → VecsIn T out) ∧
    (g.computeProjModes l num b = (.ok out, g') → (∀ a ∈ g'.vecs, (∀ v ∈ a.dropLast, v ∈ T) ∧
      (∀ s ∈ g'.decomp, a.length = s.m → ∀ v ∈ a, v ∈ T)) → VecsIn T out) ∧
    (g.computeAdjointModes l num b = (.ok out, g') → (∀ a ∈ g'.vecs, (∀ v ∈ a.dropLast, v ∈ T) ∧
      (∀ s ∈ g'.decomp, a.length = s.m → ∀ v ∈ a, v ∈ T)) → VecsIn T out) := by
  refine ⟨fun h h1 h2 => ?_, fun h h1 => ?_, fun h h1 => ?_⟩
  · unfold DmdHandles.computeExactModes at h
    dsimp only at h
    split at h
    · cases h
    · rename_i s hs
      obtain ⟨ho, rfl⟩ := Prod.mk.inj h
      exact vecsIn_exact T _ _ _ _ _ _ ho h1 h2
  · unfold DmdHandles.computeProjModes at h
    dsimp only at h
    split at h
    · cases h
    · rename_i s hs
      obtain ⟨ho, rfl⟩ := Prod.mk.inj h
      exact vecsIn_span T _ _ _ _ _ ho fun a ha => ⟨(h1 a ha).1, (h1 a ha).2 s hs⟩
  · unfold DmdHandles.computeAdjointModes at h
    dsimp only at h
    split at h
    · cases h
    · rename_i s hs
      obtain ⟨ho, rfl⟩ := Prod.mk.inj h
      exact vecsIn_span T _ _ _ _ _ ho fun a ha => ⟨(h1 a ha).1, (h1 a ha).2 s hs⟩

theorem C118_tls_handles (g g' : TlsHandles 𝕜 E) (l : List Int) (num : Nat) (b : Option (List E)) (out : Vecs E) :
    (g.computeExactModes l num b = (.ok out, g') → ListIn T g'.adv →
      (g'.adv = none → ListIn T (g'.vecs.map List.tail)) → VecsIn T out) ∧
    (g.computeProjModes l num b = (.ok out, g') → (∀ a ∈ g'.vecs, (∀ v ∈ a.dropLast, v ∈ T) ∧
      (∀ s ∈ g'.decomp, a.length = s.m → ∀ v ∈ a, v ∈ T)) → VecsIn T out) ∧
    (g.computeAdjointModes l num b = (.ok out, g') → (∀ a ∈ g'.vecs, (∀ v ∈ a.dropLast, v ∈ T) ∧
      (∀ s ∈ g'.decomp, a.length = s.m → ∀ v ∈ a, v ∈ T)) → VecsIn T out) := by
  refine ⟨fun h h1 h2 => ?_, fun h h1 => ?_, fun h h1 => ?_⟩
  · unfold TlsHandles.computeExactModes at h
    dsimp only at h
    split at h
    · cases h
    · rename_i s hs
      obtain ⟨ho, rfl⟩ := Prod.mk.inj h
      exact vecsIn_exact T _ _ _ _ _ _ ho h1 h2
  · unfold TlsHandles.computeProjModes at h
    dsimp only at h
    split at h
    · cases h
    · rename_i s hs
      obtain ⟨ho, rfl⟩ := Prod.mk.inj h
      exact vecsIn_span T _ _ _ _ _ ho fun a ha => ⟨(h1 a ha).1, (h1 a ha).2 s hs⟩
  · unfold TlsHandles.computeAdjointModes at h
    dsimp only at h
    split at h
    · cases h
    · rename_i s hs
      obtain ⟨ho, rfl⟩ := Prod.mk.inj h
      exact vecsIn_span T _ _ _ _ _ ho fun a ha => ⟨(h1 a ha).1, (h1 a ha).2 s hs⟩

end DmdHandles

section Examples

/-- The reflection that exchanges two entries, and vectors that it does not change. -/
def mirror : Matrix (Fin 2) (Fin 2) ℝ := !![0, 1; 1, 0]

def mirrored : Matrix (Fin 2) (Fin 3) ℝ := !![1, 2, 5; 1, 2, 5]

theorem mirror_mirrored : mirror * mirrored = mirrored := by
  ext i j
  fin_cases i <;> fin_cases j <;> simp [mirror, mirrored, Matrix.mul_apply]

/-- The direct method of POD, with weights: both entries of each mode are equal. -/
example : ∃ (lib : PodLib ℝ 2 3) (res : PodResult ℝ 2 3),
    podDirect lib mirrored none (.d1 2 fun i => if i = 0 then 2 else 3) (some (1 / 10)) none = .ok res ∧
    mirror * res.modes.a = res.modes.a := by
  obtain ⟨lib, hsvd, -, -, -⟩ := exists_podLib (𝕜 := ℝ) 2 3
  have hfit : (DirectWeights.d1 2 fun i => if i = 0 then 2 else 3 : DirectWeights ℝ).Fits 2 := by
    refine ⟨rfl, fun i => ?_⟩
    dsimp only
    split <;> norm_num
  obtain ⟨res, hres⟩ := C22_direct_no_error lib mirrored _ (some (1 / 10)) none hfit (by simp) (Or.inr (by simp))
  exact ⟨lib, res, hres, (colsIn_unchanged _ _).mp (C118_pod_direct lib mirrored none (unchanged mirror) _ hfit (by simp) hsvd _
    (by norm_num) none (by simp) res hres ((colsIn_unchanged _ _).mpr mirror_mirrored))⟩

/-- The direct method of POD needs that values which are zero are not retained: if both tolerances are `None`, the mode of a
vector that is zero is not zero. -/
theorem C118_pod_direct_needs_tolerance : ∃ (lib : PodLib ℝ 1 1) (res : PodResult ℝ 1 1), (∀ a, IsSvd a (lib.svd a)) ∧
    podDirect lib 0 none .none none none = .ok res ∧ ¬ ColsIn ⊥ res.modes.a ∧ ColsIn ⊥ (0 : Matrix (Fin 1) (Fin 1) ℝ) := by
  obtain ⟨lib, hsvd, -, -, -⟩ := exists_podLib (𝕜 := ℝ) 1 1
  cases hs : utilSvd lib.svd (0 : Matrix (Fin 1) (Fin 1) ℝ) none none with
  | error e => exact absurd rfl ((C19_error_iff _ _ _ _ _).mp hs).2.1
  | ok s =>
    refine ⟨lib, ⟨s.r, fun i => s.S i ^ (2 : ℝ), ⟨s.r, s.U⟩, diagPow (fun i => s.S i ^ (2 : ℝ)) 0.5 * s.Vᴴ, s.V⟩, hsvd, ?_, ?_,
      fun j => rfl⟩
    · unfold podDirect podDirectSvd
      dsimp only
      rw [hs]
      rfl
    · intro h
      obtain ⟨hU, -⟩ := C19_singular_triples _ _ _ _ (hsvd 0) s hs
      obtain ⟨-, hk, -⟩ := C19_kept_iff _ _ _ _ (hsvd 0) (by simp) s hs
      have hr : 0 < s.r := (hk ⟨0, by decide⟩).mpr ⟨by simp, by simp⟩
      have h0 : ∀ i, s.U i ⟨0, hr⟩ = 0 := fun i => congrFun ((Submodule.mem_bot ℝ).mp (h ⟨0, hr⟩)) i
      have h1 := congrFun (congrFun hU ⟨0, hr⟩) ⟨0, hr⟩
      rw [Matrix.mul_apply, Matrix.one_apply_eq] at h1
      simp [h0] at h1

/-- Dynamic modes of pairs, by the method of snapshots. -/
example : ∃ (lib : PodLib ℝ 2 3) (res : DmdResult ℝ 2 3) (corr cross : Matrix (Fin 3) (Fin 3) ℝ),
    dmdSnapsPairs lib diagEig mirrored ⟨2, 3, (2 : ℝ) • mirrored⟩ none none (some (1 / 2)) none none = .ok (res, corr, cross) ∧
    mirror * res.exactModes.a = res.exactModes.a ∧ mirror * res.projModes.a = res.projModes.a ∧
    mirror * res.adjointModes.a = res.adjointModes.a := by
  obtain ⟨lib, -, -, -, -⟩ := exists_podLib (𝕜 := ℝ) 2 3
  obtain ⟨-, ⟨res, corr, cross⟩, hres⟩ := C26_snaps_no_error lib diagEig (1 / 2) none none three_pos none .none rfl trivial
    (0 : Matrix (Fin 2) (Fin 4) ℝ) mirrored ((2 : ℝ) • mirrored)
  obtain ⟨h1, h2⟩ := C118_dmd_snaps_pairs (unchanged mirror) lib diagEig none _ _ _ _ _ _ _ hres
  obtain ⟨h3, h4⟩ := h2 ((colsIn_unchanged _ _).mpr mirror_mirrored)
  refine ⟨lib, res, corr, cross, hres, (colsIn_unchanged _ _).mp (h1 ((colsIn_unchanged _ _).mpr ?_)),
    (colsIn_unchanged _ _).mp h3, (colsIn_unchanged _ _).mp h4⟩
  rw [Matrix.mul_smul, mirror_mirrored]

/-- A boundary condition: the second entries of all vectors of a sequence, and so of all modes, are zero. -/
example : ∃ (lib : PodLib ℝ 2 2) (res : TlsResult ℝ 2 2) (c : TlsCorr ℝ 2),
    tlsSnapsSeq lib diagEig !![1, 2, 4; 0, 0, 0] none none (some (1 / 2)) none none = .ok (res, c) ∧
    (∀ j, res.exactModes.a 1 j = 0) ∧ (∀ j, res.projModes.a 1 j = 0) ∧ ∀ j, res.adjointModes.a 1 j = 0 := by
  obtain ⟨lib, -, -, -, -⟩ := exists_podLib (𝕜 := ℝ) 2 2
  obtain ⟨⟨⟨res, c⟩, hres⟩, -⟩ := C31_snaps_no_error lib diagEig (1 / 2) none none two_pos none .none rfl trivial
    (!![1, 2, 4; 0, 0, 0] : Matrix (Fin 2) (Fin 3) ℝ) 0 0
  obtain ⟨h1, h2⟩ := C118_tls_snaps_seq (constrained (!![0, 1] : Matrix (Fin 1) (Fin 2) ℝ)) lib diagEig none _ _ _ _ _ _ hres
  have hrow : ∀ {q : Nat} (X : Matrix (Fin 2) (Fin q) ℝ), ColsIn (constrained (!![0, 1] : Matrix (Fin 1) (Fin 2) ℝ)) X ↔
      ∀ j, X 1 j = 0 := by
    intro q X
    rw [colsIn_constrained]
    constructor
    · intro h j
      have := congrFun (congrFun h 0) j
      simpa [Matrix.mul_apply] using this
    · intro h
      ext i j
      fin_cases i
      simpa [Matrix.mul_apply] using h j
  simp only [hrow] at h1 h2
  have h0 : ∀ j : Fin 3, (!![1, 2, 4; 0, 0, 0] : Matrix (Fin 2) (Fin 3) ℝ) 1 j = 0 := by
    intro j
    fin_cases j <;> rfl
  obtain ⟨h3, h4⟩ := h2 fun j => h0 j.castSucc
  exact ⟨lib, res, c, hres, h1 fun j => h0 j.succ, h3, h4⟩

/-- Vectors on handles: the last of three is not used for projected modes. -/
example (d : DmdDecomp ℝ 2) (hd : d.r = 1) : ∃ (g' : DmdHandles ℝ (Fin 2 → ℝ)) (out : Vecs (Fin 2 → ℝ)),
    (⟨none, none, none, some ⟨2, d⟩⟩ : DmdHandles ℝ (Fin 2 → ℝ)).computeProjModes [0] 1 (some [![1, 0], ![3, 0], ![0, 1]]) =
      (.ok out, g') ∧ out.k = 1 ∧ ∀ i, out.v i 1 = 0 := by
  obtain ⟨r, w, V, ev, R, L⟩ := d
  dsimp only at hd
  subst hd
  refine ⟨_, _, rfl, rfl, fun i => ?_⟩
  have h := (C118_dmd_handles (LinearMap.ker (LinearMap.proj (1 : Fin 2) : (Fin 2 → ℝ) →ₗ[ℝ] ℝ))
    (⟨none, none, none, some ⟨2, ⟨1, w, V, ev, R, L⟩⟩⟩ : DmdHandles ℝ (Fin 2 → ℝ)) _ [0] 1
    (some [![1, 0], ![3, 0], ![0, 1]]) _).2.1 rfl ?_ i
  · exact LinearMap.mem_ker.mp h
  · intro a ha
    cases ha
    refine ⟨fun v hv => ?_, fun s hs hl => ?_⟩
    · simp at hv
      rcases hv with rfl | rfl <;> simp
    · cases hs
      simp at hl

end Examples

end Modred
