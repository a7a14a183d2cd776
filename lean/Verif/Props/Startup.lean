import Verif.Model.Startup
import Verif.Model.Galerkin
import Verif.Spec.Startup
import Verif.Props.Parallel

/-!
# C92: what processes know about each other, and functions that refuse to run in parallel
-/

open Matrix

namespace Modred

/-! ### Import -/

theorem nodeID_ok (h : List UInt8) (hn : IsHostName h) : ∃ k, nodeID h = .ok k := by
  have : hexDigits h ≠ [] := by
    cases h with
    | nil => exact absurd rfl hn.1
    | cons => simp [hexDigits]
  exact ⟨_, by rw [nodeID, intBase16, if_neg this]⟩

theorem getD_host (hostnames : List (List UInt8)) (hn : ∀ h ∈ hostnames, IsHostName h) (i : Nat)
    (hi : i < hostnames.length) : IsHostName (hostnames.getD i []) := by
  rw [List.getD_eq_getElem _ _ hi]
  exact hn _ (List.getElem_mem hi)

theorem startup_mpi (hostnames : List (List UInt8)) (hn : ∀ h ∈ hostnames, IsHostName h) (i : Nat)
    (hi : i < hostnames.length) :
    startup true hostnames i = .ok ⟨hostnames.toFinset.card, hostnames.length, i, decide (2 ≤ hostnames.length)⟩ := by
  obtain ⟨k, hk⟩ := nodeID_ok _ (getD_host hostnames hn i hi)
  unfold startup
  rw [hk]
  dsimp only
  rw [if_pos rfl, C50_num_nodes_is_number_of_hosts hostnames hn]
  dsimp only
  congr 2

theorem startup_serial (hostnames : List (List UInt8)) (hn : ∀ h ∈ hostnames, IsHostName h) (i : Nat)
    (hi : i < hostnames.length) : startup false hostnames i = .ok ⟨1, 1, 0, false⟩ := by
  obtain ⟨k, hk⟩ := nodeID_ok _ (getD_host hostnames hn i hi)
  unfold startup
  rw [hk]
  rfl

/-- **C92.** With `mpi4py`, each process knows the numbers of hosts and processes and its own number. -/
theorem C92_with_mpi (hostnames : List (List UInt8)) (hn : ∀ h ∈ hostnames, IsHostName h) (i : Nat)
    (hi : i < hostnames.length) :
    ∃ s, startup true hostnames i = .ok s ∧ KnowsAll hostnames i s.getNumNodes s.getNumMPIWorkers s.getNumProcs s.getRank
      s.isDistributed s.isRankZero := by
  refine ⟨_, startup_mpi hostnames hn i hi, rfl, rfl, rfl, rfl, ?_, ?_⟩
  · simp [ParallelState.isDistributed]
  · simp [ParallelState.isRankZero]

/-- **C92.** Without `mpi4py`, each process takes itself for the only one, whatever the number that was started. -/
theorem C92_without_mpi (hostnames : List (List UInt8)) (hn : ∀ h ∈ hostnames, IsHostName h) (i : Nat)
    (hi : i < hostnames.length) :
    ∃ s, startup false hostnames i = .ok s ∧ KnowsAll [hostnames[i]] 0 s.getNumNodes s.getNumMPIWorkers s.getNumProcs
      s.getRank s.isDistributed s.isRankZero := by
  refine ⟨_, startup_serial hostnames hn i hi, ?_, rfl, rfl, rfl, ?_, ?_⟩
  · simp [ParallelState.getNumNodes]
  · simp [ParallelState.isDistributed]
  · simp [ParallelState.isRankZero]

/-- The number of processes that take themselves for rank zero. -/
def zeros (mpiAvail : Bool) (hostnames : List (List UInt8)) : Nat :=
  ((List.range hostnames.length).filter fun i => (startup mpiAvail hostnames i).toOption.any ParallelState.isRankZero).length

/-- **C92.** With `mpi4py` exactly one process is that of rank zero, so that `call_from_rank_zero` calls once.  Without,
all of them are. -/
theorem C92_rank_zero (hostnames : List (List UInt8)) (h0 : hostnames ≠ []) (hn : ∀ h ∈ hostnames, IsHostName h) :
    zeros true hostnames = 1 ∧ zeros false hostnames = hostnames.length := by
  constructor
  · unfold zeros
    rw [List.filter_congr (q := fun i => i == 0) fun i hi => by
      rw [startup_mpi hostnames hn i (List.mem_range.mp hi)]
      rfl]
    obtain ⟨k, hk⟩ := Nat.exists_eq_succ_of_ne_zero (fun h => h0 (List.length_eq_zero_iff.mp h))
    rw [hk, List.range_succ_eq_map, List.filter_cons_of_pos (by rfl), List.length_cons, List.filter_eq_nil_iff.mpr]
    · rfl
    · intro a ha
      obtain ⟨b, -, rfl⟩ := List.mem_map.mp ha
      simp
  · unfold zeros
    rw [List.filter_congr (q := fun _ => true) fun i hi => by
      rw [startup_serial hostnames hn i (List.mem_range.mp hi)]
      rfl]
    simp

/-! ### Functions for arrays -/

theorem notInParallel_refuses {α : Type*} (alone : Except Err α) :
    RefusesInParallel startup (fun s => notInParallel s alone) alone := by
  intro hostnames hn i hi
  refine ⟨⟨_, startup_mpi hostnames hn i hi, fun h => ?_, fun h => ?_⟩, _, startup_serial hostnames hn i hi, ?_⟩
  · exact if_pos (decide_eq_true h)
  · exact if_neg (by simp [ParallelState.isDistributed, h])
  · exact if_neg (by simp [ParallelState.isDistributed])

variable {𝕜 : Type*} [RCLike 𝕜] {n m : Nat}

/-- **C92.** POD of arrays refuses several processes, and is the one of the other properties on one. -/
theorem C92_pod (lib : PodLib 𝕜 n m) (vecs : Matrix (Fin n) (Fin m) 𝕜) (modeIndices : Option (List Int))
    (weights : Option (NdArray 𝕜)) (directWeights : DirectWeights 𝕜) (atol rtol : Option ℝ) :
    RefusesInParallel startup (fun s => podSnapsChecked s lib vecs modeIndices weights atol rtol)
      (podSnaps lib vecs modeIndices weights atol rtol) ∧
    RefusesInParallel startup (fun s => podDirectChecked s lib vecs modeIndices directWeights atol rtol)
      (podDirect lib vecs modeIndices directWeights atol rtol) :=
  ⟨notInParallel_refuses _, notInParallel_refuses _⟩

/-- **C92.** So does BPOD. -/
theorem C92_bpod {md ma : Nat} (svd : Matrix (Fin ma) (Fin md) 𝕜 → SvdOut 𝕜 ma md)
    (directVecs : Matrix (Fin n) (Fin md) 𝕜) (adjointVecs : Matrix (Fin n) (Fin ma) 𝕜) (numInputs numOutputs : Nat)
    (directModeIndices adjointModeIndices : Option (List Int)) (weights : Option (NdArray 𝕜)) (atol rtol : Option ℝ) :
    RefusesInParallel startup (fun s => bpodArraysChecked s svd directVecs adjointVecs numInputs numOutputs
        directModeIndices adjointModeIndices weights atol rtol)
      (bpodArrays svd directVecs adjointVecs numInputs numOutputs directModeIndices adjointModeIndices weights atol rtol) :=
  notInParallel_refuses _

section Dmd

variable (lib : PodLib 𝕜 n m) (eig : ∀ {r : Nat}, Matrix (Fin r) (Fin r) 𝕜 → EigOut 𝕜 r)
  (seq : Matrix (Fin n) (Fin (m + 1)) 𝕜) (vecs : Matrix (Fin n) (Fin m) 𝕜) (advVecs : Arr 𝕜)
  (modeIndices : Option (List Int)) (weights : Option (NdArray 𝕜)) (directWeights : DirectWeights 𝕜)
  (atol rtol : Option ℝ) (maxNum : Option Nat)

/-- **C92.** So does DMD. -/
theorem C92_dmd :
    RefusesInParallel startup (fun s => dmdSnapsSeqChecked lib eig s seq modeIndices weights atol rtol maxNum)
      (dmdSnapsSeq lib eig seq modeIndices weights atol rtol maxNum) ∧
    RefusesInParallel startup (fun s => dmdSnapsPairsChecked lib eig s vecs advVecs modeIndices weights atol rtol maxNum)
      (dmdSnapsPairs lib eig vecs advVecs modeIndices weights atol rtol maxNum) ∧
    RefusesInParallel startup (fun s => dmdDirectSeqChecked lib eig s seq modeIndices directWeights atol rtol maxNum)
      (dmdDirectSeq lib eig seq modeIndices directWeights atol rtol maxNum) ∧
    RefusesInParallel startup
      (fun s => dmdDirectPairsChecked lib eig s vecs advVecs modeIndices directWeights atol rtol maxNum)
      (dmdDirectPairs lib eig vecs advVecs modeIndices directWeights atol rtol maxNum) :=
  ⟨notInParallel_refuses _, notInParallel_refuses _, notInParallel_refuses _, notInParallel_refuses _⟩

/-- **C92.** So does total-least-squares DMD. -/
theorem C92_tls (svd : Matrix (Fin (n + n)) (Fin m) 𝕜 → SvdOut 𝕜 (n + n) m) :
    RefusesInParallel startup (fun s => tlsSnapsSeqChecked lib eig s seq modeIndices weights atol rtol maxNum)
      (tlsSnapsSeq lib eig seq modeIndices weights atol rtol maxNum) ∧
    RefusesInParallel startup (fun s => tlsSnapsPairsChecked lib eig s vecs advVecs modeIndices weights atol rtol maxNum)
      (tlsSnapsPairs lib eig vecs advVecs modeIndices weights atol rtol maxNum) ∧
    RefusesInParallel startup (fun s => tlsDirectSeqChecked lib eig svd s seq modeIndices directWeights atol rtol maxNum)
      (tlsDirectSeq lib eig svd seq modeIndices directWeights atol rtol maxNum) ∧
    RefusesInParallel startup
      (fun s => tlsDirectPairsChecked lib eig svd s vecs advVecs modeIndices directWeights atol rtol maxNum)
      (tlsDirectPairs lib eig svd vecs advVecs modeIndices directWeights atol rtol maxNum) :=
  ⟨notInParallel_refuses _, notInParallel_refuses _, notInParallel_refuses _, notInParallel_refuses _⟩

end Dmd

omit [RCLike 𝕜] in
/-- **C92.** So does the Galerkin projection of arrays. -/
theorem C92_galerkin {r : Nat} (basisVecs : Matrix (Fin n) (Fin r) 𝕜) (adjointBasisVecs : Option (Arr 𝕜))
    (isBasisOrthonormal : Bool) (weights : Option (NdArray 𝕜)) :
    RefusesInParallel startup
      (fun s => galerkinArraysInit s.isDistributed basisVecs adjointBasisVecs isBasisOrthonormal weights)
      (galerkinArraysInit false basisVecs adjointBasisVecs isBasisOrthonormal weights) := by
  intro hostnames hn i hi
  refine ⟨⟨_, startup_mpi hostnames hn i hi, fun h => ?_, fun h => ?_⟩, _, startup_serial hostnames hn i hi, rfl⟩
  · exact if_pos (decide_eq_true h)
  · simp only [ParallelState.isDistributed, h]
    rfl

/-- Three processes on the hosts `ab`, `b` and `ab`. -/
example : (startup true [[97, 98], [98], [97, 98]] 2).toOption.map
    (fun s => (s.getNumNodes, s.getNumProcs, s.getRank, s.isDistributed, s.isRankZero)) = some (2, 3, 2, true, false) ∧
    (startup false [[97, 98], [98], [97, 98]] 2).toOption.map
    (fun s => (s.getNumNodes, s.getNumProcs, s.getRank, s.isDistributed, s.isRankZero)) = some (1, 1, 0, false, true) ∧
    zeros true [[97, 98], [98], [97, 98]] = 1 ∧ zeros false [[97, 98], [98], [97, 98]] = 3 := by
  decide +kernel

/-- Even data without vectors, which one process refuses with another exception, raise RuntimeError on two. -/
example (lib : PodLib ℝ 2 0) : ∀ i < 2, ∃ s, startup true [[97], [98]] i = .ok s ∧
    podSnapsChecked s lib 0 none none (some 0) none = .error .runtimeError := by
  intro i hi
  obtain ⟨⟨s, h1, h2, -⟩, -⟩ := (C92_pod lib 0 none none .none (some 0) none).1 [[97], [98]] (by
    intro h hh
    simp only [List.mem_cons, List.not_mem_nil, or_false] at hh
    rcases hh with rfl | rfl <;> simp [IsHostName]) i hi
  exact ⟨s, h1, h2 (by simp)⟩

end Modred
