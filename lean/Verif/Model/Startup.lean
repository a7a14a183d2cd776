import Verif.Model.Parallel
import Verif.Model.Tlsqr
import Verif.Model.Bpod

/-!
# Model of the import of `modred/parallel.py`, and of the functions that refuse to run in parallel
-/

open Matrix

namespace Modred

/-- The variables `_num_nodes`, `_num_MPI_workers`, `_rank` and `_is_distributed` of the module on one process. -/
structure ParallelState where
  numNodes : Nat
  numWorkers : Nat
  rank : Nat
  distributed : Bool

/-- Import of the module on one process (`modred/parallel.py` lines 10-53).  `mpiAvail` says whether `mpi4py` can be
imported, `hostnames` lists the host names of the processes that were started, and `rank` is the place of this
one in it.  With `mpi4py` an exception of one process is one of all of them here (see `numNodes`).  Without it a process
knows nothing about the others. -/
def startup (mpiAvail : Bool) (hostnames : List (List UInt8)) (rank : Nat) : Except Err ParallelState :=
  match nodeID (hostnames.getD rank []) with
  | .error e => .error e
  | .ok _ =>
    if mpiAvail then
      match numNodes hostnames with
      | .error e => .error e
      | .ok nodes =>
        let numMPIWorkers := hostnames.length
        .ok ⟨nodes, numMPIWorkers, rank, if numMPIWorkers > 1 then true else false⟩
    else .ok ⟨1, 1, 0, false⟩

/-- `get_num_nodes` (`modred/parallel.py` lines 66-68). -/
def ParallelState.getNumNodes (s : ParallelState) : Nat := s.numNodes

/-- `get_num_MPI_workers` (`modred/parallel.py` lines 71-74). -/
def ParallelState.getNumMPIWorkers (s : ParallelState) : Nat := s.numWorkers

/-- `get_rank` (`modred/parallel.py` lines 77-79). -/
def ParallelState.getRank (s : ParallelState) : Nat := s.rank

/-- `get_num_procs` (`modred/parallel.py` lines 82-85). -/
def ParallelState.getNumProcs (s : ParallelState) : Nat := s.getNumMPIWorkers

/-- `is_distributed` (`modred/parallel.py` lines 88-91). -/
def ParallelState.isDistributed (s : ParallelState) : Bool := s.distributed

/-- `is_rank_zero` (`modred/parallel.py` lines 94-96). -/
def ParallelState.isRankZero (s : ParallelState) : Bool := s.rank == 0

/-- `if parallel.is_distributed(): raise RuntimeError('Cannot run in parallel.')`, and the rest of the function. -/
def notInParallel {α : Type*} (s : ParallelState) (rest : Except Err α) : Except Err α :=
  if s.isDistributed then .error .runtimeError else rest

variable {𝕜 : Type*} [RCLike 𝕜] {n m : Nat}

/-- `compute_POD_arrays_snaps_method` with its check (`modred/pod.py` lines 71-101). -/
noncomputable def podSnapsChecked (s : ParallelState) (lib : PodLib 𝕜 n m) (vecs : Matrix (Fin n) (Fin m) 𝕜)
    (modeIndices : Option (List Int)) (weights : Option (NdArray 𝕜)) (atol rtol : Option ℝ) :
    Except Err (PodResult 𝕜 n m × Matrix (Fin m) (Fin m) 𝕜) :=
  notInParallel s (podSnaps lib vecs modeIndices weights atol rtol)

/-- `compute_POD_arrays_direct_method` with its check (`modred/pod.py` lines 161-202). -/
noncomputable def podDirectChecked (s : ParallelState) (lib : PodLib 𝕜 n m) (vecs : Matrix (Fin n) (Fin m) 𝕜)
    (modeIndices : Option (List Int)) (weights : DirectWeights 𝕜) (atol rtol : Option ℝ) :
    Except Err (PodResult 𝕜 n m) :=
  notInParallel s (podDirect lib vecs modeIndices weights atol rtol)

/-- `compute_BPOD_arrays` with its check (`modred/bpod.py` lines 86-150). -/
noncomputable def bpodArraysChecked {md ma : Nat} (s : ParallelState)
    (svd : Matrix (Fin ma) (Fin md) 𝕜 → SvdOut 𝕜 ma md) (directVecs : Matrix (Fin n) (Fin md) 𝕜)
    (adjointVecs : Matrix (Fin n) (Fin ma) 𝕜) (numInputs numOutputs : Nat)
    (directModeIndices adjointModeIndices : Option (List Int)) (weights : Option (NdArray 𝕜)) (atol rtol : Option ℝ) :
    Except Err (BpodResult 𝕜 n md ma) :=
  notInParallel s (bpodArrays svd directVecs adjointVecs numInputs numOutputs directModeIndices adjointModeIndices weights
    atol rtol)

variable (lib : PodLib 𝕜 n m) (eig : ∀ {r : Nat}, Matrix (Fin r) (Fin r) 𝕜 → EigOut 𝕜 r)

/-- `compute_DMD_arrays_snaps_method` with its check, for a sequence of vectors (`modred/dmd.py` lines 109-234). -/
noncomputable def dmdSnapsSeqChecked (s : ParallelState) (vecs : Matrix (Fin n) (Fin (m + 1)) 𝕜)
    (modeIndices : Option (List Int)) (weights : Option (NdArray 𝕜)) (atol rtol : Option ℝ) (maxNum : Option Nat) :
    Except Err (DmdResult 𝕜 n m × Matrix (Fin m) (Fin m) 𝕜 × Matrix (Fin m) (Fin m) 𝕜) :=
  notInParallel s (dmdSnapsSeq lib eig vecs modeIndices weights atol rtol maxNum)

/-- `compute_DMD_arrays_snaps_method` with its check, with advanced vectors (`modred/dmd.py` lines 109-234). -/
noncomputable def dmdSnapsPairsChecked (s : ParallelState) (vecs : Matrix (Fin n) (Fin m) 𝕜) (advVecs : Arr 𝕜)
    (modeIndices : Option (List Int)) (weights : Option (NdArray 𝕜)) (atol rtol : Option ℝ) (maxNum : Option Nat) :
    Except Err (DmdResult 𝕜 n m × Matrix (Fin m) (Fin m) 𝕜 × Matrix (Fin m) (Fin m) 𝕜) :=
  notInParallel s (dmdSnapsPairs lib eig vecs advVecs modeIndices weights atol rtol maxNum)

/-- `compute_DMD_arrays_direct_method` with its check, for a sequence of vectors (`modred/dmd.py` lines 324-480). -/
noncomputable def dmdDirectSeqChecked (s : ParallelState) (vecs : Matrix (Fin n) (Fin (m + 1)) 𝕜)
    (modeIndices : Option (List Int)) (weights : DirectWeights 𝕜) (atol rtol : Option ℝ) (maxNum : Option Nat) :
    Except Err (DmdResult 𝕜 n m) :=
  notInParallel s (dmdDirectSeq lib eig vecs modeIndices weights atol rtol maxNum)

/-- `compute_DMD_arrays_direct_method` with its check, with advanced vectors (`modred/dmd.py` lines 324-480). -/
noncomputable def dmdDirectPairsChecked (s : ParallelState) (vecs : Matrix (Fin n) (Fin m) 𝕜) (advVecs : Arr 𝕜)
    (modeIndices : Option (List Int)) (weights : DirectWeights 𝕜) (atol rtol : Option ℝ) (maxNum : Option Nat) :
    Except Err (DmdResult 𝕜 n m) :=
  notInParallel s (dmdDirectPairs lib eig vecs advVecs modeIndices weights atol rtol maxNum)

/-- `compute_TLSqrDMD_arrays_snaps_method` with its check, for a sequence of vectors (`modred/dmd.py` lines
1231-1395). -/
noncomputable def tlsSnapsSeqChecked (s : ParallelState) (vecs : Matrix (Fin n) (Fin (m + 1)) 𝕜)
    (modeIndices : Option (List Int)) (weights : Option (NdArray 𝕜)) (atol rtol : Option ℝ) (maxNum : Option Nat) :
    Except Err (TlsResult 𝕜 n m × TlsCorr 𝕜 m) :=
  notInParallel s (tlsSnapsSeq lib eig vecs modeIndices weights atol rtol maxNum)

/-- `compute_TLSqrDMD_arrays_snaps_method` with its check, with advanced vectors (`modred/dmd.py` lines 1231-1395). -/
noncomputable def tlsSnapsPairsChecked (s : ParallelState) (vecs : Matrix (Fin n) (Fin m) 𝕜) (advVecs : Arr 𝕜)
    (modeIndices : Option (List Int)) (weights : Option (NdArray 𝕜)) (atol rtol : Option ℝ) (maxNum : Option Nat) :
    Except Err (TlsResult 𝕜 n m × TlsCorr 𝕜 m) :=
  notInParallel s (tlsSnapsPairs lib eig vecs advVecs modeIndices weights atol rtol maxNum)

variable (svd : Matrix (Fin (n + n)) (Fin m) 𝕜 → SvdOut 𝕜 (n + n) m)

/-- `compute_TLSqrDMD_arrays_direct_method` with its check, for a sequence of vectors (`modred/dmd.py` lines
1506-1610).  It calls `compute_DMD_arrays_direct_method`, whose own check passes then. -/
noncomputable def tlsDirectSeqChecked (s : ParallelState) (vecs : Matrix (Fin n) (Fin (m + 1)) 𝕜)
    (modeIndices : Option (List Int)) (weights : DirectWeights 𝕜) (atol rtol : Option ℝ) (maxNum : Option Nat) :
    Except Err (TlsResult 𝕜 n m) :=
  notInParallel s (tlsDirectSeq lib eig svd vecs modeIndices weights atol rtol maxNum)

/-- `compute_TLSqrDMD_arrays_direct_method` with its check, with advanced vectors (`modred/dmd.py` lines
1506-1610). -/
noncomputable def tlsDirectPairsChecked (s : ParallelState) (vecs : Matrix (Fin n) (Fin m) 𝕜) (advVecs : Arr 𝕜)
    (modeIndices : Option (List Int)) (weights : DirectWeights 𝕜) (atol rtol : Option ℝ) (maxNum : Option Nat) :
    Except Err (TlsResult 𝕜 n m) :=
  notInParallel s (tlsDirectPairs lib eig svd vecs advVecs modeIndices weights atol rtol maxNum)

end Modred
