import Verif.Model.Stages
import Verif.Model.PodObjects

/-!
# Stages of `PODHandles` and `BPODHandles`

The methods of `Verif.Model.PodObjects` as stages for several processes.  Handles are places of the store, and what a
method returns is an attribute.  Simplified: `compute_modes` and similar methods use the handles given to `compute_decomp`.
-/

namespace Modred

open Matrix

variable {𝕜 : Type*} [RCLike 𝕜] {E : Type*}

/-- An array as coefficients of `lin_combine`. -/
def coeffMat {m n : Nat} (a : Matrix (Fin m) (Fin n) 𝕜) : CoeffArray 𝕜 :=
  .mat m n fun i j => if h : i < m ∧ j < n then a ⟨i, h.1⟩ ⟨j, h.2⟩ else 0

variable (lib : PodObjLib 𝕜)

/-! ### Proper orthogonal decomposition -/

/-- What rank 0 calls in `compute_eigendecomp` (`modred/pod.py` lines 364-366). -/
noncomputable def podEigen (atol rtol : Option ℝ) (g : PodObj 𝕜 Nat) : Except Err (PodSized 𝕜) :=
  match g.corr with
  | none => .error .linAlgError
  | some c =>
    match utilEigh lib.eigh lib.argsort c.a atol rtol true with
    | .error e => .error e
    | .ok e => .ok ⟨c.m, e.r, e.w, e.V⟩

/-- `PODHandles.compute_decomp` (`modred/pod.py` lines 387-392). -/
noncomputable def podDecompStages (vecs : List Nat) (atol rtol : Option ℝ) : List (Stage (PodObj 𝕜 Nat) (PodSized 𝕜) E 𝕜) :=
  [.compute fun g => .ok { g with vecs := some vecs },
    .symmInnerProducts vecs fun g c => g.getCorr ⟨_, c⟩,
    .callAndBcast (podEigen lib atol rtol) fun g d => g.getDecomp d]

/-- `build_coeffs` in `compute_modes` (`modred/pod.py` line 410). -/
noncomputable def podBuild (g : PodObj 𝕜 Nat) : Except Err (CoeffArray 𝕜) :=
  match g.decomp with
  | none => .error .typeError
  | some d => .ok (coeffMat (d.eigvecs * diagPow (𝕜 := 𝕜) d.eigvals (-0.5)))

/-- `PODHandles.compute_modes` (`modred/pod.py` lines 408-414). -/
noncomputable def podModesStages (vecs modes : List Nat) (modeIndices : List Int) :
    List (Stage (PodObj 𝕜 Nat) (PodSized 𝕜) E 𝕜) :=
  [.linCombine modes vecs podBuild (some modeIndices)]

/-! ### Balanced proper orthogonal decomposition -/

/-- An object of the class `BPODHandles`, and the local variables `all_adjoint_first_direct` and
`last_adjoint_all_direct`. -/
structure BpodLocal (𝕜 : Type*) where
  self : BpodObj 𝕜 Nat
  first : Option (Arr 𝕜)
  last : Option (Arr 𝕜)

/-- Every rank makes lists of chunks (`modred/bpod.py` lines 399-407).  Simplified: only whether this raises, the lists are made
again in `bpodHankelCall`. -/
def bpodListsCall (numInputs numOutputs : Nat) (g : BpodLocal 𝕜) : Except Err (BpodLocal 𝕜) :=
  if numInputs = 0 ∨ numOutputs = 0 then .error .zeroDivisionError else .ok g

/-- What rank 0 calls: `Hankel_chunks` of the lists of chunks (`modred/bpod.py` lines 412-414). -/
def bpodHankelCall (numInputs numOutputs : Nat) (g : BpodLocal 𝕜) : Except Err (Arr 𝕜 ⊕ BpodSized 𝕜) :=
  match g.first, g.last with
  | some first, some last =>
    match bpodHankel numInputs numOutputs first.a last.a with
    | .error e => .error e
    | .ok rows => .ok (.inl ⟨first.m / numOutputs * numOutputs, last.n / numInputs * numInputs, ofRows _ _ rows⟩)
  | _, _ => .error .typeError

/-- What rank 0 calls in `compute_SVD` (`modred/bpod.py` lines 331-333). -/
noncomputable def bpodSvdCall (atol rtol : Option ℝ) (g : BpodLocal 𝕜) : Except Err (Arr 𝕜 ⊕ BpodSized 𝕜) :=
  match g.self.hankel with
  | none => .error .linAlgError
  | some h =>
    match utilSvd lib.svd h.a atol rtol with
    | .error e => .error e
    | .ok s => .ok (.inr ⟨h.m, h.n, s.r, s.S, s.U, s.V⟩)

/-- What is got from rank 0 becomes an attribute. -/
def BpodLocal.store (g : BpodLocal 𝕜) : Arr 𝕜 ⊕ BpodSized 𝕜 → BpodLocal 𝕜
  | .inl h => { g with self := g.self.getHankel h }
  | .inr d => { g with self := g.self.getDecomp d }

/-- `BPODHandles.compute_decomp` (`modred/bpod.py` lines 386-416). -/
noncomputable def bpodDecompStages (directVecs adjointVecs : List Nat) (numInputs numOutputs : Nat) (atol rtol : Option ℝ) :
    List (Stage (BpodLocal 𝕜) (Arr 𝕜 ⊕ BpodSized 𝕜) E 𝕜) :=
  [.compute fun g => .ok { g with
      self := { g.self with directVecs := some directVecs, adjointVecs := some adjointVecs } },
    .innerProducts adjointVecs (directVecs.take numInputs) fun g a => { g with first := some ⟨_, _, a⟩ },
    .innerProducts (adjointVecs.drop (adjointVecs.length - lastCount numOutputs adjointVecs.length)) directVecs
      fun g a => { g with last := some ⟨_, _, a⟩ },
    .compute (bpodListsCall numInputs numOutputs),
    .callAndBcast (bpodHankelCall numInputs numOutputs) BpodLocal.store,
    .callAndBcast (bpodSvdCall lib atol rtol) BpodLocal.store]

/-- `build_coeffs` in `compute_direct_modes` (`modred/bpod.py` line 440). -/
noncomputable def bpodDirectBuild (g : BpodLocal 𝕜) : Except Err (CoeffArray 𝕜) :=
  match g.self.decomp with
  | none => .error .attributeError
  | some d => .ok (coeffMat (d.R * diagPow (𝕜 := 𝕜) d.singVals (-0.5)))

/-- `build_coeffs` in `compute_adjoint_modes` (`modred/bpod.py` line 465). -/
noncomputable def bpodAdjointBuild (g : BpodLocal 𝕜) : Except Err (CoeffArray 𝕜) :=
  match g.self.decomp with
  | none => .error .attributeError
  | some d => .ok (coeffMat (d.L * diagPow (𝕜 := 𝕜) d.singVals (-0.5)))

/-- `BPODHandles.compute_direct_modes` and `compute_adjoint_modes` (`modred/bpod.py` lines 436-469). -/
noncomputable def bpodModesStages (directVecs adjointVecs directModes adjointModes : List Nat)
    (directIndices adjointIndices : List Int) : List (Stage (BpodLocal 𝕜) (Arr 𝕜 ⊕ BpodSized 𝕜) E 𝕜) :=
  [.linCombine directModes directVecs bpodDirectBuild (some directIndices),
    .linCombine adjointModes adjointVecs bpodAdjointBuild (some adjointIndices)]

end Modred
