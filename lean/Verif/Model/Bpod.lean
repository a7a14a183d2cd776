import Verif.Model.Pod
import Verif.Model.Hankel

/-!
# Balanced proper orthogonal decomposition (`modred/bpod.py`)

The check for parallel execution (lines 86-87) is not modelled.  Numbers of inputs and outputs are natural
numbers.
-/

namespace Modred

open Matrix

variable {𝕜 : Type*}

/-- Number of elements of `x[-k:]` for a sequence of `n`. -/
def lastCount (k n : Nat) : Nat := if k = 0 then n else min k n

theorem lastCount_le (k n : Nat) : lastCount k n ≤ n := by
  unfold lastCount
  split <;> omega

/-- `x[-k:]` for a list of handles; all handles if there are not more than `k`, and for `k = 0`. -/
def lastVecs {E : Type*} {n : Nat} (x : Fin n → E) (k : Nat) : Fin (lastCount k n) → E :=
  fun i => x ⟨n - lastCount k n + i, by have := lastCount_le k n; omega⟩

/-- `a[:, -k:]`. -/
def lastCols {m : Type*} {n : Nat} (a : Matrix m (Fin n) 𝕜) (k : Nat) : Matrix m (Fin (lastCount k n)) 𝕜 :=
  Matrix.of fun i => lastVecs (a i) k

/-- Rows `r0, ..., r1 - 1` and columns `c0, ..., c1 - 1` of an array, as lists; slices end where the array
ends. -/
def sliceRows {m n : Nat} (a : Matrix (Fin m) (Fin n) 𝕜) (r0 r1 c0 c1 : Nat) : List (List 𝕜) :=
  (((List.ofFn fun i => List.ofFn fun j => a i j).drop r0).take (r1 - r0)).map fun row =>
    (row.drop c0).take (c1 - c0)

/-- The Hankel array from the first column and the last row of chunks (`modred/bpod.py` lines 99-117 and
392-410). -/
def bpodHankel [Zero 𝕜] {ma md k l : Nat} (numInputs numOutputs : Nat)
    (allAdjointFirstDirect : Matrix (Fin ma) (Fin k) 𝕜) (lastAdjointAllDirect : Matrix (Fin l) (Fin md) 𝕜) :
    Except Err (List (List 𝕜)) :=
  if numInputs = 0 ∨ numOutputs = 0 then .error .zeroDivisionError
  else
    let firstList := (List.range (ma / numOutputs)).map fun i =>
      sliceRows allAdjointFirstDirect (i * numOutputs) ((i + 1) * numOutputs) 0 numInputs
    let lastList := (List.range (md / numInputs)).map fun j =>
      sliceRows lastAdjointAllDirect 0 l (j * numInputs) ((j + 1) * numInputs)
    hankelChunks firstList (some lastList)

/-- A list of rows as an array. -/
def ofRows [Zero 𝕜] (m n : Nat) (a : List (List 𝕜)) : Matrix (Fin m) (Fin n) 𝕜 :=
  Matrix.of fun i j => (a.getD i []).getD j 0

variable [RCLike 𝕜]

/-- The named tuple that is returned. -/
structure BpodResult (𝕜 : Type*) (n md ma : Nat) where
  r : Nat
  singVals : Fin r → ℝ
  directModes : Cols 𝕜 n
  adjointModes : Cols 𝕜 n
  directProjCoeffs : Matrix (Fin r) (Fin md) 𝕜
  adjointProjCoeffs : Matrix (Fin r) (Fin ma) 𝕜
  L : Matrix (Fin ma) (Fin r) 𝕜
  R : Matrix (Fin md) (Fin r) 𝕜
  hankel : Matrix (Fin ma) (Fin md) 𝕜

/-- `compute_BPOD_arrays` (`modred/bpod.py` lines 89-150).  If the numbers of vectors are no multiples of
the numbers of inputs and outputs, the Hankel array has a wrong shape, and the linear combinations raise
`ValueError`. -/
noncomputable def bpodArrays {n md ma : Nat} (svd : Matrix (Fin ma) (Fin md) 𝕜 → SvdOut 𝕜 ma md)
    (directVecs : Matrix (Fin n) (Fin md) 𝕜) (adjointVecs : Matrix (Fin n) (Fin ma) 𝕜)
    (numInputs numOutputs : Nat) (directModeIndices adjointModeIndices : Option (List Int))
    (weights : Option (NdArray 𝕜)) (atol rtol : Option ℝ) : Except Err (BpodResult 𝕜 n md ma) :=
  match arraysInit weights with
  | .error e => .error e
  | .ok vecSpace =>
    match ipArray vecSpace adjointVecs (firstCols directVecs numInputs) with
    | .error e => .error e
    | .ok allAdjointFirstDirect =>
      match ipArray vecSpace (lastCols adjointVecs numOutputs) directVecs with
      | .error e => .error e
      | .ok lastAdjointAllDirect =>
        match bpodHankel numInputs numOutputs allAdjointFirstDirect lastAdjointAllDirect with
        | .error e => .error e
        | .ok rows =>
          if shapeOf rows ≠ (ma, md) then .error .valueError
          else
            let hankelArray := ofRows ma md rows
            match utilSvd svd hankelArray atol rtol with
            | .error e => .error e
            | .ok s =>
              let singValsSqrtInv := diagPow (𝕜 := 𝕜) s.S (-0.5)
              match linCombineArrays directVecs (s.V * singValsSqrtInv) directModeIndices with
              | .error e => .error e
              | .ok directModes =>
                match linCombineArrays adjointVecs (s.U * singValsSqrtInv) adjointModeIndices with
                | .error e => .error e
                | .ok adjointModes =>
                  .ok ⟨s.r, s.S, directModes, adjointModes, diagPow (𝕜 := 𝕜) s.S 0.5 * s.Vᴴ,
                    diagPow (𝕜 := 𝕜) s.S 0.5 * s.Uᴴ, s.U, s.V, hankelArray⟩

/-! ### Handles -/

/-- Attributes of `BPODHandles` after `compute_decomp`; the Hankel array is `h` x `w`. -/
structure BpodHandles (𝕜 : Type*) (E : Type*) (md ma h w : Nat) where
  directVecs : Fin md → E
  adjointVecs : Fin ma → E
  hankel : Matrix (Fin h) (Fin w) 𝕜
  r : Nat
  singVals : Fin r → ℝ
  L : Matrix (Fin h) (Fin r) 𝕜
  R : Matrix (Fin w) (Fin r) 𝕜

/-- `BPODHandles.compute_decomp` (`modred/bpod.py` lines 386-419) with `compute_SVD` (lines 312-333).
Inner products with an empty list of handles raise `IndexError`.  The array has only complete chunks. -/
noncomputable def bpodHandlesDecomp {E : Type*} {md ma : Nat} (ip : E → E → 𝕜) (directVecs : Fin md → E)
    (adjointVecs : Fin ma → E) (numInputs numOutputs : Nat)
    (svd : Matrix (Fin (ma / numOutputs * numOutputs)) (Fin (md / numInputs * numInputs)) 𝕜 →
      SvdOut 𝕜 (ma / numOutputs * numOutputs) (md / numInputs * numInputs)) (atol rtol : Option ℝ) :
    Except Err
      (BpodHandles 𝕜 E md ma (ma / numOutputs * numOutputs) (md / numInputs * numInputs)) :=
  if md = 0 ∨ ma = 0 ∨ numInputs = 0 then .error .indexError
  else
    let allAdjointFirstDirect := handlesIp ip adjointVecs (firstEntries directVecs numInputs)
    let lastAdjointAllDirect := handlesIp ip (lastVecs adjointVecs numOutputs) directVecs
    match bpodHankel numInputs numOutputs allAdjointFirstDirect lastAdjointAllDirect with
    | .error e => .error e
    | .ok rows =>
      let hankelArray := ofRows _ _ rows
      match utilSvd svd hankelArray atol rtol with
      | .error e => .error e
      | .ok s => .ok ⟨directVecs, adjointVecs, hankelArray, s.r, s.S, s.U, s.V⟩

/-- Linear combinations of `p` handles with coefficients of `h` handles (`modred/vectorspace.py` lines
883-890 raise `ValueError` if these differ). -/
def linCombineSized {E : Type*} [AddCommMonoid E] [Module 𝕜 E] {p h q : Nat} (numSums : Nat)
    (basis : Fin p → E) (coeff : Matrix (Fin h) (Fin q) 𝕜) (idx : Option (List Int)) : Except Err (Vecs E) :=
  if hp : p = h then handlesLinCombine numSums basis (coeff.submatrix (Fin.cast hp) id) idx
  else
    match pickCols coeff idx with
    | .error e => .error e
    | .ok _ => .error .valueError

variable {E : Type*} {md ma h w : Nat}

/-- `BPODHandles.compute_direct_modes` (`modred/bpod.py` lines 422-444). -/
noncomputable def bpodHandlesDirectModes [AddCommMonoid E] [Module 𝕜 E] (bpod : BpodHandles 𝕜 E md ma h w)
    (modeIndices : List Int) (numModeHandles : Nat) : Except Err (Vecs E) :=
  linCombineSized numModeHandles bpod.directVecs (bpod.R * diagPow (𝕜 := 𝕜) bpod.singVals (-0.5))
    (some modeIndices)

/-- `BPODHandles.compute_adjoint_modes` (`modred/bpod.py` lines 447-469). -/
noncomputable def bpodHandlesAdjointModes [AddCommMonoid E] [Module 𝕜 E] (bpod : BpodHandles 𝕜 E md ma h w)
    (modeIndices : List Int) (numModeHandles : Nat) : Except Err (Vecs E) :=
  linCombineSized numModeHandles bpod.adjointVecs (bpod.L * diagPow (𝕜 := 𝕜) bpod.singVals (-0.5))
    (some modeIndices)

/-- `BPODHandles.compute_direct_proj_coeffs` (`modred/bpod.py` lines 472-484). -/
noncomputable def bpodHandlesDirectProjCoeffs (bpod : BpodHandles 𝕜 E md ma h w) :
    Matrix (Fin bpod.r) (Fin w) 𝕜 :=
  diagPow (𝕜 := 𝕜) bpod.singVals 0.5 * bpod.Rᴴ

/-- `BPODHandles.compute_adjoint_proj_coeffs` (`modred/bpod.py` lines 487-499). -/
noncomputable def bpodHandlesAdjointProjCoeffs (bpod : BpodHandles 𝕜 E md ma h w) :
    Matrix (Fin bpod.r) (Fin h) 𝕜 :=
  diagPow (𝕜 := 𝕜) bpod.singVals 0.5 * bpod.Lᴴ

end Modred
