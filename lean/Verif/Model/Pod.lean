import Verif.Model.Linalg
import Verif.Model.Arrays
import Verif.Model.HandlesLA
import Mathlib.LinearAlgebra.Matrix.NonsingularInverse

/-!
# Proper orthogonal decomposition (`modred/pod.py`)

The checks for parallel execution (lines 71-72 and 161-162) are not modelled.
-/

namespace Modred

open Matrix

variable {𝕜 : Type*} [RCLike 𝕜]

/-- `np.diag(x ** e)` for real `x`. -/
noncomputable def diagPow {r : Nat} (x : Fin r → ℝ) (e : ℝ) : Matrix (Fin r) (Fin r) 𝕜 :=
  diagonal fun i => ((x i ^ e : ℝ) : 𝕜)

/-- The numerical library for arrays of fixed sizes. -/
structure PodLib (𝕜 : Type*) (n m : Nat) where
  eigh : Matrix (Fin m) (Fin m) 𝕜 → EighOut 𝕜 m
  argsort : (Fin m → ℝ) → Equiv.Perm (Fin m)
  svd : Matrix (Fin n) (Fin m) 𝕜 → SvdOut 𝕜 n m
  /-- `np.linalg.cholesky`; none if it raises `LinAlgError`. -/
  cholesky : Matrix (Fin n) (Fin n) 𝕜 → Option (Matrix (Fin n) (Fin n) 𝕜)

/-- The named tuple that is returned. -/
structure PodResult (𝕜 : Type*) (n m : Nat) where
  r : Nat
  eigvals : Fin r → ℝ
  modes : Cols 𝕜 n
  projCoeffs : Matrix (Fin r) (Fin m) 𝕜
  eigvecs : Matrix (Fin m) (Fin r) 𝕜

/-- `compute_POD_arrays_snaps_method` (`modred/pod.py` lines 74-101). -/
noncomputable def podSnaps {n m : Nat} (lib : PodLib 𝕜 n m) (vecs : Matrix (Fin n) (Fin m) 𝕜)
    (modeIndices : Option (List Int)) (weights : Option (NdArray 𝕜)) (atol rtol : Option ℝ) :
    Except Err (PodResult 𝕜 n m × Matrix (Fin m) (Fin m) 𝕜) :=
  match arraysInit weights with
  | .error e => .error e
  | .ok vecSpace =>
    match symmIpArray vecSpace vecs with
    | .error e => .error e
    | .ok correlationArray =>
      match utilEigh lib.eigh lib.argsort correlationArray atol rtol true with
      | .error e => .error e
      | .ok e =>
        let buildCoeffs := e.V * diagPow e.w (-0.5)
        match linCombineArrays vecs buildCoeffs modeIndices with
        | .error e => .error e
        | .ok modes =>
          let projCoeffs := diagPow e.w 0.5 * e.Vᴴ
          .ok (⟨e.r, e.w, modes, projCoeffs, e.V⟩, correlationArray)

/-- Weights as `compute_POD_arrays_direct_method` takes them: they must be an array, and are not
squeezed. -/
inductive DirectWeights (𝕜 : Type*) where
  | none
  | d1 (n : Nat) (w : Nat → ℝ)
  | d2 (p q : Nat) (w : Nat → Nat → 𝕜)
  | higher

/-- The three branches of `compute_POD_arrays_direct_method` (`modred/pod.py` lines 160-193): modes,
before selection with `mode_indices`, the singular values and the right singular vectors are returned.
Selecting columns before or after multiplication with the inverse of the weights is the same.  For other
numbers of dimensions no branch is taken, and Python raises `UnboundLocalError` (here
`undefinedError`).  One-dimensional weights are real.  Of square arrays of weights of a wrong size, those
that are positive definite are meant; others raise `LinAlgError`. -/
noncomputable def podDirectSvd {n m : Nat} (lib : PodLib 𝕜 n m) (vecs : Matrix (Fin n) (Fin m) 𝕜)
    (weights : DirectWeights 𝕜) (atol rtol : Option ℝ) : Except Err (Svd 𝕜 n m) :=
  match weights with
  | .none => utilSvd lib.svd vecs atol rtol
  | .d1 k w =>
    if k = n then
      let sqrtWeights : Fin n → ℝ := fun i => w i ^ (0.5 : ℝ)
      let vecsWeighted := diagonal (fun i => ((sqrtWeights i : ℝ) : 𝕜)) * vecs
      match utilSvd lib.svd vecsWeighted atol rtol with
      | .error e => .error e
      | .ok s => .ok { s with U := diagPow sqrtWeights (-1) * s.U }
    else .error .valueError
  | .d2 p q w =>
    if p ≠ q then .error .linAlgError
    else if p = n then
      match lib.cholesky (Matrix.of fun i j => w i j) with
      | none => .error .linAlgError
      | some l =>
        let sqrtWeights := lᴴ
        let vecsWeighted := sqrtWeights * vecs
        match utilSvd lib.svd vecsWeighted atol rtol with
        | .error e => .error e
        | .ok s => .ok { s with U := sqrtWeights⁻¹ * s.U }
    else .error .valueError
  | .higher => .error .undefinedError

/-- `compute_POD_arrays_direct_method` (`modred/pod.py` lines 157-202).  `mode_indices` `None` means all
modes. -/
noncomputable def podDirect {n m : Nat} (lib : PodLib 𝕜 n m) (vecs : Matrix (Fin n) (Fin m) 𝕜)
    (modeIndices : Option (List Int)) (weights : DirectWeights 𝕜) (atol rtol : Option ℝ) :
    Except Err (PodResult 𝕜 n m) :=
  match podDirectSvd lib vecs weights atol rtol with
  | .error e => .error e
  | .ok s =>
    match pickCols s.U modeIndices with
    | .error e => .error e
    | .ok modes =>
      let eigvals : Fin s.r → ℝ := fun i => s.S i ^ (2 : ℝ)
      let projCoeffs := diagPow eigvals 0.5 * s.Vᴴ
      .ok ⟨s.r, eigvals, modes, projCoeffs, s.V⟩

/-! ### Handles -/

/-- Attributes of `PODHandles` after `compute_decomp`. -/
structure PodHandles (𝕜 : Type*) (E : Type*) (m : Nat) where
  vecs : Fin m → E
  correlationArray : Matrix (Fin m) (Fin m) 𝕜
  r : Nat
  eigvals : Fin r → ℝ
  eigvecs : Matrix (Fin m) (Fin r) 𝕜

/-- `PODHandles.compute_decomp` (`modred/pod.py` lines 369-393) with `compute_eigendecomp` (lines
345-366).  An empty list of handles raises `IndexError` when the inner products are computed. -/
noncomputable def podHandlesDecomp {E : Type*} {m : Nat} (eigh : Matrix (Fin m) (Fin m) 𝕜 → EighOut 𝕜 m)
    (argsort : (Fin m → ℝ) → Equiv.Perm (Fin m)) (ip : E → E → 𝕜) (vecs : Fin m → E)
    (atol rtol : Option ℝ) : Except Err (PodHandles 𝕜 E m) :=
  if m = 0 then .error .indexError
  else
    let correlationArray := handlesSymmIp ip vecs
    match utilEigh eigh argsort correlationArray atol rtol true with
    | .error e => .error e
    | .ok e => .ok ⟨vecs, correlationArray, e.r, e.w, e.V⟩

/-- `PODHandles.compute_modes` (`modred/pod.py` lines 396-414) with the vectors given to
`compute_decomp`. -/
noncomputable def podHandlesModes {E : Type*} [AddCommMonoid E] [Module 𝕜 E] {m : Nat}
    (pod : PodHandles 𝕜 E m) (modeIndices : List Int) (numModeHandles : Nat) : Except Err (Vecs E) :=
  let buildCoeffs := pod.eigvecs * diagPow (𝕜 := 𝕜) pod.eigvals (-0.5)
  handlesLinCombine numModeHandles pod.vecs buildCoeffs (some modeIndices)

/-- `PODHandles.compute_proj_coeffs` (`modred/pod.py` lines 417-427). -/
noncomputable def podHandlesProjCoeffs {E : Type*} {m : Nat} (pod : PodHandles 𝕜 E m) :
    Matrix (Fin pod.r) (Fin m) 𝕜 :=
  diagPow (𝕜 := 𝕜) pod.eigvals 0.5 * pod.eigvecsᴴ

end Modred
