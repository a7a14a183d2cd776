import Verif.Model.Galerkin
import Verif.Model.Bpod

/-!
# Dynamic mode decomposition (`modred/dmd.py` lines 1-1109)

The checks for parallel execution are not modelled.  For sequential data there is at least one vector.  The
maximal number of eigenvalues is a natural number.  `scipy.linalg.eig` is a parameter for all sizes, also for
arrays without entries.  Eigenvalues zero, whose inverse is infinite in numpy, have the inverse zero here.
Real data with complex eigenvalues are data over the complex numbers.
-/

namespace Modred

open Matrix

variable {𝕜 : Type*} [RCLike 𝕜]

/-- Truncation to `max_num_eigvals` (`modred/dmd.py` lines 144-149 and 790-796). -/
def Eigh.truncate {m : Nat} (e : Eigh 𝕜 m) : Option Nat → Eigh 𝕜 m
  | none => e
  | some k => if k < e.r then ⟨min k e.r, firstEntries e.w k, firstCols e.V k⟩ else e

/-- The same for singular values (`modred/dmd.py` lines 360-366 and 390-396). -/
def Svd.truncate {n m : Nat} (s : Svd 𝕜 n m) : Option Nat → Svd 𝕜 n m
  | none => s
  | some k => if k < s.r then ⟨min k s.r, firstCols s.U k, firstEntries s.S k, firstCols s.V k⟩ else s

/-- The approximating linear map (`modred/dmd.py` lines 152-158, 411-415 and 799-805). -/
def lowOrderMap {m r : Nat} (sqrtInv : Matrix (Fin r) (Fin r) 𝕜) (V : Matrix (Fin m) (Fin r) 𝕜)
    (cross : Matrix (Fin m) (Fin m) 𝕜) : Matrix (Fin r) (Fin r) 𝕜 :=
  sqrtInv * (Vᴴ * (cross * (V * sqrtInv)))

/-- Eigenvalues and eigenvectors of the correlation array, and those of the approximating linear map. -/
structure DmdDecomp (𝕜 : Type*) (m : Nat) where
  r : Nat
  w : Fin r → ℝ
  V : Matrix (Fin m) (Fin r) 𝕜
  eigvals : Fin r → 𝕜
  R : Matrix (Fin r) (Fin r) 𝕜
  L : Matrix (Fin r) (Fin r) 𝕜

/-- The named tuple that is returned. -/
structure DmdResult (𝕜 : Type*) (n m : Nat) where
  decomp : DmdDecomp 𝕜 m
  spectralCoeffs : NdArray ℝ
  exactModes : Cols 𝕜 n
  projModes : Cols 𝕜 n
  adjointModes : Cols 𝕜 n
  projCoeffs : Matrix (Fin decomp.r) (Fin m) 𝕜
  advProjCoeffs : Matrix (Fin decomp.r) (Fin m) 𝕜

/-- `np.abs(L.conj().T.dot(np.diag(w ** 0.5).dot(V[0, :].conj().T)).squeeze())`. -/
noncomputable def spectralCoeffs {m r : Nat} (w : Fin r → ℝ) (V : Matrix (Fin m) (Fin r) 𝕜)
    (L : Matrix (Fin r) (Fin r) 𝕜) (first : Fin m) : NdArray ℝ :=
  NdArray.squeeze ⟨[r], fun i => if h : i < r then
    ‖(Lᴴ *ᵥ (diagPow (𝕜 := 𝕜) w 0.5 *ᵥ fun j => star (V first j))) ⟨i, h⟩‖ else 0⟩

/-- The end of both methods (`modred/dmd.py` lines 164-211 and 421-467): build coefficients, coefficients and
modes. -/
noncomputable def dmdFinish {n m : Nat} (d : DmdDecomp 𝕜 m) (sqrtInv : Matrix (Fin d.r) (Fin d.r) 𝕜)
    (cross : Matrix (Fin m) (Fin m) 𝕜) (vecs advVecs : Matrix (Fin n) (Fin m) 𝕜) (modeIndices : Option (List Int)) :
    Except Err (DmdResult 𝕜 n m) :=
  let buildProj := d.V * (sqrtInv * d.R)
  let buildExact := buildProj * diagonal fun i => (d.eigvals i)⁻¹
  let buildAdjoint := d.V * (sqrtInv * d.L)
  if h : 0 < m then
    let spectral := spectralCoeffs d.w d.V d.L ⟨0, h⟩
    let projCoeffs := d.Lᴴ * (diagPow (𝕜 := 𝕜) d.w 0.5 * d.Vᴴ)
    let advProjCoeffs := d.Lᴴ * (diagPow (𝕜 := 𝕜) d.w (-0.5) * (d.Vᴴ * cross))
    match linCombineArrays advVecs buildExact modeIndices with
    | .error e => .error e
    | .ok exactModes =>
      match linCombineArrays vecs buildProj modeIndices with
      | .error e => .error e
      | .ok projModes =>
        match linCombineArrays vecs buildAdjoint modeIndices with
        | .error e => .error e
        | .ok adjointModes => .ok ⟨d, spectral, exactModes, projModes, adjointModes, projCoeffs, advProjCoeffs⟩
  else .error .indexError

/-- `'left'`. -/
def scaleLeft : List Char := ['l', 'e', 'f', 't']

/-- Both eigendecompositions (`modred/dmd.py` lines 140-162 and 783-811). -/
noncomputable def dmdEigendecomp {m : Nat} (eigh : Matrix (Fin m) (Fin m) 𝕜 → EighOut 𝕜 m)
    (argsort : (Fin m → ℝ) → Equiv.Perm (Fin m)) (eig : ∀ {r : Nat}, Matrix (Fin r) (Fin r) 𝕜 → EigOut 𝕜 r)
    (corr cross : Matrix (Fin m) (Fin m) 𝕜) (atol rtol : Option ℝ) (maxNum : Option Nat) :
    Except Err (DmdDecomp 𝕜 m) :=
  match utilEigh eigh argsort corr atol rtol true with
  | .error e => .error e
  | .ok e =>
    let e := e.truncate maxNum
    match eigBiorthog eig (lowOrderMap (diagPow (𝕜 := 𝕜) e.w (-0.5)) e.V cross) scaleLeft with
    | .error e => .error e
    | .ok (eigvals, R, L) => .ok ⟨e.r, e.w, e.V, eigvals, R, L⟩

section Arrays

variable {n m : Nat} (lib : PodLib 𝕜 n m) (eig : ∀ {r : Nat}, Matrix (Fin r) (Fin r) 𝕜 → EigOut 𝕜 r)

/-- `compute_DMD_arrays_snaps_method` after the correlation arrays (`modred/dmd.py` lines 140-234). -/
noncomputable def dmdSnapsRest (corr cross : Matrix (Fin m) (Fin m) 𝕜) (vecs advVecs : Matrix (Fin n) (Fin m) 𝕜)
    (modeIndices : Option (List Int)) (atol rtol : Option ℝ) (maxNum : Option Nat) : Except Err (DmdResult 𝕜 n m) :=
  match dmdEigendecomp lib.eigh lib.argsort eig corr cross atol rtol maxNum with
  | .error e => .error e
  | .ok d => dmdFinish d (diagPow (𝕜 := 𝕜) d.w (-0.5)) cross vecs advVecs modeIndices

/-- `compute_DMD_arrays_snaps_method` for a sequence of vectors (`modred/dmd.py` lines 107-126 and 140-234). -/
noncomputable def dmdSnapsSeq (vecs : Matrix (Fin n) (Fin (m + 1)) 𝕜) (modeIndices : Option (List Int))
    (weights : Option (NdArray 𝕜)) (atol rtol : Option ℝ) (maxNum : Option Nat) :
    Except Err (DmdResult 𝕜 n m × Matrix (Fin m) (Fin m) 𝕜 × Matrix (Fin m) (Fin m) 𝕜) :=
  match arraysInit weights with
  | .error e => .error e
  | .ok vecSpace =>
    match symmIpArray vecSpace vecs with
    | .error e => .error e
    | .ok expanded =>
      let corr := expanded.submatrix Fin.castSucc Fin.castSucc
      let cross := expanded.submatrix Fin.castSucc Fin.succ
      match dmdSnapsRest lib eig corr cross (vecs.submatrix id Fin.castSucc) (vecs.submatrix id Fin.succ) modeIndices
        atol rtol maxNum with
      | .error e => .error e
      | .ok res => .ok (res, corr, cross)

/-- `compute_DMD_arrays_snaps_method` with advanced vectors (`modred/dmd.py` lines 107-116 and 127-234). -/
noncomputable def dmdSnapsPairs (vecs : Matrix (Fin n) (Fin m) 𝕜) (advVecs : Arr 𝕜)
    (modeIndices : Option (List Int)) (weights : Option (NdArray 𝕜)) (atol rtol : Option ℝ) (maxNum : Option Nat) :
    Except Err (DmdResult 𝕜 n m × Matrix (Fin m) (Fin m) 𝕜 × Matrix (Fin m) (Fin m) 𝕜) :=
  match arraysInit weights with
  | .error e => .error e
  | .ok vecSpace =>
    if h : advVecs.m = n ∧ advVecs.n = m then
      let advVecs := advVecs.a.submatrix (Fin.cast h.1.symm) (Fin.cast h.2.symm)
      match symmIpArray vecSpace vecs with
      | .error e => .error e
      | .ok corr =>
        match ipArray vecSpace vecs advVecs with
        | .error e => .error e
        | .ok cross =>
          match dmdSnapsRest lib eig corr cross vecs advVecs modeIndices atol rtol maxNum with
          | .error e => .error e
          | .ok res => .ok (res, corr, cross)
    else .error .valueError

/-- Whether `VectorSpaceArrays` accepts the weights; arrays of more than two dimensions longer than one are
meant by `higher`. -/
def DirectWeights.accepted : DirectWeights 𝕜 → Bool
  | .none => true
  | .d1 k _ => k != 1
  | .d2 p q _ => !(p == 1 && q == 1)
  | .higher => false

/-- `sqrt_weights`; none if there are no weights (`modred/dmd.py` lines 336-353).  The product with vectors of
another size raises `ValueError`. -/
noncomputable def directSqrtWeights (cholesky : Matrix (Fin n) (Fin n) 𝕜 → Option (Matrix (Fin n) (Fin n) 𝕜))
    (weights : DirectWeights 𝕜) : Except Err (Option (Matrix (Fin n) (Fin n) 𝕜)) :=
  if weights.accepted then
    match weights with
    | .none => .ok none
    | .d1 k w => if k = n then .ok (some (diagonal fun i : Fin n => ((w i ^ (0.5 : ℝ) : ℝ) : 𝕜))) else .error .valueError
    | .d2 p q w =>
      if p ≠ q then .error .linAlgError
      else if p = n then
        match cholesky (Matrix.of fun i j => w i j) with
        | none => .error .linAlgError
        | some l => .ok (some lᴴ)
      else .error .valueError
    | .higher => .error .undefinedError
  else .error .valueError

/-- Weighted data. -/
def weightData {q : Nat} (sqrtWeights : Option (Matrix (Fin n) (Fin n) 𝕜)) (x : Matrix (Fin n) (Fin q) 𝕜) :
    Matrix (Fin n) (Fin q) 𝕜 :=
  match sqrtWeights with
  | none => x
  | some s => s * x

/-- The correlation array after truncation (`modred/dmd.py` lines 374-376 and 404-406). -/
noncomputable def directCorr (s : Svd 𝕜 n m) : Matrix (Fin m) (Fin m) 𝕜 :=
  s.V * (diagonal (fun i => ((s.S i ^ (2 : ℝ) : ℝ) : 𝕜)) * s.Vᴴ)

/-- `compute_DMD_arrays_direct_method` after the weighting (`modred/dmd.py` lines 358-480); `cross` computes the
cross-correlation array from the truncated decomposition. -/
noncomputable def dmdDirectRest (weighted : Matrix (Fin n) (Fin m) 𝕜)
    (cross : Svd 𝕜 n m → Matrix (Fin m) (Fin m) 𝕜) (vecs advVecs : Matrix (Fin n) (Fin m) 𝕜)
    (modeIndices : Option (List Int)) (atol rtol : Option ℝ) (maxNum : Option Nat) : Except Err (DmdResult 𝕜 n m) :=
  match utilSvd lib.svd weighted atol rtol with
  | .error e => .error e
  | .ok s =>
    let s := s.truncate maxNum
    let eigvalsCorr : Fin s.r → ℝ := fun i => s.S i ^ (2 : ℝ)
    let sqrtInv := diagPow (𝕜 := 𝕜) s.S (-1)
    match eigBiorthog eig (lowOrderMap sqrtInv s.V (cross s)) scaleLeft with
    | .error e => .error e
    | .ok (eigvals, R, L) =>
      dmdFinish ⟨s.r, eigvalsCorr, s.V, eigvals, R, L⟩ sqrtInv (cross s) vecs advVecs modeIndices

/-- `compute_DMD_arrays_direct_method` for a sequence of vectors (`modred/dmd.py` lines 326-480). -/
noncomputable def dmdDirectSeq (vecs : Matrix (Fin n) (Fin (m + 1)) 𝕜) (modeIndices : Option (List Int))
    (weights : DirectWeights 𝕜) (atol rtol : Option ℝ) (maxNum : Option Nat) : Except Err (DmdResult 𝕜 n m) :=
  match directSqrtWeights lib.cholesky weights with
  | .error e => .error e
  | .ok sqrtWeights =>
    let vecsWeighted := weightData sqrtWeights vecs
    let first := vecsWeighted.submatrix id Fin.castSucc
    let cross : Svd 𝕜 n m → Matrix (Fin m) (Fin m) 𝕜 := fun s => Matrix.of fun i j =>
      if h : j.val + 1 < m then directCorr s i ⟨j.val + 1, h⟩
      else (firstᴴ *ᵥ fun k => vecsWeighted k (Fin.last m)) i
    dmdDirectRest lib eig first cross (vecs.submatrix id Fin.castSucc) (vecs.submatrix id Fin.succ) modeIndices atol
      rtol maxNum

/-- `compute_DMD_arrays_direct_method` with advanced vectors (`modred/dmd.py` lines 326-480).  Advanced vectors
of another shape raise `ValueError` at one place or another. -/
noncomputable def dmdDirectPairs (vecs : Matrix (Fin n) (Fin m) 𝕜) (advVecs : Arr 𝕜)
    (modeIndices : Option (List Int)) (weights : DirectWeights 𝕜) (atol rtol : Option ℝ) (maxNum : Option Nat) :
    Except Err (DmdResult 𝕜 n m) :=
  match directSqrtWeights lib.cholesky weights with
  | .error e => .error e
  | .ok sqrtWeights =>
    if h : advVecs.m = n ∧ advVecs.n = m then
      let advVecs := advVecs.a.submatrix (Fin.cast h.1.symm) (Fin.cast h.2.symm)
      let vecsWeighted := weightData sqrtWeights vecs
      let advVecsWeighted := weightData sqrtWeights advVecs
      dmdDirectRest lib eig vecsWeighted (fun _ => vecsWeightedᴴ * advVecsWeighted) vecs advVecs modeIndices atol rtol
        maxNum
    else .error .valueError

end Arrays

end Modred
