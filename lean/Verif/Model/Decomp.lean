import Verif.Model.Text
import Mathlib.Algebra.BigOperators.Group.Finset.Basic
import Mathlib.Algebra.BigOperators.Intervals

/-!
# Saving and loading decompositions

`put_decomp` and `get_decomp` of the classes for handles, in one process.  `Stored` is what a destination
holds; `put_array` and `get_array` are parameters, the defaults are `util.save_array_text` and
`util.load_array_text`.
-/

namespace Modred

/-- Places that arrays are put to, by name; `none` where nothing is. -/
abbrev Places (Stored : Type*) := Nat → Option Stored

/-- `put_array(array, dest)`. -/
def putTo {R Stored : Type*} (put : NpArray R → Except Err Stored) (a : NpArray R) (dest : Nat)
    (p : Places Stored) : Except Err (Places Stored) :=
  match put a with
  | .error e => .error e
  | .ok s => .ok fun i => if i = dest then some s else p i

/-- `get_array(src)`; nothing there is `OSError`. -/
def getFrom {R Stored : Type*} (get : Stored → Except Err (NpArray R)) (src : Nat) (p : Places Stored) :
    Except Err (NpArray R) :=
  match p src with
  | none => .error .osError
  | some s => get s

/-- `np.squeeze`: axes of length one are removed.  An array without rows becomes one-dimensional: it
comes from an empty file, for which `numpy.loadtxt` returns an array of shape (0, 1). -/
def squeeze {α : Type*} : Nd α → Nd α
  | .d0 x => .d0 x
  | .d1 [x] => .d0 x
  | .d1 l => .d1 l
  | .d2 [] _ => .d1 []
  | .d2 [[x]] _ => .d0 x
  | .d2 [row] _ => .d1 row
  | .d2 rows fortran =>
    if rows.all (fun row => row.length == 1) then .d1 (rows.flatMap id) else .d2 rows fortran
  | .higher => .higher

/-- `np.squeeze` on arrays of any type. -/
def squeezeArray {R : Type*} : NpArray R → NpArray R
  | .float a => .float (squeeze a)
  | .complex a => .complex (squeeze a)
  | .int a => .int (squeeze a)

/-- `load_array_text` with the given `is_complex`, as an array in the usual memory order. -/
def loadText {R : Type*} (isComplex : Bool) (file : List (List R)) : Except Err (NpArray R) :=
  match loadArrayText file isComplex with
  | .error e => .error e
  | .ok (.float rows) => .ok (.float (.d2 rows false))
  | .ok (.complex rows) => .ok (.complex (.d2 rows false))

/-- The decomposition of `PODHandles`: eigenvalues and eigenvectors. -/
structure PodSaved (R : Type*) where
  eigvals : NpArray R
  eigvecs : NpArray R

/-- `PODHandles.put_decomp` (`modred/pod.py` lines 290-316): the eigenvectors are put first. -/
def podPutDecomp {R Stored : Type*} (put : NpArray R → Except Err Stored) (d : PodSaved R)
    (valsDest vecsDest : Nat) (p : Places Stored) : Except Err (Places Stored) := do
  let p ← putTo put d.eigvecs vecsDest p
  putTo put d.eigvals valsDest p

/-- `PODHandles.get_decomp` (`modred/pod.py` lines 257-269). -/
def podGetDecomp {R Stored : Type*} (get : Stored → Except Err (NpArray R)) (valsSrc vecsSrc : Nat)
    (p : Places Stored) : Except Err (PodSaved R) := do
  let vals ← getFrom get valsSrc p
  let vecs ← getFrom get vecsSrc p
  return ⟨squeezeArray vals, vecs⟩

/-- The decomposition of `BPODHandles`: singular values, left and right singular vectors. -/
structure BpodSaved (R : Type*) where
  singVals : NpArray R
  left : NpArray R
  right : NpArray R

/-- `BPODHandles.put_decomp` (`modred/bpod.py` lines 251-289). -/
def bpodPutDecomp {R Stored : Type*} (put : NpArray R → Except Err Stored) (d : BpodSaved R)
    (valsDest leftDest rightDest : Nat) (p : Places Stored) : Except Err (Places Stored) := do
  let p ← putTo put d.singVals valsDest p
  let p ← putTo put d.left leftDest p
  putTo put d.right rightDest p

/-- `BPODHandles.get_decomp` (`modred/bpod.py` lines 200-218). -/
def bpodGetDecomp {R Stored : Type*} (get : Stored → Except Err (NpArray R)) (valsSrc leftSrc rightSrc : Nat)
    (p : Places Stored) : Except Err (BpodSaved R) := do
  let vals ← getFrom get valsSrc p
  let left ← getFrom get leftSrc p
  let right ← getFrom get rightSrc p
  return ⟨squeezeArray vals, left, right⟩

/-- The decomposition of `DMDHandles`. -/
structure DmdSaved (R : Type*) where
  eigvals : NpArray R
  right : NpArray R
  left : NpArray R
  corrEigvals : NpArray R
  corrEigvecs : NpArray R

/-- `DMDHandles.put_decomp` (`modred/dmd.py` lines 615-682); `dest 0` to `dest 4` are its arguments. -/
def dmdPutDecomp {R Stored : Type*} (put : NpArray R → Except Err Stored) (d : DmdSaved R)
    (dest : Fin 5 → Nat) (p : Places Stored) : Except Err (Places Stored) := do
  let p ← putTo put d.eigvals (dest 0) p
  let p ← putTo put d.right (dest 1) p
  let p ← putTo put d.left (dest 2) p
  let p ← putTo put d.corrEigvals (dest 3) p
  putTo put d.corrEigvecs (dest 4) p

/-- `DMDHandles.get_decomp` (`modred/dmd.py` lines 539-572). -/
def dmdGetDecomp {R Stored : Type*} (get : Stored → Except Err (NpArray R)) (src : Fin 5 → Nat)
    (p : Places Stored) : Except Err (DmdSaved R) := do
  let eigvals ← getFrom get (src 0) p
  let right ← getFrom get (src 1) p
  let left ← getFrom get (src 2) p
  let corrEigvals ← getFrom get (src 3) p
  let corrEigvecs ← getFrom get (src 4) p
  return ⟨squeezeArray eigvals, right, left, squeezeArray corrEigvals, corrEigvecs⟩

/-- The decomposition of `TLSqrDMDHandles`. -/
structure TlsqrSaved (R : Type*) where
  eigvals : NpArray R
  right : NpArray R
  left : NpArray R
  sumEigvals : NpArray R
  sumEigvecs : NpArray R
  projEigvals : NpArray R
  projEigvecs : NpArray R

/-- `TLSqrDMDHandles.put_decomp` (`modred/dmd.py` lines 2031-2072). -/
def tlsqrPutDecomp {R Stored : Type*} (put : NpArray R → Except Err Stored) (d : TlsqrSaved R)
    (dest : Fin 7 → Nat) (p : Places Stored) : Except Err (Places Stored) := do
  let p ← putTo put d.eigvals (dest 0) p
  let p ← putTo put d.right (dest 1) p
  let p ← putTo put d.left (dest 2) p
  let p ← putTo put d.sumEigvals (dest 3) p
  let p ← putTo put d.sumEigvecs (dest 4) p
  let p ← putTo put d.projEigvals (dest 5) p
  putTo put d.projEigvecs (dest 6) p

/-- `TLSqrDMDHandles.get_decomp` (`modred/dmd.py` lines 1953-1998). -/
def tlsqrGetDecomp {R Stored : Type*} (get : Stored → Except Err (NpArray R)) (src : Fin 7 → Nat)
    (p : Places Stored) : Except Err (TlsqrSaved R) := do
  let eigvals ← getFrom get (src 0) p
  let right ← getFrom get (src 1) p
  let left ← getFrom get (src 2) p
  let sumEigvals ← getFrom get (src 3) p
  let sumEigvecs ← getFrom get (src 4) p
  let projEigvals ← getFrom get (src 5) p
  let projEigvecs ← getFrom get (src 6) p
  return ⟨squeezeArray eigvals, right, left, squeezeArray sumEigvals, sumEigvecs,
    squeezeArray projEigvals, projEigvecs⟩

/-- `np.diag`: the diagonal matrix of a one-dimensional array, the diagonal of a two-dimensional one, and
`ValueError` otherwise. -/
def npDiag {R : Type*} [Zero R] : Nd R → Except Err (Nd R)
  | .d1 l => .ok (.d2 ((List.range l.length).map fun i =>
      (List.range l.length).map fun j => if i = j then l.getD i 0 else 0) false)
  | .d2 rows _ => .ok (.d1 ((List.range (min rows.length (rows.headD []).length)).map fun i =>
      (rows.getD i []).getD i 0))
  | .d0 _ => .error .valueError
  | .higher => .error .valueError

/-- A number-by-number operation on an array. -/
def ndMap {R : Type*} (f : R → R) : Nd R → Nd R
  | .d0 x => .d0 (f x)
  | .d1 l => .d1 (l.map f)
  | .d2 rows fortran => .d2 (rows.map fun row => row.map f) fortran
  | .higher => .higher

/-- `np.dot` of a two-dimensional array with an array of one or two dimensions; `ValueError` if the
sizes do not fit.  Other dimensions do not occur and are `TypeError` here. -/
def npDot {R : Type*} [CommRing R] (a b : Nd R) : Except Err (Nd R) :=
  match a, b with
  | .d2 rows _, .d2 cols _ =>
    if (rows.headD []).length ≠ cols.length then .error .valueError
    else .ok (.d2 (rows.map fun row => (List.range (cols.headD []).length).map fun j =>
      ∑ k ∈ Finset.range cols.length, row.getD k 0 * (cols.getD k []).getD j 0) false)
  | .d2 rows _, .d1 l =>
    if (rows.headD []).length ≠ l.length then .error .valueError
    else .ok (.d1 (rows.map fun row => ∑ k ∈ Finset.range l.length, row.getD k 0 * l.getD k 0))
  | _, _ => .error .typeError

/-- The coefficients of the modes of POD and BPOD, `vecs.dot(np.diag(vals ** -0.5))`
(`modred/pod.py` line 411, `modred/bpod.py` lines 441 and 466), for real arrays; `pow` is the power. -/
def modeCoeffs {R : Type*} [CommRing R] (pow : R → R) (vals vecs : Nd R) : Except Err (Nd R) := do
  let d ← npDiag (ndMap pow vals)
  npDot vecs d

end Modred
