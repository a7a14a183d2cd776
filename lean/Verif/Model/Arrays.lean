import Verif.Model.Basic
import Mathlib.Algebra.Star.Basic
import Mathlib.LinearAlgebra.Matrix.ConjTranspose
import Mathlib.Data.Matrix.Mul

/-!
# Vector space on arrays (`modred/vectorspace.py` lines 11-64)

Data arrays have vectors as columns; they are matrices.  Weights may have any shape; their entries are
listed row by row.
-/

namespace Modred

open Matrix

variable {𝕜 : Type*}

/-- An array of any shape: entry `i` of `data` is entry `i` in row-major order. -/
structure NdArray (𝕜 : Type*) where
  shape : List Nat
  data : Nat → 𝕜

/-- `squeeze`: drops all axes of length one. -/
def NdArray.squeeze (a : NdArray 𝕜) : NdArray 𝕜 := ⟨a.shape.filter (· ≠ 1), a.data⟩

/-- The attribute `weights` after the constructor, by number of dimensions. -/
inductive Weights (𝕜 : Type*) where
  | none
  | d1 (n : Nat) (w : Nat → 𝕜)
  | d2 (p q : Nat) (w : Nat → Nat → 𝕜)

/-- `VectorSpaceArrays.__init__` (`modred/vectorspace.py` lines 19-30). -/
def arraysInit : Option (NdArray 𝕜) → Except Err (Weights 𝕜)
  | none => .ok .none
  | some a =>
    match a.squeeze.shape with
    | [n] => .ok (.d1 n a.squeeze.data)
    | [p, q] => .ok (.d2 p q fun i j => a.squeeze.data (i * q + j))
    | _ => .error .valueError

variable [NonUnitalNonAssocSemiring 𝕜] [StarRing 𝕜]

/-- `compute_inner_product_array` (`modred/vectorspace.py` lines 33-42).  With one-dimensional weights
`vecs1.conj().T * weights` multiplies every column by its weight; a number of weights that differs from
the number of rows of the data raises `ValueError` (weights of length one do not occur after
`squeeze`). -/
def ipArray {n p q : Nat} (ws : Weights 𝕜) (v1 : Matrix (Fin n) (Fin p) 𝕜)
    (v2 : Matrix (Fin n) (Fin q) 𝕜) : Except Err (Matrix (Fin p) (Fin q) 𝕜) :=
  match ws with
  | .none => .ok (v1ᴴ * v2)
  | .d1 k w =>
    if k = n then .ok ((Matrix.of fun i (j : Fin n) => v1ᴴ i j * w j) * v2) else .error .valueError
  | .d2 r c w =>
    if c = n ∧ r = n then .ok (v1ᴴ * ((Matrix.of fun (i j : Fin n) => w i j) * v2))
    else .error .valueError

/-- `compute_symm_inner_product_array` (`modred/vectorspace.py` lines 45-46). -/
def symmIpArray {n p : Nat} (ws : Weights 𝕜) (v : Matrix (Fin n) (Fin p) 𝕜) :
    Except Err (Matrix (Fin p) (Fin p) 𝕜) :=
  ipArray ws v v

/-- A numpy index into an axis of length `n`: negative ones count from the end. -/
def npAxisIndex (n : Nat) (i : Int) : Except Err (Fin n) :=
  if h : 0 ≤ i ∧ i < n then .ok ⟨i.toNat, by omega⟩
  else if h : i < 0 ∧ -(n : Int) ≤ i then .ok ⟨(i + n).toNat, by omega⟩
  else .error .indexError

/-- All indices of a list. -/
def npAxisIndices (n : Nat) : List Int → Except Err (List (Fin n))
  | [] => .ok []
  | i :: is =>
    match npAxisIndex n i with
    | .error e => .error e
    | .ok a =>
      match npAxisIndices n is with
      | .error e => .error e
      | .ok as => .ok (a :: as)

/-- Array with a number of columns that depends on the data. -/
structure Cols (𝕜 : Type*) (n : Nat) where
  k : Nat
  a : Matrix (Fin n) (Fin k) 𝕜

/-- `a[:, idx]`, or `a` itself for `None`. -/
def pickCols {m n : Nat} (a : Matrix (Fin m) (Fin n) 𝕜) : Option (List Int) → Except Err (Cols 𝕜 m)
  | none => .ok ⟨n, a⟩
  | some idx =>
    match npAxisIndices n idx with
    | .error e => .error e
    | .ok l => .ok ⟨l.length, a.submatrix id fun i => l[i]⟩

/-- `lin_combine` (`modred/vectorspace.py` lines 49-54). -/
def linCombineArrays {n p q : Nat} (basis : Matrix (Fin n) (Fin p) 𝕜) (coeff : Matrix (Fin p) (Fin q) 𝕜)
    (idx : Option (List Int)) : Except Err (Cols 𝕜 n) :=
  match pickCols coeff idx with
  | .error e => .error e
  | .ok c => .ok ⟨c.k, basis * c.a⟩

end Modred
