import Verif.Model.Basic
import Mathlib.Tactic.TypeStar
import Mathlib.Algebra.Order.Field.Rat

/-!
# Text files (`modred/util.py` lines 48-123)

A text file is the list of its rows of floating point numbers.  Printing a number with
`numpy.savetxt`'s 19 digits and reading it again is taken to give the same number.  The delimiter
plays no role then.
-/

namespace Modred

/-- A numpy array by number of dimensions.  Two-dimensional arrays are given by their rows.
`fortran` says that the elements of a row are not next to each other in memory, as in the transpose
of an array with more than one row and column, or in results of `scipy.linalg.eig`. -/
inductive Nd (α : Type*) where
  | d0 (x : α)
  | d1 (l : List α)
  | d2 (rows : List (List α)) (fortran : Bool)
  | higher

/-- An array with its type of numbers.  A complex number is the pair of its real and imaginary
parts. -/
inductive NpArray (R : Type*) where
  | float (a : Nd R)
  | complex (a : Nd (R × R))
  | int (a : Nd Int)

/-- `util.atleast_2d_col` for one-dimensional arrays (`modred/util.py` lines 24-30). -/
def colOf {α : Type*} (l : List α) : List (List α) := l.map fun x => [x]

/-- The two-dimensional array to save, and whether its rows are not contiguous
(`modred/util.py` lines 77-83): one-dimensional arrays become a column, arrays of more than two
dimensions raise `RuntimeError`; `numpy.savetxt` raises `ValueError` for a number. -/
def toSave {α : Type*} : Nd α → Except Err (List (List α) × Bool)
  | .d0 _ => .error .valueError
  | .d1 l => .ok (colOf l, false)
  | .d2 rows fortran => .ok (rows, fortran)
  | .higher => .error .runtimeError

/-- `util.save_array_text` (`modred/util.py` lines 76-89).  `array.view(float)` interleaves real and
imaginary parts of complex numbers, and reinterprets the bits of integers.  In numpy from version 1.23
it raises `ValueError` for complex rows that are not contiguous (older versions lengthen the first
axis instead of the last). -/
def saveArrayText {R : Type*} (floatOfBits : Int → R) :
    NpArray R → Except Err (List (List R))
  | .float a =>
    match toSave a with
    | .error e => .error e
    | .ok (rows, _) => .ok rows
  | .complex a =>
    match toSave a with
    | .error e => .error e
    | .ok (rows, fortran) =>
      if fortran then .error .valueError
      else .ok (rows.map fun row => row.flatMap fun z => [z.1, z.2])
  | .int a =>
    match toSave a with
    | .error e => .error e
    | .ok (rows, _) => .ok (rows.map fun row => row.map floatOfBits)

/-- `row.view(complex)`: pairs of neighbours. -/
def pairUp {R : Type*} : List R → List (R × R)
  | a :: b :: l => (a, b) :: pairUp l
  | _ => []

/-- What `load_array_text` returns: an array of floating point or of complex numbers. -/
inductive Loaded (R : Type*) where
  | float (rows : List (List R))
  | complex (rows : List (List (R × R)))

/-- `util.load_array_text` (`modred/util.py` lines 107-123). -/
def loadArrayText {R : Type*} (file : List (List R)) (isComplex : Bool) : Except Err (Loaded R) :=
  let numCols := (file.headD []).length
  if isComplex && numCols % 2 != 0 then .error .valueError
  else if isComplex then .ok (.complex (file.map pairUp))
  else .ok (.float file)

/-- The number with the bits of a 64-bit integer, in IEEE 754 double precision, as a rational number;
0 for infinity and NaN. -/
def floatOfBits (n : Int) : ℚ :=
  let bits := (n % 2 ^ 64).toNat
  let sign : ℚ := if bits / 2 ^ 63 = 1 then -1 else 1
  let exponent := bits / 2 ^ 52 % 2 ^ 11
  let mantissa : ℚ := (bits % 2 ^ 52 : Nat)
  if exponent = 2 ^ 11 - 1 then 0
  else if exponent = 0 then sign * mantissa / 2 ^ 1074
  else sign * (2 ^ 52 + mantissa) * 2 ^ exponent / 2 ^ 1075

end Modred
