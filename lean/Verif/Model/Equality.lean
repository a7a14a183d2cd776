import Verif.Model.Arrays

/-!
# Comparison of arrays, handles and vector spaces, and the base class of vectors

`eqK` is `==` of numbers, for which a floating point number may differ from itself.  Classes are numbers.
-/

namespace Modred

variable {K O F : Type*}

/-- A Python object: an array or something else. -/
inductive PyVal (K O : Type*) where
  | array (cls : Nat) (a : NdArray K)
  | other (cls : Nat) (x : O)

/-- `(a == b).all()` for arrays of the same shape. -/
def allEqual (eqK : K → K → Bool) (a b : NdArray K) : Bool :=
  (List.range a.shape.prod).all fun i => eqK (a.data i) (b.data i)

/-- `util.smart_eq` (`modred/util.py` lines 165-174).  Objects of one class are both arrays or both not; `eqO` is
their `==`. -/
def smartEq (eqK : K → K → Bool) (eqO : O → O → Bool) : PyVal K O → PyVal K O → Bool
  | .array c a, .array c' b => if c ≠ c' then false else if a.shape ≠ b.shape then false else allEqual eqK a b
  | .other c x, .other c' y => if c ≠ c' then false else eqO x y
  | _, _ => false

/-- `VecHandleInMemory.__eq__` (`modred/vectors.py` lines 83-86) for handles given by their class and vector. -/
def inMemoryEq (eqK : K → K → Bool) (eqO : O → O → Bool) (h h' : Nat × PyVal K O) : Bool :=
  if h'.1 ≠ h.1 then false else smartEq eqK eqO h.2 h'.2

/-- `np.array_equal` of the weights, `VectorSpaceArrays.__eq__` (`modred/vectorspace.py` lines 56-60) for objects of
the class itself.  `None` is an array without dimensions, which other weights are not. -/
def weightsEq (eqK : K → K → Bool) : Weights K → Weights K → Bool
  | .none, .none => true
  | .d1 n w, .d1 n' w' => n == n' && (List.range n).all fun i => eqK (w i) (w' i)
  | .d2 p q w, .d2 p' q' w' => p == p' && q == q' &&
    (List.range p).all fun i => (List.range q).all fun j => eqK (w i j) (w' i j)
  | _, _ => false

/-- `VectorSpaceArrays.__ne__` (`modred/vectorspace.py` lines 63-64). -/
def weightsNe (eqK : K → K → Bool) (w w' : Weights K) : Bool := !weightsEq eqK w w'

/-- Attributes of an object of the class `VectorSpaceHandles`: `F` are function objects, and `request` is the argument
`max_vecs_per_node`. -/
structure HandleSpace (F : Type*) where
  cls : Nat
  innerProduct : Option F
  verbosity : Int
  request : Option Nat

/-- `VectorSpaceHandles.__eq__` (`modred/vectorspace.py` lines 1069-1073).  Functions are compared by identity. -/
def HandleSpace.eq [DecidableEq F] (a b : HandleSpace F) : Bool :=
  if a.cls ≠ b.cls then false else decide (a.innerProduct = b.innerProduct) && decide (a.verbosity = b.verbosity)

/-- `VectorSpaceHandles.__ne__` (`modred/vectorspace.py` lines 1076-1077). -/
def HandleSpace.ne [DecidableEq F] (a b : HandleSpace F) : Bool := !a.eq b

/-- `Vector.__rmul__` and `Vector.__lmul__` (`modred/vectors.py` lines 216-221), with the multiplication of the
subclass. -/
def vectorRmul {V S : Type*} (mul : V → S → V) (c : S) (v : V) : V := mul v c

/-- `Vector.__sub__` (`modred/vectors.py` lines 224-225), with addition and multiplication of the subclass. -/
def vectorSub {V S : Type*} [One S] [Neg S] (add : V → V → V) (mul : V → S → V) (v w : V) : V :=
  add v (vectorRmul mul (-1) w)

/-- The methods `__init__`, `__add__` and `__mul__` of the class `Vector` itself (`modred/vectors.py` lines
202-213). -/
def vectorBase : Except Err Unit := .error .notImplementedError

end Modred
