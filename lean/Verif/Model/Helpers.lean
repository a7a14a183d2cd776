import Verif.Model.Basic
import Mathlib.Tactic.TypeStar

/-!
# Helpers for blocks of inner products and reductions (`modred/util.py` lines 141-153, 177-192)
-/

namespace Modred

variable {V K A : Type*}

/-- `InnerProductBlock.__call__` (`modred/util.py` lines 177-192).  The array has the type of the first inner product;
`cast first v` is what an entry of an array with the type of `first` is after `v` was assigned to it. -/
def innerProductBlock (ip : V → V → K) (cast : K → K → K) (vecs1 vecs2 : List V) : Except Err (List (List K)) :=
  match vecs1.head?, vecs2.head? with
  | some v, some w => .ok (vecs1.map fun x => vecs2.map fun y => cast (ip v w) (ip x y))
  | _, _ => .error .indexError

/-- An array given by its shape and its entries; the last dimension comes first in shapes and indices. -/
structure ShapedArray (K : Type*) where
  shape : List Nat
  entry : List Nat → K

/-- The length to which numpy brings two arrays along a dimension before it adds them. -/
def sumDim (a b : Nat) : Except Err Nat := if a = b ∨ b = 1 then .ok a else if a = 1 then .ok b else .error .valueError

/-- The shape to which numpy brings two arrays before it adds them. -/
def sumShape : List Nat → List Nat → Except Err (List Nat)
  | [], t => .ok t
  | s, [] => .ok s
  | a :: s, b :: t =>
    match sumShape s t with
    | .error e => .error e
    | .ok u =>
      match sumDim a b with
      | .error e => .error e
      | .ok d => .ok (d :: u)

/-- The index of the entry of an array of the given shape that numpy uses at an index of the sum. -/
def sumIndex : List Nat → List Nat → List Nat
  | a :: s, i :: is => (if a = 1 then 0 else i) :: sumIndex s is
  | _, _ => []

/-- `util.sum_arrays` (`modred/util.py` lines 151-153). -/
def sumArrays [Add K] (a b : ShapedArray K) : Except Err (ShapedArray K) :=
  match sumShape a.shape b.shape with
  | .error e => .error e
  | .ok s => .ok ⟨s, fun i => a.entry (sumIndex a.shape i) + b.entry (sumIndex b.shape i)⟩

/-- `sum_arrays` as the operation of a reduction; `none` if it raised an exception. -/
def sumArraysOp [Add K] (a b : Option (ShapedArray K)) : Option (ShapedArray K) :=
  a.bind fun a => b.bind fun b => (sumArrays a b).toOption

/-- An attribute of an object as `dir` lists it: its name, whether it is a method, and its value or the exception that
`getattr` raises. -/
structure Attribute (A : Type*) where
  name : List Char
  isMethod : Bool
  value : Except Err A

/-- Assignment to a dictionary. -/
def dictSet (d : List (List Char × A)) (k : List Char) (v : A) : List (List Char × A) :=
  if d.any fun p => p.1 == k then d.map fun p => if p.1 == k then (k, v) else p else d ++ [(k, v)]

/-- `util.get_data_members` (`modred/util.py` lines 141-148); `attributes` is what `dir` lists. -/
def getDataMembers : List (Attribute A) → List (List Char × A) → Except Err (List (List Char × A))
  | [], d => .ok d
  | a :: rest, d =>
    match a.value with
    | .error e => .error e
    | .ok v => getDataMembers rest
        (if !(['_', '_'].isPrefixOf a.name) && !a.isMethod then dictSet d a.name v else d)

end Modred
