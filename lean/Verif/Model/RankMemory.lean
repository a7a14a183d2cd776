import Verif.Model.VectorSpace

/-!
# Handles in memory on several processes (`modred/vectors.py`)
-/

namespace Modred

variable {V : Type*}

/-- The attributes `vec` of the handles (`VecHandleInMemory`, `modred/vectors.py` lines 65-80) of one process after its calls of
`put` in `lin_combine`; `sums` are the sum handles.  Every process has handles of its own, so calls by other processes do not
matter. -/
def heldAfter (sums : List Nat) (puts : List (Nat × Option V)) (held : Nat → Option V) : Nat → Option V :=
  puts.foldl (fun held put => Function.update held (sums.getD put.1 0) put.2) held

end Modred
