import Verif.Model.Sanity
import Verif.Model.VectorSpace
import Mathlib.Analysis.Complex.Basic

/-!
# `lin_combine` on vectors in memory (`modred/vectorspace.py`, `modred/vectors.py`)

Vectors are objects, as in `Verif.Model.Sanity`, and handles of the class `VecHandleInMemory` hold references to them.  So it is
visible which objects `+=` changes.  One process, no base vectors and no scale factors; the checks of the coefficients are those of
`linCombine` in `Verif.Model.VectorSpace` and left out here.
-/

namespace Modred

variable {𝕜 E : Type*}

/-- A class of vectors.  `rmul` says if `number * vector` works; `iadd` is `__iadd__`, if there is one. -/
structure VecClass (𝕜 E : Type*) extends VecOps 𝕜 E where
  rmul : Bool
  iadd : Option (Objects E → Nat → Nat → Except Err (Objects E × Nat))

/-- `number * vector`: TypeError without `__rmul__`. -/
def VecClass.rmulObj (C : VecClass 𝕜 E) (c : 𝕜) (o : Objects E) (v : Nat) : Except Err (Objects E × Nat) :=
  if C.rmul then .ok (C.mul o v c) else .error .typeError

/-- The object that `a` refers to after `a += b`: what `__iadd__` returns, or the sum `a + b` without it. -/
def VecClass.plusEq (C : VecClass 𝕜 E) (o : Objects E) (a b : Nat) : Except Err (Objects E × Nat) :=
  match C.iadd with
  | some f => f o a b
  | none => .ok (C.add o a b)

/-- Objects, and the attributes `vec` of handles (`VecHandleInMemory`, `modred/vectors.py` lines 65-80); `none` stands for None. -/
structure HeldObjects (E : Type*) where
  objects : Objects E
  held : Nat → Option Nat

/-- `get` of a `VecHandleInMemory` (`modred/vectors.py` lines 24-40, 72-74).  Simplified: None is returned without exception by the
code, and it is the next operation that raises TypeError. -/
def HeldObjects.get (m : HeldObjects E) (q : Nat) : Except Err Nat :=
  match m.held q with
  | some v => .ok v
  | none => .error .typeError

/-- `vec + 2. * vec` with the vector of the handle `q` (`modred/vectorspace.py` lines 906-907, 912-917). -/
def burnObj (C : VecClass 𝕜 E) (two : 𝕜) (q : Nat) (m : HeldObjects E) : Except Err (HeldObjects E) :=
  (m.get q).bind fun v =>
  (C.rmulObj two m.objects v).bind fun r =>
  .ok { m with objects := (C.add r.1 v r.2).1 }

/-- Body of the innermost loop (`modred/vectorspace.py` lines 1040-1047) for the vector `v` and the sum `k`.  The list `sum_layers`
is a function of the number of the sum. -/
def layerObj (C : VecClass 𝕜 E) (coeff : 𝕜) (v k : Nat) (s : Objects E × (Nat → Option Nat)) :
    Except Err (Objects E × (Nat → Option Nat)) :=
  let r := C.mul s.1 v coeff
  match s.2 k with
  | none => .ok (r.1, Function.update s.2 k (some r.2))
  | some a => (C.plusEq r.1 a r.2).bind fun t => .ok (t.1, Function.update s.2 k (some t.2))

/-- One basis vector, which is retrieved and used in all `n` sums from `start` on (`modred/vectorspace.py` lines 980-1047). -/
def basisObj (C : VecClass 𝕜 E) (basis : List Nat) (coeff : Nat → Nat → 𝕜) (start n : Nat) (held : Nat → Option Nat)
    (s : Objects E × (Nat → Option Nat)) (i : Nat) : Except Err (Objects E × (Nat → Option Nat)) :=
  ((⟨s.1, held⟩ : HeldObjects E).get (basis.getD i 0)).bind fun v =>
    (List.range n).foldlM (fun s k => layerObj C (coeff i (start + k)) v (start + k) s) s

/-- One round of sums (`modred/vectorspace.py` lines 963-1062); `j` is `sum_put_index`. -/
def roundObj (C : VecClass 𝕜 E) (maxVecsPerProc : Nat) (basis sums : List Nat) (coeff : Nat → Nat → 𝕜) (m : HeldObjects E) (j : Nat) :
    Except Err (HeldObjects E) :=
  let start := min (j * (maxVecsPerProc - 1)) sums.length
  let stop := min (start + (maxVecsPerProc - 1)) sums.length
  ((List.range basis.length).foldlM (basisObj C basis coeff start (stop - start) m.held) (m.objects, fun _ => none)).bind fun s =>
    .ok ⟨s.1, (List.range (stop - start)).foldl
      (fun held k => Function.update held (sums.getD (start + k) 0) (s.2 (start + k))) m.held⟩

/-- `lin_combine` (`modred/vectorspace.py` lines 906-1062) in one process with handles in memory; `two` is the number `2.`. -/
def linCombineObj (C : VecClass 𝕜 E) (two : 𝕜) (maxVecsPerProc : Nat) (basis sums : List Nat) (coeff : Nat → Nat → 𝕜)
    (m : HeldObjects E) : Except Err (HeldObjects E) :=
  match basis with
  | [] => .error .indexError
  | q :: _ =>
    (burnObj C two q m).bind fun m =>
    (burnObj C two q m).bind fun m =>
    (List.range (ceilDivNat sums.length (maxVecsPerProc - 1))).foldlM (roundObj C maxVecsPerProc basis sums coeff) m

/-- Numpy arrays of `n` numbers: if the type of the elements is complex, and the elements.  Numbers carry the same flag.  `+=` changes
the array on the left and raises TypeError if complex numbers would have to be stored in a real array. -/
noncomputable def numpyClass (n : Nat) : VecClass (Bool × ℂ) (Bool × (Fin n → ℂ)) where
  mul o v c := o.new ((o.content v).1 || c.1, c.2 • (o.content v).2)
  add o v w := o.new ((o.content v).1 || (o.content w).1, (o.content v).2 + (o.content w).2)
  rmul := true
  iadd := some fun o a b =>
    if (o.content b).1 && !(o.content a).1 then .error .typeError
    else .ok (o.set a ((o.content a).1, (o.content a).2 + (o.content b).2), a)

end Modred
