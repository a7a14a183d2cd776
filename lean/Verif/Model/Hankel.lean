import Verif.Model.Basic
import Mathlib.Tactic.TypeStar
import Mathlib.Algebra.Notation.Defs

/-!
# Hankel arrays (`modred/util.py` lines 564-627)

Two-dimensional arrays are lists of rows.
-/

namespace Modred

variable {α : Type*}

/-- `util.Hankel` (`modred/util.py` lines 580-588); `last_row` is an array, already flattened. -/
def hankel [Zero α] (firstCol : List α) (lastRow : Option (List α)) : List (List α) :=
  let lastRow := lastRow.getD (List.replicate firstCol.length 0)
  let uniqueVals := firstCol ++ lastRow.drop 1
  (List.range firstCol.length).map fun a => (List.range lastRow.length).map fun b =>
    uniqueVals.getD (a + b) 0

/-- Number of rows and columns of an array given by its rows. -/
def shapeOf (a : List (List α)) : Nat × Nat := (a.length, (a.headD []).length)

/-- `numpy.hstack(numpy.array(chunks))` for two-dimensional arrays: all chunks must have one shape,
and there must be at least one. -/
def hstack : List (List (List α)) → Except Err (List (List α))
  | [] => .error .valueError
  | c :: cs =>
    if cs.all fun d => shapeOf d == shapeOf c then
      .ok (cs.foldl (fun acc d => List.zipWith (fun x y => x ++ y) acc d) c)
    else .error .valueError

/-- `numpy.vstack`: all arrays must have the same number of columns, and there must be at least
one. -/
def vstack : List (List (List α)) → Except Err (List (List α))
  | [] => .error .valueError
  | c :: cs =>
    if cs.all fun d => (shapeOf d).2 == (shapeOf c).2 then .ok (c ++ cs.flatten)
    else .error .valueError

/-- An array of zeros. -/
def zerosOf [Zero α] (shape : Nat × Nat) : List (List α) :=
  List.replicate shape.1 (List.replicate shape.2 0)

/-- `util.Hankel_chunks` (`modred/util.py` lines 612-627). -/
def hankelChunks [Zero α] (firstColChunks : List (List (List α)))
    (lastRowChunks : Option (List (List (List α)))) : Except Err (List (List α)) :=
  let lastRow : Except Err (List (List (List α))) :=
    match lastRowChunks with
    | some l => .ok l
    | none =>
      match firstColChunks.head? with
      | none => .error .indexError
      | some c => .ok (List.replicate firstColChunks.length (zerosOf (shapeOf c)))
  match lastRow with
  | .error e => .error e
  | .ok lastRow =>
    let uniqueChunks := firstColChunks ++ lastRow.drop 1
    match (List.range firstColChunks.length).mapM (m := Except Err) fun idx =>
        hstack ((uniqueChunks.drop idx).take lastRow.length) with
    | .error e => .error e
    | .ok rows => vstack rows

end Modred
