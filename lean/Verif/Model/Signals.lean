import Verif.Model.Basic
import Mathlib.Algebra.Order.Field.Basic
import Mathlib.Algebra.Order.Group.Abs

/-!
# Loading of signals (`modred/util.py` lines 494-561)

A file is the list of its rows, see `Verif/Model/Text.lean`.
-/

namespace Modred

variable {α : Type*} [Field α] [LinearOrder α]

/-- `util.load_signals` (`modred/util.py` lines 511-521): times and signals. -/
def loadSignals (file : List (List α)) : Except Err (List α × List (List α)) :=
  let numSignals : Int := (file.headD []).length - 1
  if numSignals = 0 then .error .valueError
  else .ok (file.map fun row => row.headD 0, file.map fun row => row.drop 1)

/-- `numpy.allclose(a, b)` for one-dimensional arrays with its default tolerances: arrays are
broadcast against each other, which fails if the lengths differ and none is 1
(used in `modred/util.py` line 556). -/
def allclose (a b : List α) : Except Err Bool :=
  let close : α → α → Bool := fun x y => decide (|x - y| ≤ 1 / 10 ^ 8 + 1 / 10 ^ 5 * |y|)
  if a.length = b.length then .ok ((List.zipWith close a b).all id)
  else
    match a, b with
    | [x], b => .ok (b.all fun y => close x y)
    | a, [y] => .ok (a.all fun x => close x y)
    | _, _ => .error .valueError

/-- The assignment `all_signals[path_num] = signals` (`modred/util.py` line 559) into a place of shape
`numTimes` x `numSignals`, with numpy's broadcasting. -/
def assignSignals (numTimes numSignals : Nat) (signals : List (List α)) :
    Except Err (List (List α)) :=
  let rows := signals.length
  let cols := (signals.headD []).length
  if (rows = numTimes ∨ rows = 1) ∧ (cols = numSignals ∨ cols = 1) then
    .ok ((List.range numTimes).map fun i => (List.range numSignals).map fun j =>
      (signals.getD (if rows = 1 then 0 else i) []).getD (if cols = 1 then 0 else j) 0)
  else .error .valueError

/-- The loop over the files (`modred/util.py` lines 552-559). -/
def loadLoop (timeValues : List α) (numSignals : Nat) :
    List (List (List α)) → Except Err (List (List (List α)))
  | [] => .ok []
  | file :: files =>
    match loadSignals file with
    | .error e => .error e
    | .ok (times, signals) =>
      match allclose times timeValues with
      | .error e => .error e
      | .ok false => .error .valueError
      | .ok true =>
        match assignSignals timeValues.length numSignals signals with
        | .error e => .error e
        | .ok s =>
          match loadLoop timeValues numSignals files with
          | .error e => .error e
          | .ok rest => .ok (s :: rest)

/-- `util.load_multiple_signals` (`modred/util.py` lines 539-561). -/
def loadMultipleSignals (files : List (List (List α))) :
    Except Err (List α × List (List (List α))) :=
  match files with
  | [] => .error .indexError
  | first :: _ =>
    match loadSignals first with
    | .error e => .error e
    | .ok (timeValues, signals) =>
      match loadLoop timeValues (signals.headD []).length files with
      | .error e => .error e
      | .ok all => .ok (timeValues, all)

end Modred
