import Verif.Model.Text

/-!
# Lists and file names (`modred/util.py` lines 15-45, 126-162)
-/

namespace Modred

variable {α : Type*}

/-- Python's `s[-k:]` for `k >= 0`; `s[-0:]` is all of `s`. -/
def lastChars (s : List α) (k : Nat) : List α := if k = 0 then s else s.drop (s.length - k)

/-- `util.get_file_list` (`modred/util.py` lines 128-138); `files` is what `os.listdir` returns. -/
def getFileList (files : List (List Char)) (extension : Option (List Char)) : List (List Char) :=
  match extension with
  | none => files
  | some ext => files.foldl (fun filtered f =>
      if lastChars f ext.length = ext then filtered ++ [f] else filtered) []

/-- `util.flatten_list` (`modred/util.py` lines 43-45). -/
def flattenList (l : List (List α)) : List α := l.flatMap fun elem => elem.map fun num => num

/-- `util.sum_lists` (`modred/util.py` lines 156-162). -/
def sumLists [Add α] [Inhabited α] (list1 list2 : List α) : Except Err (List α) :=
  if list1.length = list2.length then
    .ok ((List.range list1.length).map fun i => list1.getD i default + list2.getD i default)
  else .error .assertionError

/-- `util.atleast_2d_row` (`modred/util.py` lines 15-21). -/
def atleast2dRow : Nd α → Nd α
  | .d0 x => .d2 [[x]] false
  | .d1 l => .d2 [l] false
  | a => a

/-- `util.atleast_2d_col` (`modred/util.py` lines 24-30). -/
def atleast2dCol : Nd α → Nd α
  | .d0 x => .d2 [[x]] false
  | .d1 l => .d2 (l.map fun x => [x]) false
  | a => a

end Modred
