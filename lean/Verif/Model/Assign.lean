import Mathlib.Algebra.Order.Field.Basic
import Mathlib.Algebra.BigOperators.Group.List.Basic
import Mathlib.Algebra.Order.Ring.Rat

/-!
# Model of `modred/parallel.py`: splitting tasks over workers

Weights are elements of a linearly ordered field `K` instead of floating point numbers.
-/

namespace Modred

variable {α K : Type*}

/-- `np.cumsum`, with an accumulator (used in `modred/parallel.py` lines 224-225). -/
def cumsumFrom [Add K] (acc : K) : List K → List K
  | [] => []
  | w :: ws => (acc + w) :: cumsumFrom (acc + w) ws

/-- `np.cumsum` of a one-dimensional array (`modred/parallel.py` lines 224-225). -/
def cumsum [Zero K] [Add K] (ws : List K) : List K := cumsumFrom 0 ws

/-- `ndarray.argmin()`: the index of the first smallest entry (`modred/parallel.py` line 226).
Simplified: numpy raises on an empty array; here the value is then `0`.
The only caller checks that the array is not empty. -/
def argmin [LinearOrder K] (l : List K) : Nat :=
  l.findIdx fun x => l.all fun y => decide (x ≤ y)

section
variable [Field K] [LinearOrder K]

/-- Body of the loop of `find_assignments` (`modred/parallel.py` lines 210-232).
`remaining` is `num_remaining_workers` and `first` is `first_unassigned_index`.
Python's slice `tasks[first:newMax+1]` is `(tasks.drop first).take (newMax + 1 - first)`. -/
def assignLoop (tasks : List α) (weights : List K) : (remaining first : Nat) → List (List α)
  | 0, _ => []
  | k + 1, first =>
    let rest := weights.drop first
    let workPerWorker := rest.sum / ((k + 1 : Nat) : K)
    if rest.length ≠ 0 then
      let newMax := argmin ((cumsum rest).map fun c => |c - workPerWorker|) + first
      (tasks.drop first).take (newMax + 1 - first) :: assignLoop tasks weights k (newMax + 1)
    else
      [] :: assignLoop tasks weights k first

/-- `find_assignments(tasks, task_weights)` with `numWorkers` MPI workers
(`modred/parallel.py` lines 180-234).  The worker count is a module global in Python. -/
def findAssignments (numWorkers : Nat) (tasks : List α) (taskWeights : Option (List K)) :
    List (List α) :=
  let weights := match taskWeights with
    | none => List.replicate tasks.length 1
    | some ws => ws
  assignLoop tasks weights numWorkers 0

end

/-- `check_for_empty_tasks` (`modred/parallel.py` lines 237-252). -/
def checkForEmptyTasks (assignments : List (List α)) : Bool :=
  assignments.foldl (fun empty a => if a.length = 0 ∧ empty = false then true else empty) false

end Modred
