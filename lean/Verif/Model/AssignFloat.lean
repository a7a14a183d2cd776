import Verif.Model.VectorSpace

/-!
# Model of `find_assignments` and of loop counts in double precision

`Verif/Model/Assign.lean` and `Verif/Model/VectorSpace.lean` compute with exact numbers.  Here `rnd` is the rounding after
each operation of floating point numbers.
-/

namespace Modred

variable {α : Type*} (rnd : ℚ → ℚ)

/-- `np.cumsum` with an accumulator: one addition after the other. -/
def cumsumFromFl (acc : ℚ) : List ℚ → List ℚ
  | [] => []
  | w :: ws => rnd (acc + w) :: cumsumFromFl (rnd (acc + w)) ws

/-- `np.cumsum` of a one-dimensional array (`modred/parallel.py` lines 224-225). -/
def cumsumFl : List ℚ → List ℚ
  | [] => []
  | w :: ws => w :: cumsumFromFl rnd w ws

/-- Python's `sum`: one addition after the other, starting from the integer zero (`modred/parallel.py` line 212). -/
def sumFl (ws : List ℚ) : ℚ := ws.foldl (fun acc w => rnd (acc + w)) 0

/-- Body of the loop of `find_assignments` (`modred/parallel.py` lines 210-232).  The multiplication by `1.` is exact. -/
def assignLoopFl (tasks : List α) (weights : List ℚ) : (remaining first : Nat) → List (List α)
  | 0, _ => []
  | k + 1, first =>
    let rest := weights.drop first
    let workPerWorker := rnd (sumFl rnd rest / ((k + 1 : Nat) : ℚ))
    if rest.length ≠ 0 then
      let newMax := argmin ((cumsumFl rnd rest).map fun c => |rnd (c - workPerWorker)|) + first
      (tasks.drop first).take (newMax + 1 - first) :: assignLoopFl tasks weights k (newMax + 1)
    else
      [] :: assignLoopFl tasks weights k first

/-- `find_assignments(tasks, task_weights)` (`modred/parallel.py` lines 180-234). -/
def findAssignmentsFl (numWorkers : Nat) (tasks : List α) (taskWeights : Option (List ℚ)) : List (List α) :=
  let weights := match taskWeights with
    | none => List.replicate tasks.length 1
    | some ws => ws
  assignLoopFl rnd tasks weights numWorkers 0

/-- `int(np.ceil(a * 1. / b))` for natural numbers (`modred/vectorspace.py` lines 333, 335, 536, 621, 634, 952-955). -/
def ceilDivFl (a b : Nat) : Nat := ⌈rnd (a / b)⌉.toNat

/-- `VectorSpaceHandles.__init__` (`modred/vectorspace.py` lines 93-125). -/
def limitsFl (maxVecsPerNode : Option Nat) (procs nodes : Nat) : Limits :=
  let m := maxVecsPerNode.getD 10000
  if (m : ℚ) < rnd ((3 * procs : Nat) / nodes) then
    ⟨ceilDivFl rnd (3 * procs) nodes, 3⟩
  else
    ⟨m, m * nodes / procs⟩

end Modred
