import Verif.Model.Calls
import Verif.Model.Progress
import Verif.Model.Startup

/-!
# Model of what is printed, and where

Functions of `modred/py2to3.py`, `modred/parallel.py` and `modred/vectorspace.py`.

* Texts are elements of any type; those of the vector space class are `VsMessage`, with the numbers
  in them before they are rounded for printing.
* Names of channels are made of ASCII letters (`upper` of Python knows others).
-/

namespace Modred

variable {τ : Type*}

/-- What one process has written. -/
structure Written (τ : Type*) where
  stdout : List τ
  stderr : List τ

/-- Nothing yet. -/
def Written.nothing : Written τ := ⟨[], []⟩

/-- `print_stdout` (`modred/py2to3.py` lines 18-22), also `print` of Python. -/
def printStdout (msg : τ) (w : Written τ) : Written τ := { w with stdout := w.stdout ++ [msg] }

/-- `print_stderr` (`modred/py2to3.py` lines 25-29). -/
def printStderr (msg : τ) (w : Written τ) : Written τ := { w with stderr := w.stderr ++ [msg] }

/-- `print_msg` (`modred/py2to3.py` lines 32-40). -/
def printMsg (msg : τ) (outputChannel : String) (w : Written τ) : Except Err (Written τ) :=
  if outputChannel.toList.map Char.toUpper = "STDOUT".toList then .ok (printStdout msg w)
  else if outputChannel.toList.map Char.toUpper = "STDERR".toList then .ok (printStderr msg w)
  else .error .valueError

/-- `print_from_rank_zero` (`modred/parallel.py` lines 106-109): the channel is not looked at. -/
def printFromRankZero (s : ParallelState) (msg : τ) (_outputChannel : String) (w : Written τ) :
    Except Err (Written τ) :=
  if s.isRankZero then .ok (printStdout msg w) else .ok w

/-- `VectorSpaceHandles.print_msg` (`modred/vectorspace.py` lines 134-137). -/
def vsPrintMsg (verbosity : Int) (s : ParallelState) (msg : τ) (outputChannel : String)
    (w : Written τ) : Except Err (Written τ) :=
  if verbosity > 0 ∧ s.isRankZero then printMsg msg outputChannel w else .ok w

/-- Texts of the vector space class. -/
inductive VsMessage
  /-- "max_vecs_per_node was not specified. Assuming … vecs" -/
  | assumed (perNode : Nat)
  /-- "max_vecs_per_node too small" -/
  | tooSmall
  /-- "The vecs, of which there are …, will be retrieved … times each" -/
  | again (numVecs times : Nat)
  /-- "will take at least … minutes" -/
  | atLeast (minutes : ℚ)
  /-- "Completed …%" -/
  | completed (percent : ℚ)
  deriving DecidableEq

/-- Several messages, each with its channel. -/
def vsPrintAll (verbosity : Int) (s : ParallelState) (msgs : List (VsMessage × String))
    (w : Written VsMessage) : Except Err (Written VsMessage) :=
  msgs.foldlM (fun w m => vsPrintMsg verbosity s m.1 m.2 w) w

/-- Messages of the constructor (`modred/vectorspace.py` lines 101-120). -/
def constructorMessages (maxVecsPerNode : Option Nat) (procs nodes : Nat) :
    List (VsMessage × String) :=
  (match maxVecsPerNode with
    | none => [(.assumed 10000, "stdout")]
    | some _ => []) ++
  (if ((maxVecsPerNode.getD 10000 : Nat) : ℚ) < 3 * procs / nodes then [(.tooSmall, "stdout")] else [])

/-- Messages of `compute_inner_product_array`, `compute_symm_inner_product_array` and `lin_combine`
(`modred/vectorspace.py` lines 336-341, 371-373, 466-471, 487-488; 537-542, 571-573, 698-703, 786-791,
815-816; 930-932, 956-961, 1051-1055, 1063-1064).  In `lin_combine` the estimate comes before the
warning, in the others after it; the loops come later. -/
def loopMessages (warning : Option (Nat × Nat)) (minutes : ℚ) (warnFirst : Bool)
    (interval prev : ℚ) (clock : Nat → ClockReading) (reports : List ℚ) :
    List (VsMessage × String) :=
  let again := warning.toList.map fun x => (VsMessage.again x.1 x.2, "stdout")
  let atLeast := [(VsMessage.atLeast minutes, "stdout")]
  (if warnFirst then again ++ atLeast else atLeast ++ again) ++
    ((printed interval prev (reports.zipIdx.map fun x => (x.1, clock x.2))).map fun x =>
      (VsMessage.completed x.1, "stderr")) ++
    [(.completed 100, "stderr")]

end Modred
