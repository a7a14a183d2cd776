import Verif.Model.VectorSpace
import Mathlib.Data.Finset.Prod
import Mathlib.Data.Finset.Range

/-!
# Model of the progress messages of `modred/vectorspace.py`

While the loops run, each rank compares the clock with the time of its last message.  If more than
`print_interval` seconds have passed, it computes how much is done and rank zero prints it.  At the
end "Completed 100%" is printed in any case.

* The loops are those of `Verif/Model/VectorSpace.lean`; rounds after which the clock is looked at
  are marked.
* What the clock shows is a parameter.
* Percentages are rational numbers: the division is exact, and the rounding of `'%.1f'` is left out.
* `compute_symm_inner_product_array` is modelled for one process with marks and for any number of
  processes with the states at the checks, because in the exchange of vectors between processes the
  clock is looked at after each row.
-/

namespace Modred

variable {ρ V K σ μ : Type*}

/-- Rounds, each with a mark that says whether the clock is looked at after it. -/
abbrev MarkedProg (σ μ : Type*) := List (Bool × Round σ μ)

/-- Local states of a rank whenever it may look at the clock. -/
def checks (rank : Nat) : MarkedProg σ μ → (Nat → σ) → List σ
  | [], _ => []
  | (mark, R) :: rest, st =>
    if mark then R.step st rank :: checks rank rest (R.step st) else checks rank rest (R.step st)

/-- What the clock shows at the comparison and, if a message is printed, after that. -/
structure ClockReading where
  compared : ℚ
  stored : ℚ

/-- The messages that are printed among those that could be (`modred/vectorspace.py` lines 459-471,
690-703, 778-791, 1048-1055).  `prev` is `prev_print_time`. -/
def printed (interval : ℚ) : ℚ → List (ρ × ClockReading) → List (ρ × ClockReading)
  | _, [] => []
  | prev, c :: rest =>
    if c.2.compared - prev > interval then c :: printed interval c.2.stored rest
    else printed interval prev rest

/-- `VectorSpaceHandles.print_msg` (`modred/vectorspace.py` lines 134-137), for a list of
messages. -/
def printMsgs (verbosity : Int) (rank : Nat) (msgs : List ρ) : List ρ :=
  if verbosity > 0 ∧ rank = 0 then msgs else []

/-- All percentages a rank prints, if it could print `reports`: those in the loops and the 100 at the
end (`modred/vectorspace.py` lines 486-489, 814-817, 1063-1065).
`clock i` is what the clock shows at check number `i`. -/
def progressMessages (verbosity : Int) (interval prev : ℚ) (clock : Nat → ClockReading) (rank : Nat)
    (reports : List ℚ) : List ℚ :=
  printMsgs verbosity rank
    ((printed interval prev (reports.zipIdx.map fun x => (x.1, clock x.2))).map Prod.fst ++ [100])

/-! ### Inner products -/

/-- `(np.abs(IP_array) > 0.).sum()` (`modred/vectorspace.py` line 462). -/
def countNonzero [Zero K] [DecidableEq K] (numRows numCols : Nat) (a : Nat → Nat → K) : Nat :=
  ((Finset.range numRows ×ˢ Finset.range numCols).filter fun x => a x.1 x.2 ≠ 0).card

/-- `percent_completed_IPs` (`modred/vectorspace.py` lines 462-466). -/
def ipPercent [Zero K] [DecidableEq K] (p numRows numCols : Nat) (s : IPState V K) : ℚ :=
  countNonzero numRows numCols s.arr * p / (numCols * numRows) * 100

/-- The loops of `compute_inner_product_array` (`modred/vectorspace.py` lines 307-476), with marks:
the clock is looked at after each pass (line 459). -/
def ipMarked (p maxVecsPerProc : Nat) (ip : V → V → K) (rows cols : List V) :
    MarkedProg (IPState V K) (IPMsg V K) :=
  let rowsPerChunk := maxVecsPerProc - 1
  let rowTasks := rangeTasks p 0 rows.length
  let colTasks := rangeTasks p 0 cols.length
  let rowLoops := ceilDivNat (maxLen rowTasks) rowsPerChunk
  let colLoops := ceilDivNat (maxLen colTasks) 1
  (List.range rowLoops).flatMap fun rowIndex =>
    (false, localRound (getRows rows rowTasks rowIndex rowsPerChunk)) ::
      (List.range colLoops).flatMap fun colIndex =>
        (colPass p rows.length cols.length ip (ownCols cols colTasks colIndex)).map (Prod.mk true)

/-- The percentages a rank could print in `compute_inner_product_array`
(`modred/vectorspace.py` lines 450-471): only if it has rows. -/
def ipReports [Zero K] [DecidableEq K] (p maxVecsPerProc : Nat) (ip : V → V → K)
    (rows cols : List V) (rank : Nat) : List ℚ :=
  ((checks rank (ipMarked p maxVecsPerProc ip rows cols) ipInit).filter
    fun s => decide (s.rowVecs.length > 0)).map (ipPercent p rows.length cols.length)

/-! ### Symmetric inner products -/

/-- `np.sum(np.abs(np.triu(IP_array)) > 0.)` (`modred/vectorspace.py` lines 693-694, 781-782). -/
def countTriu [Zero K] [DecidableEq K] (n : Nat) (a : Nat → Nat → K) : Nat :=
  countNonzero n n fun i j => if i ≤ j then a i j else 0

/-- `percent_completed_IPs` (`modred/vectorspace.py` lines 519, 781-786), in one process. -/
def symmPercent [Zero K] [DecidableEq K] (n : Nat) (s : IPState V K) : ℚ :=
  countTriu n s.arr * 1 / (n * (n + 1) / 2) * 100

/-- The loops of `compute_symm_inner_product_array` in one process
(`modred/vectorspace.py` lines 522-795), with marks: the clock is looked at in lines 690 (never
reached in one process) and 778. -/
def symmMarked (maxVecsPerProc : Nat) (ip : V → V → K) (vecs : List V) :
    MarkedProg (IPState V K) (IPMsg V K) :=
  let n := vecs.length
  (pyRange 0 n ((maxVecsPerProc - 1) * 1)).flatMap fun startRow =>
    let endRow := min n (startRow + (maxVecsPerProc - 1) * 1)
    (false, localRound (ownTriangle n ip vecs (rangeTasks 1 startRow endRow))) ::
      (pyRange endRow n (1 * 1)).flatMap fun startCol =>
        (colPass 1 n n ip (rectCols vecs (rangeTasks 1 startCol (min (startCol + 1 * 1) n)))).map
          (Prod.mk true)

/-- The percentages that could be printed in `compute_symm_inner_product_array` in one process
(`modred/vectorspace.py` lines 768-791). -/
def symmReports [Zero K] [DecidableEq K] (maxVecsPerProc : Nat) (ip : V → V → K) (vecs : List V) :
    List ℚ :=
  ((checks 0 (symmMarked maxVecsPerProc ip vecs) ipInit).filter
    fun s => decide (s.rowVecs.length > 0)).map (symmPercent vecs.length)

/-! ### Symmetric inner products with any number of processes -/

/-- Rounds, each with the local states of a rank whenever it may look at the clock during the round.
These are given for the rank and the states before the round. -/
abbrev WatchedProg (σ μ : Type*) := List ((Nat → (Nat → σ) → List σ) × Round σ μ)

/-- Local states of a rank whenever it may look at the clock. -/
def watched (rank : Nat) : WatchedProg σ μ → (Nat → σ) → List σ
  | [], _ => []
  | (watch, R) :: rest, st => watch rank st ++ watched rank rest (R.step st)

/-- The states after each row of the double loop (`modred/vectorspace.py` lines 681-690). -/
def rowStates (numRows numCols : Nat) (ip : V → V → K) (s : IPState V K) : List (IPState V K) :=
  (List.range (s.endRow - s.startRow)).map fun k =>
    (List.range' s.startRow (k + 1)).foldl (fun s rowIndex =>
      s.colVecs.zipIdx.foldl (fillOne numRows numCols ip rowIndex) s) s

/-- The states in which the clock is looked at during an exchange (`modred/vectorspace.py` lines
676-690): only ranks that have rows, and receive something, do. -/
def exchangeStates (p n : Nat) (ip : V → V → K) (tasksAll : List (List Nat)) (numActive : Nat)
    (setIndex sendIndex : Nat) (rank : Nat) (st : Nat → IPState V K) : List (IPState V K) :=
  match (exchangeRound p n ip tasksAll numActive setIndex sendIndex).received st rank with
  | some (.cols vecs indices) =>
    rowStates n n ip { st rank with colVecs := vecs, colIndices := indices }
  | _ => []

/-- The state in which the clock is looked at in the rectangular part (`modred/vectorspace.py` lines
768-778): after all rows, if there are any. -/
def rectStates (R : Round (IPState V K) (IPMsg V K)) (rank : Nat) (st : Nat → IPState V K) :
    List (IPState V K) :=
  if (R.step st rank).rowVecs.length > 0 then [R.step st rank] else []

/-- The loops of `compute_symm_inner_product_array` (`modred/vectorspace.py` lines 522-795) with the
states in which the clock is looked at. -/
def symmWatched (p maxVecsPerProc : Nat) (ip : V → V → K) (vecs : List V) :
    WatchedProg (IPState V K) (IPMsg V K) :=
  let n := vecs.length
  (pyRange 0 n ((maxVecsPerProc - 1) * p)).flatMap fun startRow =>
    let endRow := min n (startRow + (maxVecsPerProc - 1) * p)
    let tasksAll := rangeTasks p startRow endRow
    let numActive := (tasksAll.filter fun t => t ≠ []).length
    (fun _ _ => [], localRound (ownTriangle n ip vecs tasksAll)) ::
      ((List.range (ceilDivNat (numActive - 1) 2)).flatMap fun setIndex =>
        (List.range (ceilDivNat (maxLen tasksAll) 1)).map fun sendIndex =>
          (exchangeStates p n ip tasksAll numActive setIndex sendIndex,
            exchangeRound p n ip tasksAll numActive setIndex sendIndex)) ++
      (pyRange endRow n (1 * p)).flatMap fun startCol =>
        (colPass p n n ip (rectCols vecs (rangeTasks p startCol (min (startCol + 1 * p) n)))).map
          fun R => (rectStates R, R)

/-- `percent_completed_IPs` (`modred/vectorspace.py` lines 519, 693-698, 781-786). -/
def symmPercentAll [Zero K] [DecidableEq K] (p n : Nat) (s : IPState V K) : ℚ :=
  countTriu n s.arr * p / (n * (n + 1) / 2) * 100

/-- The percentages a rank could print in `compute_symm_inner_product_array`
(`modred/vectorspace.py` lines 690-703 and 778-791). -/
def symmReportsAll [Zero K] [DecidableEq K] (p maxVecsPerProc : Nat) (ip : V → V → K)
    (vecs : List V) (rank : Nat) : List ℚ :=
  (watched rank (symmWatched p maxVecsPerProc ip vecs) ipInit).map (symmPercentAll p vecs.length)

/-! ### Linear combinations -/

/-- The percentages a rank could print in `lin_combine` (`modred/vectorspace.py` lines 963-1055):
after each sum of the round, for each basis vector of each rank. -/
def combineReports (p maxVecsPerProc numBases numSums rank : Nat) : List ℚ :=
  let sumsPerChunk := maxVecsPerProc - 1
  let basisTasks := rangeTasks p 0 numBases
  let sumTasks := rangeTasks p 0 numSums
  let basisIters := ceilDivNat (maxLen basisTasks) 1
  let sumIters := ceilDivNat (maxLen sumTasks) sumsPerChunk
  (List.range sumIters).flatMap fun sumPut =>
    let b := chunkBounds (sumTasks.getD rank []) sumPut sumsPerChunk
    (List.range basisIters).flatMap fun _ =>
      (List.range p).flatMap fun _ =>
        (List.range' b.1 (b.2 - b.1)).map fun (sumIndex : Nat) =>
          (sumIndex : ℚ) * 100 / (sumTasks.getD rank []).length

end Modred
