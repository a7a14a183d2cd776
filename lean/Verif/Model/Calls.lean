import Verif.Model.VectorSpace

/-!
# Model of the calls that `modred/vectorspace.py` makes

The programs of `Verif/Model/VectorSpace.lean` once more, with a record of the calls of the user's
code: each rank keeps, next to its local variables, the list of its calls of `get` and of the inner
product (or of the multiplication by a scalar), in order.  Handles are named by their place in the
list that was given; inner products and multiplications by the array entry they are for.
The operations before the loops, which only serve to measure time, are calls as well
(`ipBurn`, `symmBurn`, `lcBurn`).
-/

namespace Modred

variable {α V K σ μ : Type*}

/-- A call of the user's code. -/
inductive Call where
  /-- `get` of a row handle -/
  | getRow (i : Nat)
  /-- `get` of a column handle -/
  | getCol (j : Nat)
  /-- inner product of row `i` and column `j` -/
  | inner (i j : Nat)
  /-- `get` of a basis handle -/
  | getBasis (i : Nat)
  /-- basis vector `i` times its coefficient for sum `j` -/
  | scale (i j : Nat)
  deriving DecidableEq, Repr

/-- Local variables and the calls made so far. -/
abbrev Logged (σ : Type*) := σ × List Call

/-- Inner products computed by `fill` (`modred/vectorspace.py` lines 450-458, 681-689, 768-777). -/
def fillCalls (s : IPState V K) : List Call :=
  if s.rowVecs.length > 0 then
    (List.range' s.startRow (s.endRow - s.startRow)).flatMap fun rowIndex =>
      s.colVecs.zipIdx.filterMap fun colVec => (s.colIndices[colVec.2]?).map (Call.inner rowIndex)
  else []

/-- `getRows` with its calls (`modred/vectorspace.py` lines 387-399). -/
def getRowsL (rows : List V) (rowTasks : List (List Nat)) (index size : Nat) (rank : Nat)
    (s : Logged (IPState V K)) : Logged (IPState V K) :=
  let b := chunkBounds (rowTasks.getD rank []) index size
  (getRows rows rowTasks index size rank s.1,
    s.2 ++ (pySlice (List.range rows.length) b.1 b.2).map Call.getRow)

/-- `takeCols` with its calls (`modred/vectorspace.py` lines 445-458). -/
def takeColsL (numRows numCols : Nat) (ip : V → V → K) (s : Logged (IPState V K)) (m : IPMsg V K) :
    Logged (IPState V K) :=
  (takeCols numRows numCols ip s.1 m, s.2 ++ match m with
    | .cols vecs indices => fillCalls { s.1 with colVecs := vecs, colIndices := indices }
    | .arr _ => [])

/-- `colPass` with its calls (`modred/vectorspace.py` lines 401-474): `got` are the numbers of the
rank's own columns, which are retrieved in the first pass. -/
def colPassL (p numRows numCols : Nat) (ip : V → V → K) (own : Nat → IPMsg V K)
    (got : Nat → List Nat) : Prog (Logged (IPState V K)) (IPMsg V K) :=
  localRound (fun rank s =>
      takeColsL numRows numCols ip (s.1, s.2 ++ (got rank).map Call.getCol) (own rank)) ::
    List.replicate (p - 1)
      (ringRound p (fun s => packCols s.1) fun _ s m => takeColsL numRows numCols ip s m)

/-- Numbers of the columns in a message. -/
def IPMsg.vecs : IPMsg V K → List V
  | .cols vecs _ => vecs
  | .arr _ => []

/-- The loops of `compute_inner_product_array` with their calls, without the sum over the ranks
(`modred/vectorspace.py` lines 307-476).  Handles are told apart by running the code that chooses
them on their numbers. -/
def ipLoopsL (p maxVecsPerProc : Nat) (ip : V → V → K) (rows cols : List V) :
    Prog (Logged (IPState V K)) (IPMsg V K) :=
  let rowsPerChunk := maxVecsPerProc - 1
  let rowTasks := rangeTasks p 0 rows.length
  let colTasks := rangeTasks p 0 cols.length
  let rowLoops := ceilDivNat (maxLen rowTasks) rowsPerChunk
  let colLoops := ceilDivNat (maxLen colTasks) 1
  (List.range rowLoops).flatMap fun rowIndex =>
    localRound (getRowsL rows rowTasks rowIndex rowsPerChunk) ::
      (List.range colLoops).flatMap fun colIndex =>
        colPassL p rows.length cols.length ip (ownCols cols colTasks colIndex)
          fun rank => (ownCols (K := K) (List.range cols.length) colTasks colIndex rank).vecs

/-- The warning of `compute_inner_product_array`: number of columns and how often each "will be
retrieved", if a warning is printed (`modred/vectorspace.py` lines 327-341). -/
def ipWarning (p maxVecsPerProc numRows numCols : Nat) : Option (Nat × Nat) :=
  let rowLoops := ceilDivNat (maxLen (rangeTasks p 0 numRows)) (maxVecsPerProc - 1)
  if rowLoops > 1 then some (numCols, rowLoops) else none

/-- Calls before the loops (`modred/vectorspace.py` lines 344-357). -/
def ipBurn : List Call := [.getRow 0, .getCol 0, .inner 0 0, .getRow 0, .inner 0 0]

/-- `compute_inner_product_array` after the swap of rows and columns
(`modred/vectorspace.py` lines 307-476): the calls of a rank. -/
def ipCalls [Zero K] (p maxVecsPerProc : Nat) (ip : V → V → K) (rows cols : List V) (rank : Nat) :
    List Call :=
  (exec (ipLoopsL p maxVecsPerProc ip rows cols) (fun r => (ipInit r, ipBurn)) rank).2

/-! ### Symmetric inner products -/

/-- `ownTriangle` with its calls (`modred/vectorspace.py` lines 588-616). -/
def ownTriangleL (n : Nat) (ip : V → V → K) (vecs : List V) (tasksAll : List (List Nat))
    (rank : Nat) (s : Logged (IPState V K)) : Logged (IPState V K) :=
  let tasks := tasksAll.getD rank []
  (ownTriangle n ip vecs tasksAll rank s.1, s.2 ++
    match tasks.head?, tasks.getLast? with
    | some first, some last =>
      (pySlice (List.range vecs.length) first (last + 1)).map Call.getRow ++
      if tasks ≠ List.range' first (last + 1 - first) then []
      else
        (List.range' first (last + 1 - first)).flatMap fun rowIndex =>
          Call.inner rowIndex rowIndex ::
            (List.range' (rowIndex + 1) (last + 1 - (rowIndex + 1))).map (Call.inner rowIndex)
    | _, _ => [])

/-- `exchangeRound` with its calls (`modred/vectorspace.py` lines 623-706). -/
def exchangeRoundL (p n : Nat) (ip : V → V → K) (tasksAll : List (List Nat)) (numActive : Nat)
    (setIndex sendIndex : Nat) : Round (Logged (IPState V K)) (IPMsg V K) :=
  let R : Round (IPState V K) (IPMsg V K) :=
    exchangeRound p n ip tasksAll numActive setIndex sendIndex
  { send := fun rank => (R.send rank).map fun so => ⟨so.dest, so.tag, fun s => so.msg s.1⟩
    recv := R.recv
    upd := fun _ s m => match m with
      | some m => takeColsL n n ip s m
      | none => s
    barrier := R.barrier }

/-- `symmChunk` with its calls (`modred/vectorspace.py` lines 583-795). -/
def symmChunkL (p n maxVecsPerProc : Nat) (ip : V → V → K) (vecs : List V) (startRow : Nat) :
    Prog (Logged (IPState V K)) (IPMsg V K) :=
  let rowsPerChunk := (maxVecsPerProc - 1) * p
  let colsPerChunk := 1 * p
  let endRow := min n (startRow + rowsPerChunk)
  let tasksAll := rangeTasks p startRow endRow
  let numActive := (tasksAll.filter fun t => t ≠ []).length
  localRound (ownTriangleL n ip vecs tasksAll) ::
    ((List.range (ceilDivNat (numActive - 1) 2)).flatMap fun setIndex =>
      (List.range (ceilDivNat (maxLen tasksAll) 1)).map fun sendIndex =>
        exchangeRoundL p n ip tasksAll numActive setIndex sendIndex) ++
    (pyRange endRow n colsPerChunk).flatMap fun startCol =>
      let endCol := min (startCol + colsPerChunk) n
      colPassL p n n ip (rectCols vecs (rangeTasks p startCol endCol))
        fun rank => (rectCols (K := K) (List.range vecs.length) (rangeTasks p startCol endCol)
          rank).vecs

/-- The loops of `compute_symm_inner_product_array` with their calls
(`modred/vectorspace.py` lines 522-795). -/
def symmLoopsL (p maxVecsPerProc : Nat) (ip : V → V → K) (vecs : List V) :
    Prog (Logged (IPState V K)) (IPMsg V K) :=
  (pyRange 0 vecs.length ((maxVecsPerProc - 1) * p)).flatMap fun startRow =>
    symmChunkL p vecs.length maxVecsPerProc ip vecs startRow

/-- The warning of `compute_symm_inner_product_array`: number of vectors and how often each "will be
retrieved", if a warning is printed (`modred/vectorspace.py` lines 535-542). -/
def symmWarning (p maxVecsPerProc n : Nat) : Option (Nat × Nat) :=
  let rowChunks := ceilDivNat n ((maxVecsPerProc - 1) * p)
  if rowChunks > 1 then some (n, rowChunks) else none

/-- Calls before the loops (`modred/vectorspace.py` lines 545-556). -/
def symmBurn : List Call := [.getRow 0, .inner 0 0, .getRow 0, .inner 0 0]

/-- `compute_symm_inner_product_array` (`modred/vectorspace.py` lines 522-795): the calls of a
rank. -/
def symmCalls [Zero K] (p maxVecsPerProc : Nat) (ip : V → V → K) (vecs : List V) (rank : Nat) :
    List Call :=
  (exec (symmLoopsL p maxVecsPerProc ip vecs) (fun r => (ipInit r, symmBurn)) rank).2

/-! ### Linear combinations -/

/-- `takeBasis` with its calls (`modred/vectorspace.py` lines 1032-1047). -/
def takeBasisL [Add V] (mul : V → K → V) (coeff : Nat → Nat → K) (s : Logged (LCState V))
    (m : List V × List Nat) : Logged (LCState V) :=
  (takeBasis mul coeff s.1 m, s.2 ++
    (List.range' s.1.startSum (s.1.endSum - s.1.startSum)).flatMap fun sumIndex =>
      m.1.zipIdx.filterMap fun basisVec => (m.2[basisVec.2]?).map fun i => Call.scale i sumIndex)

/-- The loops of `lin_combine` with their calls (`modred/vectorspace.py` lines 934-1061). -/
def lcProgL [Add V] (p maxVecsPerProc : Nat) (mul : V → K → V) (basis : List V) (numSums : Nat)
    (coeff : Nat → Nat → K) : Prog (Logged (LCState V)) (List V × List Nat) :=
  let sumsPerChunk := maxVecsPerProc - 1
  let basisTasks := rangeTasks p 0 basis.length
  let sumTasks := rangeTasks p 0 numSums
  let basisIters := ceilDivNat (maxLen basisTasks) 1
  let sumIters := ceilDivNat (maxLen sumTasks) sumsPerChunk
  (List.range sumIters).flatMap fun sumIndex =>
    localRound (fun rank s => (startSums sumTasks sumIndex sumsPerChunk rank s.1, s.2)) ::
      ((List.range basisIters).flatMap fun basisIndex =>
        localRound (fun rank s => takeBasisL mul coeff
          (s.1, s.2 ++ (ownBasis (List.range basis.length) basisTasks basisIndex rank).1.map
            Call.getBasis) (ownBasis basis basisTasks basisIndex rank)) ::
          List.replicate (p - 1) (ringRound p (fun s => (s.1.basisVecs, s.1.basisIndices))
            fun _ s m => takeBasisL mul coeff s m)) ++
      [localRound fun _ s => (putSums s.1, s.2)]

/-- The warning of `lin_combine`: number of basis vectors and how often each "will be retrieved", if
a warning is printed (`modred/vectorspace.py` lines 947-961). -/
def lcWarning (p maxVecsPerProc numBases numSums : Nat) : Option (Nat × Nat) :=
  let sumIters := ceilDivNat (maxLen (rangeTasks p 0 numSums)) (maxVecsPerProc - 1)
  if sumIters > 1 then some (numBases, sumIters) else none

/-- Calls before the loops (`modred/vectorspace.py` lines 906-917): the multiplications by 2 there
are not for any sum and are left out. -/
def lcBurn : List Call := [.getBasis 0, .getBasis 0]

/-- `lin_combine` (`modred/vectorspace.py` lines 906-1061): the calls of a rank. -/
def combineCalls [Add V] (p maxVecsPerProc : Nat) (mul : V → K → V) (basis : List V) (numSums : Nat)
    (coeff : Nat → Nat → K) (rank : Nat) : List Call :=
  (exec (lcProgL p maxVecsPerProc mul basis numSums coeff) (fun r => (lcInit r, lcBurn)) rank).2

/-! ### Time estimates -/

/-- Minutes that `compute_inner_product_array` says it "will take at least", from the times of one
`get` and of one inner product in seconds (`modred/vectorspace.py` lines 360-374).  Rows and columns
after the swap.  The denominator is positive (`C12_time_estimate_denominator_positive`). -/
def ipEstimate (l : Limits) (procs nodes numRows numCols : Nat) (getTime ipTime : ℚ) : ℚ :=
  let totalIpTime := numRows * numCols * ipTime / procs
  let vecsPerProc : ℚ := l.perNode * nodes / procs
  let numGets := numRows * numCols / ((vecsPerProc - 2) * procs ^ 2) + numRows / procs
  let totalGetTime := numGets * getTime
  (totalIpTime + totalGetTime) / 60

/-- The same in `compute_symm_inner_product_array` (`modred/vectorspace.py` lines 560-573). -/
def symmEstimate (l : Limits) (procs nodes numVecs : Nat) (getTime ipTime : ℚ) : ℚ :=
  let totalIpTime := numVecs ^ 2 * ipTime / 2 / procs
  let vecsPerProc : ℚ := l.perNode * nodes / procs
  let numGets := numVecs ^ 2 / 2 / ((vecsPerProc - 2) * procs ^ 2) + numVecs / procs / 2
  let totalGetTime := numGets * getTime
  (totalIpTime + totalGetTime) / 60

/-- The same in `lin_combine` (`modred/vectorspace.py` lines 921-933): `addScaleTime` is the time of
one multiplication and one addition. -/
def lcEstimate (l : Limits) (procs nodes numBases numSums : Nat) (getTime addScaleTime : ℚ) : ℚ :=
  let vecsPerWorker : ℚ := l.perNode * nodes / procs
  let numGets := numSums / (procs * (vecsPerWorker - 2)) + numBases / procs
  let numAddScales : ℚ := numSums * numBases / procs
  numGets * getTime / 60 + numAddScales * addScaleTime / 60

end Modred
