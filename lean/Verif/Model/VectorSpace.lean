import Verif.Model.Basic
import Verif.Model.Assign
import Verif.Model.Reductions
import Mathlib.Algebra.Star.Basic
import Mathlib.Algebra.Field.Rat
import Mathlib.Data.Rat.Floor

/-!
# Model of `modred/vectorspace.py`

The parallel loops of `VectorSpaceHandles` as programs of rounds (see `Verif/Model/Spmd.lean`).

* `V` is the type of vector objects.  A list of handles is modelled by the list of the vectors that
  their `get` returns; that a handle returns the same vector each time is part of the model (except
  in `linCombineStore`).
* `K` is the type of scalars.
* Two-dimensional arrays of known shape are functions of two indices.
* Printing and timing are left out (progress messages are in `Verif/Model/Progress.lean`).
  The "burned" first operations are left out too, except that they raise `IndexError` for empty
  lists.
* A round's local work is done when the message arrives; the code does it after the `Wait` and the
  `barrier` of the same round.  Nothing in between depends on the rank's own variables.
* `err` is set where Python would raise `IndexError` or `ValueError` inside the loops.
-/

namespace Modred

variable {α V K σ μ τ ν : Type*}

/-! ### Small Python helpers -/

/-- Python's `l[a:b]` for non-negative `a`, `b`. -/
def pySlice (l : List α) (a b : Nat) : List α := (l.drop a).take (b - a)

/-- `int(np.ceil(a * 1. / b))` for natural numbers, `b > 0`. -/
def ceilDivNat (a b : Nat) : Nat := (a + b - 1) / b

/-- Python's `range(a, b, step)` for natural numbers, `step > 0`. -/
def pyRange (a b step : Nat) : List Nat :=
  (List.range (ceilDivNat (b - a) step)).map fun k => a + k * step

/-- `max([len(tasks) for tasks in all_tasks])`
(`modred/vectorspace.py` lines 327-328, 634-635, 947-948). -/
def maxLen (ls : List (List α)) : Nat := (ls.map List.length).foldr max 0

/-- `parallel.find_assignments(list(range(a, b)))` (e.g. `modred/vectorspace.py` lines 323, 584,
716, 943): no weights given. -/
def rangeTasks (p a b : Nat) : List (List Nat) :=
  findAssignments (K := ℚ) p (List.range' a (b - a)) none

/-- `a` modulo `p` for an integer `a` and positive `p`, as in Python. -/
def pyMod (a : Int) (p : Nat) : Nat := (a % (p : Int)).toNat

/-! ### Limits -/

/-- `max_vecs_per_node` and `max_vecs_per_proc`. -/
structure Limits where
  perNode : Nat
  perProc : Nat
  deriving DecidableEq, Repr

/-- `VectorSpaceHandles.__init__` (`modred/vectorspace.py` lines 93-125); the division `/` is
true division.  Simplified: the limit is a natural number. -/
def limits (maxVecsPerNode : Option Nat) (procs nodes : Nat) : Limits :=
  let m := maxVecsPerNode.getD 10000
  if (m : ℚ) < 3 * procs / nodes then
    ⟨(⌈(3 * procs / nodes : ℚ)⌉).toNat, 3⟩
  else
    ⟨m, m * nodes / procs⟩

/-! ### The ring -/

/-- Everybody passes something to the next rank and takes over what the previous rank passes
(`modred/vectorspace.py` lines 428-446, 741-763, 1012-1033).
`pack` is what is passed, `upd` what is done with what arrives. -/
def ringRound (p : Nat) (pack : σ → μ) (upd : Nat → σ → μ → σ) : Round σ μ where
  send rank := let dest := (rank + 1) % p
    some ⟨dest, rank * (p + 1) + dest, pack⟩
  recv rank := let source := pyMod ((rank : Int) - 1) p
    some ⟨source, source * (p + 1) + rank⟩
  upd rank s m := match m with
    | some m => upd rank s m
    | none => s
  barrier := true

/-- A round that works on a part of the local state and on some kinds of messages only: used to run
`allreduce` on `IP_array` inside a larger program. -/
def Round.embed (get : σ → τ) (set : σ → τ → σ) (inj : ν → μ) (proj : μ → Option ν)
    (R : Round τ ν) : Round σ μ where
  send rank := (R.send rank).map fun so => ⟨so.dest, so.tag, fun s => inj (so.msg (get s))⟩
  recv := R.recv
  upd rank s m := set s (R.upd rank (get s) (m.bind proj))
  barrier := R.barrier

/-! ### Inner products -/

/-- Local variables of the inner product loops. -/
structure IPState (V K : Type*) where
  rowVecs : List V
  startRow : Nat
  endRow : Nat
  colVecs : List V
  colIndices : List Nat
  arr : Nat → Nat → K
  err : Bool

/-- What ranks send each other: column vectors with their indices, or arrays (in `allreduce`). -/
inductive IPMsg (V K : Type*) where
  | cols (vecs : List V) (indices : List Nat)
  | arr (a : Nat → Nat → K)

/-- Start: nothing retrieved, `IP_array` zero (`modred/vectorspace.py` lines 385, 581). -/
def ipInit [Zero K] : Nat → IPState V K := fun _ => ⟨[], 0, 0, [], [], fun _ _ => 0, false⟩

/-- `IP_array[row, col] = value`; `IndexError` outside of the array. -/
def IPState.write (numRows numCols : Nat) (s : IPState V K) (row col : Nat) (value : K) :
    IPState V K :=
  if row < numRows ∧ col < numCols then
    { s with arr := fun i j => if i = row ∧ j = col then value else s.arr i j }
  else { s with err := true }

/-- Body of the innermost loop (`modred/vectorspace.py` lines 453-458, 684-689, 772-777).
`ip` is the inner product followed by numpy's cast to the type of the array. -/
def fillOne (numRows numCols : Nat) (ip : V → V → K) (rowIndex : Nat) (s : IPState V K)
    (colVec : V × Nat) : IPState V K :=
  match s.rowVecs[rowIndex - s.startRow]?, s.colIndices[colVec.2]? with
  | some rowVec, some col => s.write numRows numCols rowIndex col (ip rowVec colVec.1)
  | _, _ => { s with err := true }

/-- The double loop that computes the inner products of the rows and columns at hand
(`modred/vectorspace.py` lines 450-458, 681-689, 768-777).  In lines 681-689 the guard is
`my_num_rows > 0`, which is the same condition. -/
def fill (numRows numCols : Nat) (ip : V → V → K) (s : IPState V K) : IPState V K :=
  if s.rowVecs.length > 0 then
    (List.range' s.startRow (s.endRow - s.startRow)).foldl (fun s rowIndex =>
      s.colVecs.zipIdx.foldl (fillOne numRows numCols ip rowIndex) s) s
  else s

/-- First and last+1 index of chunk number `index` of `size` tasks
(`modred/vectorspace.py` lines 387-394, 402-412, 964-978, 981-992). -/
def chunkBounds (tasks : List Nat) (index size : Nat) : Nat × Nat :=
  match tasks.head?, tasks.getLast? with
  | some first, some last =>
    let start := min (first + index * size) (last + 1)
    (start, min (last + 1) (start + size))
  | _, _ => (0, 0)

/-- Retrieve a chunk of rows (`modred/vectorspace.py` lines 387-399).  For a rank without row tasks
Python leaves the two bounds alone; they are not used then. -/
def getRows (rows : List V) (rowTasks : List (List Nat)) (index size : Nat) (rank : Nat)
    (s : IPState V K) : IPState V K :=
  let b := chunkBounds (rowTasks.getD rank []) index size
  { s with rowVecs := pySlice rows b.1 b.2, startRow := b.1, endRow := b.2 }

/-- Take over columns and use them (`modred/vectorspace.py` lines 445-458). -/
def takeCols (numRows numCols : Nat) (ip : V → V → K) (s : IPState V K) (m : IPMsg V K) :
    IPState V K :=
  match m with
  | .cols vecs indices => fill numRows numCols ip { s with colVecs := vecs, colIndices := indices }
  | .arr _ => { s with err := true }

/-- `(col_vecs, col_indices)` (`modred/vectorspace.py` line 438). -/
def packCols (s : IPState V K) : IPMsg V K := .cols s.colVecs s.colIndices

/-- The rank's own columns for one pass of the column loop
(`modred/vectorspace.py` lines 402-417, 423-425). -/
def ownCols (cols : List V) (colTasks : List (List Nat)) (index : Nat) (rank : Nat) : IPMsg V K :=
  let b := chunkBounds (colTasks.getD rank []) index 1
  .cols (pySlice cols b.1 b.2) (List.range' b.1 (b.2 - b.1))

/-- One pass of the column loop: own columns first, then `p - 1` passes around the ring
(`modred/vectorspace.py` lines 401-474). -/
def colPass (p numRows numCols : Nat) (ip : V → V → K) (own : Nat → IPMsg V K) :
    Prog (IPState V K) (IPMsg V K) :=
  localRound (fun rank s => takeCols numRows numCols ip s (own rank)) ::
    List.replicate (p - 1) (ringRound p packCols fun _ s m => takeCols numRows numCols ip s m)

/-- Sum of the arrays of all ranks, on all ranks (`modred/vectorspace.py` lines 480-481, 798-799).
Simplified: the tag of `reductions.py` is the parameter `tag`. -/
def allreduceArr [Add K] (p tag : Nat) : Prog (IPState V K) (IPMsg V K) :=
  if p > 1 then
    (allreduceProg p tag fun (a b : Nat → Nat → K) i j => a i j + b i j).map
      (Round.embed IPState.arr (fun s a => { s with arr := a }) IPMsg.arr fun m => match m with
        | .arr a => some a
        | .cols _ _ => none)
  else []

/-- The loops of `compute_inner_product_array` (`modred/vectorspace.py` lines 307-481), after the
swap of rows and columns. -/
def ipProg [Add K] (p tag maxVecsPerProc : Nat) (ip : V → V → K) (rows cols : List V) :
    Prog (IPState V K) (IPMsg V K) :=
  let rowsPerChunk := maxVecsPerProc - 1
  let rowTasks := rangeTasks p 0 rows.length
  let colTasks := rangeTasks p 0 cols.length
  let rowLoops := ceilDivNat (maxLen rowTasks) rowsPerChunk
  let colLoops := ceilDivNat (maxLen colTasks) 1
  ((List.range rowLoops).flatMap fun rowIndex =>
    localRound (getRows rows rowTasks rowIndex rowsPerChunk) ::
      (List.range colLoops).flatMap fun colIndex =>
        colPass p rows.length cols.length ip (ownCols cols colTasks colIndex)) ++
  allreduceArr p tag

/-- A program together with what a rank returns at its end. -/
structure Job (σ μ ρ : Type*) where
  prog : Prog σ μ
  ret : σ → ρ

/-- `compute_inner_product_array` (`modred/vectorspace.py` lines 223-492).
`ip` is `none` if no inner product was given.  `cast first v` is `v` converted to the type of
`first`: `IP_array` has the type of the first inner product (lines 358, 385).
An empty list of handles raises `IndexError` in line 344 or 345. -/
def computeInnerProductArray [Add K] [Star K] (p tag maxVecsPerProc : Nat)
    (ip : Option (V → V → K)) (cast : K → K → K) (rows cols : List V) :
    Except Err (Job (IPState V K) (IPMsg V K) (Nat → Nat → K)) :=
  match ip with
  | none => .error .runtimeError
  | some ip =>
    let transpose := decide (rows.length > cols.length)
    let rows' := if transpose then cols else rows
    let cols' := if transpose then rows else cols
    match rows'.head?, cols'.head? with
    | some row, some col =>
      .ok ⟨ipProg p tag maxVecsPerProc (fun v w => cast (ip row col) (ip v w)) rows' cols',
        fun s => if transpose then fun i j => star (s.arr j i) else s.arr⟩
    | _, _ => .error .indexError

/-! ### Symmetric inner products -/

/-- Retrieve the rows of a chunk and fill the rank's own triangle
(`modred/vectorspace.py` lines 588-616). -/
def ownTriangle (n : Nat) (ip : V → V → K) (vecs : List V) (tasksAll : List (List Nat))
    (rank : Nat) (s : IPState V K) : IPState V K :=
  let tasks := tasksAll.getD rank []
  match tasks.head?, tasks.getLast? with
  | some first, some last =>
    let s := { s with
      rowVecs := pySlice vecs first (last + 1), startRow := first, endRow := last + 1 }
    if tasks ≠ List.range' first (last + 1 - first) then { s with err := true }
    else
      (List.range' first (last + 1 - first)).foldl (fun s rowIndex =>
        let s := match s.rowVecs[rowIndex - first]? with
          | some v => s.write n n rowIndex rowIndex (ip v v)
          | none => { s with err := true }
        (List.range' (rowIndex + 1) (last + 1 - (rowIndex + 1))).foldl (fun s colIndex =>
          match s.rowVecs[rowIndex - first]?, s.rowVecs[colIndex - first]? with
          | some v, some w => s.write n n rowIndex colIndex (ip v w)
          | _, _ => { s with err := true }) s) s
  | _, _ => { s with rowVecs := [], startRow := 0, endRow := 0 }

/-- Exchange of one row vector between active ranks `setIndex + 1` apart
(`modred/vectorspace.py` lines 623-706). -/
def exchangeRound (p n : Nat) (ip : V → V → K) (tasksAll : List (List Nat)) (numActive : Nat)
    (setIndex sendIndex : Nat) : Round (IPState V K) (IPMsg V K) where
  send rank :=
    let tasks := tasksAll.getD rank []
    if tasks.length > 0 then
      let dest := (rank + setIndex + 1) % numActive
      some ⟨dest, rank * (p + 1) + dest, fun s =>
        .cols (pySlice s.rowVecs sendIndex (min (sendIndex + 1) tasks.length))
          (pySlice tasks sendIndex (min (sendIndex + 1) tasks.length))⟩
    else none
  recv rank :=
    let tasks := tasksAll.getD rank []
    if tasks.length > 0 then
      let source := pyMod ((rank : Int) - setIndex - 1) numActive
      some ⟨source, source * (p + 1) + rank⟩
    else none
  upd _ s m := match m with
    | some m => takeCols n n ip s m
    | none => s
  barrier := true

/-- The rank's own columns for one pass over the rectangle next to a chunk
(`modred/vectorspace.py` lines 716-726, 732-738). -/
def rectCols (vecs : List V) (colTasks : List (List Nat)) (rank : Nat) : IPMsg V K :=
  let tasks := colTasks.getD rank []
  match tasks.head?, tasks.getLast? with
  | some first, some last =>
    .cols (pySlice vecs first (last + 1)) (List.range' first (last + 1 - first))
  | _, _ => .cols [] []

/-- The work for one chunk of rows (`modred/vectorspace.py` lines 583-795). -/
def symmChunk (p n maxVecsPerProc : Nat) (ip : V → V → K) (vecs : List V) (startRow : Nat) :
    Prog (IPState V K) (IPMsg V K) :=
  let rowsPerChunk := (maxVecsPerProc - 1) * p
  let colsPerChunk := 1 * p
  let endRow := min n (startRow + rowsPerChunk)
  let tasksAll := rangeTasks p startRow endRow
  let numActive := (tasksAll.filter fun t => t ≠ []).length
  localRound (ownTriangle n ip vecs tasksAll) ::
    ((List.range (ceilDivNat (numActive - 1) 2)).flatMap fun setIndex =>
      (List.range (ceilDivNat (maxLen tasksAll) 1)).map fun sendIndex =>
        exchangeRound p n ip tasksAll numActive setIndex sendIndex) ++
    (pyRange endRow n colsPerChunk).flatMap fun startCol =>
      let endCol := min (startCol + colsPerChunk) n
      colPass p n n ip (rectCols vecs (rangeTasks p startCol endCol))

/-- The loops of `compute_symm_inner_product_array` (`modred/vectorspace.py` lines 522-799). -/
def symmProg [Add K] (p tag maxVecsPerProc : Nat) (ip : V → V → K) (vecs : List V) :
    Prog (IPState V K) (IPMsg V K) :=
  ((pyRange 0 vecs.length ((maxVecsPerProc - 1) * p)).flatMap fun startRow =>
    symmChunk p vecs.length maxVecsPerProc ip vecs startRow) ++
  allreduceArr p tag

/-- Copy values from below the diagonal where the upper triangle has zeros, then symmetrize
(`modred/vectorspace.py` lines 801-812). -/
def symmetrize [Add K] [Mul K] [Zero K] [One K] [Star K] [DecidableEq K] (a : Nat → Nat → K) :
    Nat → Nat → K :=
  let mask := fun i j => if a i j = 0 ∧ star (a j i) ≠ 0 then (1 : K) else 0
  let triu := fun (k : Nat) (b : Nat → Nat → K) i j => if i + k ≤ j then b i j else 0
  let a2 := fun i j => a i j + triu 1 (fun i j => star (a j i)) i j * mask i j
  fun i j => triu 0 a2 i j + star (triu 1 a2 j i)

/-- `compute_symm_inner_product_array` (`modred/vectorspace.py` lines 495-821). -/
def computeSymmInnerProductArray [Add K] [Mul K] [Zero K] [One K] [Star K] [DecidableEq K]
    (p tag maxVecsPerProc : Nat) (ip : Option (V → V → K)) (cast : K → K → K) (vecs : List V) :
    Except Err (Job (IPState V K) (IPMsg V K) (Nat → Nat → K)) :=
  match ip with
  | none => .error .runtimeError
  | some ip =>
    match vecs.head? with
    | some v0 =>
      .ok ⟨symmProg p tag maxVecsPerProc (fun v w => cast (ip v0 v0) (ip v w)) vecs,
        fun s => symmetrize s.arr⟩
    | none => .error .indexError

/-! ### Linear combinations -/

/-- Local variables of `lin_combine`.  `puts` lists the calls of `put` made by the rank, as index
of the sum handle and vector; `none` stands for Python's `None`. -/
structure LCState (V : Type*) where
  sumLayers : List (Option V)
  startSum : Nat
  endSum : Nat
  basisVecs : List V
  basisIndices : List Nat
  puts : List (Nat × Option V)
  err : Bool

/-- Start of `lin_combine`. -/
def lcInit : Nat → LCState V := fun _ => ⟨[], 0, 0, [], [], [], false⟩

/-- Bounds of the sums of this round and empty layers (`modred/vectorspace.py` lines 964-978). -/
def startSums (sumTasks : List (List Nat)) (index size : Nat) (rank : Nat) (s : LCState V) :
    LCState V :=
  let b := chunkBounds (sumTasks.getD rank []) index size
  { s with sumLayers := List.replicate (b.2 - b.1) none, startSum := b.1, endSum := b.2 }

/-- Body of the innermost loop (`modred/vectorspace.py` lines 1040-1047).
`mul v c` is `basis_vec * coeff`.  Simplified: `+=` on the stored layer is addition. -/
def addLayer [Add V] (mul : V → K → V) (coeff : Nat → Nat → K) (sumIndex : Nat) (s : LCState V)
    (basisVec : V × Nat) : LCState V :=
  match s.basisIndices[basisVec.2]?, s.sumLayers[sumIndex - s.startSum]? with
  | some i, some layer =>
    let sumLayer := mul basisVec.1 (coeff i sumIndex)
    let new := match layer with
      | none => sumLayer
      | some old => old + sumLayer
    { s with sumLayers := s.sumLayers.set (sumIndex - s.startSum) (some new) }
  | _, _ => { s with err := true }

/-- The double loop over sums and basis vectors at hand (`modred/vectorspace.py` lines 1038-1047). -/
def addLayers [Add V] (mul : V → K → V) (coeff : Nat → Nat → K) (s : LCState V) : LCState V :=
  (List.range' s.startSum (s.endSum - s.startSum)).foldl (fun s sumIndex =>
    s.basisVecs.zipIdx.foldl (addLayer mul coeff sumIndex) s) s

/-- Take over basis vectors and use them (`modred/vectorspace.py` lines 1032-1047). -/
def takeBasis [Add V] (mul : V → K → V) (coeff : Nat → Nat → K) (s : LCState V)
    (m : List V × List Nat) : LCState V :=
  addLayers mul coeff { s with basisVecs := m.1, basisIndices := m.2 }

/-- The rank's own basis vectors (`modred/vectorspace.py` lines 981-992, 1003-1009). -/
def ownBasis (basis : List V) (basisTasks : List (List Nat)) (index : Nat) (rank : Nat) :
    List V × List Nat :=
  let b := chunkBounds (basisTasks.getD rank []) index 1
  (pySlice basis b.1 b.2, List.range' b.1 (b.2 - b.1))

/-- Put the finished sums (`modred/vectorspace.py` lines 1058-1061). -/
def putSums (s : LCState V) : LCState V :=
  (List.range' s.startSum (s.endSum - s.startSum)).foldl (fun s sumIndex =>
    match s.sumLayers[sumIndex - s.startSum]? with
    | some layer => { s with puts := s.puts ++ [(sumIndex, layer)] }
    | none => { s with err := true }) s

/-- The loops of `lin_combine` (`modred/vectorspace.py` lines 934-1061). -/
def lcProg [Add V] (p maxVecsPerProc : Nat) (mul : V → K → V) (basis : List V) (numSums : Nat)
    (coeff : Nat → Nat → K) : Prog (LCState V) (List V × List Nat) :=
  let sumsPerChunk := maxVecsPerProc - 1
  let basisTasks := rangeTasks p 0 basis.length
  let sumTasks := rangeTasks p 0 numSums
  let basisIters := ceilDivNat (maxLen basisTasks) 1
  let sumIters := ceilDivNat (maxLen sumTasks) sumsPerChunk
  (List.range sumIters).flatMap fun sumIndex =>
    localRound (startSums sumTasks sumIndex sumsPerChunk) ::
      ((List.range basisIters).flatMap fun basisIndex =>
        localRound (fun rank s => takeBasis mul coeff s (ownBasis basis basisTasks basisIndex rank)) ::
          List.replicate (p - 1) (ringRound p (fun s => (s.basisVecs, s.basisIndices))
            fun _ s m => takeBasis mul coeff s m)) ++
      [localRound fun _ s => putSums s]

/-- Coefficients as given by the user, after `np.array`.  Arrays with more than two dimensions are
not modelled. -/
inductive CoeffArray (K : Type*) where
  | scalar (c : K)
  | vec (c : List K)
  | mat (rows cols : Nat) (c : Nat → Nat → K)

/-- A two-dimensional array. -/
structure Arr2 (K : Type*) where
  rows : Nat
  cols : Nat
  e : Nat → Nat → K

/-- Coefficients as a two-dimensional array (`modred/vectorspace.py` lines 873-885, with
`atleast_2d_row`, `atleast_2d_col` from `modred/util.py` lines 15-30). -/
def coeff2d [Zero K] (numBases : Nat) : CoeffArray K → Arr2 K
  | .mat rows cols c => ⟨rows, cols, c⟩
  | .scalar c => ⟨1, 1, fun _ _ => c⟩
  | .vec c =>
    if numBases = 1 then ⟨1, c.length, fun _ j => c.getD j 0⟩
    else ⟨c.length, 1, fun i _ => c.getD i 0⟩

/-- A column index as numpy reads it: negative indices count from the end. -/
def npIndex (n : Nat) (i : Int) : Option Nat :=
  if 0 ≤ i ∧ i < n then some i.toNat
  else if i < 0 ∧ -(n : Int) ≤ i then some (i + n).toNat
  else none

/-- `coeff_array[:, indices]` (`modred/vectorspace.py` lines 891-893); `IndexError` for an index out
of bounds.  A single number as index gives one column, as does a list of one. -/
def selectCols (a : Arr2 K) : Option (List Int) → Except Err (Arr2 K)
  | none => .ok a
  | some indices =>
    match indices.mapM (npIndex a.cols) with
    | some js => .ok ⟨a.rows, js.length, fun i k => a.e i (js.getD k 0)⟩
    | none => .error .indexError

/-- `lin_combine` (`modred/vectorspace.py` lines 824-1066).  An empty list of basis handles raises
`IndexError` in line 906 once the checks are passed. -/
def linCombine [Add V] [Zero K] (p maxVecsPerProc : Nat) (mul : V → K → V) (numSums : Nat)
    (basis : List V) (coeff : CoeffArray K) (colIndices : Option (List Int)) :
    Except Err (Prog (LCState V) (List V × List Nat)) :=
  match selectCols (coeff2d basis.length coeff) colIndices with
  | .error e => .error e
  | .ok c =>
    if basis.length ≠ c.rows then .error .valueError
    else if numSums ≠ c.cols then .error .valueError
    else if basis.length = 0 then .error .indexError
    else .ok (lcProg p maxVecsPerProc mul basis numSums c.e)

/-! ### Linear combinations on a store -/

/-- One round of sums of `lin_combine` in one process, on handles that read from and write to
places of a store (`modred/vectorspace.py` lines 963-1062).  The basis vectors are read after the
sums of earlier rounds were put and before those of this round are. -/
def storeRound [Add V] (maxVecsPerProc : Nat) (mul : V → K → V) (basisPlaces sumPlaces : List Nat)
    (coeff : Nat → Nat → K) (store : Nat → V) (sumIndex : Nat) : Nat → V :=
  let basis := basisPlaces.map store
  let basisTasks := rangeTasks 1 0 basis.length
  let sumTasks := rangeTasks 1 0 sumPlaces.length
  let s := startSums sumTasks sumIndex (maxVecsPerProc - 1) 0 (lcInit 0)
  let s := (List.range (ceilDivNat (maxLen basisTasks) 1)).foldl (fun s basisIndex =>
    takeBasis mul coeff s (ownBasis basis basisTasks basisIndex 0)) s
  (putSums s).puts.foldl (fun store put =>
    match sumPlaces[put.1]?, put.2 with
    | some place, some v => fun q => if q = place then v else store q
    | _, _ => store) store

/-- `lin_combine` in one process on handles that share a store
(`modred/vectorspace.py` lines 934-1062). -/
def linCombineStore [Add V] (maxVecsPerProc : Nat) (mul : V → K → V)
    (basisPlaces sumPlaces : List Nat) (coeff : Nat → Nat → K) (store : Nat → V) : Nat → V :=
  (List.range (ceilDivNat (maxLen (rangeTasks 1 0 sumPlaces.length)) (maxVecsPerProc - 1))).foldl
    (storeRound maxVecsPerProc mul basisPlaces sumPlaces coeff) store

end Modred
