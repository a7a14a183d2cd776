import Verif.Model.Basic
import Verif.Model.Spmd

/-!
# Model of `modred/reductions.py`

The four reductions as programs of rounds.  The local state of a rank holds the Python variables
`recvobj` (and `partial`, `flag`).  Every receive in these loops asks for the one tag
`TAG_UB - 1`, here the parameter `tag`.
-/

namespace Modred

variable {α : Type*}

/-- The values of `mask` in `mask = 1; while mask < size: ...; mask <<= 1`
(`modred/reductions.py` lines 39-50, 80-93, 108-127).  The guard `0 < mask` is only there for
termination: the loops start with `mask = 1`. -/
def masksFrom (size mask : Nat) : List Nat :=
  if _h : 0 < mask ∧ mask < size then mask :: masksFrom size (mask <<< 1) else []
termination_by size - mask
decreasing_by
  have : mask <<< 1 = 2 * mask := by rw [Nat.shiftLeft_eq]; omega
  omega

/-- Python's `rank & ~mask` for non-negative integers (`modred/reductions.py` line 43). -/
def andNot (rank mask : Nat) : Nat := rank ^^^ (rank &&& mask)

/-- One pass of the loop of `reduce` (`modred/reductions.py` lines 41-50).
The state is `recvobj`. -/
def reduceRound (size tag : Nat) (op : α → α → α) (mask : Nat) : Round α α where
  send rank :=
    if (mask &&& rank) ≠ 0 then some ⟨andNot rank mask % size, tag, id⟩ else none
  recv rank :=
    if (mask &&& rank) ≠ 0 then none
    else if (rank ||| mask) < size then some ⟨rank ||| mask, tag⟩ else none
  upd _ recvobj tmp := match tmp with
    | some tmp => op recvobj tmp
    | none => recvobj
  barrier := false

/-- Rank 0 hands the result to `root` (`modred/reductions.py` lines 52-56). -/
def forwardRound (tag root : Nat) : Round α α where
  send rank := if rank = 0 then some ⟨root, tag, id⟩ else none
  recv rank := if rank = 0 then none else if rank = root then some ⟨0, tag⟩ else none
  upd _ recvobj tmp := tmp.getD recvobj
  barrier := false

/-- `Intracomm.reduce` without the final clearing of `recvobj`
(`modred/reductions.py` lines 29-56); `assert 0 <= root < size` is line 32.
Simplified: the pairing with ranks for `MINLOC`, `MAXLOC` (lines 35-36) is `locInput`. -/
def reduceProg (size tag : Nat) (op : α → α → α) (root : Nat) : Except Err (Prog α α) :=
  if root < size then
    .ok ((masksFrom size 1).map (reduceRound size tag op) ++
      (if root ≠ 0 then [forwardRound tag root] else []))
  else .error .assertionError

/-- What `reduce` returns on a rank, from its final `recvobj`; `none` is Python's `None`
(`modred/reductions.py` lines 58-61). -/
def reduceReturn (root rank : Nat) (recvobj : α) : Option α :=
  if rank ≠ root then none else some recvobj

/-- The pairing of values with ranks for `MINLOC` and `MAXLOC`
(`modred/reductions.py` lines 35-36, 75-76, 103-104). -/
def locInput (x : Nat → α) : Nat → α × Nat := fun rank => (x rank, rank)

/-- `comm.bcast(obj, root=0)`, a routine of the MPI library
(called in `modred/reductions.py` line 66 and `modred/parallel.py` lines 149, 176).
Simplified: modelled as rank 0 sending its object to the other ranks one after the other. -/
def bcastRound (tag d : Nat) : Round α α where
  send rank := if rank = 0 then some ⟨d, tag, id⟩ else none
  recv rank := if rank = d then some ⟨0, tag⟩ else none
  upd _ obj tmp := tmp.getD obj
  barrier := false

/-- `comm.bcast`, see `bcastRound`. -/
def bcastProg (size tag : Nat) : Prog α α :=
  (List.range' 1 (size - 1)).map (bcastRound tag)

/-- `Intracomm.allreduce` (`modred/reductions.py` lines 64-67): `reduce` to rank 0, then `bcast`.
Root 0 passes the assertion of `reduce` whenever there is a rank. -/
def allreduceProg (size tag : Nat) (op : α → α → α) : Prog α α :=
  (masksFrom size 1).map (reduceRound size tag op) ++ bcastProg size tag

/-- Local variables of `scan`. -/
structure ScanState (α : Type*) where
  recvobj : α
  part : α

/-- One pass of the loop of `scan` (`modred/reductions.py` lines 82-93). -/
def scanRound (size tag : Nat) (op : α → α → α) (mask : Nat) : Round (ScanState α) α where
  send rank := let target := rank ^^^ mask
    if target < size then some ⟨target, tag, ScanState.part⟩ else none
  recv rank := let target := rank ^^^ mask
    if target < size then some ⟨target, tag⟩ else none
  upd rank s tmp := let target := rank ^^^ mask
    match tmp with
    | none => s
    | some tmp =>
      if rank > target then ⟨op tmp s.recvobj, op tmp s.part⟩
      else ⟨s.recvobj, op s.part tmp⟩
  barrier := false

/-- `Intracomm.scan` (`modred/reductions.py` lines 70-95). -/
def scanProg (size tag : Nat) (op : α → α → α) : Prog (ScanState α) α :=
  (masksFrom size 1).map (scanRound size tag op)

/-- Initial local variables of `scan` (`modred/reductions.py` lines 78-79). -/
def scanInit (x : Nat → α) : Nat → ScanState α := fun rank => ⟨x rank, x rank⟩

/-- Local variables of `exscan`. -/
structure ExscanState (α : Type*) where
  recvobj : α
  part : α
  flag : Bool

/-- One pass of the loop of `exscan` (`modred/reductions.py` lines 111-127). -/
def exscanRound (size tag : Nat) (op : α → α → α) (mask : Nat) : Round (ExscanState α) α where
  send rank := let target := rank ^^^ mask
    if target < size then some ⟨target, tag, ExscanState.part⟩ else none
  recv rank := let target := rank ^^^ mask
    if target < size then some ⟨target, tag⟩ else none
  upd rank s tmp := let target := rank ^^^ mask
    match tmp with
    | none => s
    | some tmp =>
      if rank > target then
        let part := op tmp s.part
        if rank ≠ 0 then
          if s.flag = false then ⟨tmp, part, true⟩
          else ⟨op tmp s.recvobj, part, s.flag⟩
        else ⟨s.recvobj, part, s.flag⟩
      else ⟨s.recvobj, op s.part tmp, s.flag⟩
  barrier := false

/-- `Intracomm.exscan` (`modred/reductions.py` lines 98-132), without the last lines. -/
def exscanProg (size tag : Nat) (op : α → α → α) : Prog (ExscanState α) α :=
  (masksFrom size 1).map (exscanRound size tag op)

/-- Initial local variables of `exscan` (`modred/reductions.py` lines 106-109). -/
def exscanInit (x : Nat → α) : Nat → ExscanState α := fun rank => ⟨x rank, x rank, false⟩

/-- What `exscan` returns (`modred/reductions.py` lines 129-132). -/
def exscanReturn (rank : Nat) (s : ExscanState α) : Option α :=
  if rank = 0 then none else some s.recvobj

end Modred
