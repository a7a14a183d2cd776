import Verif.Model.Reductions
import Mathlib.Data.List.Dedup

/-!
# Model of the calling helpers of `modred/parallel.py`
-/

namespace Modred

variable {α : Type*}

/-- Local variables of a rank in `call_and_bcast`: whether `func` was called, its output
(`none` is Python's `None`), and whether the call raised. -/
structure CallState (α : Type*) where
  calls : Nat
  outputs : Option α
  raised : Bool

/-- Start of a call. -/
def callInit : Nat → CallState α := fun _ => ⟨0, none, false⟩

/-- `if is_rank_zero(): outputs = func(...) else: outputs = None`
(`modred/parallel.py` lines 128-131 and 171-174).  `func rank` is what the call would give on that
rank, `none` if it raises. -/
def callLocal (func : Nat → Option α) (rank : Nat) (s : CallState α) : CallState α :=
  if rank = 0 then
    match func rank with
    | some v => ⟨s.calls + 1, some v, s.raised⟩
    | none => ⟨s.calls + 1, none, true⟩
  else { s with outputs := none }

/-- `call_from_rank_zero` (`modred/parallel.py` lines 108-132). -/
def callFromRankZeroProg (func : Nat → Option α) : Prog (CallState α) (Option α) :=
  [localRound (callLocal func)]

/-- `outputs = comm.bcast(outputs, root=0)` (`modred/parallel.py` lines 149, 176), with the broadcast
as rank 0 sending to the others in turn (see `bcastRound`).  A rank whose call raised has left the
function, so it does not send: `raises` says whether that is so for rank 0. -/
def callBcastRound (raises : Bool) (tag d : Nat) : Round (CallState α) (Option α) where
  send rank := if rank = 0 ∧ raises = false then some ⟨d, tag, CallState.outputs⟩ else none
  recv rank := if rank = d then some ⟨0, tag⟩ else none
  upd _ s tmp := match tmp with
    | some v => { s with outputs := v }
    | none => s
  barrier := false

/-- `call_and_bcast` on `size` processes (`modred/parallel.py` lines 153-177).
With one process `_is_distributed` is false and there is no broadcast, as here. -/
def callAndBcastProg (size tag : Nat) (func : Nat → Option α) : Prog (CallState α) (Option α) :=
  localRound (callLocal func) ::
    (List.range' 1 (size - 1)).map (callBcastRound (func 0).isNone tag)

/-- `bcast(vals)` (`modred/parallel.py` lines 135-150): ranks other than 0 drop their own value
first. -/
def bcastValsProg (size tag : Nat) : Prog (Option α) (Option α) :=
  localRound (fun rank vals => if rank = 0 then vals else none) :: bcastProg size tag

/-- `codecs.encode(bytes, 'hex')`: two hexadecimal digits per byte, as numbers 0-15
(`modred/parallel.py` line 27). -/
def hexDigits (bytes : List UInt8) : List Nat :=
  bytes.flatMap fun b => [b.toNat / 16, b.toNat % 16]

/-- `int(digits, base=16)` (`modred/parallel.py` line 27); Python refuses the empty string. -/
def intBase16 (digits : List Nat) : Except Err Nat :=
  if digits = [] then .error .valueError
  else .ok (digits.foldl (fun acc d => 16 * acc + d) 0)

/-- `_node_ID = int(codecs.encode(_hostname.encode(), 'hex'), base=16)`
(`modred/parallel.py` line 27).  Simplified: the host name is given by its UTF-8 bytes. -/
def nodeID (hostname : List UInt8) : Except Err Nat := intBase16 (hexDigits hostname)

/-- `_num_nodes = len(set(comm.allgather(_node_ID)))` (`modred/parallel.py` line 34).  `hostnames` lists
the host names of the ranks.  An exception on any rank is an exception here. -/
def numNodes (hostnames : List (List UInt8)) : Except Err Nat := do
  let ids ← hostnames.mapM nodeID
  return ids.dedup.length

end Modred
