import Mathlib.Logic.Function.Basic

/-!
# Processes that exchange messages in rounds

Every parallel algorithm of modred has the same shape on all ranks: a fixed sequence of rounds, and
in each round a rank may send one message, may receive one message, waits for its send to
complete, works locally and possibly meets the others at a barrier:

* `modred/vectorspace.py` lines 428-446, 664-706, 741-763, 1012-1033: `isend`, `recv`, `Wait`,
  `barrier`;
* `modred/reductions.py` lines 41-50: a blocking `send` or a `recv`;
* `modred/reductions.py` lines 82-93, 111-127: `sendrecv`.

The number of rounds and the partners do not depend on the data.  Purely local work is a round in
which nobody sends or receives.
-/

namespace Modred

/-- What a rank sends: destination, tag, and the message as a function of its local state. -/
structure SendOp (σ μ : Type*) where
  dest : Nat
  tag : Nat
  msg : σ → μ

/-- What a rank receives: source and tag asked for. -/
structure RecvOp where
  src : Nat
  tag : Nat

/-- One round.  All fields are functions of the rank. -/
structure Round (σ μ : Type*) where
  /-- what the rank sends, if it sends -/
  send : Nat → Option (SendOp σ μ)
  /-- from whom the rank receives, if it receives -/
  recv : Nat → Option RecvOp
  /-- the rank's local work, given what it received -/
  upd : Nat → σ → Option μ → σ
  /-- whether all ranks meet at a barrier at the end of the round -/
  barrier : Bool

/-- A program, the same text for all ranks. -/
abbrev Prog (σ μ : Type*) := List (Round σ μ)

variable {σ μ : Type*}

/-- A round of local work only. -/
def localRound (f : Nat → σ → σ) : Round σ μ where
  send _ := none
  recv _ := none
  upd r s _ := f r s
  barrier := false

/-! ### Lock-step execution -/

/-- What rank `r` receives in lock step: what its source sends. -/
def Round.received (R : Round σ μ) (st : Nat → σ) (r : Nat) : Option μ :=
  (R.recv r).bind fun ro => (R.send ro.src).map fun so => so.msg (st ro.src)

/-- All ranks do the round in lock step. -/
def Round.step (R : Round σ μ) (st : Nat → σ) : Nat → σ :=
  fun r => R.upd r (st r) (R.received st r)

/-- All ranks do all rounds in lock step. -/
def exec (prog : Prog σ μ) (st : Nat → σ) : Nat → σ :=
  prog.foldl (fun st R => R.step st) st

/-! ### Interleaved execution -/

/-- State of the whole system: program counters, local states and messages under way.
The counter of a rank in round `k` is `4k` before its send, `4k+1` before its receive, `4k+2` before
its wait and `4k+3` before the barrier.
`box a b t` holds the messages from `a` to `b` with tag `t`, oldest first: MPI does not let messages
of one sender, receiver and tag overtake each other. -/
structure Sys (σ μ : Type*) where
  pc : Nat → Nat
  loc : Nat → σ
  box : Nat → Nat → Nat → List μ

/-- Start: nobody has moved and no message is under way. -/
def Sys.start (st : Nat → σ) : Sys σ μ where
  pc _ := 0
  loc := st
  box _ _ _ := []

/-- `box` with the entry for `(a, b, t)` replaced. -/
def setBox (box : Nat → Nat → Nat → List μ) (a b t : Nat) (l : List μ) :
    Nat → Nat → Nat → List μ :=
  fun a' b' t' => if a' = a ∧ b' = b ∧ t' = t then l else box a' b' t'

/-- One step of one of the `p` ranks.
`sync r k` says whether the send of rank `r` in round `k` is synchronous: then its `Wait` returns
only after the message was received.  Otherwise the message is buffered and `Wait` returns at once.
MPI leaves this to the implementation, so theorems are about every `sync`. -/
inductive SysStep (p : Nat) (sync : Nat → Nat → Prop) (prog : Prog σ μ) : Sys σ μ → Sys σ μ → Prop
  | sendNone (s : Sys σ μ) (r k : Nat) (R : Round σ μ) (hr : r < p) (hk : prog[k]? = some R)
      (hpc : s.pc r = 4 * k) (hs : R.send r = none) :
      SysStep p sync prog s { s with pc := Function.update s.pc r (4 * k + 1) }
  | sendSome (s : Sys σ μ) (r k : Nat) (R : Round σ μ) (so : SendOp σ μ) (hr : r < p)
      (hk : prog[k]? = some R) (hpc : s.pc r = 4 * k) (hs : R.send r = some so) :
      SysStep p sync prog s
        { s with
          pc := Function.update s.pc r (4 * k + 1)
          box := setBox s.box r so.dest so.tag (s.box r so.dest so.tag ++ [so.msg (s.loc r)]) }
  | recvNone (s : Sys σ μ) (r k : Nat) (R : Round σ μ) (hr : r < p) (hk : prog[k]? = some R)
      (hpc : s.pc r = 4 * k + 1) (hs : R.recv r = none) :
      SysStep p sync prog s
        { s with
          pc := Function.update s.pc r (4 * k + 2)
          loc := Function.update s.loc r (R.upd r (s.loc r) none) }
  | recvSome (s : Sys σ μ) (r k : Nat) (R : Round σ μ) (ro : RecvOp) (m : μ) (rest : List μ)
      (hr : r < p) (hk : prog[k]? = some R) (hpc : s.pc r = 4 * k + 1) (hs : R.recv r = some ro)
      (hm : s.box ro.src r ro.tag = m :: rest) :
      SysStep p sync prog s
        { pc := Function.update s.pc r (4 * k + 2)
          loc := Function.update s.loc r (R.upd r (s.loc r) (some m))
          box := setBox s.box ro.src r ro.tag rest }
  | wait (s : Sys σ μ) (r k : Nat) (R : Round σ μ) (hr : r < p) (hk : prog[k]? = some R)
      (hpc : s.pc r = 4 * k + 2)
      (hw : ∀ so, R.send r = some so → sync r k → s.box r so.dest so.tag = []) :
      SysStep p sync prog s { s with pc := Function.update s.pc r (4 * k + 3) }
  | barrier (s : Sys σ μ) (r k : Nat) (R : Round σ μ) (hr : r < p) (hk : prog[k]? = some R)
      (hpc : s.pc r = 4 * k + 3) (hb : R.barrier = true → ∀ q, q < p → 4 * k + 3 ≤ s.pc q) :
      SysStep p sync prog s { s with pc := Function.update s.pc r (4 * k + 4) }

/-- `n` steps lead from one state to another. -/
inductive SysRun (p : Nat) (sync : Nat → Nat → Prop) (prog : Prog σ μ) :
    Nat → Sys σ μ → Sys σ μ → Prop
  | refl (s : Sys σ μ) : SysRun p sync prog 0 s s
  | tail {n : Nat} {s t u : Sys σ μ} (h : SysRun p sync prog n s t)
      (hs : SysStep p sync prog t u) : SysRun p sync prog (n + 1) s u

/-- All ranks have done all rounds. -/
def Sys.Finished (p : Nat) (prog : Prog σ μ) (s : Sys σ μ) : Prop :=
  ∀ r, r < p → s.pc r = 4 * prog.length

end Modred
