import Verif.Model.VectorSpace

/-!
# Processes that share a store

The vectors behind handles, and the files that arrays are saved to, are seen by all ranks.  Here the rounds of
`Verif.Model.Spmd` also read and write a store of numbered places, and steps of ranks interleave in any order.  A rank
reads and writes the store in the step in which it works; parts of the code that use several places one after the other are
several rounds.
-/

namespace Modred

variable {σ μ V K : Type*}

/-- A round of ranks that share a store: like `Round`, but work reads the store, and afterwards values are put to places. -/
structure SharedRound (σ μ V : Type*) where
  /-- what the rank sends, if it sends -/
  send : Nat → Option (SendOp σ μ)
  /-- from whom the rank receives, if it receives -/
  recv : Nat → Option RecvOp
  /-- the rank's local work, given the store and what it received -/
  upd : Nat → σ → (Nat → V) → Option μ → σ
  /-- what the rank puts to which place, after its work -/
  put : Nat → σ → Nat → Option V
  /-- whether all ranks meet at a barrier at the end of the round -/
  barrier : Bool

/-- State of the whole system. -/
structure SharedSys (σ μ V : Type*) where
  sys : Sys σ μ
  store : Nat → V

/-- The store after putting. -/
def overlay (w : Nat → V) (new : Nat → Option V) : Nat → V := fun q => (new q).getD (w q)

/-- The round with the store it reads fixed. -/
def SharedRound.fix (R : SharedRound σ μ V) (w : Nat → V) : Round σ μ where
  send := R.send
  recv := R.recv
  upd r s m := R.upd r s w m
  barrier := R.barrier

/-- One step of one of the `p` ranks; see `SysStep`. -/
inductive SharedStep (p : Nat) (sync : Nat → Nat → Prop) (prog : List (SharedRound σ μ V)) :
    SharedSys σ μ V → SharedSys σ μ V → Prop
  | sendNone (s : Sys σ μ) (w : Nat → V) (r k : Nat) (R : SharedRound σ μ V) (hr : r < p) (hk : prog[k]? = some R)
      (hpc : s.pc r = 4 * k) (hs : R.send r = none) :
      SharedStep p sync prog ⟨s, w⟩ ⟨{ s with pc := Function.update s.pc r (4 * k + 1) }, w⟩
  | sendSome (s : Sys σ μ) (w : Nat → V) (r k : Nat) (R : SharedRound σ μ V) (so : SendOp σ μ) (hr : r < p)
      (hk : prog[k]? = some R) (hpc : s.pc r = 4 * k) (hs : R.send r = some so) :
      SharedStep p sync prog ⟨s, w⟩
        ⟨{ s with
          pc := Function.update s.pc r (4 * k + 1)
          box := setBox s.box r so.dest so.tag (s.box r so.dest so.tag ++ [so.msg (s.loc r)]) }, w⟩
  | recvNone (s : Sys σ μ) (w : Nat → V) (r k : Nat) (R : SharedRound σ μ V) (hr : r < p) (hk : prog[k]? = some R)
      (hpc : s.pc r = 4 * k + 1) (hs : R.recv r = none) :
      SharedStep p sync prog ⟨s, w⟩
        ⟨{ s with
          pc := Function.update s.pc r (4 * k + 2)
          loc := Function.update s.loc r (R.upd r (s.loc r) w none) },
          overlay w (R.put r (R.upd r (s.loc r) w none))⟩
  | recvSome (s : Sys σ μ) (w : Nat → V) (r k : Nat) (R : SharedRound σ μ V) (ro : RecvOp) (m : μ) (rest : List μ)
      (hr : r < p) (hk : prog[k]? = some R) (hpc : s.pc r = 4 * k + 1) (hs : R.recv r = some ro)
      (hm : s.box ro.src r ro.tag = m :: rest) :
      SharedStep p sync prog ⟨s, w⟩
        ⟨{ pc := Function.update s.pc r (4 * k + 2)
           loc := Function.update s.loc r (R.upd r (s.loc r) w (some m))
           box := setBox s.box ro.src r ro.tag rest },
          overlay w (R.put r (R.upd r (s.loc r) w (some m)))⟩
  | wait (s : Sys σ μ) (w : Nat → V) (r k : Nat) (R : SharedRound σ μ V) (hr : r < p) (hk : prog[k]? = some R)
      (hpc : s.pc r = 4 * k + 2)
      (hw : ∀ so, R.send r = some so → sync r k → s.box r so.dest so.tag = []) :
      SharedStep p sync prog ⟨s, w⟩ ⟨{ s with pc := Function.update s.pc r (4 * k + 3) }, w⟩
  | barrier (s : Sys σ μ) (w : Nat → V) (r k : Nat) (R : SharedRound σ μ V) (hr : r < p) (hk : prog[k]? = some R)
      (hpc : s.pc r = 4 * k + 3) (hb : R.barrier = true → ∀ q, q < p → 4 * k + 3 ≤ s.pc q) :
      SharedStep p sync prog ⟨s, w⟩ ⟨{ s with pc := Function.update s.pc r (4 * k + 4) }, w⟩

/-- `n` steps lead from one state to another. -/
inductive SharedRun (p : Nat) (sync : Nat → Nat → Prop) (prog : List (SharedRound σ μ V)) :
    Nat → SharedSys σ μ V → SharedSys σ μ V → Prop
  | refl (s : SharedSys σ μ V) : SharedRun p sync prog 0 s s
  | tail {n : Nat} {s t u : SharedSys σ μ V} (h : SharedRun p sync prog n s t)
      (hs : SharedStep p sync prog t u) : SharedRun p sync prog (n + 1) s u

/-! ### Rounds -/

/-- A round that does not use the store. -/
def Round.share (R : Round σ μ) : SharedRound σ μ V where
  send := R.send
  recv := R.recv
  upd r s _ m := R.upd r s m
  put _ _ _ := none
  barrier := R.barrier

/-- A round of local work that reads the store. -/
def readRound (f : Nat → σ → (Nat → V) → σ) : SharedRound σ μ V where
  send _ := none
  recv _ := none
  upd r s w _ := f r s w
  put _ _ _ := none
  barrier := false

/-- `parallel.barrier()`. -/
def barrierRound : SharedRound σ μ V where
  send _ := none
  recv _ := none
  upd _ s _ _ := s
  put _ _ _ := none
  barrier := true

/-! ### Linear combinations -/

/-- `put` of the `j`-th sum of the chunk, noted in `puts` (`modred/vectorspace.py` lines 1058-1061). -/
def putOne (j : Nat) (s : LCState V) : LCState V :=
  if s.startSum + j < s.endSum then
    match s.sumLayers[j]? with
    | some layer => { s with puts := s.puts ++ [(s.startSum + j, layer)] }
    | none => { s with err := true }
  else s

/-- The round in which each rank puts the `j`-th sum of its chunk to the place of its handle
(`modred/vectorspace.py` lines 1058-1061). -/
def putRound (sumPlaces : List Nat) (j : Nat) : SharedRound (LCState V) μ V where
  send _ := none
  recv _ := none
  upd _ s _ _ := putOne j s
  put _ s q :=
    if s.startSum + j < s.endSum ∧ sumPlaces[s.startSum + j]? = some q then (s.sumLayers[j]?).join else none
  barrier := false

/-- The loops of `lin_combine` on handles that read from and write to places of a store
(`modred/vectorspace.py` lines 934-1066), with the barrier at the end. -/
def lcShared [Add V] (p maxVecsPerProc : Nat) (mul : V → K → V) (basisPlaces sumPlaces : List Nat)
    (coeff : Nat → Nat → K) : List (SharedRound (LCState V) (List V × List Nat) V) :=
  let sumsPerChunk := maxVecsPerProc - 1
  let basisTasks := rangeTasks p 0 basisPlaces.length
  let sumTasks := rangeTasks p 0 sumPlaces.length
  let basisIters := ceilDivNat (maxLen basisTasks) 1
  let sumIters := ceilDivNat (maxLen sumTasks) sumsPerChunk
  ((List.range sumIters).flatMap fun sumIndex =>
    (localRound (startSums sumTasks sumIndex sumsPerChunk)).share ::
      ((List.range basisIters).flatMap fun basisIndex =>
        readRound (fun rank s w => takeBasis mul coeff s (ownBasis (basisPlaces.map w) basisTasks basisIndex rank)) ::
          List.replicate (p - 1) (ringRound p (fun s => (s.basisVecs, s.basisIndices))
            fun _ s m => takeBasis mul coeff s m).share) ++
      (List.range sumsPerChunk).map (putRound sumPlaces)) ++ [barrierRound]

/-- A call of `lin_combine`: `max_vecs_per_proc`, places of basis and sum handles, coefficients. -/
structure LcCall (K : Type*) where
  maxVecsPerProc : Nat
  basisPlaces : List Nat
  sumPlaces : List Nat
  coeff : Nat → Nat → K

/-- Calls of `lin_combine` one after another (`modred/vectorspace.py` lines 934-1066); each call starts with fresh local
variables. -/
def lcCalls [Add V] (p : Nat) (mul : V → K → V) (calls : List (LcCall K)) :
    List (SharedRound (LCState V) (List V × List Nat) V) :=
  calls.flatMap fun c =>
    (localRound fun rank _ => lcInit rank).share :: lcShared p c.maxVecsPerProc mul c.basisPlaces c.sumPlaces c.coeff

/-! ### Saving of arrays -/

/-- `if parallel.is_rank_zero(): self.put_array(value, dest)` or `parallel.call_from_rank_zero(self.put_array, value, dest)`,
where the value is an attribute of the object, followed by `parallel.barrier()` or not. -/
def zeroPut (dest : Nat) (value : σ → V) (barrier : Bool) : SharedRound σ μ V where
  send _ := none
  recv _ := none
  upd _ s _ _ := s
  put rank s q := if rank = 0 ∧ q = dest then some (value s) else none
  barrier := barrier

/-- Calls of methods that save one array each: `put_decomp` and methods called by it, `put_correlation_array`,
`put_proj_coeffs` and so on (`modred/pod.py` lines 290-330, `modred/bpod.py` lines 251-309, `modred/dmd.py` lines 615-700
and 2031-2072 and 2089-2135), `put_model` and methods called by it (`modred/ltigalerkinproj.py` lines 87-120). -/
def saveEach (items : List (Nat × (σ → V))) : List (SharedRound σ μ V) :=
  items.map fun item => zeroPut item.1 item.2 true

/-- `DMDHandles.put_proj_coeffs`, which saves two arrays before the barrier (`modred/dmd.py` lines 703-709). -/
def saveProjCoeffs (dest advDest : Nat) (projCoeffs advProjCoeffs : σ → V) : List (SharedRound σ μ V) :=
  [zeroPut dest projCoeffs false, zeroPut advDest advProjCoeffs true]

end Modred
