import Verif.Model.Shared
import Mathlib.LinearAlgebra.Matrix.Defs

/-!
# Methods on handles, from the first inner product to the last mode, on several processes

A method of a class such as `PODHandles` is a sequence of stages: arrays of inner products of vectors behind handles, calls
on rank 0 whose results all ranks get, local work, and linear combinations that are put to handles.  Every rank has its own
object and works with the attributes of its own object; vectors are in a store that all ranks use.
-/

namespace Modred

variable {σ τ μ ν X Y V K : Type*}

/-! ### Programs as parts of larger ones -/

/-- A program that reads the store: the rounds `P w`, where `w` is what the store holds when the round is done.  Whom ranks
send to does not depend on what the store holds; `P` for a store of zeros says it. -/
def readsStore [Zero V] (P : (Nat → V) → Prog σ μ) : List (SharedRound σ μ V) :=
  (P fun _ => 0).mapIdx fun k R0 =>
    { send := R0.send
      recv := R0.recv
      upd := fun rank s w m => match (P w)[k]? with
        | some R => R.upd rank s m
        | none => s
      put := fun _ _ _ => none
      barrier := R0.barrier }

/-- A program run by all ranks on a part of their states: rank `r` does the rounds `P s`, where `s` is its own state.  Whom
ranks send to does not depend on the state; `shape` says it. -/
def inStage (get : σ → τ) (set : σ → τ → σ) (inj : ν → μ) (proj : μ → Option ν) (shape : List (SharedRound τ ν V))
    (P : σ → List (SharedRound τ ν V)) : List (SharedRound σ μ V) :=
  shape.mapIdx fun k R0 =>
    { send := fun rank => (R0.send rank).map fun so => ⟨so.dest, so.tag, fun s => inj (so.msg (get s))⟩
      recv := R0.recv
      upd := fun rank s w m => match (P s)[k]? with
        | some R => set s (R.upd rank (get s) w (m.bind proj))
        | none => s
      put := fun rank s q => match (P s)[k]? with
        | some R => R.put rank (get s) q
        | none => none
      barrier := R0.barrier }

/-! ### States and stages -/

/-- What a rank has: its object, local variables of the methods of `VectorSpaceHandles`, the local variable `outputs` of
`call_and_bcast`, coefficients given to `lin_combine`, and the exception raised, if any.  Simplified: a rank goes on after an
exception; theorems about results say that there is none. -/
structure RankState (X Y V K : Type*) where
  obj : X
  ip : IPState V K
  outputs : Option Y
  coeff : Nat → Nat → K
  lc : LCState V
  raised : Option Err

/-- What ranks send each other. -/
inductive StageMsg (Y V K : Type*) where
  | ip (m : IPMsg V K)
  | value (y : Option Y)
  | basis (m : List V × List Nat)

/-- Start of a method. -/
def RankState.start [Zero K] (x : X) : RankState X Y V K := ⟨x, ipInit 0, none, fun _ _ => 0, lcInit 0, none⟩

/-- What a method does.  Lists of numbers are places of vectors.  `set` stores a result as attribute. -/
inductive Stage (X Y V K : Type*) where
  /-- `compute_inner_product_array(rows, cols)` -/
  | innerProducts (rows cols : List Nat) (set : X → Matrix (Fin rows.length) (Fin cols.length) K → X)
  /-- `compute_symm_inner_product_array(vecs)` -/
  | symmInnerProducts (vecs : List Nat) (set : X → Matrix (Fin vecs.length) (Fin vecs.length) K → X)
  /-- `parallel.call_and_bcast` -/
  | callAndBcast (f : X → Except Err Y) (set : X → Y → X)
  /-- work that all ranks do on their own -/
  | compute (f : X → Except Err X)
  /-- `lin_combine(sums, basis, coeff, coeff_array_col_indices)` -/
  | linCombine (sums basis : List Nat) (coeff : X → Except Err (CoeffArray K)) (indices : Option (List Int))

/-- An array of numbers as an attribute. -/
def arrayOf (m n : Nat) (a : Nat → Nat → K) : Matrix (Fin m) (Fin n) K := Matrix.of fun i j => a i j

/-- The rounds of a job, if the checks are passed. -/
def jobProg {ρ : Type*} : Except Err (Job σ μ ρ) → Prog σ μ
  | .ok job => job.prog
  | .error _ => []

/-- What a job returns; an exception if the checks are not passed or if an index is out of range in the loops. -/
def jobResult {ρ : Type*} (job : Except Err (Job (IPState V K) μ ρ)) (s : IPState V K) : Except Err ρ :=
  if s.err then .error .indexError else job.map fun j => j.ret s

/-- Other local variables of the inner product loops. -/
def RankState.setIp (s : RankState X Y V K) (t : IPState V K) : RankState X Y V K := { s with ip := t }

/-- Other `outputs`. -/
def RankState.setOutputs (s : RankState X Y V K) (y : Option Y) : RankState X Y V K := { s with outputs := y }

/-- Other local variables of `lin_combine`. -/
def RankState.setLc (s : RankState X Y V K) (t : LCState V) : RankState X Y V K := { s with lc := t }

/-- Messages about inner products. -/
def StageMsg.toIp : StageMsg Y V K → Option (IPMsg V K)
  | .ip m => some m
  | _ => none

/-- Messages of `comm.bcast`. -/
def StageMsg.toValue : StageMsg Y V K → Option (Option Y)
  | .value y => some y
  | _ => none

/-- Messages about linear combinations. -/
def StageMsg.toBasis : StageMsg Y V K → Option (List V × List Nat)
  | .basis m => some m
  | _ => none

/-- Local work with a result: the exception is noted. -/
def RankState.note {ρ : Type*} (s : RankState X Y V K) (res : Except Err ρ) (set : RankState X Y V K → ρ → RankState X Y V K) :
    RankState X Y V K :=
  match res with
  | .ok v => set s v
  | .error e => { s with raised := some e }

/-- The loops of one of the methods that compute inner products, with fresh local variables; then a result is returned after
a barrier (`modred/vectorspace.py` lines 491-492, 820-821) and stored. -/
def ipStage [Zero V] [Zero K] (jobOf : (Nat → V) → Except Err (Job (IPState V K) (IPMsg V K) (Nat → Nat → K)))
    (set : X → (Nat → Nat → K) → X) : List (SharedRound (RankState X Y V K) (StageMsg Y V K) V) :=
  let prog := readsStore (fun w => jobProg (jobOf w)) ++ [barrierRound]
  (localRound fun rank s => s.setIp (ipInit rank)).share ::
    inStage RankState.ip RankState.setIp StageMsg.ip StageMsg.toIp prog (fun _ => prog) ++
    [(localRound fun _ s => s.note (jobResult (jobOf fun _ => 0) s.ip) fun s a => { s with obj := set s.obj a }).share]

/-- `parallel.call_and_bcast` (`modred/parallel.py` lines 153-177): rank 0 calls, the others have `None`, then `comm.bcast`;
the result is stored. -/
def callStage (p tag : Nat) (f : X → Except Err Y) (set : X → Y → X) :
    List (SharedRound (RankState X Y V K) (StageMsg Y V K) V) :=
  (localRound fun rank s =>
      if rank = 0 then s.note (f s.obj) fun s y => s.setOutputs (some y) else s.setOutputs none).share ::
    ((if p > 1 then bcastProg p tag else []).map fun R => 
      (R.embed RankState.outputs RankState.setOutputs StageMsg.value StageMsg.toValue).share) ++
    [(localRound fun _ s => match s.outputs with
      | some y => { s with obj := set s.obj y }
      | none => { s with raised := some .typeError }).share]

/-- Coefficients of `lin_combine` after its checks (`modred/vectorspace.py` lines 868-906), see `linCombine`. -/
def lcCoeffs [Zero K] (numSums numBases : Nat) (coeff : CoeffArray K) (indices : Option (List Int)) : Except Err (Arr2 K) :=
  match selectCols (coeff2d numBases coeff) indices with
  | .error e => .error e
  | .ok c =>
    if numBases ≠ c.rows then .error .valueError
    else if numSums ≠ c.cols then .error .valueError
    else if numBases = 0 then .error .indexError
    else .ok c

/-- `lin_combine` (`modred/vectorspace.py` lines 824-1066) with coefficients from the rank's own object. -/
def lcStage [Add V] [Zero K] (p mx : Nat) (mul : V → K → V) (sums basis : List Nat)
    (coeff : X → Except Err (CoeffArray K)) (indices : Option (List Int)) :
    List (SharedRound (RankState X Y V K) (StageMsg Y V K) V) :=
  (localRound fun rank s =>
      (s.note ((coeff s.obj).bind fun c => lcCoeffs sums.length basis.length c indices)
          fun s c => { s with coeff := c.e }).setLc (lcInit rank)).share ::
    inStage RankState.lc RankState.setLc StageMsg.basis StageMsg.toBasis
      (lcShared p mx mul basis sums fun _ _ => 0) (fun s => lcShared p mx mul basis sums s.coeff) ++
    [(localRound fun _ s => if s.lc.err then { s with raised := some .indexError } else s).share]

section
variable [AddMonoid V] [Semiring K] [StarRing K] [DecidableEq K] (p tag mx : Nat) (ip : V → V → K) (cast : K → K → K)
  (mul : V → K → V)

/-- The rounds of a stage. -/
def Stage.prog : Stage X Y V K → List (SharedRound (RankState X Y V K) (StageMsg Y V K) V)
  | .innerProducts rows cols set =>
    ipStage (fun w => computeInnerProductArray p tag mx (some ip) cast (rows.map w) (cols.map w)) fun x a => set x (arrayOf _ _ a)
  | .symmInnerProducts vecs set =>
    ipStage (fun w => computeSymmInnerProductArray p tag mx (some ip) cast (vecs.map w)) fun x a => set x (arrayOf _ _ a)
  | .callAndBcast f set => callStage p tag f set
  | .compute f => [(localRound fun _ s => s.note (f s.obj) fun s x => { s with obj := x }).share]
  | .linCombine sums basis coeff indices => lcStage p mx mul sums basis coeff indices

/-- The rounds of stages one after another. -/
def stagesProg (stages : List (Stage X Y V K)) : List (SharedRound (RankState X Y V K) (StageMsg Y V K) V) :=
  stages.flatMap fun stage => stage.prog p tag mx ip cast mul

end

end Modred
