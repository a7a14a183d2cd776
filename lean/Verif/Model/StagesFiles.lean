import Verif.Model.Stages
import Verif.Model.SingleArrays

/-!
# Saving and loading arrays on several processes

The methods `put_...` and `get_...` of `Verif.Model.Decomp` and `Verif.Model.SingleArrays` on several processes.  Rank 0 alone
calls `put_array` and `get_array`; what is got is sent to all ranks.
-/

namespace Modred

variable {X R Stored : Type*}

/-- What a rank has, when the store holds arrays that were put to places. -/
abbrev FileRank (X R Stored : Type*) := RankState X (NpArray R) (Option Stored) Unit

/-- A round of such ranks. -/
abbrev FileRound (X R Stored : Type*) := SharedRound (FileRank X R Stored) (StageMsg (NpArray R) (Option Stored) Unit) (Option Stored)

/-- What methods do. -/
inductive FileStage (X R : Type*) where
  /-- `if parallel.is_rank_zero(): self.put_array(value, dest)`, or the same with `parallel.call_from_rank_zero`, for one array
  or for several, and then `parallel.barrier()` -/
  | save (items : List (Nat × (X → Except Err (NpArray R))))
  /-- `parallel.call_and_bcast(self.get_array, src)`, and an assignment -/
  | load (src : Nat) (set : X → NpArray R → X)

/-- Rank 0 puts an array.  An exception is noted, see `RankState`. -/
def saveRound (put : NpArray R → Except Err Stored) (dest : Nat) (value : X → Except Err (NpArray R)) : FileRound X R Stored where
  send _ := none
  recv _ := none
  upd rank s _ _ := if rank = 0 then s.note ((value s.obj).bind put) fun s _ => s else s
  put rank s q :=
    if rank = 0 ∧ q = dest then
      match (value s.obj).bind put with
      | .ok f => some (some f)
      | .error _ => none
    else none
  barrier := false

/-- `parallel.call_and_bcast(self.get_array, src)` (`modred/parallel.py` lines 153-177). -/
def loadRounds (p tag : Nat) (get : Stored → Except Err (NpArray R)) (src : Nat) (set : X → NpArray R → X) :
    List (FileRound X R Stored) :=
  readRound (fun rank s w =>
      if rank = 0 then s.note (getFrom get src w) fun s y => s.setOutputs (some y) else s.setOutputs none) ::
    ((if p > 1 then bcastProg p tag else []).map fun R =>
      (R.embed RankState.outputs RankState.setOutputs StageMsg.value StageMsg.toValue).share) ++
    [(localRound fun _ s => match s.outputs with
      | some y => { s with obj := set s.obj y }
      | none => { s with raised := some .typeError }).share]

section
variable (put : NpArray R → Except Err Stored) (get : Stored → Except Err (NpArray R)) (p tag : Nat)

/-- The rounds of a stage. -/
def FileStage.prog : FileStage X R → List (FileRound X R Stored)
  | .save items => items.map (fun item => saveRound put item.1 item.2) ++ [barrierRound]
  | .load src set => loadRounds p tag get src set

/-- The rounds of stages one after another. -/
def filesProg (stages : List (FileStage X R)) : List (FileRound X R Stored) := stages.flatMap (FileStage.prog put get p tag)

end

/-! ### The methods -/

/-- `PODHandles.put_decomp` (`modred/pod.py` lines 290-316). -/
def podPutStages (valsDest vecsDest : Nat) : List (FileStage (PodSaved R) R) :=
  [.save [(vecsDest, fun d => .ok d.eigvecs)], .save [(valsDest, fun d => .ok d.eigvals)]]

/-- `PODHandles.get_decomp` (`modred/pod.py` lines 257-269). -/
def podGetStages (valsSrc vecsSrc : Nat) : List (FileStage (PodSaved R) R) :=
  [.load valsSrc fun d a => { d with eigvals := squeezeArray a }, .load vecsSrc fun d a => { d with eigvecs := a }]

/-- `BPODHandles.put_decomp` (`modred/bpod.py` lines 251-289). -/
def bpodPutStages (valsDest leftDest rightDest : Nat) : List (FileStage (BpodSaved R) R) :=
  [.save [(valsDest, fun d => .ok d.singVals)], .save [(leftDest, fun d => .ok d.left)],
    .save [(rightDest, fun d => .ok d.right)]]

/-- `BPODHandles.get_decomp` (`modred/bpod.py` lines 200-218). -/
def bpodGetStages (valsSrc leftSrc rightSrc : Nat) : List (FileStage (BpodSaved R) R) :=
  [.load valsSrc fun d a => { d with singVals := squeezeArray a }, .load leftSrc fun d a => { d with left := a },
    .load rightSrc fun d a => { d with right := a }]

/-- `DMDHandles.put_decomp` (`modred/dmd.py` lines 615-682). -/
def dmdPutStages (dest : Fin 5 → Nat) : List (FileStage (DmdSaved R) R) :=
  [.save [(dest 0, fun d => .ok d.eigvals)], .save [(dest 1, fun d => .ok d.right)], .save [(dest 2, fun d => .ok d.left)],
    .save [(dest 3, fun d => .ok d.corrEigvals)], .save [(dest 4, fun d => .ok d.corrEigvecs)]]

/-- `DMDHandles.get_decomp` (`modred/dmd.py` lines 539-572). -/
def dmdGetStages (src : Fin 5 → Nat) : List (FileStage (DmdSaved R) R) :=
  [.load (src 0) fun d a => { d with eigvals := squeezeArray a }, .load (src 1) fun d a => { d with right := a },
    .load (src 2) fun d a => { d with left := a }, .load (src 3) fun d a => { d with corrEigvals := squeezeArray a },
    .load (src 4) fun d a => { d with corrEigvecs := a }]

/-- `TLSqrDMDHandles.put_decomp` (`modred/dmd.py` lines 2031-2072). -/
def tlsqrPutStages (dest : Fin 7 → Nat) : List (FileStage (TlsqrSaved R) R) :=
  [.save [(dest 0, fun d => .ok d.eigvals)], .save [(dest 1, fun d => .ok d.right)], .save [(dest 2, fun d => .ok d.left)],
    .save [(dest 3, fun d => .ok d.sumEigvals)], .save [(dest 4, fun d => .ok d.sumEigvecs)],
    .save [(dest 5, fun d => .ok d.projEigvals)], .save [(dest 6, fun d => .ok d.projEigvecs)]]

/-- `TLSqrDMDHandles.get_decomp` (`modred/dmd.py` lines 1953-1998). -/
def tlsqrGetStages (src : Fin 7 → Nat) : List (FileStage (TlsqrSaved R) R) :=
  [.load (src 0) fun d a => { d with eigvals := squeezeArray a }, .load (src 1) fun d a => { d with right := a },
    .load (src 2) fun d a => { d with left := a }, .load (src 3) fun d a => { d with sumEigvals := squeezeArray a },
    .load (src 4) fun d a => { d with sumEigvecs := a }, .load (src 5) fun d a => { d with projEigvals := squeezeArray a },
    .load (src 6) fun d a => { d with projEigvecs := a }]

/-- An attribute that holds an array, see `putAttr`. -/
def heldArray (attr : Attr) (obj : Held R) : Except Err (NpArray R) :=
  match obj attr with
  | none => .error .typeError
  | some x => .ok x

/-- The methods that save one attribute, see `putAttr`. -/
def putAttrStages (attr : Attr) (dest : Nat) : List (FileStage (Held R) R) := [.save [(dest, heldArray attr)]]

/-- The methods that load one attribute, see `getAttr`. -/
def getAttrStages (attr : Attr) (src : Nat) : List (FileStage (Held R) R) :=
  [.load src fun obj a => Function.update obj attr (some a)]

/-- `DMDHandles.put_proj_coeffs` (`modred/dmd.py` lines 703-709). -/
def dmdPutProjStages (dest advDest : Nat) : List (FileStage (Held R) R) :=
  [.save [(dest, heldArray .projCoeffs), (advDest, heldArray .advProjCoeffs)]]

/-- `DMDHandles.get_proj_coeffs` (`modred/dmd.py` lines 601-612). -/
def dmdGetProjStages (src advSrc : Nat) : List (FileStage (Held R) R) :=
  getAttrStages .projCoeffs src ++ getAttrStages .advProjCoeffs advSrc

/-- `LTIGalerkinProjectionBase.put_model` (`modred/ltigalerkinproj.py` lines 105-120). -/
def ltiPutStages (aDest bDest cDest : Nat) : List (FileStage (Held R) R) :=
  putAttrStages .aReduced aDest ++ putAttrStages .bReduced bDest ++ putAttrStages .cReduced cDest

end Modred
