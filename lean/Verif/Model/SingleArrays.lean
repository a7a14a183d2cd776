import Verif.Model.Decomp

/-!
# Saving and loading single arrays

The methods `put_...` and `get_...` that save and load one attribute, in one process.  The object is the arrays that its
attributes hold; an attribute that does not hold an array, because nothing was computed, is `none`.
-/

namespace Modred

/-- Attributes of the objects of `modred/pod.py`, `modred/bpod.py`, `modred/dmd.py`, `modred/era.py` and
`modred/ltigalerkinproj.py` that hold arrays. -/
inductive Attr
  | correlationArray | projCoeffs | advProjCoeffs | hankelArray | hankelArray2 | directProjCoeffs | adjointProjCoeffs
  | crossCorrelationArray | spectralCoeffs | advCorrelationArray | sumCorrelationArray | projCorrelationArray
  | singVals | leftSingVecs | rightSingVecs | a | b | c | aReduced | bReduced | cReduced
  deriving DecidableEq

/-- The arrays an object holds. -/
abbrev Held (R : Type*) := Attr → Option (NpArray R)

section
variable {R Stored : Type*} (put : NpArray R → Except Err Stored) (get : Stored → Except Err (NpArray R))

/-- `self.put_array(self.attr, dest)`.  What is not an array is not accepted; the kind of exception depends on `put_array`
and is `TypeError` here. -/
def putAttr (attr : Attr) (obj : Held R) (dest : Nat) (p : Places Stored) : Except Err (Places Stored) :=
  match obj attr with
  | none => .error .typeError
  | some x => putTo put x dest p

/-- `self.attr = parallel.call_and_bcast(self.get_array, src)`. -/
def getAttr (attr : Attr) (src : Nat) (p : Places Stored) (obj : Held R) : Except Err (Held R) := do
  let x ← getFrom get src p
  return Function.update obj attr (some x)

/-- `PODHandles.put_correlation_array` (`modred/pod.py` lines 319-323). -/
def podPutCorrelationArray : Held R → Nat → Places Stored → Except Err (Places Stored) := putAttr put .correlationArray

/-- `PODHandles.get_correlation_array` (`modred/pod.py` lines 272-278). -/
def podGetCorrelationArray : Nat → Places Stored → Held R → Except Err (Held R) := getAttr get .correlationArray

/-- `PODHandles.put_proj_coeffs` (`modred/pod.py` lines 326-330). -/
def podPutProjCoeffs : Held R → Nat → Places Stored → Except Err (Places Stored) := putAttr put .projCoeffs

/-- `PODHandles.get_proj_coeffs` (`modred/pod.py` lines 281-287). -/
def podGetProjCoeffs : Nat → Places Stored → Held R → Except Err (Held R) := getAttr get .projCoeffs

/-- `BPODHandles.put_Hankel_array` (`modred/bpod.py` lines 291-295). -/
def bpodPutHankelArray : Held R → Nat → Places Stored → Except Err (Places Stored) := putAttr put .hankelArray

/-- `BPODHandles.get_Hankel_array` (`modred/bpod.py` lines 221-227). -/
def bpodGetHankelArray : Nat → Places Stored → Held R → Except Err (Held R) := getAttr get .hankelArray

/-- `BPODHandles.put_direct_proj_coeffs` (`modred/bpod.py` lines 298-302). -/
def bpodPutDirectProjCoeffs : Held R → Nat → Places Stored → Except Err (Places Stored) := putAttr put .directProjCoeffs

/-- `BPODHandles.get_direct_proj_coeffs` (`modred/bpod.py` lines 230-237). -/
def bpodGetDirectProjCoeffs : Nat → Places Stored → Held R → Except Err (Held R) := getAttr get .directProjCoeffs

/-- `BPODHandles.put_adjoint_proj_coeffs` (`modred/bpod.py` lines 305-309). -/
def bpodPutAdjointProjCoeffs : Held R → Nat → Places Stored → Except Err (Places Stored) := putAttr put .adjointProjCoeffs

/-- `BPODHandles.get_adjoint_proj_coeffs` (`modred/bpod.py` lines 240-248). -/
def bpodGetAdjointProjCoeffs : Nat → Places Stored → Held R → Except Err (Held R) := getAttr get .adjointProjCoeffs

/-- `DMDHandles.put_correlation_array` (`modred/dmd.py` lines 682-686). -/
def dmdPutCorrelationArray : Held R → Nat → Places Stored → Except Err (Places Stored) := putAttr put .correlationArray

/-- `DMDHandles.get_correlation_array` (`modred/dmd.py` lines 573-579). -/
def dmdGetCorrelationArray : Nat → Places Stored → Held R → Except Err (Held R) := getAttr get .correlationArray

/-- `DMDHandles.put_cross_correlation_array` (`modred/dmd.py` lines 689-693). -/
def dmdPutCrossCorrelationArray : Held R → Nat → Places Stored → Except Err (Places Stored) := putAttr put .crossCorrelationArray

/-- `DMDHandles.get_cross_correlation_array` (`modred/dmd.py` lines 582-589). -/
def dmdGetCrossCorrelationArray : Nat → Places Stored → Held R → Except Err (Held R) := getAttr get .crossCorrelationArray

/-- `DMDHandles.put_spectral_coeffs` (`modred/dmd.py` lines 696-700). -/
def dmdPutSpectralCoeffs : Held R → Nat → Places Stored → Except Err (Places Stored) := putAttr put .spectralCoeffs

/-- `DMDHandles.get_spectral_coeffs` (`modred/dmd.py` lines 592-598). -/
def dmdGetSpectralCoeffs : Nat → Places Stored → Held R → Except Err (Held R) := getAttr get .spectralCoeffs

/-- `TLSqrDMDHandles.put_adv_correlation_array` (`modred/dmd.py` lines 2117-2121). -/
def tlsqrPutAdvCorrelationArray : Held R → Nat → Places Stored → Except Err (Places Stored) := putAttr put .advCorrelationArray

/-- `TLSqrDMDHandles.get_adv_correlation_array` (`modred/dmd.py` lines 2000-2007). -/
def tlsqrGetAdvCorrelationArray : Nat → Places Stored → Held R → Except Err (Held R) := getAttr get .advCorrelationArray

/-- `TLSqrDMDHandles.put_sum_correlation_array` (`modred/dmd.py` lines 2124-2128). -/
def tlsqrPutSumCorrelationArray : Held R → Nat → Places Stored → Except Err (Places Stored) := putAttr put .sumCorrelationArray

/-- `TLSqrDMDHandles.get_sum_correlation_array` (`modred/dmd.py` lines 2010-2017). -/
def tlsqrGetSumCorrelationArray : Nat → Places Stored → Held R → Except Err (Held R) := getAttr get .sumCorrelationArray

/-- `TLSqrDMDHandles.put_proj_correlation_array` (`modred/dmd.py` lines 2131-2135). -/
def tlsqrPutProjCorrelationArray : Held R → Nat → Places Stored → Except Err (Places Stored) := putAttr put .projCorrelationArray

/-- `TLSqrDMDHandles.get_proj_correlation_array` (`modred/dmd.py` lines 2020-2028). -/
def tlsqrGetProjCorrelationArray : Nat → Places Stored → Held R → Except Err (Held R) := getAttr get .projCorrelationArray

/-- `DMDHandles.put_proj_coeffs` (`modred/dmd.py` lines 703-709). -/
def dmdPutProjCoeffs (obj : Held R) (dest advDest : Nat) (p : Places Stored) : Except Err (Places Stored) := do
  let p ← putAttr put .projCoeffs obj dest p
  putAttr put .advProjCoeffs obj advDest p

/-- `DMDHandles.get_proj_coeffs` (`modred/dmd.py` lines 601-612). -/
def dmdGetProjCoeffs (src advSrc : Nat) (p : Places Stored) (obj : Held R) : Except Err (Held R) := do
  let obj ← getAttr get .projCoeffs src p obj
  getAttr get .advProjCoeffs advSrc p obj

/-- `TLSqrDMDHandles.put_correlation_array_eigvals` and `put_correlation_array_eigvecs` (`modred/dmd.py` lines 2075-2086),
which replace methods of `DMDHandles`. -/
def tlsqrPutCorrelationArrayEig (_obj : Held R) (_dest : Nat) (_p : Places Stored) : Except Err (Places Stored) :=
  .error .notImplementedError

/-- `ERA.put_model` (`modred/era.py` lines 223-244). -/
def eraPutModel (obj : Held R) (aDest bDest cDest : Nat) (p : Places Stored) : Except Err (Places Stored) := do
  let p ← putAttr put .a obj aDest p
  let p ← putAttr put .b obj bDest p
  putAttr put .c obj cDest p

/-- `ERA.put_decomp` (`modred/era.py` lines 247-272). -/
def eraPutDecomp (obj : Held R) (singValsDest leftDest rightDest hankelDest hankel2Dest : Nat) (p : Places Stored) :
    Except Err (Places Stored) := do
  let p ← putAttr put .hankelArray obj hankelDest p
  let p ← putAttr put .hankelArray2 obj hankel2Dest p
  let p ← putAttr put .leftSingVecs obj leftDest p
  let p ← putAttr put .singVals obj singValsDest p
  putAttr put .rightSingVecs obj rightDest p

/-- `ERA.put_sing_vals` (`modred/era.py` lines 275-277). -/
def eraPutSingVals : Held R → Nat → Places Stored → Except Err (Places Stored) := putAttr put .singVals

/-- `LTIGalerkinProjectionBase.put_A_reduced`, `put_B_reduced` and `put_C_reduced`, and `put_model`, which calls them
(`modred/ltigalerkinproj.py` lines 87-120). -/
def ltiPutModel (obj : Held R) (aDest bDest cDest : Nat) (p : Places Stored) : Except Err (Places Stored) := do
  let p ← putAttr put .aReduced obj aDest p
  let p ← putAttr put .bReduced obj bDest p
  putAttr put .cReduced obj cDest p

end

end Modred
