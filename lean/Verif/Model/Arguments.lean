import Verif.Model.PodObjects
import Verif.Model.DmdHandles
import Verif.Model.VectorSpace

/-!
# Forms of arguments

Handles are given as one handle, as a sequence, as an iterator or as a collection without order.  This file models what
the functions do with these forms before they are what `Verif.Model.VectorSpace`, `Verif.Model.PodObjects` and
`Verif.Model.DmdHandles` start from: lists.  Handles are the vectors they hold; a handle cannot be iterated over.
-/

namespace Modred

open Matrix

variable {V : Type*}

/-- What is given for handles: one handle; a list, tuple or one-dimensional array of handles; an iterator or generator;
or a set, which has a length, but no first entry and no slices. -/
inductive HandlesArg (V : Type*) where
  | single (v : V)
  | seq (l : List V)
  | iterator (l : List V)
  | unordered (l : List V)

/-- `make_iterable` (`modred/util.py` lines 33-40). -/
def makeIterable : HandlesArg V → HandlesArg V
  | .single v => .seq [v]
  | a => a

/-- `len(a)`. -/
def HandlesArg.len : HandlesArg V → Except Err Nat
  | .single _ => .error .typeError
  | .seq l => .ok l.length
  | .iterator _ => .error .typeError
  | .unordered l => .ok l.length

/-- The list that `a[0]` and the other entries are read from, once `a[0]` is evaluated. -/
def HandlesArg.entries : HandlesArg V → Except Err (List V)
  | .seq [] => .error .indexError
  | .seq l => .ok l
  | _ => .error .typeError

/-- `a[:n]`, `a[-n:]`, `a[1:]` or `a[:-1]`, which `f` is for lists. -/
def HandlesArg.slice (f : List V → List V) : HandlesArg V → Except Err (HandlesArg V)
  | .seq l => .ok (.seq (f l))
  | _ => .error .typeError

/-! ### Functions of the vector space -/

section VectorSpace

variable {K : Type*}

/-- The start of `compute_inner_product_array` (`modred/vectorspace.py` lines 289-345). -/
def innerProductsOf [Add K] [Star K] (p tag maxVecsPerProc : Nat) (ip : Option (V → V → K)) (cast : K → K → K)
    (rowHandles colHandles : HandlesArg V) : Except Err (Job (IPState V K) (IPMsg V K) (Nat → Nat → K)) :=
  match ip with
  | none => .error .runtimeError
  | some _ =>
    let rowHandles := makeIterable rowHandles
    let colHandles := makeIterable colHandles
    match colHandles.len with
    | .error e => .error e
    | .ok numCols =>
      match rowHandles.len with
      | .error e => .error e
      | .ok numRows =>
        match (if numRows > numCols then colHandles else rowHandles).entries with
        | .error e => .error e
        | .ok first =>
          match (if numRows > numCols then rowHandles else colHandles).entries with
          | .error e => .error e
          | .ok second =>
            if numRows > numCols then computeInnerProductArray p tag maxVecsPerProc ip cast second first
            else computeInnerProductArray p tag maxVecsPerProc ip cast first second

/-- The start of `compute_symm_inner_product_array` (`modred/vectorspace.py` lines 517-545). -/
def symmInnerProductsOf [Add K] [Mul K] [Zero K] [One K] [Star K] [DecidableEq K] (p tag maxVecsPerProc : Nat)
    (ip : Option (V → V → K)) (cast : K → K → K) (handles : HandlesArg V) :
    Except Err (Job (IPState V K) (IPMsg V K) (Nat → Nat → K)) :=
  match ip with
  | none => .error .runtimeError
  | some _ =>
    let handles := makeIterable handles
    match handles.len with
    | .error e => .error e
    | .ok _ =>
      match handles.entries with
      | .error e => .error e
      | .ok l => computeSymmInnerProductArray p tag maxVecsPerProc ip cast l

/-- What is given for column indices: one number or a list of numbers. -/
inductive IndexArg where
  | one (i : Int)
  | many (l : List Int)

variable {𝕜 : Type*} [RCLike 𝕜] {E : Type*}

/-- `atleast_2d_col(a[:, i])` (`modred/vectorspace.py` lines 891-893 and `modred/util.py` lines 24-30).  For one number
`a[:, i]` has one dimension, and is made a column. -/
def columnsOf {m n : Nat} (a : Matrix (Fin m) (Fin n) 𝕜) : IndexArg → Except Err (Cols 𝕜 m)
  | .many l => pickCols a (some l)
  | .one i =>
    if h : 0 ≤ i ∧ i < n then
      let column : Fin m → 𝕜 := fun k => a k ⟨i.toNat, by omega⟩
      .ok ⟨1, Matrix.of fun k _ => column k⟩
    else if h : i < 0 ∧ -(n : Int) ≤ i then
      let column : Fin m → 𝕜 := fun k => a k ⟨(i + n).toNat, by omega⟩
      .ok ⟨1, Matrix.of fun k _ => column k⟩
    else .error .indexError

/-- `lin_combine` (`modred/vectorspace.py` lines 867-906 and 1058-1060) with a two-dimensional array of coefficients and
column indices.  `S` is what sum handles are.  Sum handles without order fail at the first `put`, if there is one. -/
def combineOf [AddCommMonoid E] [Module 𝕜 E] {S : Type*} {m r : Nat} (sumHandles : HandlesArg S)
    (basisHandles : HandlesArg E) (coeff : Matrix (Fin m) (Fin r) 𝕜) (idx : IndexArg) : Except Err (Vecs E) :=
  let sumHandles := makeIterable sumHandles
  let basisHandles := makeIterable basisHandles
  match basisHandles.len with
  | .error e => .error e
  | .ok numBases =>
    match sumHandles.len with
    | .error e => .error e
    | .ok numSums =>
      match columnsOf coeff idx with
      | .error e => .error e
      | .ok c =>
        if numBases ≠ m then .error .valueError
        else if numSums ≠ c.k then .error .valueError
        else
          match basisHandles.entries with
          | .error e => .error e
          | .ok l =>
            match (if numSums = 0 then .ok [] else sumHandles.entries) with
            | .error e => .error e
            | .ok _ => linCombineSized numSums l.get c.a none

end VectorSpace

/-! ### Methods -/

section Methods

variable {𝕜 : Type*} [RCLike 𝕜] {E : Type*} {S : Type*}

/-- Attributes of an object of the class `PODHandles` whose handles were given in any form. -/
structure PodArgs (𝕜 : Type*) (E : Type*) where
  vecs : Option (HandlesArg E)
  corr : Option (SquareArr 𝕜)
  decomp : Option (PodSized 𝕜)
  projCoeffs : Option (Arr 𝕜)

/-- `PODHandles.compute_decomp` (`modred/pod.py` lines 388-393), with `compute_eigendecomp` (lines 364-366) and
`compute_symm_inner_product_array` as described by `handlesSymmIp`. -/
noncomputable def PodArgs.computeDecomp (lib : PodObjLib 𝕜) (ip : E → E → 𝕜) (g : PodArgs 𝕜 E) (vecs : HandlesArg E)
    (atol rtol : Option ℝ) : Except Err Unit × PodArgs 𝕜 E :=
  let g := { g with vecs := some vecs }
  let handles := makeIterable vecs
  match handles.len with
  | .error e => (.error e, g)
  | .ok _ =>
    match handles.entries with
    | .error e => (.error e, g)
    | .ok l =>
      let corr : SquareArr 𝕜 := ⟨l.length, handlesSymmIp ip l.get⟩
      let g := { g with corr := some corr }
      match utilEigh lib.eigh lib.argsort corr.a atol rtol true with
      | .error e => (.error e, g)
      | .ok e => (.ok (), { g with decomp := some ⟨corr.m, e.r, e.w, e.V⟩ })

/-- `PODHandles.compute_modes` (`modred/pod.py` lines 409-414).  An object without handles uses those given as `None`,
which is one handle without a method `get`. -/
noncomputable def PodArgs.computeModes [AddCommMonoid E] [Module 𝕜 E] (g : PodArgs 𝕜 E) (modeIndices : IndexArg)
    (modeHandles : HandlesArg S) (vecs : Option (HandlesArg E)) : Except Err (Vecs E) × PodArgs 𝕜 E :=
  let g := match vecs with
    | some vecs => { g with vecs := some (makeIterable vecs) }
    | none => g
  match g.decomp with
  | none => (.error .typeError, g)
  | some d =>
    match g.vecs with
    | some vecs => (combineOf modeHandles vecs (d.eigvecs * diagPow (𝕜 := 𝕜) d.eigvals (-0.5)) modeIndices, g)
    | none =>
      match combineOf modeHandles (.single (0 : E)) (d.eigvecs * diagPow (𝕜 := 𝕜) d.eigvals (-0.5)) modeIndices with
      | .error e => (.error e, g)
      | .ok _ => (.error .attributeError, g)

/-- `BPODHandles.compute_decomp` (`modred/bpod.py` lines 382-395): the handles of which inner products are computed, as
rows and columns of the first and of the second array. -/
def bpodSlices (direct adjoint : HandlesArg E) (numInputs numOutputs : Nat) :
    Except Err ((HandlesArg E × HandlesArg E) × (HandlesArg E × HandlesArg E)) :=
  match direct.slice (fun l => l.take numInputs) with
  | .error e => .error e
  | .ok first =>
    match adjoint.slice (fun l => l.drop (if numOutputs = 0 then 0 else l.length - numOutputs)) with
    | .error e => .error e
    | .ok last => .ok ((adjoint, first), (last, direct))

/-- `BPODHandles.compute_direct_modes` and `compute_adjoint_modes` (`modred/bpod.py` lines 437-444 and 462-469), for
build coefficients `build`. -/
def bpodModesOf [AddCommMonoid E] [Module 𝕜 E] {m r : Nat} (attr : Option (HandlesArg E))
    (vecs : Option (HandlesArg E)) (build : Matrix (Fin m) (Fin r) 𝕜) (modeIndices : IndexArg)
    (modeHandles : HandlesArg S) : Except Err (Vecs E) × Option (HandlesArg E) :=
  let attr := match vecs with
    | some vecs => some (makeIterable vecs)
    | none => attr
  match attr with
  | none => (.error .undefinedError, attr)
  | some v => (combineOf modeHandles v build modeIndices, attr)

/-- The check of `DMDHandles.compute_decomp` (`modred/dmd.py` lines 858-863). -/
def dmdCheckOf (vecs : HandlesArg E) (adv : Option (HandlesArg E)) : Except Err Unit :=
  match adv with
  | none => .ok ()
  | some adv =>
    match vecs.len with
    | .error e => .error e
    | .ok numVecs =>
      match adv.len with
      | .error e => .error e
      | .ok numAdv => if numVecs ≠ numAdv then .error .valueError else .ok ()

/-- `DMDHandles.compute_exact_modes` (`modred/dmd.py` lines 941-968), for build coefficients `build`. -/
def dmdExactModesOf [AddCommMonoid E] [Module 𝕜 E] {m r : Nat} (vecs adv : Option (HandlesArg E))
    (build : Matrix (Fin m) (Fin r) 𝕜) (modeIndices : IndexArg) (modeHandles : HandlesArg S) : Except Err (Vecs E) :=
  match adv with
  | some adv => combineOf modeHandles adv build modeIndices
  | none =>
    match vecs with
    | none => .error .typeError
    | some vecs =>
      match vecs.len with
      | .error e => .error e
      | .ok n =>
        if n = m + 1 then
          match vecs.slice List.tail with
          | .error e => .error e
          | .ok vecs => combineOf modeHandles vecs build modeIndices
        else .error .typeError

/-- `DMDHandles.compute_proj_modes` and `compute_adjoint_modes` (`modred/dmd.py` lines 985-1012 and 1030-1057), for build
coefficients `build`. -/
def dmdSpanModesOf [AddCommMonoid E] [Module 𝕜 E] {m r : Nat} (vecs : Option (HandlesArg E))
    (build : Matrix (Fin m) (Fin r) 𝕜) (modeIndices : IndexArg) (modeHandles : HandlesArg S) : Except Err (Vecs E) :=
  match vecs with
  | none => .error .typeError
  | some vecs =>
    match vecs.len with
    | .error e => .error e
    | .ok n =>
      if n = m + 1 then
        match vecs.slice List.dropLast with
        | .error e => .error e
        | .ok vecs => combineOf modeHandles vecs build modeIndices
      else if n = m then combineOf modeHandles vecs build modeIndices
      else .error .valueError

end Methods

end Modred
