import Verif.Model.Bpod
import Verif.Model.Galerkin

/-!
# Objects of the classes `PODHandles` and `BPODHandles`

What the methods of `modred/pod.py` lines 211-427 and `modred/bpod.py` lines 150-499 do with the attributes of an
object.  Handles are the vectors they hold.  A method that raises an exception keeps the changes made before it; so
methods return the result or the error together with the object.  The arrays that are got and put are two-dimensional
and consistent with each other; how they are written and read is in `Verif.Model.Decomp`.
-/

namespace Modred

open Matrix

variable {𝕜 : Type*} [RCLike 𝕜] {E : Type*}

/-- The numerical library for arrays of all sizes. -/
structure PodObjLib (𝕜 : Type*) where
  eigh : ∀ {m : Nat}, Matrix (Fin m) (Fin m) 𝕜 → EighOut 𝕜 m
  argsort : ∀ {m : Nat}, (Fin m → ℝ) → Equiv.Perm (Fin m)
  svd : ∀ {m n : Nat}, Matrix (Fin m) (Fin n) 𝕜 → SvdOut 𝕜 m n

/-- Linear combinations of the handles of an object (`modred/vectorspace.py` lines 868-906).  For handles `None`,
`make_iterable` gives a list of one handle, which has no method `get`. -/
def combineAttr [AddCommMonoid E] [Module 𝕜 E] {m r : Nat} (vecs : Option (List E)) (build : Matrix (Fin m) (Fin r) 𝕜)
    (modeIndices : List Int) (numModeHandles : Nat) : Except Err (Vecs E) :=
  match vecs with
  | some vecs => linCombineSized numModeHandles vecs.get build (some modeIndices)
  | none =>
    match pickCols build (some modeIndices) with
    | .error e => .error e
    | .ok c => if m = 1 ∧ numModeHandles = c.k then .error .attributeError else .error .valueError

/-! ### Proper orthogonal decomposition -/

/-- A square array. -/
structure SquareArr (𝕜 : Type*) where
  m : Nat
  a : Matrix (Fin m) (Fin m) 𝕜

/-- The attributes `eigvals` and `eigvecs`. -/
structure PodSized (𝕜 : Type*) where
  m : Nat
  r : Nat
  eigvals : Fin r → ℝ
  eigvecs : Matrix (Fin m) (Fin r) 𝕜

/-- Attributes of an object of the class `PODHandles`; before it is computed or got, there is no attribute
`proj_coeffs`. -/
structure PodObj (𝕜 : Type*) (E : Type*) where
  vecs : Option (List E)
  corr : Option (SquareArr 𝕜)
  decomp : Option (PodSized 𝕜)
  projCoeffs : Option (Arr 𝕜)

/-- The constructor (`modred/pod.py` lines 241-254). -/
def PodObj.new : PodObj 𝕜 E := ⟨none, none, none, none⟩

variable (lib : PodObjLib 𝕜) (ip : E → E → 𝕜)

/-- `PODHandles.get_decomp` (`modred/pod.py` lines 257-269). -/
def PodObj.getDecomp (g : PodObj 𝕜 E) (d : PodSized 𝕜) : PodObj 𝕜 E := { g with decomp := some d }

/-- `PODHandles.get_correlation_array` (`modred/pod.py` lines 272-278), or assigning the attribute as in lines
360-362. -/
def PodObj.getCorr (g : PodObj 𝕜 E) (c : SquareArr 𝕜) : PodObj 𝕜 E := { g with corr := some c }

/-- `PODHandles.get_proj_coeffs` (`modred/pod.py` lines 281-287). -/
def PodObj.getProjCoeffs (g : PodObj 𝕜 E) (c : Arr 𝕜) : PodObj 𝕜 E := { g with projCoeffs := some c }

/-- `PODHandles.put_proj_coeffs` (`modred/pod.py` lines 326-330): the array that is put. -/
def PodObj.putProjCoeffs (g : PodObj 𝕜 E) : Except Err (Arr 𝕜) :=
  match g.projCoeffs with
  | none => .error .attributeError
  | some c => .ok c

/-- `PODHandles.compute_eigendecomp` (`modred/pod.py` lines 345-366).  The array `None` has no dimensions, which is a
`LinAlgError`. -/
noncomputable def PodObj.computeEigendecomp (g : PodObj 𝕜 E) (atol rtol : Option ℝ) : Except Err Unit × PodObj 𝕜 E :=
  match g.corr with
  | none => (.error .linAlgError, g)
  | some c =>
    match utilEigh lib.eigh lib.argsort c.a atol rtol true with
    | .error e => (.error e, g)
    | .ok e => (.ok (), { g with decomp := some ⟨c.m, e.r, e.w, e.V⟩ })

/-- `PODHandles.compute_decomp` (`modred/pod.py` lines 369-393).  What it returns are attributes. -/
noncomputable def PodObj.computeDecomp (g : PodObj 𝕜 E) (vecs : List E) (atol rtol : Option ℝ) :
    Except Err Unit × PodObj 𝕜 E :=
  let g := { g with vecs := some vecs }
  if vecs = [] then (.error .indexError, g)
  else { g with corr := some ⟨vecs.length, handlesSymmIp ip vecs.get⟩ }.computeEigendecomp lib atol rtol

/-- `PODHandles.compute_modes` (`modred/pod.py` lines 396-414): the modes that are put.  A power of `None` is a
`TypeError`. -/
noncomputable def PodObj.computeModes [AddCommMonoid E] [Module 𝕜 E] (g : PodObj 𝕜 E) (modeIndices : List Int)
    (numModeHandles : Nat) (vecs : Option (List E)) : Except Err (Vecs E) × PodObj 𝕜 E :=
  let g := if vecs.isSome then { g with vecs := vecs } else g
  match g.decomp with
  | none => (.error .typeError, g)
  | some d => (combineAttr g.vecs (d.eigvecs * diagPow (𝕜 := 𝕜) d.eigvals (-0.5)) modeIndices numModeHandles, g)

/-- `PODHandles.compute_proj_coeffs` (`modred/pod.py` lines 417-427). -/
noncomputable def PodObj.computeProjCoeffs (g : PodObj 𝕜 E) : Except Err (Arr 𝕜) × PodObj 𝕜 E :=
  match g.decomp with
  | none => (.error .typeError, g)
  | some d =>
    let c : Arr 𝕜 := ⟨d.r, d.m, diagPow (𝕜 := 𝕜) d.eigvals 0.5 * d.eigvecsᴴ⟩
    (.ok c, { g with projCoeffs := some c })

/-! ### Balanced proper orthogonal decomposition -/

/-- The attributes `sing_vals`, `L_sing_vecs` and `R_sing_vecs`. -/
structure BpodSized (𝕜 : Type*) where
  m : Nat
  n : Nat
  r : Nat
  singVals : Fin r → ℝ
  L : Matrix (Fin m) (Fin r) 𝕜
  R : Matrix (Fin n) (Fin r) 𝕜

/-- Attributes of an object of the class `BPODHandles`. -/
structure BpodObj (𝕜 : Type*) (E : Type*) where
  directVecs : Option (List E)
  adjointVecs : Option (List E)
  hankel : Option (Arr 𝕜)
  decomp : Option (BpodSized 𝕜)
  directProjCoeffs : Option (Arr 𝕜)
  adjointProjCoeffs : Option (Arr 𝕜)

/-- The constructor (`modred/bpod.py` lines 181-197). -/
def BpodObj.new : BpodObj 𝕜 E := ⟨none, none, none, none, none, none⟩

/-- `BPODHandles.get_decomp` (`modred/bpod.py` lines 200-218). -/
def BpodObj.getDecomp (g : BpodObj 𝕜 E) (d : BpodSized 𝕜) : BpodObj 𝕜 E := { g with decomp := some d }

/-- `BPODHandles.get_Hankel_array` (`modred/bpod.py` lines 221-227), or assigning the attribute as in lines
324-329. -/
def BpodObj.getHankel (g : BpodObj 𝕜 E) (c : Arr 𝕜) : BpodObj 𝕜 E := { g with hankel := some c }

/-- `BPODHandles.get_direct_proj_coeffs` (`modred/bpod.py` lines 230-237). -/
def BpodObj.getDirectProjCoeffs (g : BpodObj 𝕜 E) (c : Arr 𝕜) : BpodObj 𝕜 E := { g with directProjCoeffs := some c }

/-- `BPODHandles.get_adjoint_proj_coeffs` (`modred/bpod.py` lines 240-248). -/
def BpodObj.getAdjointProjCoeffs (g : BpodObj 𝕜 E) (c : Arr 𝕜) : BpodObj 𝕜 E := { g with adjointProjCoeffs := some c }

/-- `BPODHandles.put_direct_proj_coeffs` (`modred/bpod.py` lines 298-302): the array that is put. -/
def BpodObj.putDirectProjCoeffs (g : BpodObj 𝕜 E) : Except Err (Arr 𝕜) :=
  match g.directProjCoeffs with
  | none => .error .attributeError
  | some c => .ok c

/-- `BPODHandles.put_adjoint_proj_coeffs` (`modred/bpod.py` lines 305-309): the array that is put. -/
def BpodObj.putAdjointProjCoeffs (g : BpodObj 𝕜 E) : Except Err (Arr 𝕜) :=
  match g.adjointProjCoeffs with
  | none => .error .attributeError
  | some c => .ok c

/-- `BPODHandles.compute_SVD` (`modred/bpod.py` lines 312-333). -/
noncomputable def BpodObj.computeSvd (g : BpodObj 𝕜 E) (atol rtol : Option ℝ) : Except Err Unit × BpodObj 𝕜 E :=
  match g.hankel with
  | none => (.error .linAlgError, g)
  | some h =>
    match utilSvd lib.svd h.a atol rtol with
    | .error e => (.error e, g)
    | .ok s => (.ok (), { g with decomp := some ⟨h.m, h.n, s.r, s.S, s.U, s.V⟩ })

/-- `BPODHandles.compute_decomp` (`modred/bpod.py` lines 348-419).  What it returns are attributes. -/
noncomputable def BpodObj.computeDecomp (g : BpodObj 𝕜 E) (directVecs adjointVecs : List E) (numInputs numOutputs : Nat)
    (atol rtol : Option ℝ) : Except Err Unit × BpodObj 𝕜 E :=
  let g := { g with directVecs := some directVecs, adjointVecs := some adjointVecs }
  if directVecs.length = 0 ∨ adjointVecs.length = 0 ∨ numInputs = 0 then (.error .indexError, g)
  else
    let allAdjointFirstDirect := handlesIp ip adjointVecs.get (firstEntries directVecs.get numInputs)
    let lastAdjointAllDirect := handlesIp ip (lastVecs adjointVecs.get numOutputs) directVecs.get
    match bpodHankel numInputs numOutputs allAdjointFirstDirect lastAdjointAllDirect with
    | .error e => (.error e, g)
    | .ok rows =>
      { g with hankel := some ⟨adjointVecs.length / numOutputs * numOutputs, directVecs.length / numInputs * numInputs,
        ofRows _ _ rows⟩ }.computeSvd lib atol rtol

/-- `BPODHandles.compute_direct_modes` (`modred/bpod.py` lines 422-444): the modes that are put.  `None` has no method
`dot`. -/
noncomputable def BpodObj.computeDirectModes [AddCommMonoid E] [Module 𝕜 E] (g : BpodObj 𝕜 E) (modeIndices : List Int)
    (numModeHandles : Nat) (vecs : Option (List E)) : Except Err (Vecs E) × BpodObj 𝕜 E :=
  let g := if vecs.isSome then { g with directVecs := vecs } else g
  match g.directVecs with
  | none => (.error .undefinedError, g)
  | some v =>
    match g.decomp with
    | none => (.error .attributeError, g)
    | some d =>
      (linCombineSized numModeHandles v.get (d.R * diagPow (𝕜 := 𝕜) d.singVals (-0.5)) (some modeIndices), g)

/-- `BPODHandles.compute_adjoint_modes` (`modred/bpod.py` lines 447-469). -/
noncomputable def BpodObj.computeAdjointModes [AddCommMonoid E] [Module 𝕜 E] (g : BpodObj 𝕜 E) (modeIndices : List Int)
    (numModeHandles : Nat) (vecs : Option (List E)) : Except Err (Vecs E) × BpodObj 𝕜 E :=
  let g := if vecs.isSome then { g with adjointVecs := vecs } else g
  match g.adjointVecs with
  | none => (.error .undefinedError, g)
  | some v =>
    match g.decomp with
    | none => (.error .attributeError, g)
    | some d =>
      (linCombineSized numModeHandles v.get (d.L * diagPow (𝕜 := 𝕜) d.singVals (-0.5)) (some modeIndices), g)

/-- `BPODHandles.compute_direct_proj_coeffs` (`modred/bpod.py` lines 472-484).  A power of `None` is a `TypeError`. -/
noncomputable def BpodObj.computeDirectProjCoeffs (g : BpodObj 𝕜 E) : Except Err (Arr 𝕜) × BpodObj 𝕜 E :=
  match g.decomp with
  | none => (.error .typeError, g)
  | some d =>
    let c : Arr 𝕜 := ⟨d.r, d.n, diagPow (𝕜 := 𝕜) d.singVals 0.5 * d.Rᴴ⟩
    (.ok c, { g with directProjCoeffs := some c })

/-- `BPODHandles.compute_adjoint_proj_coeffs` (`modred/bpod.py` lines 487-499). -/
noncomputable def BpodObj.computeAdjointProjCoeffs (g : BpodObj 𝕜 E) : Except Err (Arr 𝕜) × BpodObj 𝕜 E :=
  match g.decomp with
  | none => (.error .typeError, g)
  | some d =>
    let c : Arr 𝕜 := ⟨d.r, d.m, diagPow (𝕜 := 𝕜) d.singVals 0.5 * d.Lᴴ⟩
    (.ok c, { g with adjointProjCoeffs := some c })

end Modred
