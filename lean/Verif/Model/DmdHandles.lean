import Verif.Model.Dmd

/-!
# Dynamic mode decomposition on handles (`modred/dmd.py` lines 485-1109)

The state of an object of the class `DMDHandles` and what its methods do with it.  Handles are the vectors they
hold.  Attributes are not assigned by the user.  The methods that put and get arrays are not modelled here.
-/

namespace Modred

open Matrix

variable {𝕜 : Type*} [RCLike 𝕜] {E : Type*}

/-- The numerical library for arrays of all sizes. -/
structure DmdLib (𝕜 : Type*) where
  eigh : ∀ {m : Nat}, Matrix (Fin m) (Fin m) 𝕜 → EighOut 𝕜 m
  argsort : ∀ {m : Nat}, (Fin m → ℝ) → Equiv.Perm (Fin m)
  eig : ∀ {r : Nat}, Matrix (Fin r) (Fin r) 𝕜 → EigOut 𝕜 r

/-- `correlation_array` and `cross_correlation_array`. -/
structure DmdArrays (𝕜 : Type*) where
  m : Nat
  corr : Matrix (Fin m) (Fin m) 𝕜
  cross : Matrix (Fin m) (Fin m) 𝕜

/-- A decomposition whose number of rows depends on the data. -/
structure DmdSized (𝕜 : Type*) where
  m : Nat
  d : DmdDecomp 𝕜 m

/-- Attributes of an object of the class `DMDHandles`. -/
structure DmdHandles (𝕜 : Type*) (E : Type*) where
  vecs : Option (List E)
  adv : Option (List E)
  arrays : Option (DmdArrays 𝕜)
  decomp : Option (DmdSized 𝕜)

/-- The constructor (`modred/dmd.py` lines 514-536). -/
def DmdHandles.new : DmdHandles 𝕜 E := ⟨none, none, none, none⟩

/-- The correlation arrays of a sequence of vectors (`modred/dmd.py` lines 872-877). -/
def dmdArraysSeq (ip : E → E → 𝕜) (vecs : List E) : DmdArrays 𝕜 :=
  let expanded := handlesSymmIp ip vecs.get
  ⟨vecs.length - 1, Matrix.of fun i j => expanded ⟨i, by omega⟩ ⟨j, by omega⟩,
    Matrix.of fun i j => expanded ⟨i, by omega⟩ ⟨j + 1, by omega⟩⟩

/-- The correlation arrays of vectors and advanced vectors (`modred/dmd.py` lines 882-887). -/
def dmdArraysPairs (ip : E → E → 𝕜) (vecs adv : List E) (h : vecs.length = adv.length) : DmdArrays 𝕜 :=
  ⟨vecs.length, handlesSymmIp ip vecs.get, (handlesIp ip vecs.get adv.get).submatrix id (Fin.cast h)⟩

variable (lib : DmdLib 𝕜) (ip : E → E → 𝕜)

/-- `DMDHandles.compute_eigendecomp` (`modred/dmd.py` lines 783-811): the relative tolerance is not used. -/
noncomputable def DmdHandles.computeEigendecomp (g : DmdHandles 𝕜 E) (atol _rtol : Option ℝ) (maxNum : Option Nat) :
    Except Err Unit × DmdHandles 𝕜 E :=
  match g.arrays with
  | none => (.error .linAlgError, g)
  | some a =>
    match dmdEigendecomp lib.eigh lib.argsort lib.eig a.corr a.cross atol none maxNum with
    | .error e => (.error e, g)
    | .ok d => (.ok (), { g with decomp := some ⟨a.m, d⟩ })

/-- `DMDHandles.compute_decomp` (`modred/dmd.py` lines 857-900).  What it returns are attributes. -/
noncomputable def DmdHandles.computeDecomp (g : DmdHandles 𝕜 E) (vecs : List E) (adv : Option (List E))
    (atol rtol : Option ℝ) (maxNum : Option Nat) : Except Err Unit × DmdHandles 𝕜 E :=
  let g := { g with vecs := some vecs }
  match adv with
  | none =>
    if vecs = [] then (.error .indexError, g)
    else { g with arrays := some (dmdArraysSeq ip vecs) }.computeEigendecomp lib atol rtol maxNum
  | some adv =>
    let g := { g with adv := some adv }
    if h : vecs.length = adv.length then
      if vecs = [] then (.error .indexError, g)
      else { g with arrays := some (dmdArraysPairs ip vecs adv h) }.computeEigendecomp lib atol rtol maxNum
    else (.error .valueError, g)

/-- `_compute_build_coeffs_exact` (`modred/dmd.py` lines 903-908). -/
noncomputable def DmdDecomp.buildExact {m : Nat} (d : DmdDecomp 𝕜 m) : Matrix (Fin m) (Fin d.r) 𝕜 :=
  d.V * (diagPow (𝕜 := 𝕜) d.w (-0.5) * (d.R * diagonal fun i => (d.eigvals i)⁻¹))

/-- `_compute_build_coeffs_proj` (`modred/dmd.py` lines 911-915). -/
noncomputable def DmdDecomp.buildProj {m : Nat} (d : DmdDecomp 𝕜 m) : Matrix (Fin m) (Fin d.r) 𝕜 :=
  d.V * (diagPow (𝕜 := 𝕜) d.w (-0.5) * d.R)

/-- `_compute_build_coeffs_adjoint` (`modred/dmd.py` lines 918-922). -/
noncomputable def DmdDecomp.buildAdjoint {m : Nat} (d : DmdDecomp 𝕜 m) : Matrix (Fin m) (Fin d.r) 𝕜 :=
  d.V * (diagPow (𝕜 := 𝕜) d.w (-0.5) * d.L)

section Modes

variable [AddCommMonoid E] [Module 𝕜 E] {m r : Nat}

/-- Exact modes from the handles of an object (`modred/dmd.py` lines 947-968).  The two last exceptions are meant to
be `ValueError`, but `raise(ValueError, ...)` raises a tuple, which is a `TypeError`. -/
def exactModesFrom (vecs adv : Option (List E)) (build : Matrix (Fin m) (Fin r) 𝕜) (modeIndices : List Int)
    (numModeHandles : Nat) : Except Err (Vecs E) :=
  match adv with
  | some adv => linCombineSized numModeHandles adv.get build (some modeIndices)
  | none =>
    match vecs with
    | some vecs =>
      if vecs.length = m + 1 then linCombineSized numModeHandles vecs.tail.get build (some modeIndices)
      else .error .typeError
    | none => .error .typeError

/-- Projected or adjoint modes from the handles of an object (`modred/dmd.py` lines 996-1012 and 1041-1057).  The
length of `None` is a `TypeError`. -/
def spanModesFrom (vecs : Option (List E)) (build : Matrix (Fin m) (Fin r) 𝕜) (modeIndices : List Int)
    (numModeHandles : Nat) : Except Err (Vecs E) :=
  match vecs with
  | none => .error .typeError
  | some vecs =>
    if vecs.length = m + 1 then linCombineSized numModeHandles vecs.dropLast.get build (some modeIndices)
    else if vecs.length = m then linCombineSized numModeHandles vecs.get build (some modeIndices)
    else .error .valueError

/-- `DMDHandles.compute_exact_modes` (`modred/dmd.py` lines 941-968): the modes that are put. -/
noncomputable def DmdHandles.computeExactModes (g : DmdHandles 𝕜 E) (modeIndices : List Int) (numModeHandles : Nat)
    (adv : Option (List E)) : Except Err (Vecs E) × DmdHandles 𝕜 E :=
  let g := if adv.isSome then { g with adv := adv } else g
  match g.decomp with
  | none => (.error .attributeError, g)
  | some s => (exactModesFrom g.vecs g.adv s.d.buildExact modeIndices numModeHandles, g)

/-- `DMDHandles.compute_proj_modes` (`modred/dmd.py` lines 985-1012). -/
noncomputable def DmdHandles.computeProjModes (g : DmdHandles 𝕜 E) (modeIndices : List Int) (numModeHandles : Nat)
    (vecs : Option (List E)) : Except Err (Vecs E) × DmdHandles 𝕜 E :=
  let g := if vecs.isSome then { g with vecs := vecs } else g
  match g.decomp with
  | none => (.error .attributeError, g)
  | some s => (spanModesFrom g.vecs s.d.buildProj modeIndices numModeHandles, g)

/-- `DMDHandles.compute_adjoint_modes` (`modred/dmd.py` lines 1030-1057). -/
noncomputable def DmdHandles.computeAdjointModes (g : DmdHandles 𝕜 E) (modeIndices : List Int) (numModeHandles : Nat)
    (vecs : Option (List E)) : Except Err (Vecs E) × DmdHandles 𝕜 E :=
  let g := if vecs.isSome then { g with vecs := vecs } else g
  match g.decomp with
  | none => (.error .attributeError, g)
  | some s => (spanModesFrom g.vecs s.d.buildAdjoint modeIndices numModeHandles, g)

end Modes

/-- `DMDHandles.compute_spectrum` (`modred/dmd.py` lines 1077-1083). -/
noncomputable def DmdHandles.computeSpectrum (g : DmdHandles 𝕜 E) : Except Err (NdArray ℝ) :=
  match g.decomp with
  | none => .error .attributeError
  | some s =>
    if h : 0 < s.m then
      .ok (NdArray.squeeze ⟨[s.d.r], fun i => if hi : i < s.d.r then
        ‖(s.d.Lᴴ *ᵥ star (diagPow (𝕜 := 𝕜) s.d.w 0.5 *ᵥ s.d.V ⟨0, h⟩)) ⟨i, hi⟩‖ else 0⟩)
    else .error .indexError

/-- `DMDHandles.compute_proj_coeffs` (`modred/dmd.py` lines 1101-1109): coefficients of the vectors and of the
advanced vectors. -/
noncomputable def DmdHandles.computeProjCoeffs (g : DmdHandles 𝕜 E) : Except Err (Arr 𝕜 × Arr 𝕜) :=
  match g.decomp, g.arrays with
  | some s, some a =>
    if h : a.m = s.m then
      let cross := a.cross.submatrix (Fin.cast h.symm) (Fin.cast h.symm)
      .ok (⟨s.d.r, s.m, s.d.Lᴴ * (diagPow (𝕜 := 𝕜) s.d.w 0.5 * s.d.Vᴴ)⟩,
        ⟨s.d.r, s.m, s.d.Lᴴ * (diagPow (𝕜 := 𝕜) s.d.w (-0.5) * (s.d.Vᴴ * cross))⟩)
    else .error .valueError
  | _, _ => .error .attributeError

end Modred
