import Verif.Model.Pod

/-!
# Galerkin projection of linear systems (`modred/ltigalerkinproj.py`)

Methods change attributes, and a method that raises an exception keeps the changes made before; so methods
return the result or the error together with the object.  Arrays that do not have as many rows as the basis
vectors raise `ValueError` in numpy and are not modelled.  The time derivatives (lines 24-73) are in
`Verif.Model.Derivs`.
-/

namespace Modred

open Matrix

variable {𝕜 : Type*} [RCLike 𝕜]

/-- `standard_basis` (`modred/ltigalerkinproj.py` lines 11-21). -/
def standardBasis (numDims : Nat) : List (Fin numDims → 𝕜) :=
  List.ofFn fun i => (1 : Matrix (Fin numDims) (Fin numDims) 𝕜) i

open Classical in
/-- `np.linalg.inv`, with exact arithmetic. -/
noncomputable def npInv {r : Nat} (a : Matrix (Fin r) (Fin r) 𝕜) : Except Err (Matrix (Fin r) (Fin r) 𝕜) :=
  if IsUnit a.det then .ok a⁻¹ else .error .linAlgError

/-- A two-dimensional array of any shape. -/
structure Arr (𝕜 : Type*) where
  m : Nat
  n : Nat
  a : Matrix (Fin m) (Fin n) 𝕜

/-- The outputs of the basis vectors: a sequence of numbers or a nonempty sequence of `k` sequences with `p`
numbers each. -/
inductive Outputs (𝕜 : Type*) where
  | numbers (k : Nat) (x : Fin k → 𝕜)
  | rows (k p : Nat) (x : Fin k → Fin p → 𝕜)

/-- `np.array(x, ndmin=2)`. -/
def Outputs.atLeast2d : Outputs 𝕜 → Arr 𝕜
  | .numbers k x => ⟨1, k, Matrix.of fun _ j => x j⟩
  | .rows k p x => ⟨k, p, Matrix.of x⟩

/-- The attributes (`modred/ltigalerkinproj.py` lines 76-84, 157-177 and 339-362): `V` are collections of `r`
basis vectors. -/
structure Galerkin (𝕜 V S : Type*) (r : Nat) where
  basisVecs : V
  adjointBasisVecs : V
  symmetric : Bool
  isBasisOrthonormal : Bool
  vecSpace : S
  projArray : Option (Matrix (Fin r) (Fin r) 𝕜)
  A : Option (Cols 𝕜 r)
  B : Option (Cols 𝕜 r)
  C : Option (Arr 𝕜)

/-! ### Arrays -/

/-- Objects of the class `LTIGalerkinProjectionArrays`. -/
abbrev GalerkinArrays (𝕜 : Type*) (n r : Nat) := Galerkin 𝕜 (Matrix (Fin n) (Fin r) 𝕜) (Weights 𝕜) r

/-- The constructor (`modred/ltigalerkinproj.py` lines 157-177). -/
def galerkinArraysInit {n r : Nat} (isDistributed : Bool) (basisVecs : Matrix (Fin n) (Fin r) 𝕜)
    (adjointBasisVecs : Option (Arr 𝕜)) (isBasisOrthonormal : Bool) (weights : Option (NdArray 𝕜)) :
    Except Err (GalerkinArrays 𝕜 n r) :=
  if isDistributed then .error .runtimeError
  else
    match adjointBasisVecs with
    | none =>
      match arraysInit weights with
      | .error e => .error e
      | .ok ws => .ok ⟨basisVecs, basisVecs, true, isBasisOrthonormal, ws, none, none, none, none⟩
    | some adj =>
      if h : adj.m = n ∧ adj.n = r then
        match arraysInit weights with
        | .error e => .error e
        | .ok ws =>
          .ok ⟨basisVecs, adj.a.submatrix (Fin.cast h.1.symm) (Fin.cast h.2.symm), false, isBasisOrthonormal, ws,
            none, none, none, none⟩
      else .error .valueError

variable {n r : Nat}

/-- `_get_proj_array` (`modred/ltigalerkinproj.py` lines 252-262). -/
noncomputable def galerkinProjArrays (self : GalerkinArrays 𝕜 n r) :
    Except Err (Matrix (Fin r) (Fin r) 𝕜) × GalerkinArrays 𝕜 n r :=
  match self.projArray with
  | some p => (.ok p, self)
  | none =>
    match if self.symmetric then symmIpArray self.vecSpace self.basisVecs
      else ipArray self.vecSpace self.adjointBasisVecs self.basisVecs with
    | .error e => (.error e, self)
    | .ok ipArr =>
      match npInv ipArr with
      | .error e => (.error e, self)
      | .ok p => (.ok p, { self with projArray := some p })

/-- `reduce_A` (`modred/ltigalerkinproj.py` lines 180-197). -/
noncomputable def reduceAArrays {q : Nat} (self : GalerkinArrays 𝕜 n r) (aOnBasisVecs : Matrix (Fin n) (Fin q) 𝕜) :
    Except Err (Matrix (Fin r) (Fin q) 𝕜) × GalerkinArrays 𝕜 n r :=
  match ipArray self.vecSpace self.adjointBasisVecs aOnBasisVecs with
  | .error e => (.error e, self)
  | .ok a =>
    let self := { self with A := some ⟨q, a⟩ }
    if self.isBasisOrthonormal then (.ok a, self)
    else
      match galerkinProjArrays self with
      | (.error e, self) => (.error e, self)
      | (.ok p, self) => (.ok (p * a), { self with A := some ⟨q, p * a⟩ })

/-- `reduce_B` (`modred/ltigalerkinproj.py` lines 200-234). -/
noncomputable def reduceBArrays {q : Nat} (self : GalerkinArrays 𝕜 n r) (bOnStandardBasis : Matrix (Fin n) (Fin q) 𝕜) :
    Except Err (Matrix (Fin r) (Fin q) 𝕜) × GalerkinArrays 𝕜 n r :=
  match ipArray self.vecSpace self.adjointBasisVecs bOnStandardBasis with
  | .error e => (.error e, self)
  | .ok b =>
    let self := { self with B := some ⟨q, b⟩ }
    if self.isBasisOrthonormal then (.ok b, self)
    else
      match galerkinProjArrays self with
      | (.error e, self) => (.error e, self)
      | (.ok p, self) => (.ok (p * b), { self with B := some ⟨q, p * b⟩ })

/-- `reduce_C` (`modred/ltigalerkinproj.py` lines 237-249). -/
def reduceCArrays (self : GalerkinArrays 𝕜 n r) (cOnBasisVecs : Outputs 𝕜) : Arr 𝕜 × GalerkinArrays 𝕜 n r :=
  let c := cOnBasisVecs.atLeast2d
  (c, { self with C := some c })

/-- `compute_model` (`modred/ltigalerkinproj.py` lines 265-296): the three attributes are returned. -/
noncomputable def galerkinModelArrays {qa qb : Nat} (self : GalerkinArrays 𝕜 n r)
    (aOnBasisVecs : Matrix (Fin n) (Fin qa) 𝕜) (bOnStandardBasis : Matrix (Fin n) (Fin qb) 𝕜)
    (cOnBasisVecs : Outputs 𝕜) :
    Except Err (Option (Cols 𝕜 r) × Option (Cols 𝕜 r) × Option (Arr 𝕜)) × GalerkinArrays 𝕜 n r :=
  match reduceAArrays self aOnBasisVecs with
  | (.error e, self) => (.error e, self)
  | (.ok _, self) =>
    match reduceBArrays self bOnStandardBasis with
    | (.error e, self) => (.error e, self)
    | (.ok _, self) =>
      let self := (reduceCArrays self cOnBasisVecs).2
      (.ok (self.A, self.B, self.C), self)

/-! ### Handles -/

variable {E : Type*}

/-- Objects of the class `LTIGalerkinProjectionHandles`. -/
abbrev GalerkinHandles (𝕜 E : Type*) (r : Nat) := Galerkin 𝕜 (Fin r → E) (E → E → 𝕜) r

/-- The constructor (`modred/ltigalerkinproj.py` lines 339-362). -/
def galerkinHandlesInit {r s : Nat} (ip : E → E → 𝕜) (basisVecs : Fin r → E) (adjointBasisVecs : Option (Fin s → E))
    (isBasisOrthonormal : Bool) : Except Err (GalerkinHandles 𝕜 E r) :=
  match adjointBasisVecs with
  | none => .ok ⟨basisVecs, basisVecs, true, isBasisOrthonormal, ip, none, none, none, none⟩
  | some adj =>
    if h : s = r then
      .ok ⟨basisVecs, fun i => adj (Fin.cast h.symm i), false, isBasisOrthonormal, ip, none, none, none, none⟩
    else .error .valueError

/-- Inner products of handles; an empty list raises `IndexError`. -/
def handlesIpChecked {p q : Nat} (ip : E → E → 𝕜) (rows : Fin p → E) (cols : Fin q → E) :
    Except Err (Matrix (Fin p) (Fin q) 𝕜) :=
  if p = 0 ∨ q = 0 then .error .indexError else .ok (handlesIp ip rows cols)

/-- `_get_proj_array` (`modred/ltigalerkinproj.py` lines 469-480). -/
noncomputable def galerkinProjHandles (self : GalerkinHandles 𝕜 E r) :
    Except Err (Matrix (Fin r) (Fin r) 𝕜) × GalerkinHandles 𝕜 E r :=
  match self.projArray with
  | some p => (.ok p, self)
  | none =>
    match if self.symmetric then (if r = 0 then .error .indexError else .ok (handlesSymmIp self.vecSpace self.basisVecs))
      else handlesIpChecked self.vecSpace self.adjointBasisVecs self.basisVecs with
    | .error e => (.error e, self)
    | .ok ipArr =>
      match npInv ipArr with
      | .error e => (.error e, self)
      | .ok p => (.ok p, { self with projArray := some p })

/-- `reduce_A` (`modred/ltigalerkinproj.py` lines 365-382). -/
noncomputable def reduceAHandles {q : Nat} (self : GalerkinHandles 𝕜 E r) (aOnBasisVecs : Fin q → E) :
    Except Err (Matrix (Fin r) (Fin q) 𝕜) × GalerkinHandles 𝕜 E r :=
  match handlesIpChecked self.vecSpace self.adjointBasisVecs aOnBasisVecs with
  | .error e => (.error e, self)
  | .ok a =>
    let self := { self with A := some ⟨q, a⟩ }
    if self.isBasisOrthonormal then (.ok a, self)
    else
      match galerkinProjHandles self with
      | (.error e, self) => (.error e, self)
      | (.ok p, self) => (.ok (p * a), { self with A := some ⟨q, p * a⟩ })

/-- `reduce_B` (`modred/ltigalerkinproj.py` lines 385-419). -/
noncomputable def reduceBHandles {q : Nat} (self : GalerkinHandles 𝕜 E r) (bOnStandardBasis : Fin q → E) :
    Except Err (Matrix (Fin r) (Fin q) 𝕜) × GalerkinHandles 𝕜 E r :=
  match handlesIpChecked self.vecSpace self.adjointBasisVecs bOnStandardBasis with
  | .error e => (.error e, self)
  | .ok b =>
    let self := { self with B := some ⟨q, b⟩ }
    if self.isBasisOrthonormal then (.ok b, self)
    else
      match galerkinProjHandles self with
      | (.error e, self) => (.error e, self)
      | (.ok p, self) => (.ok (p * b), { self with B := some ⟨q, p * b⟩ })

/-- `reduce_C` (`modred/ltigalerkinproj.py` lines 422-433). -/
def reduceCHandles (self : GalerkinHandles 𝕜 E r) (cOnBasisVecs : Outputs 𝕜) : Arr 𝕜 × GalerkinHandles 𝕜 E r :=
  let c := cOnBasisVecs.atLeast2d
  let c : Arr 𝕜 := ⟨c.n, c.m, c.aᵀ⟩
  (c, { self with C := some c })

/-- `compute_model` (`modred/ltigalerkinproj.py` lines 436-466). -/
noncomputable def galerkinModelHandles {qa qb : Nat} (self : GalerkinHandles 𝕜 E r) (aOnBasisVecs : Fin qa → E)
    (bOnStandardBasis : Fin qb → E) (cOnBasisVecs : Outputs 𝕜) :
    Except Err (Option (Cols 𝕜 r) × Option (Cols 𝕜 r) × Option (Arr 𝕜)) × GalerkinHandles 𝕜 E r :=
  match reduceAHandles self aOnBasisVecs with
  | (.error e, self) => (.error e, self)
  | (.ok _, self) =>
    match reduceBHandles self bOnStandardBasis with
    | (.error e, self) => (.error e, self)
    | (.ok _, self) =>
      let self := (reduceCHandles self cOnBasisVecs).2
      (.ok (self.A, self.B, self.C), self)

end Modred
