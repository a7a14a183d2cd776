import Verif.Model.StagesPod
import Verif.Model.Tlsqr

/-!
# Stages of `DMDHandles` and `TLSqrDMDHandles`

The methods of `Verif.Model.DmdHandles` and `Verif.Model.Tlsqr` as stages for several processes.  Handles are places of the
store, and what a method returns is an attribute.  Simplified: the methods that compute modes use the handles that are
attributes of the objects.
-/

namespace Modred

open Matrix

variable {𝕜 : Type*} [RCLike 𝕜] {E : Type*}

/-- Eigenvalues and eigenvectors of a correlation array of any size, as two attributes. -/
structure EighSized (𝕜 : Type*) where
  m : Nat
  e : Eigh 𝕜 m

/-- Eigenvalues and eigenvectors of an approximating linear map, as three attributes. -/
structure EigSized (𝕜 : Type*) where
  r : Nat
  vals : Fin r → 𝕜
  R : Matrix (Fin r) (Fin r) 𝕜
  L : Matrix (Fin r) (Fin r) 𝕜

/-- An object of the class `DMDHandles` or `TLSqrDMDHandles`; those attributes that a method has already assigned while others,
that belong to the same decomposition, are still to come; the attribute `low_order_linear_map`. -/
structure DmdLocal (𝕜 : Type*) (X : Type*) where
  self : X
  corr : Option (SquareArr 𝕜)
  cross : Option (Arr 𝕜)
  sum : Option (EighSized 𝕜)
  proj : Option (EighSized 𝕜)
  low : Option (SquareArr 𝕜)

/-- What ranks get from rank 0. -/
abbrev DmdCast (𝕜 : Type*) := EighSized 𝕜 ⊕ EigSized 𝕜

variable (lib : DmdLib 𝕜)

/-- `util.eigh` as it is called for correlation arrays. -/
noncomputable def eighCall (a : SquareArr 𝕜) (atol : Option ℝ) : Except Err (DmdCast 𝕜) :=
  match utilEigh lib.eigh lib.argsort a.a atol none true with
  | .error e => .error e
  | .ok e => .ok (.inl ⟨a.m, e⟩)

/-- `util.eig_biorthog` as it is called for approximating linear maps. -/
noncomputable def eigCall (a : SquareArr 𝕜) : Except Err (DmdCast 𝕜) :=
  match eigBiorthog lib.eig a.a scaleLeft with
  | .error e => .error e
  | .ok (vals, R, L) => .ok (.inr ⟨a.m, vals, R, L⟩)

/-- Attributes of a decomposition put together. -/
def EigSized.decomp {m : Nat} (y : EigSized 𝕜) (e : Eigh 𝕜 m) (h : e.r = y.r) : DmdDecomp 𝕜 m :=
  ⟨e.r, e.w, e.V, fun i => y.vals (Fin.cast h i), y.R.submatrix (Fin.cast h) (Fin.cast h), y.L.submatrix (Fin.cast h) (Fin.cast h)⟩

/-- What is assigned to `..._array_eigvals` and `..._array_eigvecs`. -/
def DmdLocal.storeProj {X : Type*} (g : DmdLocal 𝕜 X) : DmdCast 𝕜 → DmdLocal 𝕜 X
  | .inl e => { g with proj := some e }
  | .inr _ => g

def DmdLocal.storeSum {X : Type*} (g : DmdLocal 𝕜 X) : DmdCast 𝕜 → DmdLocal 𝕜 X
  | .inl e => { g with sum := some e }
  | .inr _ => g

/-! ### Dynamic mode decomposition -/

/-- What rank 0 calls first in `compute_eigendecomp` (`modred/dmd.py` lines 784-787). -/
noncomputable def dmdEighCall (atol : Option ℝ) (g : DmdLocal 𝕜 (DmdHandles 𝕜 Nat)) : Except Err (DmdCast 𝕜) :=
  match g.self.arrays with
  | none => .error .linAlgError
  | some a => eighCall lib ⟨a.m, a.corr⟩ atol

/-- Truncation and the approximating linear map (`modred/dmd.py` lines 789-805). -/
noncomputable def dmdLow (maxNum : Option Nat) (g : DmdLocal 𝕜 (DmdHandles 𝕜 Nat)) :
    Except Err (DmdLocal 𝕜 (DmdHandles 𝕜 Nat)) :=
  match g.proj, g.self.arrays with
  | some s, some a =>
    if h : s.m = a.m then
      let e := s.e.truncate maxNum
      .ok { g with
        proj := some ⟨s.m, e⟩
        low := some ⟨e.r, lowOrderMap (diagPow (𝕜 := 𝕜) e.w (-0.5)) e.V (a.cross.submatrix (Fin.cast h) (Fin.cast h))⟩ }
    else .error .valueError
  | _, _ => .error .attributeError

/-- What rank 0 calls then (`modred/dmd.py` lines 808-811). -/
noncomputable def dmdEigCall {X : Type*} (g : DmdLocal 𝕜 X) : Except Err (DmdCast 𝕜) :=
  match g.low with
  | none => .error .attributeError
  | some a => eigCall lib a

/-- What is assigned to `eigvals`, `R_low_order_eigvecs` and `L_low_order_eigvecs`. -/
def dmdStore (g : DmdLocal 𝕜 (DmdHandles 𝕜 Nat)) : DmdCast 𝕜 → DmdLocal 𝕜 (DmdHandles 𝕜 Nat)
  | .inl _ => g
  | .inr y =>
    match g.proj with
    | none => g
    | some s => if h : s.e.r = y.r then { g with self := { g.self with decomp := some ⟨s.m, y.decomp s.e h⟩ } } else g

/-- `DMDHandles.compute_eigendecomp` (`modred/dmd.py` lines 783-811). -/
noncomputable def dmdEigenStages (atol : Option ℝ) (maxNum : Option Nat) :
    List (Stage (DmdLocal 𝕜 (DmdHandles 𝕜 Nat)) (DmdCast 𝕜) E 𝕜) :=
  [.callAndBcast (dmdEighCall lib atol) DmdLocal.storeProj, .compute (dmdLow maxNum), .callAndBcast (dmdEigCall lib) dmdStore]

/-- `DMDHandles.compute_decomp` without advanced vectors (`modred/dmd.py` lines 857-900). -/
noncomputable def dmdSeqStages (vecs : List Nat) (atol : Option ℝ) (maxNum : Option Nat) :
    List (Stage (DmdLocal 𝕜 (DmdHandles 𝕜 Nat)) (DmdCast 𝕜) E 𝕜) :=
  .compute (fun g => .ok { g with self := { g.self with vecs := some vecs } }) ::
  .symmInnerProducts vecs (fun g expanded => { g with self := { g.self with
    arrays := some ⟨vecs.length - 1, Matrix.of fun i j => expanded ⟨i, by omega⟩ ⟨j, by omega⟩,
      Matrix.of fun i j => expanded ⟨i, by omega⟩ ⟨j + 1, by omega⟩⟩ } }) ::
  dmdEigenStages lib atol maxNum

/-- `DMDHandles.compute_decomp` with advanced vectors (`modred/dmd.py` lines 857-900). -/
noncomputable def dmdPairStages (vecs adv : List Nat) (atol : Option ℝ) (maxNum : Option Nat) :
    List (Stage (DmdLocal 𝕜 (DmdHandles 𝕜 Nat)) (DmdCast 𝕜) E 𝕜) :=
  .compute (fun g => if vecs.length = adv.length then .ok { g with self := { g.self with vecs := some vecs, adv := some adv } }
    else .error .valueError) ::
  .symmInnerProducts vecs (fun g c => { g with corr := some ⟨_, c⟩ }) ::
  .innerProducts vecs adv (fun g c => match g.corr with
    | none => g
    | some a =>
      if h : a.m = vecs.length ∧ a.m = adv.length then
        { g with self := { g.self with arrays := some ⟨a.m, a.a, c.submatrix (Fin.cast h.1) (Fin.cast h.2)⟩ } }
      else g) ::
  dmdEigenStages lib atol maxNum

/-- The three kinds of modes. -/
inductive DmdKind where
  | exact
  | proj
  | adjoint

/-- Handles of the vectors that modes are made of (`modred/dmd.py` lines 951-968, 996-1012 and 1041-1057), if the attributes
are `vecs` and `adv`, and `seq` says that the last decomposition was that of a sequence. -/
def dmdPlaces (seq : Bool) (vecs : List Nat) (adv : Option (List Nat)) : DmdKind → List Nat
  | .exact => match adv with
    | some adv => adv
    | none => vecs.tail
  | _ => if seq then vecs.dropLast else vecs

/-- Coefficients of the modes (`modred/dmd.py` lines 903-922). -/
noncomputable def DmdDecomp.build {m : Nat} (d : DmdDecomp 𝕜 m) : DmdKind → Matrix (Fin m) (Fin d.r) 𝕜
  | .exact => d.buildExact
  | .proj => d.buildProj
  | .adjoint => d.buildAdjoint

noncomputable def dmdBuild (kind : DmdKind) (g : DmdLocal 𝕜 (DmdHandles 𝕜 Nat)) : Except Err (CoeffArray 𝕜) :=
  match g.self.decomp with
  | none => .error .attributeError
  | some s => .ok (coeffMat (s.d.build kind))

/-- A call for modes: the kind, the handles and the indices. -/
structure DmdModeCall where
  kind : DmdKind
  modes : List Nat
  indices : List Int

/-- Calls of `compute_exact_modes`, `compute_proj_modes` and `compute_adjoint_modes`, in any order. -/
noncomputable def dmdModesStages (seq : Bool) (vecs : List Nat) (adv : Option (List Nat)) (calls : List DmdModeCall) :
    List (Stage (DmdLocal 𝕜 (DmdHandles 𝕜 Nat)) (DmdCast 𝕜) E 𝕜) :=
  calls.map fun c => .linCombine c.modes (dmdPlaces seq vecs adv c.kind) (dmdBuild c.kind) (some c.indices)

/-! ### Total-least-squares dynamic mode decomposition -/

/-- What rank 0 calls first in `compute_eigendecomp` (`modred/dmd.py` lines 1762-1767). -/
noncomputable def tlsSumCall (atol : Option ℝ) (g : DmdLocal 𝕜 (TlsHandles 𝕜 Nat)) : Except Err (DmdCast 𝕜) :=
  match g.self.arrays with
  | none => .error .typeError
  | some a => eighCall lib ⟨a.m, a.c.corr + a.c.adv⟩ atol

/-- Truncation (`modred/dmd.py` lines 1769-1775). -/
def tlsTruncateSum (maxNum : Option Nat) (g : DmdLocal 𝕜 (TlsHandles 𝕜 Nat)) : Except Err (DmdLocal 𝕜 (TlsHandles 𝕜 Nat)) :=
  match g.sum with
  | none => .error .attributeError
  | some s => .ok { g with sum := some ⟨s.m, s.e.truncate maxNum⟩ }

/-- What rank 0 calls then, with the projected correlation array (`modred/dmd.py` lines 1778-1787). -/
noncomputable def tlsProjCall (atol : Option ℝ) (g : DmdLocal 𝕜 (TlsHandles 𝕜 Nat)) : Except Err (DmdCast 𝕜) :=
  match g.sum, g.self.arrays with
  | some s, some a =>
    if h : s.m = a.m then eighCall lib ⟨s.m, tlsProjCorr s.e.V (a.c.corr.submatrix (Fin.cast h) (Fin.cast h))⟩ atol
    else .error .valueError
  | _, _ => .error .attributeError

/-- Truncation and the approximating linear map (`modred/dmd.py` lines 1789-1808). -/
noncomputable def tlsLow (maxNum : Option Nat) (g : DmdLocal 𝕜 (TlsHandles 𝕜 Nat)) :
    Except Err (DmdLocal 𝕜 (TlsHandles 𝕜 Nat)) :=
  match g.sum, g.proj, g.self.arrays with
  | some s, some p, some a =>
    if h : p.m = a.m ∧ p.m = s.m then
      let e := p.e.truncate maxNum
      .ok { g with
        proj := some ⟨p.m, e⟩
        low := some ⟨e.r, tlsLowOrderMap (diagPow (𝕜 := 𝕜) e.w (-0.5)) e.V (s.e.V.submatrix (Fin.cast h.2) id)
          (a.c.cross.submatrix (Fin.cast h.1) (Fin.cast h.1))⟩ }
    else .error .valueError
  | _, _, _ => .error .attributeError

/-- What is assigned to `eigvals`, `R_low_order_eigvecs` and `L_low_order_eigvecs`. -/
def tlsStore (g : DmdLocal 𝕜 (TlsHandles 𝕜 Nat)) : DmdCast 𝕜 → DmdLocal 𝕜 (TlsHandles 𝕜 Nat)
  | .inl _ => g
  | .inr y =>
    match g.sum, g.proj with
    | some s, some p =>
      if h : p.e.r = y.r ∧ s.m = p.m then
        { g with self := { g.self with decomp := some ⟨s.m, s.e.r, s.e.w, s.e.V, 
          y.decomp ⟨p.e.r, p.e.w, p.e.V.submatrix (Fin.cast h.2) id⟩ h.1⟩ } }
      else g
    | _, _ => g

/-- `TLSqrDMDHandles.compute_eigendecomp` (`modred/dmd.py` lines 1761-1814). -/
noncomputable def tlsEigenStages (atol : Option ℝ) (maxNum : Option Nat) :
    List (Stage (DmdLocal 𝕜 (TlsHandles 𝕜 Nat)) (DmdCast 𝕜) E 𝕜) :=
  [.callAndBcast (tlsSumCall lib atol) DmdLocal.storeSum, .compute (tlsTruncateSum maxNum),
    .callAndBcast (tlsProjCall lib atol) DmdLocal.storeProj, .compute (tlsLow maxNum),
    .callAndBcast (dmdEigCall lib) tlsStore]

/-- `TLSqrDMDHandles.compute_decomp` without advanced vectors (`modred/dmd.py` lines 1872-1922). -/
noncomputable def tlsSeqStages (vecs : List Nat) (atol : Option ℝ) (maxNum : Option Nat) :
    List (Stage (DmdLocal 𝕜 (TlsHandles 𝕜 Nat)) (DmdCast 𝕜) E 𝕜) :=
  .compute (fun g => .ok { g with self := { g.self with vecs := some vecs } }) ::
  .symmInnerProducts vecs (fun g expanded => { g with self := { g.self with
    arrays := some ⟨vecs.length - 1, Matrix.of fun i j => expanded ⟨i, by omega⟩ ⟨j, by omega⟩,
      Matrix.of fun i j => expanded ⟨i + 1, by omega⟩ ⟨j + 1, by omega⟩,
      Matrix.of fun i j => expanded ⟨i, by omega⟩ ⟨j + 1, by omega⟩⟩ } }) ::
  tlsEigenStages lib atol maxNum

/-- `TLSqrDMDHandles.compute_decomp` with advanced vectors (`modred/dmd.py` lines 1872-1922). -/
noncomputable def tlsPairStages (vecs adv : List Nat) (atol : Option ℝ) (maxNum : Option Nat) :
    List (Stage (DmdLocal 𝕜 (TlsHandles 𝕜 Nat)) (DmdCast 𝕜) E 𝕜) :=
  .compute (fun g => if vecs.length = adv.length then .ok { g with self := { g.self with vecs := some vecs, adv := some adv } }
    else .error .valueError) ::
  .symmInnerProducts vecs (fun g c => { g with corr := some ⟨_, c⟩ }) ::
  .innerProducts vecs adv (fun g c => { g with cross := some ⟨_, _, c⟩ }) ::
  .symmInnerProducts adv (fun g c => match g.corr, g.cross with
    | some a, some b =>
      if h : a.m = adv.length ∧ a.m = b.m ∧ a.m = b.n then
        { g with self := { g.self with arrays := some ⟨a.m, a.a, c.submatrix (Fin.cast h.1) (Fin.cast h.1),
          b.a.submatrix (Fin.cast h.2.1) (Fin.cast h.2.2)⟩ } }
      else g
    | _, _ => g) ::
  tlsEigenStages lib atol maxNum

/-- Coefficients of the modes (`modred/dmd.py` lines 1925-1950). -/
noncomputable def TlsDecomp.build {m : Nat} (t : TlsDecomp 𝕜 m) : DmdKind → Matrix (Fin m) (Fin t.d.r) 𝕜
  | .exact => t.buildExact
  | .proj => t.buildProj
  | .adjoint => t.buildAdjoint

noncomputable def tlsBuild (kind : DmdKind) (g : DmdLocal 𝕜 (TlsHandles 𝕜 Nat)) : Except Err (CoeffArray 𝕜) :=
  match g.self.decomp with
  | none => .error .attributeError
  | some s => .ok (coeffMat (s.t.build kind))

/-- Calls of `compute_exact_modes`, `compute_proj_modes` and `compute_adjoint_modes`, in any order. -/
noncomputable def tlsModesStages (seq : Bool) (vecs : List Nat) (adv : Option (List Nat)) (calls : List DmdModeCall) :
    List (Stage (DmdLocal 𝕜 (TlsHandles 𝕜 Nat)) (DmdCast 𝕜) E 𝕜) :=
  calls.map fun c => .linCombine c.modes (dmdPlaces seq vecs adv c.kind) (tlsBuild c.kind) (some c.indices)

end Modred
