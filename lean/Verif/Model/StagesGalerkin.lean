import Verif.Model.Stages
import Verif.Model.Galerkin

/-!
# Stages of `LTIGalerkinProjectionHandles` (`modred/ltigalerkinproj.py` lines 365-480)

The methods of `Verif.Model.Galerkin` as stages for several processes.  Handles are places of the store.
-/

namespace Modred

open Matrix

variable {𝕜 : Type*} [RCLike 𝕜] {E : Type*} {r : Nat}

/-- An object of the class `LTIGalerkinProjectionHandles` whose handles are places of the store. -/
abbrev GalerkinPlaces (𝕜 E : Type*) (r : Nat) := Galerkin 𝕜 (Fin r → Nat) (E → E → 𝕜) r

/-- A new object whose handles are places of the store (`modred/ltigalerkinproj.py` lines 339-362), with as many adjoint basis vectors
as basis vectors. -/
def galerkinPlacesNew (ip : E → E → 𝕜) (basis : Fin r → Nat) (adjoint : Option (Fin r → Nat)) (flag : Bool) : GalerkinPlaces 𝕜 E r :=
  ⟨basis, adjoint.getD basis, adjoint.isNone, flag, ip, none, none, none, none⟩

/-- An object, and the local variable `IP_array`. -/
structure GalerkinLocal (𝕜 E : Type*) (r : Nat) where
  self : GalerkinPlaces 𝕜 E r
  ipArr : Option (Matrix (Fin r) (Fin r) 𝕜)

/-- An array by its number of rows and columns. -/
def resized {m n m' n' : Nat} (hm : m' = m) (hn : n' = n) (a : Matrix (Fin m) (Fin n) 𝕜) : Matrix (Fin m') (Fin n') 𝕜 :=
  a.submatrix (Fin.cast hm) (Fin.cast hn)

/-- `_get_proj_array` when `_proj_array` is `None` (`modred/ltigalerkinproj.py` lines 472-479): every rank inverts. -/
noncomputable def galerkinProjStages (x : GalerkinPlaces 𝕜 E r) : List (Stage (GalerkinLocal 𝕜 E r) Unit E 𝕜) :=
  [if x.symmetric then
      .symmInnerProducts (List.ofFn x.basisVecs) fun g a => { g with ipArr := some (resized (by simp) (by simp) a) }
    else
      .innerProducts (List.ofFn x.adjointBasisVecs) (List.ofFn x.basisVecs) fun g a =>
        { g with ipArr := some (resized (by simp) (by simp) a) },
    .compute fun g => match g.ipArr with
      | none => .error .typeError
      | some a =>
        match npInv a with
        | .error e => .error e
        | .ok p => .ok { g with self := { g.self with projArray := some p } }]

/-- `reduce_A` and `reduce_B` (`modred/ltigalerkinproj.py` lines 379-382 and 416-419): `get` and `set` are for the attribute,
and `known` says whether `_proj_array` is there. -/
noncomputable def galerkinReduceStages (x : GalerkinPlaces 𝕜 E r) (known : Bool) (vecs : List Nat)
    (get : GalerkinPlaces 𝕜 E r → Option (Cols 𝕜 r)) (set : GalerkinPlaces 𝕜 E r → Cols 𝕜 r → GalerkinPlaces 𝕜 E r) :
    List (Stage (GalerkinLocal 𝕜 E r) Unit E 𝕜) :=
  .innerProducts (List.ofFn x.adjointBasisVecs) vecs (fun g a => { g with self := set g.self ⟨_, resized (by simp) rfl a⟩ }) ::
    if x.isBasisOrthonormal then []
    else (if known then [] else galerkinProjStages x) ++
      [.compute fun g => match g.self.projArray, get g.self with
        | some p, some c => .ok { g with self := set g.self ⟨c.k, p * c.a⟩ }
        | _, _ => .error .attributeError]

/-- `compute_model` (`modred/ltigalerkinproj.py` lines 462-465), for an object `x` that all ranks have alike. -/
noncomputable def galerkinModelStages (x : GalerkinPlaces 𝕜 E r) (a b : List Nat) (c : Outputs 𝕜) :
    List (Stage (GalerkinLocal 𝕜 E r) Unit E 𝕜) :=
  galerkinReduceStages x x.projArray.isSome a (fun g => g.A) (fun g m => { g with A := some m }) ++
    galerkinReduceStages x true b (fun g => g.B) (fun g m => { g with B := some m }) ++
    [.compute fun g => .ok { g with self := { g.self with C := some ⟨c.atLeast2d.n, c.atLeast2d.m, c.atLeast2d.aᵀ⟩ } }]

end Modred
