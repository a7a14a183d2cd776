import Verif.Spec.StagesPod
import Verif.Model.StagesDmd

/-!
# Objects for dynamic mode decomposition with handles as places
-/

namespace Modred

variable {𝕜 E : Type*} [RCLike 𝕜]

/-- The object on one process whose handles hold the vectors at the places. -/
def DmdHandles.held (w : Nat → E) (g : DmdHandles 𝕜 Nat) : DmdHandles 𝕜 E :=
  ⟨g.vecs.map (List.map w), g.adv.map (List.map w), g.arrays, g.decomp⟩

/-- The object on one process whose handles hold the vectors at the places. -/
def TlsHandles.held (w : Nat → E) (g : TlsHandles 𝕜 Nat) : TlsHandles 𝕜 E :=
  ⟨g.vecs.map (List.map w), g.adv.map (List.map w), g.arrays, g.decomp⟩

/-- What one process computes for a call. -/
noncomputable def DmdModeCall.onDmd [AddCommMonoid E] [Module 𝕜 E] (c : DmdModeCall) (g : DmdHandles 𝕜 E) : Except Err (Vecs E) :=
  match c.kind with
  | .exact => (g.computeExactModes c.indices c.modes.length none).1
  | .proj => (g.computeProjModes c.indices c.modes.length none).1
  | .adjoint => (g.computeAdjointModes c.indices c.modes.length none).1

/-- What one process computes for a call. -/
noncomputable def DmdModeCall.onTls [AddCommMonoid E] [Module 𝕜 E] (c : DmdModeCall) (g : TlsHandles 𝕜 E) : Except Err (Vecs E) :=
  match c.kind with
  | .exact => (g.computeExactModes c.indices c.modes.length none).1
  | .proj => (g.computeProjModes c.indices c.modes.length none).1
  | .adjoint => (g.computeAdjointModes c.indices c.modes.length none).1

/-- Vectors are put at their places, call after call. -/
inductive PutInTurn (results : DmdModeCall → Except Err (Vecs E)) : List DmdModeCall → (Nat → E) → (Nat → E) → Prop
  | nil (w : Nat → E) : PutInTurn results [] w w
  | cons {c : DmdModeCall} {rest : List DmdModeCall} {out : Vecs E} {w w' w'' : Nat → E} (h : results c = .ok out)
      (hput : PutAt c.modes out w w') (ht : PutInTurn results rest w' w'') : PutInTurn results (c :: rest) w w''

end Modred
