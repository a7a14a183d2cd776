import Verif.Model.Basic
import Mathlib.Analysis.RCLike.Basic

/-!
# `VectorSpaceHandles.sanity_check` (`modred/vectorspace.py`)

Vectors are objects with contents that can change: an operation of the user gets the objects of all vectors and
returns the new ones and the number of the object that is the result, which may be an operand.  Operations and the inner
product return (they raise no exceptions), and the inner product changes nothing.
-/

namespace Modred

variable {𝕜 : Type*} [RCLike 𝕜] {E : Type*}

/-- Objects, numbered below `next`, and their contents. -/
structure Objects (E : Type*) where
  next : Nat
  content : Nat → E

/-- `copy.deepcopy`. -/
def Objects.deepcopy (o : Objects E) (v : Nat) : Objects E × Nat :=
  (⟨o.next + 1, fun i => if i = o.next then o.content v else o.content i⟩, o.next)

/-- Changing an object. -/
def Objects.set (o : Objects E) (v : Nat) (x : E) : Objects E := ⟨o.next, fun i => if i = v then x else o.content i⟩

/-- A new object. -/
def Objects.new (o : Objects E) (x : E) : Objects E × Nat := (⟨o.next + 1, fun i => if i = o.next then x else o.content i⟩, o.next)

/-- The operations of vectors. -/
structure VecOps (𝕜 E : Type*) where
  mul : Objects E → Nat → 𝕜 → Objects E × Nat
  add : Objects E → Nat → Nat → Objects E × Nat

/-- The tolerance (`modred/vectorspace.py` line 157). -/
noncomputable def sanityTol : ℝ := 1e-12

/-- `if abs(actual - expected) > tol: raise ValueError`. -/
noncomputable def closeOrRaise (actual expected : 𝕜) : Except Err Unit :=
  open scoped Classical in if sanityTol < ‖actual - expected‖ then .error .valueError else .ok ()

/-- `VectorSpaceHandles.sanity_check` (`modred/vectorspace.py` lines 140-221) for the vector `v` that the handle returns,
given the objects that exist then. -/
noncomputable def sanityCheck (ops : VecOps 𝕜 E) (ip : Option (E → E → 𝕜)) (o : Objects E) (v : Nat) : Except Err Unit :=
  match ip with
  | none => .error .runtimeError
  | some ip => do
    let sq := fun (o : Objects E) w => ip (o.content w) (o.content w)
    let (o, vecCopy) := o.deepcopy v
    let mag := sq o vecCopy
    let (o, vecMult) := ops.mul o v 2
    closeOrRaise (sq o vecMult) (mag * 2 ^ 2)
    closeOrRaise (sq o v) mag
    let (o, vecAdd) := ops.add o v v
    closeOrRaise (sq o vecAdd) (mag * 4)
    closeOrRaise (sq o v) mag
    let (o, vecMult) := ops.mul o v 2
    let (o, vecAddMult) := ops.add o vecMult v
    closeOrRaise (sq o vecAddMult) (mag * (2 + 1) ^ 2)
    closeOrRaise (sq o v) mag

end Modred
