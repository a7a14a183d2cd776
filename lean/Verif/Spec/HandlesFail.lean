import Verif.Model.HandlesFail
import Verif.Spec.Handles

/-!
# What a vector handle stands for, if anything
-/

namespace Modred

variable {V T K : Type*}

/-- The vector a handle stands for, or the exception that `get` should raise, given what is stored:
the stored vector minus the vector of the base handle, times the scale.  There is no cache here. -/
def Handle.tryValue (ops : FallibleOps V T K) (st : FallibleStorage V T) : Handle K → Except Err V
  | .mk place base scale => do
    let vec ← tryRead ops st place
    let diff ← match base with
      | none => pure vec
      | some b => do
        let baseVec ← b.tryValue ops st
        ops.sub vec baseVec
    match scale with
    | none => pure diff
    | some c => ops.mul diff c

/-- What the calls of a history should return. -/
def tryValuesOf (ops : FallibleOps V T K) :
    List (Op V K) → FallibleStorage V T → List (Except Err (Option V))
  | [], _ => []
  | .get h :: calls, st => (h.tryValue ops st).map some :: tryValuesOf ops calls st
  | .put h v :: calls, st =>
    (match (tryWrite ops st v h.place).1 with
      | some e => .error e
      | none => .ok none) :: tryValuesOf ops calls (tryWrite ops st v h.place).2

/-- The histories for which the code is right, see `GoodHistory`. -/
def GoodFallibleHistory [DecidableEq V] (ops : FallibleOps V T K) :
    List (Handle K) → List (Op V K) → FallibleStorage V T → Prop
  | _, [], _ => True
  | used, .get h :: calls, st =>
    (∀ a b, (∃ u ∈ h :: used, BaseOf a u) → (∃ u ∈ h :: used, BaseOf b u) →
      tryHandleEq st a b = true → a.tryValue ops st = b.tryValue ops st) ∧
    GoodFallibleHistory ops (h :: used) calls st
  | used, .put h v :: calls, st =>
    (∀ u ∈ used, ∀ b, BaseOf b u → ¬ h.place.shares b.place) ∧
    GoodFallibleHistory ops used calls (tryWrite ops st v h.place).2

/-- What `get` should read: the vector in memory or in the file, or the exception of opening or loading the file. -/
def Stored (ops : FallibleOps V T K) (st : FallibleStorage V T) : Place → Except Err V → Prop
  | .memory slot, r => r = .ok (st.mem slot)
  | .text path isComplex, r => (st.txt path = none → r = .error .osError) ∧ ∀ t, st.txt path = some t → r = ops.load isComplex t
  | .pickle path, r => (st.pkl path = .missing → r = .error .osError) ∧ (st.pkl path = .broken → r = .error ops.broken) ∧
      ∀ v, st.pkl path = .holds v → r = .ok v

/-- Which exception `put` should raise, if any: nothing for memory, the exception of saving for files, and the exception of
opening files that cannot be opened. -/
def PutRaises (ops : FallibleOps V T K) (st : FallibleStorage V T) (v : V) : Place → Option Err → Prop
  | .memory _, r => r = none
  | .text path _, r => (∀ e, ops.save v = .error (.inl e) → r = some e) ∧
      ((∀ e, ops.save v ≠ .error (.inl e)) → st.dir path = false → r = some .osError) ∧
      (st.dir path = true → ∀ e, ops.save v = .error (.inr e) → r = some e) ∧
      (st.dir path = true → ∀ t, ops.save v = .ok t → r = none)
  | .pickle path, r => (st.dir path = false → r = some .osError) ∧ (st.dir path = true → ∀ e, ops.dump v = .error e → r = some e) ∧
      (st.dir path = true → ∀ u, ops.dump v = .ok u → r = none)

end Modred
