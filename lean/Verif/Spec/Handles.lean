import Verif.Model.Handles

/-!
# What a vector handle stands for
-/

namespace Modred

variable {V T K : Type*}

/-- The vector a handle stands for, given what is stored: the stored vector minus the vector of the
base handle, times the scale.  There is no cache here. -/
def Handle.value [Sub V] (fmt : TextFormat V T) (mul : V → K → V) (st : Storage V T) : Handle K → V
  | .mk place none none => rawGet fmt st place
  | .mk place none (some c) => mul (rawGet fmt st place) c
  | .mk place (some b) none => rawGet fmt st place - b.value fmt mul st
  | .mk place (some b) (some c) => mul (rawGet fmt st place - b.value fmt mul st) c

/-- What the `get` calls of a history should return. -/
def valuesOf [Sub V] (fmt : TextFormat V T) (mul : V → K → V) :
    List (Op V K) → Storage V T → List V
  | [], _ => []
  | .get h :: ops, st => h.value fmt mul st :: valuesOf fmt mul ops st
  | .put h v :: ops, st => valuesOf fmt mul ops (rawPut fmt st v h.place)

/-- Two places share storage. -/
def Place.shares : Place → Place → Prop
  | .memory s, .memory s' => s = s'
  | .text p _, .text p' _ => p = p'
  | .pickle p, .pickle p' => p = p'
  | _, _ => False

/-- `BaseOf b h`: `b` is the base handle of `h`, or of the base handle of `h`, and so on. -/
inductive BaseOf : Handle K → Handle K → Prop
  | here (place b scale) : BaseOf b (.mk place (some b) scale)
  | there (place b scale c) : BaseOf c b → BaseOf c (.mk place (some b) scale)

/-- The histories for which the code is right.  `used` lists the handles read so far.
A `put` must not change the storage of a base handle that was used; and when a handle is read, base
handles (of it or of handles read before) that compare equal must stand for equal vectors. -/
def GoodHistory [DecidableEq V] [Sub V] (fmt : TextFormat V T) (mul : V → K → V) :
    List (Handle K) → List (Op V K) → Storage V T → Prop
  | _, [], _ => True
  | used, .get h :: ops, st =>
    (∀ a b, (∃ u ∈ h :: used, BaseOf a u) → (∃ u ∈ h :: used, BaseOf b u) →
      handleEq st a b = true → a.value fmt mul st = b.value fmt mul st) ∧
    GoodHistory fmt mul (h :: used) ops st
  | used, .put h v :: ops, st =>
    (∀ u ∈ used, ∀ b, BaseOf b u → ¬ h.place.shares b.place) ∧
    GoodHistory fmt mul used ops (rawPut fmt st v h.place)

end Modred
