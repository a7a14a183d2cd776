import Verif.Model.Basic
import Mathlib.Data.Finset.Card

/-!
# What processes know about each other
-/

namespace Modred

/-- A host name that is not empty and does not begin with a zero byte. -/
def IsHostName (h : List UInt8) : Prop := h ≠ [] ∧ h.head? ≠ some 0

/-- What process `i` says with `mpi4py`: the number of distinct hosts, of processes (twice), and its own number; it is
distributed if there are others, and the first one is that of rank zero. -/
def KnowsAll (hostnames : List (List UInt8)) (i nodes workers procs rank : Nat) (distributed zero : Bool) : Prop :=
  nodes = hostnames.toFinset.card ∧ workers = hostnames.length ∧ procs = hostnames.length ∧ rank = i ∧
    (distributed = true ↔ 2 ≤ hostnames.length) ∧ (zero = true ↔ i = 0)

/-- Processes of any hosts are started.  With `mpi4py`, each of several ones raises RuntimeError in the function, and
one alone gets `alone`.  Without, each of them gets `alone`. -/
def RefusesInParallel {S α : Type*} (start : Bool → List (List UInt8) → Nat → Except Err S) (f : S → Except Err α)
    (alone : Except Err α) : Prop :=
  ∀ hostnames : List (List UInt8), (∀ h ∈ hostnames, IsHostName h) → ∀ i < hostnames.length,
    (∃ s, start true hostnames i = .ok s ∧ (2 ≤ hostnames.length → f s = .error .runtimeError) ∧
      (hostnames.length = 1 → f s = alone)) ∧
    ∃ s, start false hostnames i = .ok s ∧ f s = alone

end Modred
