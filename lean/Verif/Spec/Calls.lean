import Verif.Model.Calls
import Mathlib.Algebra.BigOperators.Intervals

/-!
# What is said about the calls of the parallel loops
-/

namespace Modred

/-- How often all `p` ranks together make call `e`. -/
def total (p : Nat) (calls : Nat → List Call) (e : Call) : Nat :=
  ∑ r ∈ Finset.range p, (calls r).count e

/-- How often a warning says that something is retrieved; without a warning, once. -/
def announced : Option (Nat × Nat) → Nat
  | some w => w.2
  | none => 1

/-- A call of `get`. -/
def Call.isGet : Call → Bool
  | .getRow _ => true
  | .getCol _ => true
  | .getBasis _ => true
  | _ => false

/-- Seconds that a rank needs for its calls if each `get` takes `getTime` and everything else
`opTime`. -/
def callTime (getTime opTime : ℚ) (calls : List Call) : ℚ :=
  calls.countP Call.isGet * getTime + calls.countP (fun e => !e.isGet) * opTime

end Modred
