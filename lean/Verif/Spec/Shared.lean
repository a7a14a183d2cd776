import Verif.Model.Shared
import Mathlib.Algebra.BigOperators.Fin

/-!
# What it means that a parallel program on a shared store works
-/

namespace Modred

variable {σ μ V : Type*}

/-- Every interleaving of the program on `p` ranks, from the given local states and store,

* is finite (bounded length),
* is never stuck before all ranks are done, whichever sends are buffered or synchronous,
* as soon as rank `r` is done, and at every later moment, `post r` holds of its local state and the store,
* when all ranks are done no message is left over. -/
def EverySharedInterleaving (p : Nat) (prog : List (SharedRound σ μ V)) (st : Nat → σ) (w : Nat → V)
    (post : Nat → σ → (Nat → V) → Prop) : Prop :=
  ∀ (sync : Nat → Nat → Prop) (n : Nat) (s : SharedSys σ μ V),
    SharedRun p sync prog n ⟨Sys.start st, w⟩ s →
      n ≤ p * (4 * prog.length) ∧
      ((∀ r, r < p → s.sys.pc r = 4 * prog.length) ∨ ∃ s', SharedStep p sync prog s s') ∧
      (∀ r, r < p → s.sys.pc r = 4 * prog.length → post r (s.sys.loc r) s.store) ∧
      ((∀ r, r < p → s.sys.pc r = 4 * prog.length) → ∀ a b t, a < p → b < p → s.sys.box a b t = [])

/-- What a linear combination does to a store: places of basis vectors and of sums, coefficients. -/
structure Combined {K : Type*} [AddCommMonoid V] (mul : V → K → V) (basis sums : List Nat) (coeff : Nat → Nat → K)
    (before after : Nat → V) : Prop where
  sum : ∀ (k : Nat) (hk : k < sums.length), after sums[k] = ∑ i : Fin basis.length, mul (before basis[i]) (coeff i k)
  other : ∀ q, q ∉ sums → after q = before q

/-- What linear combinations, one after another, do to a store. -/
inductive CombinedInTurn {K : Type*} [AddCommMonoid V] (mul : V → K → V) :
    List (List Nat × List Nat × (Nat → Nat → K)) → (Nat → V) → (Nat → V) → Prop
  | nil (w : Nat → V) : CombinedInTurn mul [] w w
  | cons {basis sums : List Nat} {coeff : Nat → Nat → K} {rest : List (List Nat × List Nat × (Nat → Nat → K))}
      {w w' w'' : Nat → V} (h : Combined mul basis sums coeff w w') (ht : CombinedInTurn mul rest w' w'') :
      CombinedInTurn mul ((basis, sums, coeff) :: rest) w w''

end Modred
