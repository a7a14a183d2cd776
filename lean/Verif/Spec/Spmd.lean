import Verif.Model.Spmd

/-!
# What it means that a parallel program works
-/

namespace Modred

variable {σ μ α : Type*}

/-- Every interleaving of the program on `p` ranks, from the given local states,

* is finite (bounded length),
* is never stuck before all ranks are done, whichever sends are buffered or synchronous,
* and when all ranks are done, `post r` holds of the local state of every rank `r` and no message
  is left over. -/
def EveryInterleaving (p : Nat) (prog : Prog σ μ) (st : Nat → σ) (post : Nat → σ → Prop) : Prop :=
  ∀ (sync : Nat → Nat → Prop) (n : Nat) (s : Sys σ μ),
    SysRun p sync prog n (Sys.start st) s →
      n ≤ p * (4 * prog.length) ∧
      (s.Finished p prog ∨ ∃ s', SysStep p sync prog s s') ∧
      (s.Finished p prog →
        (∀ r, r < p → post r (s.loc r)) ∧ ∀ a b t, a < p → b < p → s.box a b t = [])

/-- In every interleaving, at every moment, `inv` holds of the local state of every rank and `msg` of
every message under way. -/
def Always (p : Nat) (prog : Prog σ μ) (st : Nat → σ) (inv : σ → Prop) (msg : μ → Prop) : Prop :=
  ∀ (sync : Nat → Nat → Prop) (n : Nat) (s : Sys σ μ),
    SysRun p sync prog n (Sys.start st) s →
      (∀ r, inv (s.loc r)) ∧ ∀ a b t, ∀ m ∈ s.box a b t, msg m

/-- The objects of ranks `0 .. n` combined in rank order, from the left. -/
def rankFold (op : α → α → α) (x : Nat → α) : Nat → α
  | 0 => x 0
  | n + 1 => op (rankFold op x n) (x (n + 1))

end Modred
