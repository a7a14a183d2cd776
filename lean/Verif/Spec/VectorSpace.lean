import Verif.Model.VectorSpace
import Mathlib.Algebra.BigOperators.Fin

/-!
# What coefficients of `lin_combine` mean
-/

namespace Modred

variable {V K : Type*}

/-- Shape of the coefficients: two-dimensional as given; one number is 1 x 1; a list is a row if
there is one basis vector and a column otherwise. -/
def specShape (numBases : Nat) : CoeffArray K → Nat × Nat
  | .mat rows cols _ => (rows, cols)
  | .scalar _ => (1, 1)
  | .vec c => if numBases = 1 then (1, c.length) else (c.length, 1)

/-- Coefficient of basis vector `i` in column `j`. -/
def specEntry [Zero K] (numBases : Nat) (coeff : CoeffArray K) (i j : Nat) : K :=
  match coeff with
  | .mat _ _ c => c i j
  | .scalar c => c
  | .vec c => if numBases = 1 then c.getD j 0 else c.getD i 0

/-- Selected column number `k`; negative numbers count from the end. -/
def specColumn (cols : Nat) (selection : Option (List Int)) (k : Nat) : Nat :=
  match selection with
  | none => k
  | some l => let i := l.getD k 0; (if i < 0 then i + cols else i).toNat

/-- The selected columns exist. -/
def selectionOk (cols : Nat) : Option (List Int) → Prop
  | none => True
  | some l => ∀ i ∈ l, -(cols : Int) ≤ i ∧ i < cols

/-- Number of selected columns. -/
def numSelected (cols : Nat) : Option (List Int) → Nat
  | none => cols
  | some l => l.length

/-- The `k`-th sum: `sum_i basis_i * coeff[i, selection[k]]`. -/
def specSum [AddCommMonoid V] [Zero K] (mul : V → K → V) (basis : List V) (coeff : CoeffArray K)
    (selection : Option (List Int)) (k : Nat) : V :=
  ∑ i : Fin basis.length, mul basis[i]
    (specEntry basis.length coeff i (specColumn (specShape basis.length coeff).2 selection k))

end Modred
