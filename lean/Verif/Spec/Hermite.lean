import Verif.Spec.Linalg
import Mathlib.Analysis.Calculus.IteratedDeriv.Defs
import Mathlib.Analysis.SpecialFunctions.Exp
import Mathlib.Algebra.Polynomial.Eval.Defs
import Mathlib.Algebra.Polynomial.Degree.Defs
import Mathlib.Data.Matrix.Mul

/-!
# What a differentiation array does
-/

namespace Modred

open Matrix

/-- Multiplying values at the nodes by `D` gives the derivative of order `l` at the nodes, exactly, for all
functions that are the weight function times a polynomial of degree below the number of nodes. -/
def Differentiates {n : Nat} (α : ℝ → ℝ) (x : Fin n → ℝ) (l : Nat) (D : Matrix (Fin n) (Fin n) ℝ) : Prop :=
  ∀ p : Polynomial ℝ, p.degree < n → ∀ k,
    (D *ᵥ fun j => α (x j) * p.eval (x j)) k = iteratedDeriv l (fun t => α t * p.eval t) (x k)

/-- Row `i` of `B` is the derivative of order `i + 1` of the weight function over the weight function. -/
def IsWeightDerivatives {n : Nat} (α : ℝ → ℝ) (x : Fin n → ℝ) (B : List (Fin n → ℝ)) : Prop :=
  ∀ i b, B[i]? = some b → ∀ k, b k = iteratedDeriv (i + 1) α (x k) / α (x k)

/-- The eigenvalues of a real symmetric array, each as often as its multiplicity. -/
def IsEigvalsh {n : Nat} (a : Matrix (Fin n) (Fin n) ℝ) (w : Fin n → ℝ) : Prop := ∃ V, IsEigh a ⟨w, V⟩

/-- A zero of the Hermite polynomial of degree `n`, by the formula of Rodrigues: the polynomial is, up to sign,
the derivative of order `n` of `exp (-t ^ 2)`, over `exp (-t ^ 2)`. -/
def IsHermiteZero (n : Nat) (t : ℝ) : Prop := iteratedDeriv n (fun t => Real.exp (-t ^ 2)) t = 0

end Modred
