import Mathlib.LinearAlgebra.Matrix.ConjTranspose
import Mathlib.Analysis.RCLike.Basic
import Mathlib.Data.Matrix.Mul

/-!
# Gramians
-/

namespace Modred

open Matrix

variable {𝕜 : Type*} [RCLike 𝕜] {n : Nat}

/-- `X` solves the continuous-time Lyapunov equation `a X + X aᴴ = q`, the one `scipy.linalg.solve_lyapunov` is for. -/
def IsLyapunov (a q X : Matrix (Fin n) (Fin n) 𝕜) : Prop := a * X + X * aᴴ = q

/-- The solver returns a solution of each equation that has one. -/
def IsLyapunovSolver
    (solve : ∀ {n : Nat}, Matrix (Fin n) (Fin n) 𝕜 → Matrix (Fin n) (Fin n) 𝕜 → Matrix (Fin n) (Fin n) 𝕜) : Prop :=
  ∀ {n : Nat} (a q : Matrix (Fin n) (Fin n) 𝕜), (∃ X, IsLyapunov a q X) → IsLyapunov a q (solve a q)

/-- `X` is the controllability Gramian of the discrete-time system `x (k+1) = a x k + b u k`: `X = a X aᴴ + b bᴴ`. -/
def IsDiscreteGramian {p : Nat} (a : Matrix (Fin n) (Fin n) 𝕜) (b : Matrix (Fin n) (Fin p) 𝕜)
    (X : Matrix (Fin n) (Fin n) 𝕜) : Prop := X = a * X * aᴴ + b * bᴴ

end Modred
