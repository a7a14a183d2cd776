import Mathlib.LinearAlgebra.Matrix.ConjTranspose
import Mathlib.Data.Matrix.Mul
import Mathlib.Data.Matrix.Basic
import Mathlib.Analysis.RCLike.Basic

/-!
# Linear systems at rest

Discrete-time linear systems `x (k+1) = A x k + B u k`, `y k = C x k + D u k` that start at zero, and what
`numpy.linalg.lstsq` computes.
-/

namespace Modred

open Matrix

section Systems

variable {K : Type*} [Field K] {n m q : Nat}

/-- States of a system that starts at rest. -/
def restState (A : Matrix (Fin n) (Fin n) K) (B : Matrix (Fin n) (Fin m) K) (u : Nat → Fin m → K) : Nat → Fin n → K
  | 0 => 0
  | k + 1 => A *ᵥ restState A B u k + B *ᵥ u k

/-- Its outputs. -/
def restOutput (A : Matrix (Fin n) (Fin n) K) (B : Matrix (Fin n) (Fin m) K) (C : Matrix (Fin q) (Fin n) K)
    (D : Matrix (Fin q) (Fin m) K) (u : Nat → Fin m → K) (k : Nat) : Fin q → K :=
  C *ᵥ restState A B u k + D *ᵥ u k

/-- Markov parameters: the impulse response. -/
def markov (A : Matrix (Fin n) (Fin n) K) (B : Matrix (Fin n) (Fin m) K) (C : Matrix (Fin q) (Fin n) K)
    (D : Matrix (Fin q) (Fin m) K) : Nat → Matrix (Fin q) (Fin m) K
  | 0 => D
  | k + 1 => C * A ^ k * B

/-- A signal delayed by `i` steps. -/
def delay {X : Type*} [Zero X] (i : Nat) (f : Nat → X) (k : Nat) : X := if i ≤ k then f (k - i) else 0

/-- The data the outputs are explained with: the input, and inputs and outputs delayed by one to `p` steps. -/
def regressors (u : Nat → Fin m → K) (y : Nat → Fin q → K) (p N : Nat) :
    Matrix (Fin m ⊕ Fin p × (Fin m ⊕ Fin q)) (Fin N) K :=
  Matrix.of fun r k => match r with
    | .inl j => u k j
    | .inr (i, .inl j) => delay (i + 1) u k j
    | .inr (i, .inr j) => delay (i + 1) y k j

/-- Inputs delayed by zero to `p` steps, and the state delayed by `p` steps. -/
def inputsAndState (u : Nat → Fin m → K) (x : Nat → Fin n → K) (p N : Nat) :
    Matrix (Fin (p + 1) × Fin m ⊕ Fin n) (Fin N) K :=
  Matrix.of fun r k => match r with
    | .inl (i, j) => delay i u k j
    | .inr j => delay p x k j

end Systems

/-- A least-squares solution `X` of `A X = b` (normal equations), the one of least norm (in the range of `Aᴴ`). -/
structure IsLstsq {𝕜 : Type*} [RCLike 𝕜] {a b c : Nat} (A : Matrix (Fin a) (Fin b) 𝕜) (y : Matrix (Fin a) (Fin c) 𝕜)
    (X : Matrix (Fin b) (Fin c) 𝕜) : Prop where
  normal : Aᴴ * (A * X) = Aᴴ * y
  least : ∃ Z, X = Aᴴ * Z

end Modred
