import Verif.Model.EraModel
import Mathlib.LinearAlgebra.Matrix.NonsingularInverse

/-!
# Linear systems: balancing, random systems, simulation (`modred/util.py`)

Arrays have fitting shapes (given by their types) and entries are exact numbers.  Library routines are parameters
(`scipy.linalg.solve_lyapunov`, the singular value decomposition, the random generator), except
`scipy.signal.dlsim` and `dimpulse`, which are modelled by the recursions they run.  These are for real systems: `dlsim`
stores states and outputs in arrays of real numbers.  The model is stated over any field.
-/

namespace Modred

open Matrix

variable {𝕜 : Type*} [RCLike 𝕜]

/-! ### Balanced truncation -/

/-- What `balanced_truncation` returns with `return_sing_vals=True`; without it, the singular values are left out. -/
structure Balanced (𝕜 : Type*) where
  model : LtiModel 𝕜
  numSingVals : Nat
  singVals : Fin numSingVals → ℝ

/-- `balanced_truncation` (`modred/util.py` lines 365-384).  Orders are natural numbers; too large ones mean all, as in
the code.  `U`, `E`, `V` are `s.U`, `s.S`, `s.V`. -/
noncomputable def balancedTruncation
    (lyapunov : ∀ {n : Nat}, Matrix (Fin n) (Fin n) 𝕜 → Matrix (Fin n) (Fin n) 𝕜 → Matrix (Fin n) (Fin n) 𝕜)
    (svd : ∀ {m n : Nat}, Matrix (Fin m) (Fin n) 𝕜 → SvdOut 𝕜 m n) {n p q : Nat}
    (A : Matrix (Fin n) (Fin n) 𝕜) (B : Matrix (Fin n) (Fin p) 𝕜) (C : Matrix (Fin q) (Fin n) 𝕜)
    (order : Option Nat) : Except Err (Balanced 𝕜) :=
  let gramCont := lyapunov A (B * Bᴴ)
  let gramObsv := lyapunov Aᴴ (Cᴴ * C)
  match utilSvd svd gramCont (some svdAtol) none with
  | .error e => .error e
  | .ok sc =>
  match utilSvd svd gramObsv (some svdAtol) none with
  | .error e => .error e
  | .ok so =>
  let Lc := sc.U * diagPow (𝕜 := 𝕜) sc.S 0.5
  let Lo := so.U * diagPow (𝕜 := 𝕜) so.S 0.5
  match utilSvd svd (Loᵀ * Lc) (some svdAtol) none with
  | .error e => .error e
  | .ok s =>
  let num := order.getD s.r
  let SL := Lo * firstCols s.U num * diagPow (𝕜 := 𝕜) (firstEntries s.S num) (-0.5)
  let SR := Lc * firstCols s.V num * diagPow (𝕜 := 𝕜) (firstEntries s.S num) (-0.5)
  .ok ⟨⟨min num s.r, p, q, SLᵀ * A * SR, SLᵀ * B, C * SR⟩, s.r, s.S⟩

/-! ### Random systems -/

/-- `numpy.linspace(start, stop, num)`. -/
noncomputable def linspace (start stop : ℝ) (num : Nat) (i : Fin num) : ℝ :=
  if num = 1 then start else start + (stop - start) * (i.val / ((num - 1 : Nat) : ℝ))

/-- `numpy.linalg.inv`. -/
noncomputable def inv {n : Nat} (a : Matrix (Fin n) (Fin n) ℝ) : Except Err (Matrix (Fin n) (Fin n) ℝ) :=
  open scoped Classical in if IsUnit a.det then .ok a⁻¹ else .error .linAlgError

/-- `drss` (`modred/util.py` lines 404-411), as a function of the numbers the random generator returns.  All numbers are
real, so that `np.real` does nothing. -/
noncomputable def drss {n p q : Nat} (eigVecs : Matrix (Fin n) (Fin n) ℝ) (normalB : Matrix (Fin n) (Fin p) ℝ)
    (normalC : Matrix (Fin q) (Fin n) ℝ) : Except Err (LtiModel ℝ) :=
  match inv eigVecs with
  | .error e => .error e
  | .ok i => .ok ⟨n, p, q, i * (diagonal (linspace 0.2 0.95 n) * eigVecs), normalB, normalC⟩

/-- `rss` (`modred/util.py` lines 429-434), as a function of the numbers the random generator returns; those for
the eigenvalues are in [0, 1). -/
noncomputable def rss {n p q : Nat} (random : Fin n → ℝ) (transformation : Matrix (Fin n) (Fin n) ℝ)
    (randomB : Matrix (Fin n) (Fin p) ℝ) (randomC : Matrix (Fin q) (Fin n) ℝ) : Except Err (LtiModel ℝ) :=
  match inv transformation with
  | .error e => .error e
  | .ok i => .ok ⟨n, p, q, i * diagonal (fun j => -random j) * transformation, randomB, randomC⟩

/-! ### Simulation -/

section Simulation

variable {K : Type*} [Field K] {n p q : Nat}

/-- A `scipy.signal.StateSpace`. -/
structure StateSpace (K : Type*) (n p q : Nat) where
  A : Matrix (Fin n) (Fin n) K
  B : Matrix (Fin n) (Fin p) K
  C : Matrix (Fin q) (Fin n) K
  D : Matrix (Fin q) (Fin p) K

/-- The inputs: an array of one dimension (one input), or one with a row for each time step. -/
inductive LsimInputs (K : Type*) where
  | d1 (u : List K)
  | d2 (num : Nat) (u : List (Fin num → K))

/-- The loop of `scipy.signal.dlsim`: outputs for the remaining inputs, from the state `x`. -/
def dlsimLoop (s : StateSpace K n p q) : (Fin n → K) → List (Fin p → K) → List (Fin q → K)
  | _, [] => []
  | x, u :: us => (s.C *ᵥ x + s.D *ᵥ u) :: dlsimLoop s (s.A *ᵥ x + s.B *ᵥ u) us

/-- `scipy.signal.dlsim(system, u, x0=x0)` for a time step 1 and without given times: outputs only.  An array of
one dimension is one column.  Without any time step, storing the initial state raises IndexError; a wrong number of
inputs is a ValueError of `numpy.dot`, if there are two time steps or at the last one. -/
def dlsim (s : StateSpace K n p q) (u : LsimInputs K) (x0 : Option (Fin n → K)) : Except Err (List (Fin q → K)) :=
  match u with
  | .d1 u =>
    if u.length = 0 then .error .indexError
    else if p = 1 then .ok (dlsimLoop s (x0.getD 0) (u.map fun v _ => v))
    else .error .valueError
  | .d2 num u =>
    if u.length = 0 then .error .indexError
    else if h : p = num then .ok (dlsimLoop s (x0.getD 0) (u.map fun v i => v (Fin.cast h i)))
    else .error .valueError

/-- `lsim` (`modred/util.py` lines 458-465). -/
def lsim (A : Matrix (Fin n) (Fin n) K) (B : Matrix (Fin n) (Fin p) K) (C : Matrix (Fin q) (Fin n) K)
    (inputs : LsimInputs K) (initialCondition : Option (Fin n → K)) : Except Err (List (Fin q → K)) :=
  dlsim ⟨A, B, C, 0⟩ inputs initialCondition

/-- `scipy.signal.dimpulse(system, n=num)`, `num` at least 1: for each input the outputs [time step, output], with an
impulse in the first time step. -/
def dimpulse (s : StateSpace K n p q) (num : Nat) : List (List (Fin q → K)) :=
  (List.finRange p).map fun j => dlsimLoop s 0 ((List.range num).map fun t i => if t = 0 ∧ i = j then 1 else 0)

/-- `impulse` (`modred/util.py` lines 484-493): a list over time steps of arrays [output, input].  `dimpulse` computes 100
time steps if no number is given.  There is at least one input (otherwise `dimpulse` fails). -/
def impulse (A : Matrix (Fin n) (Fin n) K) (B : Matrix (Fin n) (Fin p) K) (C : Matrix (Fin q) (Fin n) K)
    (numTimeSteps : Option Nat) : List (Matrix (Fin q) (Fin p) K) :=
  let num := match numTimeSteps with
    | some m => m + 1
    | none => 100
  let markovs := dimpulse ⟨A, B, C, 0⟩ num
  ((List.range num).map fun t => Matrix.of fun i (j : Fin p) => (markovs.getD j []).getD t 0 i).drop 1

end Simulation

end Modred
