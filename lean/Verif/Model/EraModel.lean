import Verif.Model.Era
import Verif.Model.Pod

/-!
# Reduced-order models of ERA (`modred/era.py`)

Numbers of states are natural numbers.  The warning of instability, which only prints, is not modelled.
-/

namespace Modred

open Matrix

variable {𝕜 : Type*} [RCLike 𝕜]

/-- `a[:k]`; numbers beyond the number of rows mean all of them. -/
def firstRows {m : Nat} {n : Type*} (a : Matrix (Fin m) n 𝕜) (k : Nat) : Matrix (Fin (min k m)) n 𝕜 :=
  a.submatrix (Fin.castLE (Nat.min_le_right k m)) id

/-- The Hankel arrays as matrices. -/
def HankelPair.array (h : HankelPair 𝕜) : Matrix (Fin h.rows) (Fin h.cols) 𝕜 := Matrix.of fun i j => h.h i j
def HankelPair.array2 (h : HankelPair 𝕜) : Matrix (Fin h.rows) (Fin h.cols) 𝕜 := Matrix.of fun i j => h.h2 i j

/-- A linear model with `r` states, `p` inputs and `q` outputs. -/
structure LtiModel (𝕜 : Type*) where
  r : Nat
  p : Nat
  q : Nat
  A : Matrix (Fin r) (Fin r) 𝕜
  B : Matrix (Fin r) (Fin p) 𝕜
  C : Matrix (Fin q) (Fin r) 𝕜

/-- The absolute tolerance that `util.svd` uses if none is given (`modred/util.py` line 195). -/
noncomputable def svdAtol : ℝ := 1e-13

/-- The end of `ERA.compute_model` (`modred/era.py` lines 200-219). -/
noncomputable def eraReduce (svd : ∀ {m n : Nat}, Matrix (Fin m) (Fin n) 𝕜 → SvdOut 𝕜 m n) (h : HankelPair 𝕜)
    (numOutputs numInputs numStates : Nat) : Except Err (LtiModel 𝕜) :=
  match utilSvd svd h.array (some svdAtol) none with
  | .error e => .error e
  | .ok s =>
    let Ur := firstCols s.U numStates
    let Er := firstEntries s.S numStates
    let Vr := firstCols s.V numStates
    let A := diagPow (𝕜 := 𝕜) Er (-0.5) * (Urᴴ * (h.array2 * (Vr * diagPow (𝕜 := 𝕜) Er (-0.5))))
    let B := diagPow (𝕜 := 𝕜) Er 0.5 * firstCols Vrᴴ numInputs
    let C := firstRows Ur numOutputs * diagPow (𝕜 := 𝕜) Er 0.5
    .ok ⟨min numStates s.r, min numInputs h.cols, min numOutputs h.rows, A, B, C⟩

/-- `ERA.compute_model` (`modred/era.py` lines 195-225). -/
noncomputable def eraModel (svd : ∀ {m n : Nat}, Matrix (Fin m) (Fin n) 𝕜 → SvdOut 𝕜 m n) (cast : 𝕜 → 𝕜)
    (self : EraObj) (markovs : MarkovsIn 𝕜) (numStates : Nat) (mc mo : Option Int) :
    Except Err (EraObj × LtiModel 𝕜) :=
  match setMarkovs markovs with
  | .error e => .error e
  | .ok m =>
    match eraHankel cast self markovs mc mo with
    | .error e => .error e
    | .ok (self, h) =>
      match eraReduce svd h m.no m.ni numStates with
      | .error e => .error e
      | .ok model => .ok (self, model)

/-- `compute_ERA_model` (`modred/era.py` lines 85-87). -/
noncomputable def computeEraModel (svd : ∀ {m n : Nat}, Matrix (Fin m) (Fin n) 𝕜 → SvdOut 𝕜 m n)
    (cast : 𝕜 → 𝕜) (markovs : MarkovsIn 𝕜) (numStates : Nat) : Except Err (LtiModel 𝕜) :=
  match eraModel svd cast (eraInit none none) markovs numStates none none with
  | .error e => .error e
  | .ok (_, model) => .ok model

end Modred
