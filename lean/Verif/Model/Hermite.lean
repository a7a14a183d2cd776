import Verif.Model.Basic
import Mathlib.Data.Matrix.Mul
import Mathlib.Analysis.SpecialFunctions.Pow.Real
import Mathlib.Data.Fin.Tuple.Sort

/-!
# Differentiation arrays (`modred/examples/hermite.py`)

Arrays of nodes and weights have the right shapes by their types.
-/

namespace Modred

open Matrix

/-! ### Arbitrary nodes -/

section Poldif

variable {K : Type*} [Field K]

/-- `a.compressed()` with the diagonal masked: all other entries, row by row. -/
def offDiagonal {n : Nat} (a : Matrix (Fin n) (Fin n) K) : List K :=
  (List.finRange n).flatMap fun k => ((List.finRange n).filter fun j => j ≠ k).map fun j => a k j

variable {N : Nat}

/-- `DX` (lines 94-100): differences of nodes, and ones on the diagonal. -/
def poldifDX (x : Fin (N + 1) → K) : Matrix (Fin (N + 1)) (Fin (N + 1)) K :=
  Matrix.of fun k j => if k = j then 1 else x k - x j

/-- `C` (lines 102-105). -/
def poldifC (x alpha : Fin (N + 1) → K) : Matrix (Fin (N + 1)) (Fin (N + 1)) K :=
  let c : Fin (N + 1) → K := fun k => alpha k * ∏ j, poldifDX x k j
  Matrix.of fun k j => c k / c j

/-- `Z` (lines 107-109). -/
def poldifZ (x : Fin (N + 1) → K) : Matrix (Fin (N + 1)) (Fin (N + 1)) K :=
  Matrix.of fun k j => if k = j then 0 else 1 / poldifDX x k j

/-- `X` (lines 111-113): the entries of `Z` that are not on the diagonal, reshaped to one row less than
columns. -/
def poldifX (x : Fin (N + 1) → K) : Matrix (Fin N) (Fin (N + 1)) K :=
  Matrix.of fun s k => (offDiagonal (poldifZ x)).getD (k * N + s) 0

/-- `np.cumsum(np.concatenate((first, others), axis=0), axis=0)`. -/
def cumsumRows (first : Fin (N + 1) → K) (others : Matrix (Fin N) (Fin (N + 1)) K) :
    Matrix (Fin (N + 1)) (Fin (N + 1)) K :=
  Matrix.of fun r k => ∑ s ∈ Finset.univ.filter (fun s : Fin (N + 1) => s ≤ r),
    (Fin.cons first others : Fin (N + 1) → Fin (N + 1) → K) s k

/-- The loop (lines 119-132), with the rows of `B` that are left, from pass `i` on. -/
def poldifLoop (Z C : Matrix (Fin (N + 1)) (Fin (N + 1)) K) (X : Matrix (Fin N) (Fin (N + 1)) K) :
    Nat → List (Fin (N + 1) → K) → Matrix (Fin (N + 1)) (Fin (N + 1)) K →
    Matrix (Fin (N + 1)) (Fin (N + 1)) K → List (Matrix (Fin (N + 1)) (Fin (N + 1)) K)
  | _, [], _, _ => []
  | i, b :: rest, Y, D =>
    let Y' := cumsumRows b (Matrix.of fun s k => (i : K) * Y s.castSucc k * X s k)
    let D' : Matrix (Fin (N + 1)) (Fin (N + 1)) K :=
      Matrix.of fun k j => if k = j then Y' (Fin.last N) k
        else (i : K) * Z k j * (C k j * D k k - D k j)
    D' :: poldifLoop Z C X (i + 1) rest Y' D'

/-- `poldif` after its arguments are checked (lines 83-84 and 94-134).  For no node at all the array cannot be
reshaped, and `ValueError` is raised. -/
def poldifCore : {n : Nat} → (Fin n → K) → (Fin n → K) → List (Fin n → K) →
    Except Err (List (Matrix (Fin n) (Fin n) K))
  | 0, _, _, _ => .error .valueError
  | _ + 1, x, alpha, B =>
    .ok (poldifLoop (poldifZ x) (poldifC x alpha) (poldifX x) 1 B (Matrix.of fun _ _ => 1) 1)

/-- `poldif` (`modred/examples/hermite.py` lines 60-134); `B` is the list of its rows. -/
def poldif {n : Nat} (x : Fin n → K) (m : Option Nat) (alpha : Option (Fin n → K))
    (B : Option (List (Fin n → K))) : Except Err (List (Matrix (Fin n) (Fin n) K)) :=
  match m, B, alpha with
  | some m, none, none => poldifCore x (fun _ => 1) (List.replicate m fun _ => 0)
  | none, some B, some alpha => poldifCore x alpha B
  | _, _, _ => .error .runtimeError

end Poldif

/-! ### Hermite nodes -/

/-- The Jacobi array (line 13).  `np.diag` of `n - 1` values above the diagonal has `n - 1 + 1` rows, so one for
`n = 0`. -/
noncomputable def jacobi (n : Nat) : Matrix (Fin (n - 1 + 1)) (Fin (n - 1 + 1)) ℝ :=
  Matrix.of fun i j =>
    if j.val = i.val + 1 then ((j.val : ℝ)) ^ (0.5 : ℝ)
    else if i.val = j.val + 1 then ((i.val : ℝ)) ^ (0.5 : ℝ)
    else 0

/-- `herroots` (`modred/examples/hermite.py` lines 10-14); `eigvalsh` is `np.linalg.eigvalsh`. -/
noncomputable def herroots (n : Nat)
    (eigvalsh : Matrix (Fin (n - 1 + 1)) (Fin (n - 1 + 1)) ℝ → Fin (n - 1 + 1) → ℝ) : Fin (n - 1 + 1) → ℝ :=
  let w := eigvalsh (jacobi n)
  fun i => w (Tuple.sort w i) / (2 : ℝ) ^ (0.5 : ℝ)

/-- Row `i` of `beta` (lines 38-45). -/
def herdifBeta {n : Nat} (x : Fin n → ℝ) : Nat → Fin n → ℝ
  | 0 => fun _ => 1
  | 1 => fun j => -x j
  | i + 2 => fun j => -x j * herdifBeta x (i + 1) j - ((i + 2 : Nat) - 1 : ℝ) * herdifBeta x i j

/-- `herdif` (`modred/examples/hermite.py` lines 17-57).  For `m = 0` there is no second row of `beta`, and
`IndexError` is raised. -/
noncomputable def herdif (n m : Nat) (b : ℝ)
    (eigvalsh : Matrix (Fin (n - 1 + 1)) (Fin (n - 1 + 1)) ℝ → Fin (n - 1 + 1) → ℝ) :
    Except Err ((Fin (n - 1 + 1) → ℝ) × List (Matrix (Fin (n - 1 + 1)) (Fin (n - 1 + 1)) ℝ)) :=
  let x := herroots n eigvalsh
  let alpha := fun k => Real.exp (-x k ^ 2 / 2)
  if m = 0 then .error .indexError
  else
    let beta := (List.range m).map fun i => herdifBeta x (i + 1)
    match poldif x none (some alpha) (some beta) with
    | .error e => .error e
    | .ok Dm => .ok (fun k => x k / b, Dm.mapIdx fun i D => b ^ (i + 1) • D)

end Modred
