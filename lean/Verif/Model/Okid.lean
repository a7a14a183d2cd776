import Verif.Model.Era
import Mathlib.Analysis.RCLike.Basic
import Mathlib.LinearAlgebra.Matrix.ConjTranspose

/-!
# OKID (`modred/okid.py`)

Signals are functions of row and time together with their shape.  `cast` is the conversion of a number that is stored
in an array of real floating point numbers, as in `Verif.Model.Era`, and `complex` tells whether the array of outputs
has a complex type.  `lstsq` is `numpy.linalg.lstsq`, whose cut-off for small singular values is not modelled.
-/

namespace Modred

open Matrix

variable {𝕜 : Type*} [RCLike 𝕜]

/-- An array of signals by number of dimensions. -/
inductive SignalsIn (K : Type*) where
  | d0 (x : K)
  | d1 (n : Nat) (f : Nat → K)
  | d2 (p n : Nat) (f : Nat → Nat → K)
  | higher

/-- Signals with two dimensions: row and time. -/
structure Signals (K : Type*) where
  rows : Nat
  samples : Nat
  at_ : Nat → Nat → K

/-- `util.atleast_2d_row`, and unpacking the shape into two numbers (`modred/okid.py` lines 38-43 and `modred/util.py`
lines 15-21). -/
def signals2d {K : Type*} : SignalsIn K → Except Err (Signals K)
  | .d0 x => .ok ⟨1, 1, fun _ _ => x⟩
  | .d1 n f => .ok ⟨1, n, fun _ k => f k⟩
  | .d2 p n f => .ok ⟨p, n, f⟩
  | .higher => .error .valueError

/-- Number of columns of `a[:, :n - i]` for `n` columns: a negative stop counts from the end. -/
def sliceCols (n i : Nat) : Nat := if i ≤ n then n - i else 2 * n - i

/-- One assignment to the data matrix (`modred/okid.py` lines 57-58) with the number `u` of inputs, `s` of inputs and
outputs and `n` of samples.  An array with one column is broadcast to any number of columns. -/
def okidWrite (cast : 𝕜 → 𝕜) (u s n : Nat) (inouts V : Nat → Nat → 𝕜) (i : Nat) : Except Err (Nat → Nat → 𝕜) :=
  if sliceCols n i = n - i ∨ sliceCols n i = 1 then
    .ok fun r k => if u + (i - 1) * s ≤ r ∧ r < u + i * s ∧ i ≤ k then
      cast (inouts (r - (u + (i - 1) * s)) (if sliceCols n i = n - i then k - i else 0)) else V r k
  else .error .valueError

/-- The data matrix (`modred/okid.py` lines 52-58). -/
def okidData (cast : 𝕜 → 𝕜) (inputs outputs : Signals 𝕜) (num : Nat) : Except Err (Nat → Nat → 𝕜) :=
  let inouts := fun r k => if r < inputs.rows then inputs.at_ r k else outputs.at_ (r - inputs.rows) k
  (List.range' 1 num).foldlM
    (okidWrite cast inputs.rows (inputs.rows + outputs.rows) inputs.samples inouts)
    fun r k => if r < inputs.rows then cast (inputs.at_ r k) else 0

/-- Columns `a` to `a + c` of an array with `R` columns. -/
def colBlock {q R : Nat} (M : Matrix (Fin q) (Fin R) 𝕜) (a c : Nat) : Matrix (Fin q) (Fin c) 𝕜 :=
  Matrix.of fun i j => if h : a + j < R then M i ⟨a + j, h⟩ else 0

/-- The loop that computes the Markov parameters (`modred/okid.py` lines 88-97). -/
def okidEstimates {q u : Nat} (cast : 𝕜 → 𝕜) (D : Matrix (Fin q) (Fin u) 𝕜) (input : Nat → Matrix (Fin q) (Fin u) 𝕜)
    (output : Nat → Matrix (Fin q) (Fin q) 𝕜) (num : Nat) : List (Matrix (Fin q) (Fin u) 𝕜) :=
  (List.range' 1 (num - 1)).foldl
    (fun est k => est ++ [(input k -
      (List.range' 1 k).foldl (fun sum i => sum + output i * est.getD (k - i) 0) 0).map cast]) [D.map cast]

/-- `OKID` (`modred/okid.py` lines 8-99).  Adding complex numbers to an array of real ones in place is a
`TypeError`. -/
def okid (lstsq : ∀ {a b c : Nat}, Matrix (Fin a) (Fin b) 𝕜 → Matrix (Fin a) (Fin c) 𝕜 → Matrix (Fin b) (Fin c) 𝕜)
    (cast : 𝕜 → 𝕜) (complex : Bool) (inputs outputs : SignalsIn 𝕜) (num : Nat) : Except Err (Markovs 𝕜) :=
  match signals2d inputs with
  | .error e => .error e
  | .ok inputs =>
    match signals2d outputs with
    | .error e => .error e
    | .ok outputs =>
      if inputs.samples ≠ outputs.samples then .error .valueError
      else
        let u := inputs.rows
        let s := inputs.rows + outputs.rows
        match okidData cast inputs outputs num with
        | .error e => .error e
        | .ok V =>
          let V : Matrix (Fin (u + s * num)) (Fin inputs.samples) 𝕜 := Matrix.of fun r k => V r k
          let Y : Matrix (Fin outputs.rows) (Fin inputs.samples) 𝕜 := Matrix.of fun r k => outputs.at_ r k
          let aug := (lstsq Vᴴ Yᵀ)ᴴ
          let D := colBlock aug 0 u
          let input := fun i => if i = 0 then D else colBlock aug (u + (i - 1) * s) u
          let output := fun i => -colBlock aug (u + (i - 1) * s + u) outputs.rows
          if num = 0 then .error .indexError
          else if complex ∧ 1 < num then .error .typeError
          else
            let est := okidEstimates cast D input output num
            .ok ⟨num, outputs.rows, u, fun k i j => if h : i < outputs.rows ∧ j < u then
              est.getD k 0 ⟨i, h.1⟩ ⟨j, h.2⟩ else 0⟩

end Modred
