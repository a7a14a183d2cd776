import Verif.Model.Basic
import Mathlib.Analysis.RCLike.Basic
import Mathlib.Algebra.BigOperators.Group.Finset.Basic

/-!
# Trapezoidal inner product (`modred/vectors.py` lines 144-197)

A numpy array is its shape and a function from index lists to numbers.
-/

namespace Modred

variable {𝕜 : Type*} [RCLike 𝕜]

/-- An array of numbers with any number of dimensions. -/
structure NArr (𝕜 : Type*) where
  shape : List Nat
  at_ : List Nat → 𝕜

/-- `numpy.trapz(a, x=grid)` along the last axis: the sum of
`(grid[i+1] - grid[i]) * (a[..., i+1] + a[..., i]) / 2`. -/
def trapzLast (grid : List ℝ) (a : NArr 𝕜) : NArr 𝕜 where
  shape := a.shape.dropLast
  at_ := fun idx => ∑ i ∈ Finset.range (grid.length - 1),
    ((grid.getD (i + 1) 0 - grid.getD i 0 : ℝ) : 𝕜) * (a.at_ (idx ++ [i + 1]) + a.at_ (idx ++ [i])) / 2

/-- `InnerProductTrapz(*grids)` (`modred/vectors.py` lines 163-173): at least one grid is needed.
That the grids are one-dimensional arrays is part of the type here. -/
def innerProductTrapzInit (grids : List (List ℝ)) : Except Err (List (List ℝ)) :=
  if grids.length = 0 then .error .valueError else .ok grids

/-- `InnerProductTrapz.inner_product` (`modred/vectors.py` lines 180-197). -/
def innerProductTrapz (grids : List (List ℝ)) (vec1 vec2 : NArr 𝕜) : Except Err 𝕜 :=
  let gridShape := grids.map List.length
  if vec1.shape ≠ gridShape then .error .typeError
  else if vec2.shape ≠ gridShape then .error .typeError
  else
    let ip : NArr 𝕜 := ⟨vec1.shape, fun idx => star (vec1.at_ idx) * vec2.at_ idx⟩
    .ok ((grids.reverse.foldl (fun ip grid => trapzLast grid ip) ip).at_ [])

end Modred
