import Verif.Model.Trapz

/-!
# Trapezoid weights
-/

namespace Modred

/-- The weight of point `i` of a grid: half the distance between its neighbours, or to its only
neighbour at the ends. -/
noncomputable def trapzWeight (grid : List ℝ) (i : Nat) : ℝ :=
  ((if i + 1 < grid.length then grid.getD (i + 1) 0 - grid.getD i 0 else 0) +
    (if 0 < i then grid.getD i 0 - grid.getD (i - 1) 0 else 0)) / 2

/-- Sum over all grid points of the product of the weights times a function of the point. -/
noncomputable def weightedSum {𝕜 : Type*} [RCLike 𝕜] : List (List ℝ) → (List Nat → 𝕜) → 𝕜
  | [], f => f []
  | g :: grids, f => ∑ i ∈ Finset.range g.length,
      (trapzWeight g i : 𝕜) * weightedSum grids fun idx => f (i :: idx)

/-- A grid with increasing points. -/
def Increasing (grid : List ℝ) : Prop := grid.Pairwise (· ≤ ·)

end Modred
