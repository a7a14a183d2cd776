import Mathlib.Analysis.RCLike.Basic
import Mathlib.LinearAlgebra.Matrix.Notation

/-!
# Specification for C121: the first response of a model
-/

namespace Modred

/-- Whatever the inputs, the length of the difference between the outputs `M u` and `M' u`, per length of the inputs, is at most
`b`. -/
def SameOutputs {𝕜 : Type*} [RCLike 𝕜] {q p : Nat} (M M' : Matrix (Fin q) (Fin p) 𝕜) (b : ℝ) : Prop :=
  ∀ u : Fin p → 𝕜, √(∑ i, ‖∑ j, M i j * u j - ∑ j, M' i j * u j‖ ^ 2) ≤ b * √(∑ j, ‖u j‖ ^ 2)

end Modred
