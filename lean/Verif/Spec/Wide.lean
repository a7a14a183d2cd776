import Mathlib.Analysis.RCLike.Basic
import Mathlib.Analysis.Real.Sqrt
import Mathlib.LinearAlgebra.Matrix.Defs

/-!
# Coefficients that place and repeat vectors
-/

namespace Modred

variable {m m' : Nat}

/-- Puts vectors at the places given by `ι` and zero vectors elsewhere. -/
def placeRows (𝕜 : Type*) [RCLike 𝕜] (ι : Fin m → Fin m') : Matrix (Fin m) (Fin m') 𝕜 := fun i j => if ι i = j then 1 else 0

/-- Repeats vectors: the one at place `j` is the one with index `σ j`. -/
noncomputable def repeatRows (𝕜 : Type*) [RCLike 𝕜] (σ : Fin m' → Fin m) (p : Nat) : Matrix (Fin m) (Fin m') 𝕜 :=
  fun i j => if σ j = i then ((Real.sqrt p : ℝ) : 𝕜)⁻¹ else 0

end Modred
