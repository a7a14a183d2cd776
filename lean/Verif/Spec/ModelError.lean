import Verif.Spec.Stability
import Mathlib.Topology.Instances.Matrix
import Mathlib.Analysis.RCLike.Basic

/-!
# Errors of reduced models
-/

namespace Modred

open Matrix

variable {𝕜 : Type*} [RCLike 𝕜]

/-- The sum of squares of a vector, with weights. -/
noncomputable def weightedSquares {ι : Type*} [Fintype ι] (w : ι → ℝ) (x : ι → 𝕜) : ℝ := ∑ i, w i * ‖x i‖ ^ 2

/-- The sum of squares of a vector. -/
noncomputable def sumSquares {ι : Type*} [Fintype ι] (x : ι → 𝕜) : ℝ := ∑ i, ‖x i‖ ^ 2

/-- Energy of the first `T` values of a signal. -/
noncomputable def signalEnergy {κ : Type*} [Fintype κ] (T : Nat) (y : Nat → κ → 𝕜) : ℝ :=
  ∑ t ∈ Finset.range T, sumSquares (y t)

/-- Outputs of a linear system that starts at rest, from its impulse response `M` and its inputs `u`. -/
def impulseOutput (M : Nat → Nat → Nat → 𝕜) {p q : Nat} (u : Nat → Fin p → 𝕜) (t : Nat) : Fin q → 𝕜 :=
  fun i => ∑ s ∈ Finset.range t, ∑ j : Fin p, M (t - 1 - s) i j * u s j

/-- A reduced model with singular values `σ` that were kept and `bound`, twice the sum of those that were not, for the
impulse response `M`, that has died out within `n` steps. -/
structure IsAccurateModel (M : Nat → Nat → Nat → 𝕜) {r p q : Nat} (σ : Fin r → ℝ) (bound : ℝ) (n : Nat)
    (A : Matrix (Fin r) (Fin r) 𝕜) (B : Matrix (Fin r) (Fin p) 𝕜) (C : Matrix (Fin q) (Fin r) 𝕜) : Prop where
  /-- for all inputs and at all times, the error has at most the energy of the inputs times the square of the bound -/
  error : ∀ (u : Nat → Fin p → 𝕜) (x : Nat → Fin r → 𝕜), x 0 = 0 → (∀ t, x (t + 1) = A *ᵥ x t + B *ᵥ u t) →
    ∀ T, signalEnergy T (fun t => impulseOutput M u t - C *ᵥ x t) ≤ bound ^ 2 * signalEnergy T u
  /-- outputs take their energy from the states -/
  outputs : ∀ x, weightedSquares σ (A *ᵥ x) + sumSquares (C *ᵥ x) ≤ weightedSquares σ x
  /-- states take their energy from the inputs -/
  inputs : ∀ x u, weightedSquares (fun i => (σ i)⁻¹) (A *ᵥ x + B *ᵥ u) ≤
    weightedSquares (fun i => (σ i)⁻¹) x + sumSquares u
  /-- states lose energy -/
  decay : ∀ x, (n + 1) * weightedSquares σ (A ^ n *ᵥ x) ≤ n * weightedSquares σ x
  /-- the model is stable -/
  stable : ∀ x : Fin r → 𝕜, Filter.Tendsto (fun t => A ^ t *ᵥ x) Filter.atTop (nhds 0)
  /-- so are its eigenvalues -/
  eigenvalues : ∀ z, IsEigenvalue A z → ‖z‖ < 1

end Modred
