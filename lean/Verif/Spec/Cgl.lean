import Mathlib.Data.Matrix.Mul
import Mathlib.Analysis.RCLike.Basic
import Mathlib.Algebra.BigOperators.Fin

/-!
# Inner products of functions on nodes
-/

namespace Modred

open Matrix

variable {𝕜 : Type*} [RCLike 𝕜]

/-- The inner product with weights. -/
noncomputable def nodeIp {n : Nat} (w : Fin n → ℝ) (u v : Fin n → 𝕜) : 𝕜 := ∑ i, star (u i) * (w i * v i)

/-- The energy: the weighted sum of squared absolute values. -/
noncomputable def energy {n : Nat} (w : Fin n → ℝ) (v : Fin n → 𝕜) : ℝ := ∑ i, w i * ‖v i‖ ^ 2

/-- The trapezoidal rule: on each interval the length times the mean of the values at its ends. -/
noncomputable def trapezoidalRule {N : Nat} (x : Fin (N + 1) → ℝ) (f : Fin (N + 1) → 𝕜) : 𝕜 :=
  ∑ i : Fin N, ((x i.succ - x i.castSucc : ℝ) : 𝕜) * ((f i.castSucc + f i.succ) / 2)

/-- The columns of `q` are the steps of the trapezoidal rule in time for `dq/dt = A q`, starting at `q0`. -/
structure CrankNicolson {n nt : Nat} (A : Matrix (Fin n) (Fin n) 𝕜) (dt : ℝ) (q0 : Fin n → 𝕜)
    (q : Matrix (Fin n) (Fin nt) 𝕜) : Prop where
  start : ∀ j : Fin nt, j.val = 0 → (fun i => q i j) = q0
  step : ∀ j j' : Fin nt, j'.val = j.val + 1 →
    (fun i => q i j') - (fun i => q i j) = ((dt / 2 : ℝ) : 𝕜) • (A *ᵥ (fun i => q i j') + A *ᵥ fun i => q i j)

end Modred
