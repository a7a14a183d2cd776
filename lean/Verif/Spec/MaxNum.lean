import Mathlib.Analysis.Matrix.Spectrum

/-!
# The number of eigenvalues of a Hermitian array above a bound
-/

namespace Modred

open Matrix

/-- Exactly `k` eigenvalues of the array, counted with multiplicity, are larger than `s`. -/
def EigenvaluesAbove {𝕜 : Type*} [RCLike 𝕜] {m : Nat} (C : Matrix (Fin m) (Fin m) 𝕜) (s : ℝ) (k : Nat) : Prop :=
  ∃ h : C.IsHermitian, (Finset.univ.filter fun i => s < h.eigenvalues i).card = k

/-- The inner products of vectors. -/
def gramOf {𝕜 E : Type*} {m : Nat} (ip : E → E → 𝕜) (x : Fin m → E) : Matrix (Fin m) (Fin m) 𝕜 :=
  Matrix.of fun i j => ip (x i) (x j)

end Modred
