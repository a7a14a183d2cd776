import Mathlib.LinearAlgebra.Matrix.ConjTranspose
import Mathlib.Analysis.Complex.Basic

/-!
# Real arrays, and modes in conjugate pairs
-/

namespace Modred

open Matrix

/-- All entries are real. -/
def RealArr {p q : Type*} (a : Matrix p q ℂ) : Prop := ∀ i j, (a i j).im = 0

/-- The permutation `σ` exchanges the two members of each pair, and leaves the others in their places.  The members of a
pair have conjugate eigenvalues, their modes are conjugate up to a factor that is not zero, their adjoint modes up to
the inverse of the conjugate of this factor, and their coefficients up to its inverse. -/
structure ConjugatePairs {n m r : Nat} (eigvals : Fin r → ℂ) (exact proj adjoint : Matrix (Fin n) (Fin r) ℂ)
    (coeffs adv : Matrix (Fin r) (Fin m) ℂ) (σ : Fin r → Fin r) (c : Fin r → ℂ) : Prop where
  twice : ∀ i, σ (σ i) = i
  eigvals : ∀ i, eigvals (σ i) = starRingEnd ℂ (eigvals i)
  factor : ∀ i, c i ≠ 0
  exact : ∀ i k, exact k (σ i) = c i * starRingEnd ℂ (exact k i)
  proj : ∀ i k, proj k (σ i) = c i * starRingEnd ℂ (proj k i)
  adjoint : ∀ i k, starRingEnd ℂ (c i) * adjoint k (σ i) = starRingEnd ℂ (adjoint k i)
  coeffs : ∀ i j, c i * coeffs (σ i) j = starRingEnd ℂ (coeffs i j)
  adv : ∀ i j, c i * adv (σ i) j = starRingEnd ℂ (adv i j)

end Modred
