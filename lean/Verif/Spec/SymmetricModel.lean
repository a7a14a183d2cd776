import Verif.Spec.DualModel

/-!
# Specification for C139: models of symmetric systems
-/

namespace Modred

open Matrix
open scoped ComplexOrder

variable {𝕜 : Type*} [RCLike 𝕜]

/-- The model is its own dual: as many inputs as outputs, `A` Hermitian and `C` the conjugate transpose of `B`. -/
structure SymmetricModel (m : LtiModel 𝕜) : Prop where
  square : m.q = m.p
  states : ∀ i j, m.A j i = star (m.A i j)
  outputs : ∀ (i : Fin m.p) (k : Fin m.r), m.C (Fin.cast square.symm i) k = star (m.B k i)

/-- The quadratic form of a square array has no negative values. -/
def NonnegArray (n : Nat) (a : Nat → Nat → 𝕜) : Prop :=
  ∀ x : Fin n → 𝕜, 0 ≤ ∑ i : Fin n, ∑ j : Fin n, star (x i) * a i j * x j

/-- Markov parameters in the sampled format, taken every `P` steps, of the system with the state array `A`, the input array `B` and the output array `Bᴴ`. -/
structure SymmetricMarkovs {n p : Nat} (P : Nat) (A : Matrix (Fin n) (Fin n) 𝕜) (B : Matrix (Fin n) (Fin p) 𝕜) (m : Markovs 𝕜) : Prop where
  outputs : m.no = p
  inputs : m.ni = p
  even : ∀ k, 2 * k < m.nt → ∀ i j : Fin p, m.at_ (2 * k) i j = (Bᴴ * A ^ (P * k) * B) i j
  odd : ∀ k, 2 * k + 1 < m.nt → ∀ i j : Fin p, m.at_ (2 * k + 1) i j = (Bᴴ * A ^ (P * k + 1) * B) i j

end Modred
