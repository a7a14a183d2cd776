import Verif.Model.Tlsqr
import Mathlib.LinearAlgebra.Matrix.ToLin

/-!
# Vectors that obey linear constraints

The vectors that obey given homogeneous linear constraints, such as boundary conditions, zero divergence or a symmetry, are a
linear subspace.
-/

namespace Modred

open Matrix

variable {𝕜 : Type*} [RCLike 𝕜]

/-- All columns lie in a subspace. -/
def ColsIn {n m : Nat} (S : Submodule 𝕜 (Fin n → 𝕜)) (X : Matrix (Fin n) (Fin m) 𝕜) : Prop :=
  ∀ j, (fun i => X i j) ∈ S

/-- All vectors of a list, if there is one, lie in a subspace. -/
def ListIn {E : Type*} [AddCommMonoid E] [Module 𝕜 E] (S : Submodule 𝕜 E) (l : Option (List E)) : Prop :=
  ∀ a ∈ l, ∀ v ∈ a, v ∈ S

/-- Vectors that have been computed lie in a subspace. -/
def VecsIn {E : Type*} [AddCommMonoid E] [Module 𝕜 E] (S : Submodule 𝕜 E) (out : Vecs E) : Prop :=
  ∀ i, out.v i ∈ S

/-- Constraints that are the rows of an array, and the subspace of the vectors that obey them. -/
def constrained {n k : Nat} (L : Matrix (Fin k) (Fin n) 𝕜) : Submodule 𝕜 (Fin n → 𝕜) := LinearMap.ker (Matrix.mulVecLin L)

/-- Vectors that a linear map, such as a reflection, does not change. -/
def unchanged {n : Nat} (T : Matrix (Fin n) (Fin n) 𝕜) : Submodule 𝕜 (Fin n → 𝕜) := constrained (T - 1)

end Modred
