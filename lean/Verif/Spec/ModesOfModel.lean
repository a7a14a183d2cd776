import Mathlib.LinearAlgebra.Matrix.Charpoly.Basic
import Verif.Spec.Dmd

/-!
# Specification for C137: dynamic modes and the model for POD modes
-/

namespace Modred

open Matrix

variable {𝕜 : Type*} [RCLike 𝕜] {n r : Nat}

/-- The eigenvalues are those of the array `a` of a model whose states are coefficients of `U`, the projected modes are made of its
right eigenvectors, and the adjoint modes of its left eigenvectors. -/
def ModesOfModel (U : Matrix (Fin n) (Fin r) 𝕜) (a : Matrix (Fin r) (Fin r) 𝕜) (eigvals : Fin r → 𝕜)
    (proj adjoint : Matrix (Fin n) (Fin r) 𝕜) : Prop :=
  a.charpoly.roots = Finset.univ.val.map eigvals ∧ ∃ R L : Matrix (Fin r) (Fin r) 𝕜,
    a * R = R * diagonal eigvals ∧ Lᴴ * a = diagonal eigvals * Lᴴ ∧ Lᴴ * R = 1 ∧ proj = U * R ∧ adjoint = U * L

/-- The same for vectors behind handles. -/
def ModesOfVectorModel {E : Type*} [AddCommGroup E] [Module 𝕜 E] (U : Fin r → E) (a : Matrix (Fin r) (Fin r) 𝕜) (eigvals : Fin r → 𝕜)
    (proj adjoint : Fin r → E) : Prop :=
  a.charpoly.roots = Finset.univ.val.map eigvals ∧ ∃ R L : Matrix (Fin r) (Fin r) 𝕜,
    a * R = R * diagonal eigvals ∧ Lᴴ * a = diagonal eigvals * Lᴴ ∧ Lᴴ * R = 1 ∧
    (∀ j, proj j = ∑ i, R i j • U i) ∧ ∀ j, adjoint j = ∑ i, L i j • U i

end Modred
