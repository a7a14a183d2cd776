import Verif.Spec.Galerkin

/-!
# Specification for C134: Galerkin projection reproduces the first responses
-/

namespace Modred

open Matrix

variable {𝕜 : Type*} [RCLike 𝕜]

/-- `compute_model` returns a model whose first `N` responses to unit impulses are `h`. -/
def MatchesResponses {r q p : Nat} (N : Nat) (h : Nat → Matrix (Fin p) (Fin q) 𝕜)
    (res : Except Err (Option (Cols 𝕜 r) × Option (Cols 𝕜 r) × Option (Arr 𝕜))) : Prop :=
  ∃ (A : Matrix (Fin r) (Fin r) 𝕜) (B : Matrix (Fin r) (Fin q) 𝕜) (C : Matrix (Fin p) (Fin r) 𝕜),
    res = .ok (some ⟨r, A⟩, some ⟨q, B⟩, some ⟨p, r, C⟩) ∧ ∀ k < N, C * A ^ k * B = h k

/-- The basis can be used: the inner products of adjoint and direct basis vectors are those of biorthonormal bases if the user says
so, and otherwise can be inverted. -/
def BasisFits {r : Nat} (flag : Bool) (G : Matrix (Fin r) (Fin r) 𝕜) : Prop :=
  if flag then G = 1 else IsUnit G.det

end Modred
