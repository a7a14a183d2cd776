import Verif.Spec.Galerkin

/-!
# Specification for C129: Galerkin projection of the adjoint system
-/

namespace Modred

open Matrix

variable {𝕜 : Type*} [RCLike 𝕜]

/-- What `compute_model` returns for a system with `q` inputs and `p` outputs, and for its adjoint system: both raise the same
exception, or the responses of one model are the conjugate transposes of those of the other, and so are the arrays if the bases
are biorthonormal. -/
def DualModels {r : Nat} (q p : Nat) (biorthonormal : Prop)
    (res res' : Except Err (Option (Cols 𝕜 r) × Option (Cols 𝕜 r) × Option (Arr 𝕜))) : Prop :=
  (∃ e, res = .error e ∧ res' = .error e) ∨
    ∃ (A : Matrix (Fin r) (Fin r) 𝕜) (B : Matrix (Fin r) (Fin q) 𝕜) (C : Matrix (Fin p) (Fin r) 𝕜)
      (A' : Matrix (Fin r) (Fin r) 𝕜) (B' : Matrix (Fin r) (Fin p) 𝕜) (C' : Matrix (Fin q) (Fin r) 𝕜),
      res = .ok (some ⟨r, A⟩, some ⟨q, B⟩, some ⟨p, r, C⟩) ∧ res' = .ok (some ⟨r, A'⟩, some ⟨p, B'⟩, some ⟨q, r, C'⟩) ∧
      (∀ k, C' * A' ^ k * B' = (C * A ^ k * B)ᴴ) ∧ (biorthonormal → A' = Aᴴ ∧ B' = Cᴴ ∧ C' = Bᴴ)

end Modred
