import Verif.Spec.Galerkin

/-!
# Specification for C132: Galerkin projection with other bases of the same spaces
-/

namespace Modred

open Matrix

variable {𝕜 : Type*} [RCLike 𝕜]

/-- What `compute_model` returns for basis vectors and for linear combinations of them with the coefficients in the columns of `S`:
both raise the same exception, or the second model is the first for other states, `S` times which are the first, so that all
responses are the same. -/
def SameSpanModels {r : Nat} (q p : Nat) (S : Matrix (Fin r) (Fin r) 𝕜)
    (res res' : Except Err (Option (Cols 𝕜 r) × Option (Cols 𝕜 r) × Option (Arr 𝕜))) : Prop :=
  (∃ e, res = .error e ∧ res' = .error e) ∨
    ∃ (A : Matrix (Fin r) (Fin r) 𝕜) (B : Matrix (Fin r) (Fin q) 𝕜) (C : Matrix (Fin p) (Fin r) 𝕜)
      (A' : Matrix (Fin r) (Fin r) 𝕜) (B' : Matrix (Fin r) (Fin q) 𝕜) (C' : Matrix (Fin p) (Fin r) 𝕜),
      res = .ok (some ⟨r, A⟩, some ⟨q, B⟩, some ⟨p, r, C⟩) ∧ res' = .ok (some ⟨r, A'⟩, some ⟨q, B'⟩, some ⟨p, r, C'⟩) ∧
      S * A' = A * S ∧ S * B' = B ∧ C' = C * S ∧ ∀ k, C' * A' ^ k * B' = C * A ^ k * B

/-- Linear combinations of vectors with the coefficients in the columns of an array. -/
def columnSums {E : Type*} [AddCommGroup E] [Module 𝕜 E] {r s : Nat} (Φ : Fin r → E) (S : Matrix (Fin r) (Fin s) 𝕜) (j : Fin s) : E :=
  ∑ i, S i j • Φ i

end Modred
