import Mathlib.Data.Real.Basic

/-!
# Specification for C123: eigenvalues of data in two parts
-/

namespace Modred

/-- Values `S` of the whole and `S₁`, `S₂` of two parts, of which tolerances exclude those that are at most `b₁` and `b₂`: the value
that follows the first `k₁ + k₂` is at most the sum of those of the parts that follow the first `k₁` and the first `k₂`. -/
structure JointValues {r r₁ r₂ : Nat} (S : Fin r → ℝ) (S₁ : Fin r₁ → ℝ) (S₂ : Fin r₂ → ℝ) (b₁ b₂ : ℝ) : Prop where
  both : ∀ (k : Fin r) (k₁ : Fin r₁) (k₂ : Fin r₂), k.val = k₁ + k₂ → S k ≤ S₁ k₁ + S₂ k₂
  first : ∀ (k : Fin r) (k₂ : Fin r₂), k.val = r₁ + k₂ → S k ≤ b₁ + S₂ k₂
  second : ∀ (k : Fin r) (k₁ : Fin r₁), k.val = k₁ + r₂ → S k ≤ S₁ k₁ + b₂
  neither : ∀ k : Fin r, k.val = r₁ + r₂ → S k ≤ b₁ + b₂

end Modred
