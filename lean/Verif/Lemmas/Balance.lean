import Verif.Lemmas.Pod
import Verif.Props.Linalg

/-!
# Balancing with a singular value decomposition
-/

namespace Modred

open Matrix

variable {𝕜 : Type*} [RCLike 𝕜]

section

variable {m n r : Nat} {a : Matrix (Fin m) (Fin n) 𝕜} {U : Matrix (Fin m) (Fin r) 𝕜} {S : Fin r → ℝ}
  {V : Matrix (Fin n) (Fin r) 𝕜}

theorem balance_left (hS : ∀ i, 0 < S i) (haU : aᴴ * U = V * diagPow (𝕜 := 𝕜) S 1) :
    (U * diagPow (𝕜 := 𝕜) S (-0.5))ᴴ * a = diagPow (𝕜 := 𝕜) S 0.5 * Vᴴ := by
  have h := congrArg conjTranspose haU
  rw [conjTranspose_mul, conjTranspose_conjTranspose, conjTranspose_mul, diagPow_conjTranspose] at h
  rw [conjTranspose_mul, diagPow_conjTranspose, Matrix.mul_assoc, h, ← Matrix.mul_assoc, diagPow_mul _ hS]
  rw [show (-0.5 + 1 : ℝ) = 0.5 by norm_num]

theorem balance_right (hS : ∀ i, 0 < S i) (haV : a * V = U * diagPow (𝕜 := 𝕜) S 1) :
    (V * diagPow (𝕜 := 𝕜) S (-0.5))ᴴ * aᴴ = diagPow (𝕜 := 𝕜) S 0.5 * Uᴴ :=
  balance_left hS (by rw [conjTranspose_conjTranspose]; exact haV)

theorem balance_one (hS : ∀ i, 0 < S i) (hV : Vᴴ * V = 1) (haU : aᴴ * U = V * diagPow (𝕜 := 𝕜) S 1) :
    (U * diagPow (𝕜 := 𝕜) S (-0.5))ᴴ * a * (V * diagPow (𝕜 := 𝕜) S (-0.5)) = 1 := by
  rw [balance_left hS haU]
  rw [show diagPow (𝕜 := 𝕜) S 0.5 * Vᴴ * (V * diagPow (𝕜 := 𝕜) S (-0.5)) =
    diagPow (𝕜 := 𝕜) S 0.5 * (Vᴴ * V) * diagPow (𝕜 := 𝕜) S (-0.5) by simp only [Matrix.mul_assoc]]
  rw [hV, Matrix.mul_one, diagPow_mul _ hS, show (0.5 + -0.5 : ℝ) = 0 by norm_num, diagPow_zero]

end

section

variable {m n : Nat} (lib : Matrix (Fin m) (Fin n) 𝕜 → SvdOut 𝕜 m n) (a : Matrix (Fin m) (Fin n) 𝕜)
  (atol rtol : Option ℝ)

/-- Results of `util.svd`. -/
theorem utilSvd_triples (h : IsSvd a (lib a)) (s : Svd 𝕜 m n) (hs : utilSvd lib a atol rtol = .ok s) :
    s.Uᴴ * s.U = 1 ∧ s.Vᴴ * s.V = 1 ∧ a * s.V = s.U * diagPow (𝕜 := 𝕜) s.S 1 ∧
      aᴴ * s.U = s.V * diagPow (𝕜 := 𝕜) s.S 1 := by
  obtain ⟨h1, h2, h3, h4, -⟩ := C19_singular_triples lib a _ _ h s hs
  exact ⟨h1, h2, by rw [diagPow_one]; exact h3, by rw [diagPow_one]; exact h4⟩

/-- Retained singular values are larger than the absolute tolerance. -/
theorem utilSvd_positive (t : ℝ) (hr : ∀ t ∈ rtol, 0 ≤ t) (h : IsSvd a (lib a)) (s : Svd 𝕜 m n)
    (hs : utilSvd lib a (some t) rtol = .ok s) : ∀ i, t < s.S i := by
  intro i
  obtain ⟨k1, k2, k3⟩ := C19_kept_iff lib a _ _ h hr s hs
  have hi : i.val < min m n := lt_of_lt_of_le i.isLt k1
  have ho := ((k2 ⟨i, hi⟩).mp i.isLt).1 t rfl
  rw [(k3 i ⟨i, hi⟩ rfl).1]
  rwa [abs_of_nonneg (h.nonneg _)] at ho

end

end Modred
