import Verif.Spec.DmdHandles

/-!
# Least-squares projection
-/

namespace Modred

open Matrix

variable {𝕜 : Type*} [RCLike 𝕜]

/-- Column `j` of `coeffs` are the coefficients of the linear combination of the columns of `modes` that is the nearest
to column `j` of `Z`: all others are farther away. -/
def NearestCoeffs {n m r : Nat} (W : Matrix (Fin n) (Fin n) 𝕜) (Z : Matrix (Fin n) (Fin m) 𝕜)
    (modes : Matrix (Fin n) (Fin r) 𝕜) (coeffs : Matrix (Fin r) (Fin m) 𝕜) : Prop :=
  ∀ (j : Fin m) (c : Fin r → 𝕜), c ≠ coeffs.col j →
    RCLike.re (star (Z.col j - modes *ᵥ coeffs.col j) ⬝ᵥ W *ᵥ (Z.col j - modes *ᵥ coeffs.col j)) <
    RCLike.re (star (Z.col j - modes *ᵥ c) ⬝ᵥ W *ᵥ (Z.col j - modes *ᵥ c))

/-- The same for vectors of any space. -/
def NearestVecs {E : Type*} [AddCommGroup E] [Module 𝕜 E] {m r : Nat} (ip : E →ₗ⋆[𝕜] E →ₗ[𝕜] 𝕜) (Z : Fin m → E)
    (modes : Fin r → E) (coeffs : Matrix (Fin r) (Fin m) 𝕜) : Prop :=
  ∀ (j : Fin m) (c : Fin r → 𝕜), c ≠ coeffs.col j →
    RCLike.re (ip (Z j - ∑ i, coeffs i j • modes i) (Z j - ∑ i, coeffs i j • modes i)) <
    RCLike.re (ip (Z j - ∑ i, c i • modes i) (Z j - ∑ i, c i • modes i))

end Modred
