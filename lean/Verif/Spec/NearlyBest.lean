import Mathlib.Analysis.RCLike.Basic
import Mathlib.Algebra.BigOperators.Fin
import Mathlib.Analysis.SpecialFunctions.Pow.NNReal

/-!
# Modes that are nearly best
-/

namespace Modred

variable {𝕜 : Type*} [RCLike 𝕜] {E : Type*} [AddCommGroup E] [Module 𝕜 E]

/-- What the projection of a vector onto modes misses, if coefficients are inner products with the modes. -/
def missed {r : Nat} (ip : E → E → 𝕜) (modes : Fin r → E) (v : E) : E := v - ∑ i, ip (modes i) v • modes i

/-- For each number `k`, projection onto the first `k` modes misses at most `d` more than any `k` vectors with any coefficients,
measured by the root of the sum of squared lengths. -/
def NearlyBest {m r : Nat} (ip : E → E → 𝕜) (data : Fin m → E) (modes : Fin r → E) (d : ℝ) : Prop :=
  ∀ (k : Nat) (hk : k ≤ r) (q : Fin k → E) (c : Fin k → Fin m → 𝕜),
    √(∑ j, RCLike.re (ip (missed ip (fun i : Fin k => modes (Fin.castLE hk i)) (data j))
      (missed ip (fun i : Fin k => modes (Fin.castLE hk i)) (data j)))) ≤
    √(∑ j, RCLike.re (ip (data j - ∑ i, c i j • q i) (data j - ∑ i, c i j • q i))) + d

/-- For each number `k` less than that of the modes: if `k` vectors with some coefficients represent every linear combination of the
data up to `B` times the length of its coefficients, projection of the linear combination onto the first `k` modes misses at most
`B + d` times this length. -/
def NearlyBestInWorstCase {m r : Nat} (ip : E → E → 𝕜) (data : Fin m → E) (modes : Fin r → E) (d : ℝ) : Prop :=
  ∀ (k : Nat) (hk : k < r) (q : Fin k → E) (c : Fin k → Fin m → 𝕜) (B : ℝ), 0 ≤ B →
    (∀ x : Fin m → 𝕜, √(RCLike.re (ip (∑ j, x j • (data j - ∑ i, c i j • q i)) (∑ j, x j • (data j - ∑ i, c i j • q i)))) ≤
      B * √(∑ j, ‖x j‖ ^ 2)) →
    ∀ x : Fin m → 𝕜, √(RCLike.re (ip (missed ip (fun i : Fin k => modes (Fin.castLE hk.le i)) (∑ j, x j • data j))
      (missed ip (fun i : Fin k => modes (Fin.castLE hk.le i)) (∑ j, x j • data j)))) ≤ (B + d) * √(∑ j, ‖x j‖ ^ 2)

end Modred
