import Mathlib.Analysis.RCLike.Basic

/-!
# Specification for C122: modes found in data with errors
-/

namespace Modred

variable {E : Type*} [AddCommGroup E]

/-- The vector `v` is a linear combination of `modes` up to an error that is at most `b` long. -/
def FoundIn {k : Nat} (𝕜 : Type*) [RCLike 𝕜] [Module 𝕜 E] (sqLength : E → ℝ) (v : E) (modes : Fin k → E) (b : ℝ) : Prop :=
  ∃ c : Fin k → 𝕜, √(sqLength (v - ∑ l, c l • modes l)) ≤ b

/-- Modes with eigenvalues `vals` are found among other modes, up to errors that are the smaller the larger their eigenvalue is:
with all other modes, up to what their tolerance `b'` excludes and the change `δ` of the data, over the root of the eigenvalue; with
the first `k`, up to the next eigenvalue of the others and `δ`. -/
structure ModesFound {r r' : Nat} (𝕜 : Type*) [RCLike 𝕜] [Module 𝕜 E] (sqLength : E → ℝ) (modes : Fin r → E) (vals : Fin r → ℝ)
    (modes' : Fin r' → E) (vals' : Fin r' → ℝ) (δ b' : ℝ) : Prop where
  all : ∀ i, 0 < vals i → FoundIn 𝕜 sqLength (modes i) modes' ((√b' + δ) / √(vals i))
  first : ∀ i (k : Fin r'), 0 < vals i →
    FoundIn 𝕜 sqLength (modes i) (fun l : Fin k => modes' (Fin.castLE k.isLt.le l)) ((√(vals' k) + δ) / √(vals i))

end Modred
