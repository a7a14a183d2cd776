import Verif.Spec.Pod

/-!
# Best modes
-/

namespace Modred

open Matrix

variable {𝕜 : Type*} [RCLike 𝕜]

/-- Column `i` of the modes returned is column `j` of all modes, if `mode_indices` says so. -/
def SelectedFrom {n r : Nat} (modeIndices : Option (List Int)) (out : Cols 𝕜 n)
    (modes : Matrix (Fin n) (Fin r) 𝕜) : Prop :=
  ∀ (i : Fin out.k) (j : Fin r),
    (match modeIndices with
      | none => i.val = j.val
      | some l => l[i.val]? = some (j : Int)) →
    ∀ a, out.a a i = modes a j

/-- For each number `k`, the first `k` modes and rows of coefficients reproduce the data at least as well as any
`k` vectors with any coefficients, measured by the sum of squared lengths of the errors. -/
def AreBest {n m r : Nat} (W : Matrix (Fin n) (Fin n) 𝕜) (data : Matrix (Fin n) (Fin m) 𝕜)
    (modes : Matrix (Fin n) (Fin r) 𝕜) (coeffs : Matrix (Fin r) (Fin m) 𝕜) : Prop :=
  ∀ (k : Nat) (hk : k ≤ r) (Q : Matrix (Fin n) (Fin k) 𝕜) (c : Matrix (Fin k) (Fin m) 𝕜),
    RCLike.re (weightedSq W
      (data - modes.submatrix id (Fin.castLE hk) * coeffs.submatrix (Fin.castLE hk) id)) ≤
    RCLike.re (weightedSq W (data - Q * c))

end Modred
