import Verif.Model.Arrays

/-!
# Weighted inner products
-/

namespace Modred

open Matrix

variable {𝕜 : Type*}

/-- The array `W` of the inner product `v1^* W v2`. -/
def Weights.matrix [Zero 𝕜] [One 𝕜] (n : Nat) : Weights 𝕜 → Matrix (Fin n) (Fin n) 𝕜
  | .none => 1
  | .d1 _ w => diagonal fun i => w i
  | .d2 _ _ w => Matrix.of fun i j => w i j

/-- Weights for vectors with `n` entries. -/
def Weights.Fits (n : Nat) : Weights 𝕜 → Prop
  | .none => True
  | .d1 k _ => k = n
  | .d2 p q _ => p = n ∧ q = n

/-- The columns of `modes` are the columns of `all` that are chosen by the indices. -/
def Chosen {n r : Nat} (all : Matrix (Fin n) (Fin r) 𝕜) (idx : Option (List Int)) (modes : Cols 𝕜 n) : Prop :=
  ∃ sel : Fin modes.k → Fin r, modes.a = all.submatrix id sel ∧
    (∀ l, idx = some l → modes.k = l.length ∧
      ∀ (i : Fin modes.k) (j : Int), l[i.val]? = some j → npAxisIndex r j = .ok (sel i)) ∧
    (idx = none → modes.k = r ∧ ∀ i, (sel i).val = i.val)

end Modred
