import Verif.Model.EraModel

/-!
# Impulse responses of models of the same system with inputs and outputs in another order and in other units
-/

namespace Modred

open Matrix

variable {𝕜 : Type*} [RCLike 𝕜] {p q p' q' : Nat}

/-- Both models have as many states, and the second has `p'` inputs and `q'` outputs instead of `p` and `q`.  Each Markov parameter of the second is that of the first,
mixed by `R` and `T` and multiplied by `c`. -/
structure SameResponse (c : 𝕜) (R : Matrix (Fin q) (Fin q') 𝕜) (T : Matrix (Fin p) (Fin p') 𝕜) (model model' : LtiModel 𝕜) : Prop where
  states : model'.r = model.r
  inputs : model.p = p
  inputs' : model'.p = p'
  outputs : model.q = q
  outputs' : model'.q = q'
  response : ∀ k, (model'.C * model'.A ^ k * model'.B).submatrix (Fin.cast outputs'.symm) (Fin.cast inputs'.symm) =
    c • (Rᴴ * (model.C * model.A ^ k * model.B).submatrix (Fin.cast outputs.symm) (Fin.cast inputs.symm) * T)

end Modred
