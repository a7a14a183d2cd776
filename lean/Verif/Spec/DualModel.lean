import Verif.Model.EraModel

/-!
# Specification for C126: dual models
-/

namespace Modred

open Matrix

variable {𝕜 : Type*} [RCLike 𝕜]

/-- The dual model: its inputs are the outputs of the model, and its Markov parameters are the conjugate transposes. -/
def LtiModel.dual (m : LtiModel 𝕜) : LtiModel 𝕜 :=
  ⟨m.r, m.q, m.p, m.Aᴴ, m.Cᴴ, m.Bᴴ⟩

/-- Markov parameters `m'` are the conjugate transposes of `m`. -/
structure DualMarkovs (m m' : Markovs 𝕜) : Prop where
  number : m'.nt = m.nt
  outputs : m'.no = m.ni
  inputs : m'.ni = m.no
  entries : ∀ t < m.nt, ∀ i < m.no, ∀ j < m.ni, m'.at_ t j i = star (m.at_ t i j)

/-- Both models have as many states, and the responses of the second are the conjugate transposes of those of the first. -/
structure DualResponse (model model' : LtiModel 𝕜) : Prop where
  states : model'.r = model.r
  inputs : model'.p = model.q
  outputs : model'.q = model.p
  response : ∀ k, (model'.C * model'.A ^ k * model'.B).submatrix (Fin.cast outputs.symm) (Fin.cast inputs.symm) =
    (model.C * model.A ^ k * model.B)ᴴ

end Modred
