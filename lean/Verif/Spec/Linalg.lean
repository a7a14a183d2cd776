import Verif.Model.Linalg

/-!
# What the numerical library returns

The assumptions on `numpy.linalg` and `scipy.linalg` of the theorems about decompositions, in exact
arithmetic.
-/

namespace Modred

open Matrix

variable {𝕜 : Type*} [RCLike 𝕜]

/-- Thin singular value decomposition: orthonormal vectors, nonnegative values in descending order. -/
structure IsSvd {m n : Nat} (a : Matrix (Fin m) (Fin n) 𝕜) (o : SvdOut 𝕜 m n) : Prop where
  left : o.Uᴴ * o.U = 1
  right : o.Vh * o.Vhᴴ = 1
  product : a = o.U * diagonal (fun i => (o.S i : 𝕜)) * o.Vh
  nonneg : ∀ i, 0 ≤ o.S i
  sorted : Antitone o.S

/-- Eigendecomposition of a Hermitian array: orthonormal eigenvectors and their eigenvalues. -/
structure IsEigh {n : Nat} (a : Matrix (Fin n) (Fin n) 𝕜) (o : EighOut 𝕜 n) : Prop where
  orthonormal : o.Vᴴ * o.V = 1
  eigen : a * o.V = o.V * diagonal (fun i => (o.w i : 𝕜))

/-- Sorting indices: any permutation that sorts the values. -/
def IsArgsort {n : Nat} (argsort : (Fin n → ℝ) → Equiv.Perm (Fin n)) : Prop :=
  ∀ x, Monotone (x ∘ argsort x)

/-- Eigenvalues with right and left eigenvectors.  A left eigenvector `l` satisfies `l^* a = w l^*`. -/
structure IsEig {n : Nat} (a : Matrix (Fin n) (Fin n) 𝕜) (o : EigOut 𝕜 n) : Prop where
  right : a * o.R = o.R * diagonal o.w
  left : o.Lᴴ * a = diagonal o.w * o.Lᴴ
  right_nonzero : ∀ j, (fun i => o.R i j) ≠ 0
  left_nonzero : ∀ j, (fun i => o.L i j) ≠ 0

/-- Which values obey the tolerances: larger in magnitude than the absolute tolerance and than the
relative tolerance times the first value. -/
def Obeys {n : Nat} (x : Fin n → ℝ) (atol rtol : Option ℝ) (i : Fin n) : Prop :=
  (∀ t ∈ atol, t < |x i|) ∧ ∀ t ∈ rtol, t * |x ⟨0, i.pos⟩| < |x i|

end Modred
