import Verif.Model.Arrays

/-!
# What the vector space on handles computes

Results of the methods of `VectorSpaceHandles` (`modred/vectorspace.py` lines 98-1066), without processes,
rounds and memory: the programs of `Verif.Model.VectorSpace` compute the same, which is proved in
`Verif.Props.HandlesLA`.  Vectors are elements of a vector space.
-/

namespace Modred

open Matrix

variable {𝕜 : Type*} {E : Type*}

/-- A number of vectors that depends on the data. -/
structure Vecs (E : Type*) where
  k : Nat
  v : Fin k → E

/-- `compute_inner_product_array` (`modred/vectorspace.py` lines 223-492). -/
def handlesIp {p q : Nat} (ip : E → E → 𝕜) (rows : Fin p → E) (cols : Fin q → E) :
    Matrix (Fin p) (Fin q) 𝕜 :=
  Matrix.of fun i j => ip (rows i) (cols j)

/-- `compute_symm_inner_product_array` (`modred/vectorspace.py` lines 495-821). -/
def handlesSymmIp {p : Nat} (ip : E → E → 𝕜) (vecs : Fin p → E) : Matrix (Fin p) (Fin p) 𝕜 :=
  handlesIp ip vecs vecs

variable [Semiring 𝕜] [AddCommMonoid E] [Module 𝕜 E]

/-- `lin_combine` (`modred/vectorspace.py` lines 824-1066) for a two-dimensional array of coefficients:
the vectors that are put to the sum handles. -/
def handlesLinCombine {p q : Nat} (numSums : Nat) (basis : Fin p → E) (coeff : Matrix (Fin p) (Fin q) 𝕜)
    (idx : Option (List Int)) : Except Err (Vecs E) :=
  match pickCols coeff idx with
  | .error e => .error e
  | .ok c =>
    if numSums ≠ c.k then .error .valueError
    else if p = 0 then .error .indexError
    else .ok ⟨c.k, fun k => ∑ i, c.a i k • basis i⟩

end Modred
