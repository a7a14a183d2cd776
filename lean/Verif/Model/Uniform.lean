import Verif.Model.Arrays
import Mathlib.Analysis.RCLike.Basic

/-!
# Inner product of arrays without weights (`modred/vectors.py` lines 137-141)
-/

namespace Modred

variable {𝕜 : Type*} [RCLike 𝕜]

/-- `inner_product_array_uniform` (`modred/vectors.py` lines 137-141): `np.vdot` takes the entries of both arrays in
order, whatever their shapes, and raises `ValueError` if there are more of one than of the other. -/
def innerProductArrayUniform (vec1 vec2 : NdArray 𝕜) : Except Err 𝕜 :=
  if vec1.shape.prod = vec2.shape.prod then
    .ok (∑ i ∈ Finset.range vec1.shape.prod, star (vec1.data i) * vec2.data i)
  else .error .valueError

end Modred
