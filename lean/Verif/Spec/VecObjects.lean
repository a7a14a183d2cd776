import Verif.Model.VecObjects
import Mathlib.Algebra.BigOperators.Group.Finset.Basic

/-!
# Vectors as objects: what is asked of a class, and what a linear combination should do
-/

namespace Modred

variable {𝕜 E F : Type*} [AddCommMonoid F]

/-- What a class of vectors must do, where `val` is the element of a vector space that an object stands for and `scale` its
multiplication with numbers.  `Number` holds for the coefficients, `Basis` for the vectors to combine and `Layer` for their
multiples.  `inPlace` says if `+=` may
change the object on its left; then products must be new objects. -/
structure VecClass.Proper (C : VecClass 𝕜 E) (inPlace : Prop) (Number : 𝕜 → Prop) (Basis Layer : E → Prop) (val : E → F)
    (scale : 𝕜 → F → F) : Prop where
  rmul : C.rmul = true
  mul : ∀ o v c, v < o.next → Basis (o.content v) → ∃ o' r, C.mul o v c = (o', r) ∧ o.next ≤ o'.next ∧ r < o'.next ∧
    (inPlace → o.next ≤ r) ∧ (∀ z < o.next, o'.content z = o.content z) ∧
    (Number c → Layer (o'.content r)) ∧ val (o'.content r) = scale c (val (o.content v))
  add : ∀ o v w, o.next ≤ (C.add o v w).1.next ∧ ∀ z < o.next, (C.add o v w).1.content z = o.content z
  plus : ∀ o a b, a < o.next → b < o.next → Layer (o.content a) → Layer (o.content b) → (inPlace → a ≠ b) →
    ∃ o' r, C.plusEq o a b = .ok (o', r) ∧ o.next ≤ o'.next ∧ r < o'.next ∧ (inPlace → r = a ∨ o.next ≤ r) ∧
    (∀ z < o.next, (inPlace → z ≠ a) → o'.content z = o.content z) ∧ Layer (o'.content r) ∧
    val (o'.content r) = val (o.content a) + val (o.content b)

/-- `m'` is what is left after combining the vectors of the handles `basis` to the vectors of the handles `sums`: the objects that
were there have not changed, the other handles hold the objects that they held, and the handles in `sums` hold objects with the right
contents, which are new ones and all different if `new`. -/
structure CombinedObj (new : Prop) (val : E → F) (scale : 𝕜 → F → F) (basis sums : List Nat) (coeff : Nat → Nat → 𝕜)
    (m m' : HeldObjects E) : Prop where
  kept : ∀ z < m.objects.next, m'.objects.content z = m.objects.content z
  others : ∀ q, q ∉ sums → m'.held q = m.held q
  result : ∀ k (hk : k < sums.length), ∃ r, m'.held sums[k] = some r ∧ r < m'.objects.next ∧ (new → m.objects.next ≤ r) ∧
    ∀ v : Nat → Nat, (∀ i (hi : i < basis.length), m.held basis[i] = some (v i)) →
      val (m'.objects.content r) = ∑ i ∈ Finset.range basis.length, scale (coeff i k) (val (m.objects.content (v i)))
  different : new → ∀ k l (hk : k < sums.length) (hl : l < sums.length), k ≠ l → m'.held sums[k] ≠ m'.held sums[l]

end Modred
