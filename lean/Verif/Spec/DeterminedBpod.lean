import Mathlib.Analysis.RCLike.Basic
import Mathlib.LinearAlgebra.Matrix.ConjTranspose

/-!
# Balanced modes for inputs and outputs in another order and in other units

The direct vectors `X` are replaced by `a X Q` and the adjoint vectors `Y` by `b Y R`, where the factors `a` and `b` change
units and `Q` and `R`, whose rows are orthonormal, permute or mix the vectors, or add vectors that are zero.
-/

namespace Modred

open Matrix

variable {𝕜 : Type*} [RCLike 𝕜] {n md ma md' ma' : Nat}

/-- Combines the `p` vectors of each step in the same way, to `p'` vectors. -/
def stepMix {p p' m m' : Nat} (hp : 1 ≤ p) (hp' : 1 ≤ p') (T : Matrix (Fin p) (Fin p') 𝕜) : Matrix (Fin m) (Fin m') 𝕜 :=
  of fun i j => if i.val / p = j.val / p' then T ⟨i % p, Nat.mod_lt _ hp⟩ ⟨j % p', Nat.mod_lt _ hp'⟩ else 0

/-- Singular values, direct modes, adjoint modes, and the projection coefficients of both kinds of vectors. -/
structure BalancedSet (𝕜 : Type*) (n md ma : Nat) where
  r : Nat
  S : Fin r → ℝ
  direct : Matrix (Fin n) (Fin r) 𝕜
  adjoint : Matrix (Fin n) (Fin r) 𝕜
  directCoeffs : Matrix (Fin r) (Fin md) 𝕜
  adjointCoeffs : Matrix (Fin r) (Fin ma) 𝕜

/-- There are as many modes, and singular values change by both factors.  Direct times adjoint modes belonging to any singular
values, which are the projections that reduce a model, are the same.  So are direct modes and adjoint modes by themselves, but
for the units of the ratio of the factors.  What direct modes and coefficients say about the vectors changes as the vectors do. -/
structure SameBalanced (a b : 𝕜) (Q : Matrix (Fin md) (Fin md') 𝕜) (R : Matrix (Fin ma) (Fin ma') 𝕜)
    (d : BalancedSet 𝕜 n md ma) (d' : BalancedSet 𝕜 n md' ma') : Prop where
  number : d'.r = d.r
  values : ∀ (i' : Fin d'.r) (i : Fin d.r), i'.val = i.val → d'.S i' = ‖a‖ * ‖b‖ * d.S i
  projections : ∀ f g : ℝ → 𝕜, (∀ x, 0 < x → g (‖a‖ * ‖b‖ * x) = f x) →
    d'.direct * diagonal (fun i => g (d'.S i)) * d'.adjointᴴ = d.direct * diagonal (fun i => f (d.S i)) * d.adjointᴴ
  direct : ∀ f g : ℝ → 𝕜, (∀ x, 0 < x → g (‖a‖ * ‖b‖ * x) = f x) →
    d'.direct * diagonal (fun i => g (d'.S i)) * d'.directᴴ =
      ((‖a‖ / ‖b‖ : ℝ) : 𝕜) • (d.direct * diagonal (fun i => f (d.S i)) * d.directᴴ)
  adjoint : ∀ f g : ℝ → 𝕜, (∀ x, 0 < x → g (‖a‖ * ‖b‖ * x) = f x) →
    d'.adjoint * diagonal (fun i => g (d'.S i)) * d'.adjointᴴ =
      ((‖b‖ / ‖a‖ : ℝ) : 𝕜) • (d.adjoint * diagonal (fun i => f (d.S i)) * d.adjointᴴ)
  directVecs : ∀ f g : ℝ → 𝕜, (∀ x, 0 < x → g (‖a‖ * ‖b‖ * x) = f x) →
    d'.direct * diagonal (fun i => g (d'.S i)) * d'.directCoeffs =
      a • (d.direct * diagonal (fun i => f (d.S i)) * d.directCoeffs * Q)
  adjointVecs : ∀ f g : ℝ → 𝕜, (∀ x, 0 < x → g (‖a‖ * ‖b‖ * x) = f x) →
    d'.adjoint * diagonal (fun i => g (d'.S i)) * d'.adjointCoeffs =
      b • (d.adjoint * diagonal (fun i => f (d.S i)) * d.adjointCoeffs * R)

/-- The same for modes that are vectors of any space. -/
structure BalancedSetOf (𝕜 E : Type*) (md ma : Nat) where
  r : Nat
  S : Fin r → ℝ
  direct : Fin r → E
  adjoint : Fin r → E
  directCoeffs : Matrix (Fin r) (Fin md) 𝕜
  adjointCoeffs : Matrix (Fin r) (Fin ma) 𝕜

structure SameBalancedOf {E : Type*} [AddCommGroup E] [Module 𝕜 E] (ip : E →ₗ⋆[𝕜] E →ₗ[𝕜] 𝕜) (a b : 𝕜)
    (Q : Matrix (Fin md) (Fin md') 𝕜) (R : Matrix (Fin ma) (Fin ma') 𝕜) (d : BalancedSetOf 𝕜 E md ma)
    (d' : BalancedSetOf 𝕜 E md' ma') : Prop where
  number : d'.r = d.r
  values : ∀ (i' : Fin d'.r) (i : Fin d.r), i'.val = i.val → d'.S i' = ‖a‖ * ‖b‖ * d.S i
  projections : ∀ f g : ℝ → 𝕜, (∀ x, 0 < x → g (‖a‖ * ‖b‖ * x) = f x) → ∀ x,
    ∑ i, (g (d'.S i) * ip (d'.adjoint i) x) • d'.direct i = ∑ i, (f (d.S i) * ip (d.adjoint i) x) • d.direct i
  direct : ∀ f g : ℝ → 𝕜, (∀ x, 0 < x → g (‖a‖ * ‖b‖ * x) = f x) → ∀ x,
    ∑ i, (g (d'.S i) * ip (d'.direct i) x) • d'.direct i =
      ((‖a‖ / ‖b‖ : ℝ) : 𝕜) • ∑ i, (f (d.S i) * ip (d.direct i) x) • d.direct i
  adjoint : ∀ f g : ℝ → 𝕜, (∀ x, 0 < x → g (‖a‖ * ‖b‖ * x) = f x) → ∀ x,
    ∑ i, (g (d'.S i) * ip (d'.adjoint i) x) • d'.adjoint i =
      ((‖b‖ / ‖a‖ : ℝ) : 𝕜) • ∑ i, (f (d.S i) * ip (d.adjoint i) x) • d.adjoint i
  directVecs : ∀ f g : ℝ → 𝕜, (∀ x, 0 < x → g (‖a‖ * ‖b‖ * x) = f x) → ∀ j,
    ∑ i, (g (d'.S i) * d'.directCoeffs i j) • d'.direct i =
      a • ∑ k, Q k j • ∑ i, (f (d.S i) * d.directCoeffs i k) • d.direct i
  adjointVecs : ∀ f g : ℝ → 𝕜, (∀ x, 0 < x → g (‖a‖ * ‖b‖ * x) = f x) → ∀ j,
    ∑ i, (g (d'.S i) * d'.adjointCoeffs i j) • d'.adjoint i =
      b • ∑ k, R k j • ∑ i, (f (d.S i) * d.adjointCoeffs i k) • d.adjoint i

end Modred
