import Verif.Spec.Tlsqr

/-!
# Least squares
-/

namespace Modred

open Matrix

variable {𝕜 : Type*} [RCLike 𝕜]

/-- For each vector of advanced data: the modes with their eigenvalues advance the coefficients of the data at least
as well as any other linear map of coefficients, and the exact modes advance what the projected modes reproduce of the
data at least as well as any other linear map. -/
structure DmdBest {n m r : Nat} (W : Matrix (Fin n) (Fin n) 𝕜) (X Y : Matrix (Fin n) (Fin m) 𝕜) (eigvals : Fin r → 𝕜)
    (exact proj : Matrix (Fin n) (Fin r) 𝕜) (projCoeffs advProjCoeffs : Matrix (Fin r) (Fin m) 𝕜) : Prop where
  reduced : ∀ B : Matrix (Fin r) (Fin r) 𝕜,
    RCLike.re (weightedSq W (proj * (advProjCoeffs - diagonal eigvals * projCoeffs))) ≤
    RCLike.re (weightedSq W (proj * (advProjCoeffs - B * projCoeffs)))
  full : Function.Injective eigvals → (∀ i, eigvals i ≠ 0) → ∀ A : Matrix (Fin n) (Fin n) 𝕜,
    RCLike.re (weightedSq W (Y - exact * (diagonal eigvals * projCoeffs))) ≤
    RCLike.re (weightedSq W (Y - A * (proj * projCoeffs)))
  data : Function.Injective eigvals → r = X.rank → proj * projCoeffs = X

/-- The same for vectors of any space. -/
structure DmdHandleBest {E : Type*} [AddCommGroup E] [Module 𝕜 E] {m r : Nat} (ip : E →ₗ⋆[𝕜] E →ₗ[𝕜] 𝕜)
    (X Y : Fin m → E) (eigvals : Fin r → 𝕜) (exact proj : Fin r → E) (projCoeffs advProjCoeffs : Matrix (Fin r) (Fin m) 𝕜) :
    Prop where
  reduced : ∀ B : Matrix (Fin r) (Fin r) 𝕜,
    ∑ j, RCLike.re (ip (∑ i, (advProjCoeffs i j - eigvals i * projCoeffs i j) • proj i)
      (∑ i, (advProjCoeffs i j - eigvals i * projCoeffs i j) • proj i)) ≤
    ∑ j, RCLike.re (ip (∑ i, (advProjCoeffs i j - (B * projCoeffs) i j) • proj i)
      (∑ i, (advProjCoeffs i j - (B * projCoeffs) i j) • proj i))
  full : Function.Injective eigvals → (∀ i, eigvals i ≠ 0) → ∀ A : E →ₗ[𝕜] E,
    ∑ j, RCLike.re (ip (Y j - ∑ i, (eigvals i * projCoeffs i j) • exact i)
      (Y j - ∑ i, (eigvals i * projCoeffs i j) • exact i)) ≤
    ∑ j, RCLike.re (ip (Y j - A (∑ i, projCoeffs i j • proj i)) (Y j - A (∑ i, projCoeffs i j • proj i)))
  data : Function.Injective eigvals → r = (gram ip X X).rank → (∀ v, ip v v = 0 → v = 0) →
    ∀ j, ∑ i, projCoeffs i j • proj i = X j

/-- Data and advanced data times the projection `P` are at least as close to both as any two arrays whose columns
are linear combinations of `q` pairs of vectors. -/
def TlsBest {n m : Nat} (W : Matrix (Fin n) (Fin n) 𝕜) (X Y : Matrix (Fin n) (Fin m) 𝕜) (P : Matrix (Fin m) (Fin m) 𝕜)
    (q : Nat) : Prop :=
  ∀ (Q Q' : Matrix (Fin n) (Fin q) 𝕜) (c : Matrix (Fin q) (Fin m) 𝕜),
    RCLike.re (weightedSq W (X - X * P)) + RCLike.re (weightedSq W (Y - Y * P)) ≤
    RCLike.re (weightedSq W (X - Q * c)) + RCLike.re (weightedSq W (Y - Q' * c))

/-- The same for vectors of any space. -/
def TlsHandleBest {E : Type*} [AddCommGroup E] [Module 𝕜 E] {m : Nat} (ip : E →ₗ⋆[𝕜] E →ₗ[𝕜] 𝕜) (X Y : Fin m → E)
    (P : Matrix (Fin m) (Fin m) 𝕜) (q : Nat) : Prop :=
  ∀ (v v' : Fin q → E) (c : Fin q → Fin m → 𝕜),
    ∑ j, RCLike.re (ip (X j - ∑ i, P i j • X i) (X j - ∑ i, P i j • X i)) +
      ∑ j, RCLike.re (ip (Y j - ∑ i, P i j • Y i) (Y j - ∑ i, P i j • Y i)) ≤
    ∑ j, RCLike.re (ip (X j - ∑ i, c i j • v i) (X j - ∑ i, c i j • v i)) +
      ∑ j, RCLike.re (ip (Y j - ∑ i, c i j • v' i) (Y j - ∑ i, c i j • v' i))

end Modred
