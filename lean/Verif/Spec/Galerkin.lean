import Verif.Spec.Arrays
import Verif.Model.Galerkin

/-!
# Galerkin projection
-/

namespace Modred

open Matrix

variable {𝕜 : Type*} [RCLike 𝕜]

/-- What a reduction returns: `P` are the inner products of the adjoint basis with the data, `G` those of the
adjoint basis with the basis. -/
structure GalerkinResult {r q : Nat} (flag : Bool) (G : Matrix (Fin r) (Fin r) 𝕜) (P : Matrix (Fin r) (Fin q) 𝕜)
    (res : Except Err (Matrix (Fin r) (Fin q) 𝕜)) : Prop where
  orthonormal : flag = true → res = .ok P
  regular : flag = false → IsUnit G.det → res = .ok (G⁻¹ * P)
  singular : flag = false → ¬ IsUnit G.det → res = .error .linAlgError

/-- Calls of methods of `LTIGalerkinProjectionArrays`. -/
inductive ArraysCall (𝕜 : Type*) (n : Nat) where
  | reduceA {q : Nat} (x : Matrix (Fin n) (Fin q) 𝕜)
  | reduceB {q : Nat} (x : Matrix (Fin n) (Fin q) 𝕜)
  | reduceC (c : Outputs 𝕜)
  | model {qa qb : Nat} (a : Matrix (Fin n) (Fin qa) 𝕜) (b : Matrix (Fin n) (Fin qb) 𝕜) (c : Outputs 𝕜)

/-- The object after a call, whether it returned or raised an exception. -/
noncomputable def ArraysCall.after {n r : Nat} (self : GalerkinArrays 𝕜 n r) : ArraysCall 𝕜 n → GalerkinArrays 𝕜 n r
  | .reduceA x => (reduceAArrays self x).2
  | .reduceB x => (reduceBArrays self x).2
  | .reduceC c => (reduceCArrays self c).2
  | .model a b c => (galerkinModelArrays self a b c).2

/-- Calls of methods of `LTIGalerkinProjectionHandles`. -/
inductive HandlesCall (𝕜 E : Type*) where
  | reduceA {q : Nat} (x : Fin q → E)
  | reduceB {q : Nat} (x : Fin q → E)
  | reduceC (c : Outputs 𝕜)
  | model {qa qb : Nat} (a : Fin qa → E) (b : Fin qb → E) (c : Outputs 𝕜)

/-- The object after a call. -/
noncomputable def HandlesCall.after {E : Type*} {r : Nat} (self : GalerkinHandles 𝕜 E r) :
    HandlesCall 𝕜 E → GalerkinHandles 𝕜 E r
  | .reduceA x => (reduceAHandles self x).2
  | .reduceB x => (reduceBHandles self x).2
  | .reduceC c => (reduceCHandles self c).2
  | .model a b c => (galerkinModelHandles self a b c).2

end Modred
