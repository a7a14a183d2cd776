import Verif.Model.HandlesLA
import Mathlib.Analysis.RCLike.Basic
import Mathlib.LinearAlgebra.SesquilinearForm.Basic

/-!
# Inner products of linear combinations
-/

namespace Modred

open Matrix

variable {𝕜 : Type*} [RCLike 𝕜] {E : Type*} [AddCommGroup E] [Module 𝕜 E]

/-- The vectors `sum_i v_i c_ij`. -/
def combine {p q : Nat} (v : Fin p → E) (c : Matrix (Fin p) (Fin q) 𝕜) : Fin q → E :=
  fun j => ∑ i, c i j • v i

theorem handlesIp_combine (ip : E →ₗ⋆[𝕜] E →ₗ[𝕜] 𝕜) {p q r s : Nat} (v : Fin p → E) (w : Fin q → E)
    (a : Matrix (Fin p) (Fin r) 𝕜) (b : Matrix (Fin q) (Fin s) 𝕜) :
    handlesIp (fun x y => ip x y) (combine v a) (combine w b) =
      aᴴ * handlesIp (fun x y => ip x y) v w * b := by
  ext i j
  rw [Matrix.mul_apply]
  unfold combine handlesIp
  simp only [Matrix.of_apply, map_sum, LinearMap.map_smulₛₗ, LinearMap.sum_apply,
    LinearMap.smul_apply, smul_eq_mul, Matrix.mul_apply, conjTranspose_apply, Finset.sum_mul,
    Finset.mul_sum, RingHom.id_apply]
  apply Finset.sum_congr rfl
  intro k _
  apply Finset.sum_congr rfl
  intro l _
  rw [RCLike.star_def]
  ring

theorem combine_one {p : Nat} (v : Fin p → E) : combine v (1 : Matrix (Fin p) (Fin p) 𝕜) = v := by
  ext j
  unfold combine
  simp [Matrix.one_apply]

theorem handlesIp_combine_left (ip : E →ₗ⋆[𝕜] E →ₗ[𝕜] 𝕜) {p q r : Nat} (v : Fin p → E) (w : Fin q → E)
    (a : Matrix (Fin p) (Fin r) 𝕜) :
    handlesIp (fun x y => ip x y) (combine v a) w = aᴴ * handlesIp (fun x y => ip x y) v w := by
  have := handlesIp_combine ip v w a (1 : Matrix (Fin q) (Fin q) 𝕜)
  rwa [combine_one, Matrix.mul_one] at this

theorem handlesIp_combine_right (ip : E →ₗ⋆[𝕜] E →ₗ[𝕜] 𝕜) {p q s : Nat} (v : Fin p → E) (w : Fin q → E)
    (b : Matrix (Fin q) (Fin s) 𝕜) :
    handlesIp (fun x y => ip x y) v (combine w b) = handlesIp (fun x y => ip x y) v w * b := by
  have := handlesIp_combine ip v w (1 : Matrix (Fin p) (Fin p) 𝕜) b
  rwa [combine_one, conjTranspose_one, Matrix.one_mul] at this

theorem combine_combine {p q r : Nat} (v : Fin p → E) (c : Matrix (Fin p) (Fin q) 𝕜)
    (d : Matrix (Fin q) (Fin r) 𝕜) : combine (combine v c) d = combine v (c * d) := by
  ext j
  unfold combine
  simp only [Finset.smul_sum, smul_smul, Matrix.mul_apply, Finset.sum_smul]
  rw [Finset.sum_comm]
  refine Finset.sum_congr rfl fun k _ => Finset.sum_congr rfl fun l _ => ?_
  rw [mul_comm]

theorem combine_sub {p q : Nat} (v : Fin p → E) (c d : Matrix (Fin p) (Fin q) 𝕜) (j : Fin q) :
    combine v (c - d) j = combine v c j - combine v d j := by
  unfold combine
  simp [sub_smul, Finset.sum_sub_distrib]

/-- Results of `lin_combine`. -/
theorem handlesLinCombine_ok {p q : Nat} (numSums : Nat) (basis : Fin p → E)
    (coeff : Matrix (Fin p) (Fin q) 𝕜) (idx : Option (List Int)) (res : Vecs E)
    (hres : handlesLinCombine numSums basis coeff idx = .ok res) :
    ∃ c, pickCols coeff idx = .ok c ∧ numSums = c.k ∧ 0 < p ∧ res = ⟨c.k, combine basis c.a⟩ := by
  unfold handlesLinCombine at hres
  cases h : pickCols coeff idx with
  | error e => rw [h] at hres; cases hres
  | ok c =>
    rw [h] at hres
    dsimp only at hres
    split at hres
    · cases hres
    split at hres
    · cases hres
    cases hres
    exact ⟨c, rfl, by tauto, by omega, rfl⟩

end Modred
