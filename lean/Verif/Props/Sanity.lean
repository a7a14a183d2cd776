import Verif.Model.Sanity
import Mathlib.Algebra.Module.LinearMap.Star
import Mathlib.LinearAlgebra.SesquilinearForm.Basic
import Mathlib.Analysis.Complex.Basic

/-!
# `sanity_check` (C46)
-/

namespace Modred

variable {𝕜 : Type*} [RCLike 𝕜] {E : Type*}

/-- The operations leave all existing objects as they are, and return objects with the right contents. -/
structure Genuine [AddCommGroup E] [Module 𝕜 E] (ops : VecOps 𝕜 E) : Prop where
  mul_result : ∀ o v c, v < o.next → (ops.mul o v c).1.content (ops.mul o v c).2 = c • o.content v
  mul_number : ∀ o v c, v < o.next → (ops.mul o v c).2 < (ops.mul o v c).1.next
  mul_keeps : ∀ o v c w, w < o.next → (ops.mul o v c).1.content w = o.content w ∧ w < (ops.mul o v c).1.next
  add_result : ∀ o v w, v < o.next → w < o.next →
    (ops.add o v w).1.content (ops.add o v w).2 = o.content v + o.content w
  add_keeps : ∀ o v w z, z < o.next → (ops.add o v w).1.content z = o.content z ∧ z < (ops.add o v w).1.next

theorem closeOrRaise_self (a : 𝕜) : closeOrRaise a a = .ok () := by
  unfold closeOrRaise
  rw [if_neg]
  simp [sanityTol]
  norm_num

theorem closeOrRaise_cases (a b : 𝕜) :
    (closeOrRaise a b = .ok () ∧ ‖a - b‖ ≤ 1e-12) ∨ (closeOrRaise a b = .error .valueError ∧ 1e-12 < ‖a - b‖) := by
  unfold closeOrRaise sanityTol
  by_cases h : (1e-12 : ℝ) < ‖a - b‖
  · exact .inr ⟨if_pos h, h⟩
  · exact .inl ⟨if_neg h, not_lt.mp h⟩

/-- **C46, what is checked.** After copying the vector (`o1`), doubling it (`o2`, result `w2`), adding it to itself (`o3`, `w3`),
doubling it again (`o4`, `w4`) and adding it to the double (`o5`, `w5`), nothing is raised exactly if the squared norms of the
results and of the vector are as they should be up to 1e-12 after each step, and otherwise ValueError.  Without inner product it
is RuntimeError. -/
theorem C46_checks (ops : VecOps 𝕜 E) (ip : E → E → 𝕜) (o o1 o2 o3 o4 o5 : Objects E) (v w2 w3 w4 w5 : Nat)
    (h1 : o1.content = fun i => if i = o.next then o.content v else o.content i) (h1' : o1.next = o.next + 1)
    (h2 : ops.mul o1 v 2 = (o2, w2)) (h3 : ops.add o2 v v = (o3, w3)) (h4 : ops.mul o3 v 2 = (o4, w4))
    (h5 : ops.add o4 w4 v = (o5, w5)) (mag : 𝕜) (hmag : mag = ip (o.content v) (o.content v)) :
    (sanityCheck ops (some ip) o v = .ok () ↔
      ‖ip (o2.content w2) (o2.content w2) - mag * 4‖ ≤ 1e-12 ∧ ‖ip (o2.content v) (o2.content v) - mag‖ ≤ 1e-12 ∧
      ‖ip (o3.content w3) (o3.content w3) - mag * 4‖ ≤ 1e-12 ∧ ‖ip (o3.content v) (o3.content v) - mag‖ ≤ 1e-12 ∧
      ‖ip (o5.content w5) (o5.content w5) - mag * 9‖ ≤ 1e-12 ∧ ‖ip (o5.content v) (o5.content v) - mag‖ ≤ 1e-12) ∧
    (sanityCheck ops (some ip) o v ≠ .ok () → sanityCheck ops (some ip) o v = .error .valueError) ∧
    sanityCheck ops none o v = .error .runtimeError := by
  obtain ⟨mul, add⟩ := ops
  dsimp only at h2 h3 h4 h5
  refine ⟨?_, ?_, rfl⟩
  all_goals
    have ho : (⟨o.next + 1, fun i => if i = o.next then o.content v else o.content i⟩ : Objects E) = o1 := by
      rw [← h1, ← h1']
    have e : sanityCheck ⟨mul, add⟩ (some ip) o v = (do
        closeOrRaise (ip (o2.content w2) (o2.content w2)) (mag * 4)
        closeOrRaise (ip (o2.content v) (o2.content v)) mag
        closeOrRaise (ip (o3.content w3) (o3.content w3)) (mag * 4)
        closeOrRaise (ip (o3.content v) (o3.content v)) mag
        closeOrRaise (ip (o5.content w5) (o5.content w5)) (mag * 9)
        closeOrRaise (ip (o5.content v) (o5.content v)) mag) := by
      unfold sanityCheck Objects.deepcopy
      rw [ho]
      dsimp only
      have e1 : o1.content o.next = o.content v := by rw [h1]; simp
      rw [h2]
      dsimp only
      rw [h3]
      dsimp only
      rw [h4]
      dsimp only
      rw [h5]
      dsimp only
      rw [e1, ← hmag, show (2 : 𝕜) ^ 2 = 4 by norm_num, show ((2 : 𝕜) + 1) ^ 2 = 9 by norm_num]
    rw [e]
  · rcases closeOrRaise_cases (ip (o2.content w2) (o2.content w2)) (mag * 4) with ⟨k1, k1'⟩ | ⟨k1, k1'⟩ <;>
    rcases closeOrRaise_cases (ip (o2.content v) (o2.content v)) mag with ⟨k2, k2'⟩ | ⟨k2, k2'⟩ <;>
    rcases closeOrRaise_cases (ip (o3.content w3) (o3.content w3)) (mag * 4) with ⟨k3, k3'⟩ | ⟨k3, k3'⟩ <;>
    rcases closeOrRaise_cases (ip (o3.content v) (o3.content v)) mag with ⟨k4, k4'⟩ | ⟨k4, k4'⟩ <;>
    rcases closeOrRaise_cases (ip (o5.content w5) (o5.content w5)) (mag * 9) with ⟨k5, k5'⟩ | ⟨k5, k5'⟩ <;>
    rcases closeOrRaise_cases (ip (o5.content v) (o5.content v)) mag with ⟨k6, k6'⟩ | ⟨k6, k6'⟩ <;>
    rw [k1, k2, k3, k4, k5, k6] <;>
    first
    | exact ⟨fun _ => ⟨k1', k2', k3', k4', k5', k6'⟩, fun _ => rfl⟩
    | (refine ⟨fun h => (by cases h), fun ⟨g1, g2, g3, g4, g5, g6⟩ => ?_⟩
       exfalso
       first
       | exact absurd g1 (not_le.mpr k1')
       | exact absurd g2 (not_le.mpr k2')
       | exact absurd g3 (not_le.mpr k3')
       | exact absurd g4 (not_le.mpr k4')
       | exact absurd g5 (not_le.mpr k5')
       | exact absurd g6 (not_le.mpr k6'))
  · rcases closeOrRaise_cases (ip (o2.content w2) (o2.content w2)) (mag * 4) with ⟨k1, -⟩ | ⟨k1, -⟩ <;> rw [k1] <;>
      [skip; exact fun _ => rfl]
    rcases closeOrRaise_cases (ip (o2.content v) (o2.content v)) mag with ⟨k2, -⟩ | ⟨k2, -⟩ <;> rw [k2] <;>
      [skip; exact fun _ => rfl]
    rcases closeOrRaise_cases (ip (o3.content w3) (o3.content w3)) (mag * 4) with ⟨k3, -⟩ | ⟨k3, -⟩ <;> rw [k3] <;>
      [skip; exact fun _ => rfl]
    rcases closeOrRaise_cases (ip (o3.content v) (o3.content v)) mag with ⟨k4, -⟩ | ⟨k4, -⟩ <;> rw [k4] <;>
      [skip; exact fun _ => rfl]
    rcases closeOrRaise_cases (ip (o5.content w5) (o5.content w5)) (mag * 9) with ⟨k5, -⟩ | ⟨k5, -⟩ <;> rw [k5] <;>
      [skip; exact fun _ => rfl]
    rcases closeOrRaise_cases (ip (o5.content v) (o5.content v)) mag with ⟨k6, -⟩ | ⟨k6, -⟩ <;> rw [k6] <;>
      [exact fun h => absurd rfl h; exact fun _ => rfl]

/-- **C46, acceptance.** With genuine operations on the elements of a vector space and an inner product that is conjugate-linear
in one and linear in the other argument, nothing is raised, whatever the vector. -/
theorem C46_accepts [AddCommGroup E] [Module 𝕜 E] (ops : VecOps 𝕜 E) (hops : Genuine ops) (ip : E →ₗ⋆[𝕜] E →ₗ[𝕜] 𝕜)
    (o : Objects E) (v : Nat) (hv : v < o.next) : sanityCheck ops (some fun x y => ip x y) o v = .ok () := by
  have hsq : ∀ (c : 𝕜) (x : E), ip (c • x) (c • x) = star c * c * ip x x := by
    intro c x
    simp [mul_assoc, mul_left_comm]
  obtain ⟨o1, ho1⟩ : ∃ o1 : Objects E, o1 = ⟨o.next + 1, fun i => if i = o.next then o.content v else o.content i⟩ := ⟨_, rfl⟩
  obtain ⟨⟨o2, w2⟩, h2⟩ : ∃ x, ops.mul o1 v 2 = x := ⟨_, rfl⟩
  obtain ⟨⟨o3, w3⟩, h3⟩ : ∃ x, ops.add o2 v v = x := ⟨_, rfl⟩
  obtain ⟨⟨o4, w4⟩, h4⟩ : ∃ x, ops.mul o3 v 2 = x := ⟨_, rfl⟩
  obtain ⟨⟨o5, w5⟩, h5⟩ : ∃ x, ops.add o4 w4 v = x := ⟨_, rfl⟩
  refine (C46_checks ops (fun x y => ip x y) o o1 o2 o3 o4 o5 v w2 w3 w4 w5 (by rw [ho1]) (by rw [ho1]) h2 h3 h4 h5 _ rfl).1.mpr ?_
  have e2 : o1.content v = o.content v := by simp [ho1]
  have e3 : v < o1.next := by simp [ho1]; omega
  have m1 := hops.mul_result o1 v 2 e3
  obtain ⟨m2, m3⟩ := hops.mul_keeps o1 v 2 v e3
  rw [h2] at m1 m2 m3
  have a1 := hops.add_result o2 v v m3 m3
  obtain ⟨a2, a3⟩ := hops.add_keeps o2 v v v m3
  rw [h3] at a1 a2 a3
  have b1 := hops.mul_result o3 v 2 a3
  have b0 := hops.mul_number o3 v 2 a3
  obtain ⟨b2, b3⟩ := hops.mul_keeps o3 v 2 v a3
  rw [h4] at b0 b1 b2 b3
  have c1 := hops.add_result o4 w4 v b0 b3
  obtain ⟨c2, -⟩ := hops.add_keeps o4 w4 v v b3
  rw [h5] at c1 c2
  dsimp only at m1 m2 a1 a2 b1 b2 c1 c2 ⊢
  rw [b1, b2, a2, m2, e2] at c1
  rw [b2, a2, m2, e2] at c2
  rw [m2, e2] at a1
  rw [m2, e2] at a2
  rw [e2] at m1 m2
  rw [show o.content v + o.content v = (2 : 𝕜) • o.content v by rw [two_smul]] at a1
  rw [show (2 : 𝕜) • o.content v + o.content v = (3 : 𝕜) • o.content v by
    rw [show (3 : 𝕜) = 2 + 1 by norm_num, add_smul, one_smul]] at c1
  rw [m1, m2, a1, a2, c1, c2, hsq, hsq]
  have n0 : ∀ a b : 𝕜, a = b → ‖a - b‖ ≤ 1e-12 := by
    rintro a b rfl
    rw [sub_self, norm_zero]
    norm_num
  refine ⟨n0 _ _ ?_, n0 _ _ rfl, n0 _ _ ?_, n0 _ _ rfl, n0 _ _ ?_, n0 _ _ rfl⟩
  · rw [show star (2 : 𝕜) = 2 by simp]; ring
  · rw [show star (2 : 𝕜) = 2 by simp]; ring
  · rw [show star (3 : 𝕜) = 3 by simp]; ring

/-- **C46, detection.** If doubling a vector does not give a vector with four times its squared norm, up to 1e-12, it is
ValueError, whatever else the operations do. -/
theorem C46_wrong_double (ops : VecOps 𝕜 E) (ip : E → E → 𝕜) (o : Objects E) (v : Nat)
    (hmul : ∀ o1 : Objects E, o1.content v = o.content v → 1e-12 <
      ‖ip ((ops.mul o1 v 2).1.content (ops.mul o1 v 2).2) ((ops.mul o1 v 2).1.content (ops.mul o1 v 2).2) -
        ip (o.content v) (o.content v) * 4‖) : sanityCheck ops (some ip) o v = .error .valueError := by
  obtain ⟨h1, h2, -⟩ := C46_checks ops ip o ⟨o.next + 1, fun i => if i = o.next then o.content v else o.content i⟩ _ _ _ _ v _ _ _
    _ rfl rfl rfl rfl rfl rfl _ rfl
  refine h2 fun h => ?_
  have := (h1.mp h).1
  exact absurd this (not_le.mpr (hmul _ (by simp)))

/-- **C46, detection.** If an operation changes the squared norm of the vector by more than 1e-12, it is ValueError: here if
doubling a vector changes it in place. -/
theorem C46_in_place_multiplication [AddCommGroup E] [Module 𝕜 E] (ops : VecOps 𝕜 E) (ip : E →ₗ⋆[𝕜] E →ₗ[𝕜] 𝕜)
    (o : Objects E) (v : Nat) (hmul : ∀ o v c, ops.mul o v c = (o.set v (c • o.content v), v))
    (hbig : 1e-12 < ‖ip (o.content v) (o.content v)‖) :
    sanityCheck ops (some fun x y => ip x y) o v = .error .valueError := by
  obtain ⟨mul, add⟩ := ops
  obtain ⟨h1, h2, -⟩ := C46_checks ⟨mul, add⟩ (fun x y => ip x y) o
    ⟨o.next + 1, fun i => if i = o.next then o.content v else o.content i⟩ _ _ _ _ v _ _ _ _ rfl rfl rfl rfl rfl rfl _ rfl
  refine h2 fun h => ?_
  have := (h1.mp h).2.1
  dsimp only at this hmul
  rw [hmul] at this
  simp only [Objects.set, if_true] at this
  rw [show (if v = o.next then o.content v else o.content v) = o.content v by split <;> rfl] at this
  rw [show ip ((2 : 𝕜) • o.content v) ((2 : 𝕜) • o.content v) - ip (o.content v) (o.content v) =
    3 * ip (o.content v) (o.content v) by
      rw [map_smul, map_smulₛₗ ip, LinearMap.smul_apply, smul_eq_mul, smul_eq_mul, map_ofNat]; ring, norm_mul] at this
  have h3 : ‖(3 : 𝕜)‖ = 3 := by simp
  rw [h3] at this
  linarith [norm_nonneg (ip (o.content v) (o.content v))]

/-- The same if adding to a vector changes it in place. -/
theorem C46_in_place_addition [AddCommGroup E] [Module 𝕜 E] (ops : VecOps 𝕜 E) (ip : E →ₗ⋆[𝕜] E →ₗ[𝕜] 𝕜)
    (o : Objects E) (v : Nat) (hv : v < o.next) (hmul : ∀ o v c w, w < o.next → (ops.mul o v c).1.content w = o.content w)
    (hadd : ∀ o v w, ops.add o v w = (o.set v (o.content v + o.content w), v))
    (hbig : 1e-12 < ‖ip (o.content v) (o.content v)‖) :
    sanityCheck ops (some fun x y => ip x y) o v = .error .valueError := by
  obtain ⟨mul, add⟩ := ops
  obtain ⟨h1, h2, -⟩ := C46_checks ⟨mul, add⟩ (fun x y => ip x y) o
    ⟨o.next + 1, fun i => if i = o.next then o.content v else o.content i⟩ _ _ _ _ v _ _ _ _ rfl rfl rfl rfl rfl rfl _ rfl
  refine h2 fun h => ?_
  have := (h1.mp h).2.2.2.1
  dsimp only at this hmul hadd
  rw [hadd] at this
  simp only [Objects.set, if_true] at this
  rw [hmul _ _ _ _ (by dsimp only; omega)] at this
  dsimp only at this
  rw [show (if v = o.next then o.content v else o.content v) = o.content v by split <;> rfl] at this
  rw [show ip (o.content v + o.content v) (o.content v + o.content v) - ip (o.content v) (o.content v) =
    3 * ip (o.content v) (o.content v) by simp; ring, norm_mul] at this
  have h3 : ‖(3 : 𝕜)‖ = 3 := by simp
  rw [h3] at this
  linarith [norm_nonneg (ip (o.content v) (o.content v))]

/-- Genuine operations on numbers. -/
def genuineOps (𝕜 E : Type*) [RCLike 𝕜] [AddCommGroup E] [Module 𝕜 E] : VecOps 𝕜 E where
  mul o v c := o.new (c • o.content v)
  add o v w := o.new (o.content v + o.content w)

theorem genuineOps_genuine [AddCommGroup E] [Module 𝕜 E] : Genuine (genuineOps 𝕜 E) where
  mul_result o v c _ := by simp [genuineOps, Objects.new]
  mul_number o v c _ := by simp [genuineOps, Objects.new]
  mul_keeps o v c w hw := by
    refine ⟨by simp [genuineOps, Objects.new, hw.ne], ?_⟩
    simp [genuineOps, Objects.new]; omega
  add_result o v w _ _ := by simp [genuineOps, Objects.new]
  add_keeps o v w z hz := by
    refine ⟨by simp [genuineOps, Objects.new, hz.ne], ?_⟩
    simp [genuineOps, Objects.new]; omega

/-- Addition that changes the sign of the vector to which something is added. -/
noncomputable def signOps : VecOps ℝ ℝ where
  mul o v c := o.new (c * o.content v)
  add o v w := (o.set v (-o.content v)).new (o.content v + o.content w)

/-- **C46, violation.** An addition that changes the sign of the vector in place is not detected. -/
theorem C46_sign_violation :
    sanityCheck signOps (some fun x y => x * y) ⟨1, fun _ => 1⟩ 0 = .ok () ∧
    (signOps.add ⟨1, fun _ => 1⟩ 0 0).1.content 0 = -1 := by
  refine ⟨?_, by norm_num [signOps, Objects.new, Objects.set]⟩
  refine (C46_checks signOps (fun x y => x * y) ⟨1, fun _ => 1⟩ ⟨2, fun i => if i = 1 then 1 else 1⟩ _ _ _ _ 0 _ _ _ _
    rfl rfl rfl rfl rfl rfl _ rfl).1.mpr ?_
  norm_num [signOps, Objects.new, Objects.set]

/-- Operations that return a copy of the first operand. -/
noncomputable def copyOps : VecOps ℝ ℝ where
  mul o v _ := o.new (o.content v)
  add o v _ := o.new (o.content v)

/-- **C46, violation.** For vectors with a small norm nothing is detected: operations that do nothing are accepted. -/
theorem C46_small_violation :
    sanityCheck copyOps (some fun x y => x * y) ⟨1, fun _ => 1e-7⟩ 0 = .ok () := by
  refine (C46_checks copyOps (fun x y => x * y) ⟨1, fun _ => 1e-7⟩ ⟨2, fun i => if i = 1 then 1e-7 else 1e-7⟩ _ _ _ _ 0 _ _ _ _
    rfl rfl rfl rfl rfl rfl _ rfl).1.mpr ?_
  norm_num [copyOps, Objects.new]

/-- The hypotheses can be met: the number 3 with the product of numbers. -/
example : sanityCheck (genuineOps ℂ ℂ) (some fun x y => (LinearMap.mul ℂ ℂ ∘ₛₗ (starLinearEquiv ℂ : ℂ ≃ₗ⋆[ℂ] ℂ).toLinearMap) x y)
    ⟨1, fun _ => 3⟩ 0 = .ok () :=
  C46_accepts _ genuineOps_genuine _ _ _ (by simp)

/-- A multiplication in place. -/
noncomputable def inPlaceOps : VecOps ℝ ℝ where
  mul o v c := (o.set v (c • o.content v), v)
  add o v w := o.new (o.content v + o.content w)

example : sanityCheck inPlaceOps (some fun x y => (LinearMap.mul ℝ ℝ ∘ₛₗ (starLinearEquiv ℝ : ℝ ≃ₗ⋆[ℝ] ℝ).toLinearMap) x y)
    ⟨1, fun _ => 3⟩ 0 = .error .valueError :=
  C46_in_place_multiplication _ _ _ _ (fun _ _ _ => rfl) (by norm_num)

example : sanityCheck copyOps (some fun x y => x * y) ⟨1, fun _ => 1⟩ 0 = .error .valueError :=
  C46_wrong_double _ _ _ _ fun o1 h => by
    simp only [copyOps, Objects.new, if_true, h]
    norm_num

/-- An addition in place. -/
noncomputable def inPlaceAddition : VecOps ℝ ℝ where
  mul o v c := o.new (c • o.content v)
  add o v w := (o.set v (o.content v + o.content w), v)

example : sanityCheck inPlaceAddition
    (some fun x y => (LinearMap.mul ℝ ℝ ∘ₛₗ (starLinearEquiv ℝ : ℝ ≃ₗ⋆[ℝ] ℝ).toLinearMap) x y)
    ⟨1, fun _ => 3⟩ 0 = .error .valueError :=
  C46_in_place_addition _ _ _ _ (by simp) (fun o v c w hw => by simp [inPlaceAddition, Objects.new, hw.ne]) (fun _ _ _ => rfl)
    (by norm_num)

end Modred
