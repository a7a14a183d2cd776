import Verif.Spec.SelfAdjointPod
import Verif.Props.Bpod
import Verif.Props.WorstCase
import Verif.Props.Optimal
import Verif.Spec.DmdHandles

/-!
# C138: balanced POD of self-adjoint systems is POD
-/

namespace Modred

open Matrix
open scoped ComplexOrder

variable {𝕜 : Type*} [RCLike 𝕜]

/-- Left and right singular vectors of a positive semidefinite array for positive singular values are the same. -/
theorem posSemidef_singular {m r : Nat} {H : Matrix (Fin m) (Fin m) 𝕜} (hH : H.PosSemidef) {U V : Matrix (Fin m) (Fin r) 𝕜}
    {S : Fin r → ℝ} (hS : ∀ i, 0 < S i) (hV : H * V = U * diagonal fun i => (S i : 𝕜))
    (hU : Hᴴ * U = V * diagonal fun i => (S i : 𝕜)) : U = V := by
  rw [hH.isHermitian.eq] at hU
  have hD : H * (U - V) = -((U - V) * diagonal fun i => (S i : 𝕜)) := by
    rw [Matrix.mul_sub, hU, hV, Matrix.sub_mul, neg_sub]
  rw [← sub_eq_zero]
  ext k i
  have h1 : H *ᵥ (fun k => (U - V) k i) = -((S i : 𝕜) • fun k => (U - V) k i) := by
    ext k
    have := congrFun (congrFun hD k) i
    rw [Matrix.neg_apply, Matrix.mul_diagonal] at this
    rw [Pi.neg_apply, Pi.smul_apply, smul_eq_mul, mul_comm]
    exact this
  have h2 := hH.dotProduct_mulVec_nonneg (fun k => (U - V) k i)
  rw [h1, dotProduct_neg, dotProduct_smul] at h2
  have h3 : 0 ≤ star (fun k => (U - V) k i) ⬝ᵥ fun k => (U - V) k i := dotProduct_star_self_nonneg _
  have h4 : (0 : 𝕜) < (S i : 𝕜) := by exact_mod_cast hS i
  have h5 : (S i : 𝕜) • (star (fun k => (U - V) k i) ⬝ᵥ fun k => (U - V) k i) = 0 :=
    le_antisymm (neg_nonneg.mp h2) (mul_nonneg h4.le h3)
  have h6 : (fun k => (U - V) k i) = 0 := by
    rcases smul_eq_zero.mp h5 with h | h
    · exact absurd h h4.ne'
    · exact dotProduct_star_self_eq_zero.mp h
  exact congrFun h6 k

/-- Eigenvectors of a Hermitian array for eigenvalues above the tolerances are combinations of the singular vectors kept. -/
theorem kept_eigenvector {m : Nat} {svd : Matrix (Fin m) (Fin m) 𝕜 → SvdOut 𝕜 m m} {H : Matrix (Fin m) (Fin m) 𝕜}
    (h : IsSvd H (svd H)) (hH : H.IsHermitian) {atol rtol : Option ℝ} (hr : ∀ t ∈ rtol, 0 ≤ t) (s : Svd 𝕜 m m)
    (hs : utilSvd svd H atol rtol = .ok s) {b z : ℝ} (hb : ToleranceBound (svd H).S atol rtol b) (hz : b < z)
    {y : Fin m → 𝕜} (hy : H *ᵥ y = (z : 𝕜) • y) : y = s.V *ᵥ (s.Vᴴ *ᵥ y) := by
  have hrest := fun i => utilSvd_rest h hr s hs hb i
  obtain ⟨num, -, rfl⟩ := utilSvd_cases svd H atol rtol s hs
  dsimp only at hrest ⊢
  generalize svd H = o at *
  have hz0 : (z : 𝕜) ≠ 0 := by exact_mod_cast (lt_of_le_of_lt hb.nonneg hz).ne'
  have h1 : o.Uᴴ * H = diagonal (fun i => (o.S i : 𝕜)) * o.Vh := by
    conv_lhs => rw [h.product]
    rw [← Matrix.mul_assoc, ← Matrix.mul_assoc, h.left, Matrix.one_mul]
  have hHe : H = o.Vhᴴ * diagonal (fun i => (o.S i : 𝕜)) * o.Uᴴ := by
    rw [← hH.eq]
    conv_lhs => rw [h.product]
    rw [conjTranspose_mul, conjTranspose_mul, diagonal_conjTranspose, ← Matrix.mul_assoc]
    congr 3
    ext i
    simp
  have h2 : o.Vh * H = diagonal (fun i => (o.S i : 𝕜)) * o.Uᴴ := by
    conv_lhs => rw [hHe]
    rw [← Matrix.mul_assoc, ← Matrix.mul_assoc, h.right, Matrix.one_mul]
  have e1 : ∀ j, (o.S j : 𝕜) * (o.Vh *ᵥ y) j = z * (o.Uᴴ *ᵥ y) j := by
    intro j
    have := congrFun (congrArg (fun M => M *ᵥ y) h1) j
    simp only [← mulVec_mulVec, hy, mulVec_smul, mulVec_diagonal] at this
    exact this.symm
  have e2 : ∀ j, (o.S j : 𝕜) * (o.Uᴴ *ᵥ y) j = z * (o.Vh *ᵥ y) j := by
    intro j
    have := congrFun (congrArg (fun M => M *ᵥ y) h2) j
    simp only [← mulVec_mulVec, hy, mulVec_smul, mulVec_diagonal] at this
    exact this.symm
  have h0 : ∀ j : Fin (min m m), min num (min m m) ≤ j.val → (o.Vh *ᵥ y) j = 0 := by
    intro j hj
    have hS := hrest j hj
    have hn := h.nonneg j
    have e3 : ((z ^ 2 - o.S j ^ 2 : ℝ) : 𝕜) * (o.Vh *ᵥ y) j = 0 := by
      push_cast
      linear_combination (-(z : 𝕜)) * e2 j - (o.S j : 𝕜) * e1 j
    rcases mul_eq_zero.mp e3 with h3 | h3
    · have h4 : z ^ 2 - o.S j ^ 2 = 0 := by exact_mod_cast h3
      nlinarith
    · exact h3
  have hyV : y = o.Vhᴴ *ᵥ (o.Vh *ᵥ y) := by
    have h3 : y = o.Vhᴴ *ᵥ ((z : 𝕜)⁻¹ • (diagonal (fun i => (o.S i : 𝕜)) *ᵥ (o.Uᴴ *ᵥ y))) := by
      rw [mulVec_smul, mulVec_mulVec, mulVec_mulVec, ← hHe, hy, smul_smul, inv_mul_cancel₀ hz0, one_smul]
    have h4 : o.Vh *ᵥ y = (z : 𝕜)⁻¹ • (diagonal (fun i => (o.S i : 𝕜)) *ᵥ (o.Uᴴ *ᵥ y)) := by
      conv_lhs => rw [h3]
      rw [mulVec_mulVec, h.right, one_mulVec]
    rw [h4]
    exact h3
  conv_lhs => rw [hyV]
  ext k
  unfold firstCols mulVec dotProduct
  refine (Fintype.sum_of_injective (Fin.castLE (Nat.min_le_right num (min m m))) (Fin.castLE_injective _) _ _ ?_ ?_).symm
  · intro j hj
    have : (o.Vh *ᵥ y) j = 0 := h0 j (by
      by_contra hlt
      exact hj ⟨⟨j.val, not_le.mp hlt⟩, rfl⟩)
    change _ * (o.Vh *ᵥ y) j = 0
    rw [this, mul_zero]
  · intro i
    simp [conjTranspose_apply]

section Arrays

variable {n m : Nat} (svd : Matrix (Fin m) (Fin m) 𝕜 → SvdOut 𝕜 m m) (X : Matrix (Fin n) (Fin m) 𝕜)
  (idxD idxA : Option (List Int)) (weights : Option (NdArray 𝕜)) (ws : Weights 𝕜) (rtol : Option ℝ) (t : ℝ)

/-- Balanced modes of vectors with themselves. -/
theorem bpod_same (p q : Nat) (ht : 0 ≤ t) (hr : ∀ t ∈ rtol, 0 ≤ t) (hws : arraysInit weights = .ok ws) (hfit : ws.Fits n)
    (hW : (ws.matrix n).PosSemidef) (hlib : ∀ a, IsSvd a (svd a)) (res : BpodResult 𝕜 n m m)
    (hres : bpodArrays svd X X p q idxD idxA weights (some t) rtol = .ok res) (hH : res.hankel = Xᴴ * ws.matrix n * X) :
    ∃ Φ : Matrix (Fin n) (Fin res.r) 𝕜, Chosen Φ idxD res.directModes ∧ Chosen Φ idxA res.adjointModes ∧
      PodModesOf (ws.matrix n) X res.singVals Φ ∧ res.directProjCoeffs = Φᴴ * ws.matrix n * X ∧
      res.adjointProjCoeffs = res.directProjCoeffs ∧
      ∀ b, ToleranceBound (svd res.hankel).S (some t) rtol b → AllModesAbove (ws.matrix n) X b Φ := by
  have hS := C24_positive svd X X p q idxD idxA weights ws rtol t hr hws hfit res hres (hlib _)
  obtain ⟨rows, s, dm, am, -, -, hs, hdm, ham, rfl⟩ :=
    bpodArrays_cases svd X X p q idxD idxA weights ws _ _ hws hfit res hres
  dsimp only at hH hS ⊢
  have hS' : ∀ i, 0 < s.S i := fun i => lt_of_le_of_lt ht (hS i)
  rw [hH] at hs
  have hP : (Xᴴ * ws.matrix n * X).PosSemidef := hW.conjTranspose_mul_mul_same X
  obtain ⟨-, hV, hHV, hHU⟩ := utilSvd_triples svd _ _ _ (hlib _) s hs
  have hUV : s.U = s.V := posSemidef_singular hP hS' (by rw [hHV, diagPow_one]) (by rw [hHU, diagPow_one])
  rw [hUV] at ham hHV hHU ⊢
  have hone := balance_one hS' hV hHU
  refine ⟨X * (s.V * diagPow (𝕜 := 𝕜) s.S (-0.5)), linCombineArrays_ok _ _ _ _ hdm, linCombineArrays_ok _ _ _ _ ham,
    ⟨?_, ?_, hS'⟩, ?_, rfl, fun b hb f z hz hf => ?_⟩
  · rw [← hone, conjTranspose_mul X]
    simp only [Matrix.mul_assoc]
  · calc X * Xᴴ * ws.matrix n * (X * (s.V * diagPow (𝕜 := 𝕜) s.S (-0.5)))
        = X * (((Xᴴ * ws.matrix n * X) * s.V) * diagPow (𝕜 := 𝕜) s.S (-0.5)) := by simp only [Matrix.mul_assoc]
      _ = X * (s.V * (diagPow (𝕜 := 𝕜) s.S 1 * diagPow (𝕜 := 𝕜) s.S (-0.5))) := by rw [hHV, Matrix.mul_assoc]
      _ = X * (s.V * (diagPow (𝕜 := 𝕜) s.S (-0.5) * diagPow (𝕜 := 𝕜) s.S 1)) := by
        rw [diagPow_mul _ hS', diagPow_mul _ hS', add_comm]
      _ = _ := by
        rw [diagPow_one]
        simp only [Matrix.mul_assoc]
  · rw [conjTranspose_mul X, conjTranspose_mul, diagPow_conjTranspose]
    have h1 : s.Vᴴ * (Xᴴ * ws.matrix n * X) = diagPow (𝕜 := 𝕜) s.S 1 * s.Vᴴ := by
      rw [← diagPow_conjTranspose, ← conjTranspose_mul, ← hHV, conjTranspose_mul, hP.isHermitian.eq]
    calc diagPow (𝕜 := 𝕜) s.S 0.5 * s.Vᴴ
        = diagPow (𝕜 := 𝕜) s.S (-0.5) * (diagPow (𝕜 := 𝕜) s.S 1 * s.Vᴴ) := by
          rw [← Matrix.mul_assoc, diagPow_mul _ hS', show (-0.5 + 1 : ℝ) = 0.5 by norm_num]
      _ = _ := by
        rw [← h1]
        simp only [Matrix.mul_assoc]
  · rw [hH] at hb
    have hz0 : (z : 𝕜) ≠ 0 := by exact_mod_cast (lt_of_le_of_lt hb.nonneg hz).ne'
    obtain ⟨y, hy⟩ : ∃ y : Fin m → 𝕜, y = (Xᴴ * ws.matrix n) *ᵥ f := ⟨_, rfl⟩
    have hXy : X *ᵥ y = (z : 𝕜) • f := by rw [hy, mulVec_mulVec, ← Matrix.mul_assoc, hf]
    have hHy : (Xᴴ * ws.matrix n * X) *ᵥ y = (z : 𝕜) • y := by
      rw [← mulVec_mulVec, hXy, mulVec_smul, hy]
    have hyV := kept_eigenvector (hlib _) hP.isHermitian hr s hs hb hz hHy
    have h1 : s.Vᴴ * (Xᴴ * ws.matrix n * X) = diagPow (𝕜 := 𝕜) s.S 1 * s.Vᴴ := by
      rw [← diagPow_conjTranspose, ← conjTranspose_mul, ← hHV, conjTranspose_mul, hP.isHermitian.eq]
    have h2 : diagPow (𝕜 := 𝕜) s.S (-1) *ᵥ (s.Vᴴ *ᵥ y) = (z : 𝕜)⁻¹ • (s.Vᴴ *ᵥ y) := by
      have h3 : diagPow (𝕜 := 𝕜) s.S 1 *ᵥ (s.Vᴴ *ᵥ y) = (z : 𝕜) • (s.Vᴴ *ᵥ y) := by
        rw [mulVec_mulVec, ← h1, ← mulVec_mulVec, hHy, mulVec_smul]
      have h4 : s.Vᴴ *ᵥ y = (z : 𝕜) • (diagPow (𝕜 := 𝕜) s.S (-1) *ᵥ (s.Vᴴ *ᵥ y)) := by
        rw [← mulVec_smul, ← h3, mulVec_mulVec, diagPow_mul _ hS', show (-1 + 1 : ℝ) = 0 by norm_num, diagPow_zero, one_mulVec]
      conv_rhs => rw [h4, smul_smul, inv_mul_cancel₀ hz0, one_smul]
    have h5 : (X * (s.V * diagPow (𝕜 := 𝕜) s.S (-0.5)))ᴴ * ws.matrix n =
        diagPow (𝕜 := 𝕜) s.S (-0.5) * (s.Vᴴ * (Xᴴ * ws.matrix n)) := by
      rw [conjTranspose_mul X, conjTranspose_mul, diagPow_conjTranspose]
      simp only [Matrix.mul_assoc]
    have h6 : (X * (s.V * diagPow (𝕜 := 𝕜) s.S (-0.5))) *ᵥ
        ((diagPow (𝕜 := 𝕜) s.S (-0.5) * (s.Vᴴ * (Xᴴ * ws.matrix n))) *ᵥ f) =
        X *ᵥ (s.V *ᵥ (diagPow (𝕜 := 𝕜) s.S (-1) *ᵥ (s.Vᴴ *ᵥ y))) := by
      rw [hy, show (-1 : ℝ) = -0.5 + -0.5 by norm_num, ← diagPow_mul _ hS']
      simp only [mulVec_mulVec, Matrix.mul_assoc]
    rw [h5, h6, h2, mulVec_smul, ← hyV, mulVec_smul, hXy, smul_smul, inv_mul_cancel₀ hz0, one_smul]

/-- **C138.** Any vectors, given as direct and adjoint vectors of one time step. -/
theorem C138_one_step (hm : 1 ≤ m) (ht : 0 ≤ t) (hr : ∀ t ∈ rtol, 0 ≤ t) (hws : arraysInit weights = .ok ws) (hfit : ws.Fits n)
    (hW : (ws.matrix n).PosSemidef) (hlib : ∀ a, IsSvd a (svd a)) (res : BpodResult 𝕜 n m m)
    (hres : bpodArrays svd X X m m idxD idxA weights (some t) rtol = .ok res) :
    ∃ Φ : Matrix (Fin n) (Fin res.r) 𝕜, Chosen Φ idxD res.directModes ∧ Chosen Φ idxA res.adjointModes ∧
      PodModesOf (ws.matrix n) X res.singVals Φ ∧ res.directProjCoeffs = Φᴴ * ws.matrix n * X ∧
      res.adjointProjCoeffs = res.directProjCoeffs ∧
      ∀ b, ToleranceBound (svd res.hankel).S (some t) rtol b → AllModesAbove (ws.matrix n) X b Φ := by
  have hX : ∀ i (j : Fin m), X i j = ((0 : Matrix (Fin n) (Fin n) 𝕜) ^ (j.val / m) * X) i ⟨j % m, Nat.mod_lt _ hm⟩ := by
    intro i j
    rw [Nat.div_eq_of_lt j.isLt, pow_zero, Matrix.one_mul]
    congr 1
    exact Fin.ext (Nat.mod_eq_of_lt j.isLt).symm
  exact bpod_same svd X idxD idxA weights ws rtol t m m ht hr hws hfit hW hlib res hres
    (C25_arrays svd X X m m idxD idxA weights ws _ _ hm hm hws hfit 0 0 X X (by simp) hX hX res hres).1

/-- **C138.** Impulse responses of a self-adjoint system, whose outputs are its inputs. -/
theorem C138_self_adjoint (p : Nat) (hp : 1 ≤ p) (ht : 0 ≤ t) (hr : ∀ t ∈ rtol, 0 ≤ t) (hws : arraysInit weights = .ok ws)
    (hfit : ws.Fits n) (hW : (ws.matrix n).PosSemidef) (hlib : ∀ a, IsSvd a (svd a)) (A : Matrix (Fin n) (Fin n) 𝕜)
    (B : Matrix (Fin n) (Fin p) 𝕜) (hA : Aᴴ * ws.matrix n = ws.matrix n * A)
    (hX : ∀ i j, X i j = (A ^ (j.val / p) * B) i ⟨j % p, Nat.mod_lt _ hp⟩) (res : BpodResult 𝕜 n m m)
    (hres : bpodArrays svd X X p p idxD idxA weights (some t) rtol = .ok res) :
    ∃ Φ : Matrix (Fin n) (Fin res.r) 𝕜, Chosen Φ idxD res.directModes ∧ Chosen Φ idxA res.adjointModes ∧
      PodModesOf (ws.matrix n) X res.singVals Φ ∧ res.directProjCoeffs = Φᴴ * ws.matrix n * X ∧
      res.adjointProjCoeffs = res.directProjCoeffs ∧
      ∀ b, ToleranceBound (svd res.hankel).S (some t) rtol b → AllModesAbove (ws.matrix n) X b Φ :=
  bpod_same svd X idxD idxA weights ws rtol t p p ht hr hws hfit hW hlib res hres
    (C25_arrays svd X X p p idxD idxA weights ws _ _ hp hp hws hfit A A B B hA hX hX res hres).1

end Arrays

section Handles

variable {E : Type*} [AddCommGroup E] [Module 𝕜 E] {m p : Nat} (X : Fin m → E)
  (svd : Matrix (Fin (m / p * p)) (Fin (m / p * p)) 𝕜 → SvdOut 𝕜 (m / p * p) (m / p * p)) (rtol : Option ℝ) (t : ℝ)
  (ip : E →ₗ⋆[𝕜] E →ₗ[𝕜] 𝕜)

/-- **C138** for `BPODHandles`: impulse responses of a self-adjoint system, whose outputs are its inputs. -/
theorem C138_handles_self_adjoint (hp : 1 ≤ p) (hm : p ∣ m) (ht : 0 ≤ t) (hr : ∀ t ∈ rtol, 0 ≤ t)
    (hsymm : ∀ x y, ip y x = star (ip x y)) (hnn : ∀ x, 0 ≤ RCLike.re (ip x x)) (hlib : ∀ a, IsSvd a (svd a)) (F : E → E)
    (hF : ∀ u v, ip (F u) v = ip u (F v)) (B : Fin p → E) (hX : ∀ j, X j = F^[j.val / p] (B ⟨j % p, Nat.mod_lt _ hp⟩))
    (b : BpodHandles 𝕜 E m m (m / p * p) (m / p * p))
    (hb : bpodHandlesDecomp (fun x y => ip x y) X X p p svd (some t) rtol = .ok b) :
    ∃ Φ : Fin b.r → E, (∀ l k out, bpodHandlesDirectModes b l k = .ok out → ChosenVecs Φ l out) ∧
      (∀ l k out, bpodHandlesAdjointModes b l k = .ok out → ChosenVecs Φ l out) ∧
      PodVectorsOf (fun x y => ip x y) X b.singVals Φ ∧ bpodHandlesAdjointProjCoeffs b = bpodHandlesDirectProjCoeffs b := by
  have hmp : m / p * p = m := Nat.div_mul_cancel hm
  have hS := C24_handles_positive X X p p svd rtol (fun x y => ip x y) t hr b hb (hlib _)
  have hH := C25_handles X X p p svd _ _ (fun x y => ip x y) F F hF hp hp hm B B hX hX b hb
  obtain ⟨rows, s, -, hs, rfl⟩ := bpodHandlesDecomp_cases X X p p svd _ rtol _ b hb
  dsimp only at hS hH ⊢
  have hS' : ∀ i, 0 < s.S i := fun i => lt_of_le_of_lt ht (hS i)
  set X' : Fin (m / p * p) → E := fun k => X (Fin.cast hmp k) with hX'
  have hH' : ofRows (m / p * p) (m / p * p) rows = handlesIp (fun x y => ip x y) X' X' := by
    ext i j
    exact hH i j _ _ rfl rfl
  rw [hH'] at hs
  have hP : (handlesIp (fun x y => ip x y) X' X').PosSemidef := handlesIp_posSemidef ip hsymm hnn X'
  obtain ⟨-, hV, hHV, hHU⟩ := utilSvd_triples svd _ _ _ (hlib _) s hs
  have hUV : s.U = s.V := posSemidef_singular hP hS' (by rw [hHV, diagPow_one]) (by rw [hHU, diagPow_one])
  rw [hUV] at hHV hHU
  refine ⟨combine X' (s.V * diagPow (𝕜 := 𝕜) s.S (-0.5)), fun l k out hout => ?_, fun l k out hout => ?_, ⟨fun i j => ?_, fun i => ?_, hS'⟩,
    ?_⟩
  · obtain ⟨_, h1, sel, h2, h3⟩ := linCombineSized_ok _ _ _ _ _ hout
    exact ⟨h1, sel, h2, h3⟩
  · obtain ⟨_, h1, sel, h2, h3⟩ := linCombineSized_ok _ _ _ _ _ hout
    dsimp only at h3
    rw [hUV] at h3
    exact ⟨h1, sel, h2, h3⟩
  · have key := balance_one hS' hV hHU
    rw [← handlesIp_combine] at key
    have hij := congrFun (congrFun key i) j
    rw [Matrix.one_apply] at hij
    exact hij
  · have h1 : handlesIp (fun x y => ip x y) X' (combine X' (s.V * diagPow (𝕜 := 𝕜) s.S (-0.5))) =
        s.V * diagPow (𝕜 := 𝕜) s.S (-0.5) * diagonal fun i => (s.S i : 𝕜) := by
      rw [handlesIp_combine_right, ← Matrix.mul_assoc, hHV, Matrix.mul_assoc, Matrix.mul_assoc, ← diagPow_one, diagPow_mul _ hS',
        diagPow_mul _ hS', add_comm]
    have h2 : ∑ j, ip (X j) (combine X' (s.V * diagPow (𝕜 := 𝕜) s.S (-0.5)) i) • X j =
        ∑ k, ip (X' k) (combine X' (s.V * diagPow (𝕜 := 𝕜) s.S (-0.5)) i) • X' k :=
      ((finCongr hmp).sum_comp fun j => ip (X j) (combine X' (s.V * diagPow (𝕜 := 𝕜) s.S (-0.5)) i) • X j).symm
    refine h2.trans ?_
    have h3 : ∀ k, ip (X' k) (combine X' (s.V * diagPow (𝕜 := 𝕜) s.S (-0.5)) i) =
        (s.V * diagPow (𝕜 := 𝕜) s.S (-0.5)) k i * (s.S i : 𝕜) := by
      intro k
      have := congrFun (congrFun h1 k) i
      rw [Matrix.mul_diagonal] at this
      exact this
    simp only [h3]
    unfold combine
    rw [Finset.smul_sum]
    refine Finset.sum_congr rfl fun k _ => ?_
    rw [smul_smul, mul_comm]
  · unfold bpodHandlesAdjointProjCoeffs bpodHandlesDirectProjCoeffs
    dsimp only
    rw [hUV]

/-- **C138** for `BPODHandles`: any vectors, given as direct and adjoint vectors of one time step. -/
theorem C138_handles_one_step (svd : Matrix (Fin (m / m * m)) (Fin (m / m * m)) 𝕜 → SvdOut 𝕜 (m / m * m) (m / m * m))
    (hm : 1 ≤ m) (ht : 0 ≤ t) (hr : ∀ t ∈ rtol, 0 ≤ t)
    (hsymm : ∀ x y, ip y x = star (ip x y)) (hnn : ∀ x, 0 ≤ RCLike.re (ip x x)) (hlib : ∀ a, IsSvd a (svd a))
    (b : BpodHandles 𝕜 E m m (m / m * m) (m / m * m))
    (hb : bpodHandlesDecomp (fun x y => ip x y) X X m m svd (some t) rtol = .ok b) :
    ∃ Φ : Fin b.r → E, (∀ l k out, bpodHandlesDirectModes b l k = .ok out → ChosenVecs Φ l out) ∧
      (∀ l k out, bpodHandlesAdjointModes b l k = .ok out → ChosenVecs Φ l out) ∧
      PodVectorsOf (fun x y => ip x y) X b.singVals Φ ∧ bpodHandlesAdjointProjCoeffs b = bpodHandlesDirectProjCoeffs b := by
  refine C138_handles_self_adjoint X svd rtol t ip hm (dvd_refl m) ht hr hsymm hnn hlib id (fun _ _ => rfl) X (fun j => ?_) b hb
  rw [Function.iterate_id, id_eq]
  congr 1
  exact Fin.ext (Nat.mod_eq_of_lt j.isLt).symm

end Handles

/-! ### Example -/

/-- The system `x' = 2 x`, and two vectors that are no impulse response. -/
example : ∃ (svd : Matrix (Fin 2) (Fin 2) ℝ → SvdOut ℝ 2 2) (res : BpodResult ℝ 1 2 2) (res' : BpodResult ℝ 2 2 2)
    (Φ : Matrix (Fin 1) (Fin res.r) ℝ) (Φ' : Matrix (Fin 2) (Fin res'.r) ℝ),
    bpodArrays svd !![1, 2] !![1, 2] 1 1 none none none (some (1 / 10)) none = .ok res ∧
    PodModesOf 1 (!![1, 2] : Matrix (Fin 1) (Fin 2) ℝ) res.singVals Φ ∧ Chosen Φ none res.directModes ∧
    bpodArrays svd !![1, 2; 3, 4] !![1, 2; 3, 4] 2 2 none none none (some (1 / 10)) none = .ok res' ∧
    PodModesOf 1 (!![1, 2; 3, 4] : Matrix (Fin 2) (Fin 2) ℝ) res'.singVals Φ' ∧ Chosen Φ' none res'.adjointModes := by
  choose svd hsvd using fun a : Matrix (Fin 2) (Fin 2) ℝ => exists_isSvd a
  obtain ⟨res, hres⟩ := C25_no_error svd (!![1, 2] : Matrix (Fin 1) (Fin 2) ℝ) !![1, 2] 1 1 none .none (some (1 / 10)) none
    (by decide) (by decide) (by decide) (by decide) (by decide) (by decide) rfl trivial
  obtain ⟨res', hres'⟩ := C25_no_error svd (!![1, 2; 3, 4] : Matrix (Fin 2) (Fin 2) ℝ) !![1, 2; 3, 4] 2 2 none .none (some (1 / 10)) none
    (by decide) (by decide) (by decide) (by decide) (by decide) (by decide) rfl trivial
  obtain ⟨Φ, h1, -, h2, -⟩ := C138_self_adjoint svd _ none none none .none none (1 / 10) 1 le_rfl (by norm_num) (by simp) rfl trivial
    PosSemidef.one hsvd !![2] !![1] (by
      ext i j
      fin_cases i; fin_cases j
      simp [Weights.matrix]) (by
      intro i j
      fin_cases i
      fin_cases j <;> simp [Matrix.mul_apply]) res hres
  obtain ⟨Φ', -, h3, h4, -⟩ := C138_one_step svd _ none none none .none none (1 / 10) (by decide) (by norm_num) (by simp) rfl trivial
    PosSemidef.one hsvd res' hres'
  exact ⟨svd, res, res', Φ, Φ', hres, h2, h1, hres', h4, h3⟩

/-- The same system with handles, with two inputs, one of which does three times as much as the other. -/
example : ∃ (svd : Matrix (Fin (4 / 2 * 2)) (Fin (4 / 2 * 2)) ℝ → SvdOut ℝ (4 / 2 * 2) (4 / 2 * 2)) (b : _) (Φ : Fin b.r → ℝ),
    bpodHandlesDecomp (fun x y : ℝ => LinearMap.mul ℝ ℝ x y) ![1, 3, 2, 6] ![1, 3, 2, 6] 2 2 svd (some (1 / 10)) none = .ok b ∧
    (∀ l k out, bpodHandlesDirectModes b l k = .ok out → ChosenVecs Φ l out) ∧
    (∀ l k out, bpodHandlesAdjointModes b l k = .ok out → ChosenVecs Φ l out) ∧
    PodVectorsOf (fun x y : ℝ => LinearMap.mul ℝ ℝ x y) ![1, 3, 2, 6] b.singVals Φ := by
  choose svd hsvd using fun a : Matrix (Fin (4 / 2 * 2)) (Fin (4 / 2 * 2)) ℝ => exists_isSvd a
  obtain ⟨b, hb⟩ := C25_handles_no_error ![1, 3, 2, 6] ![1, 3, 2, 6] 2 2 svd (some (1 / 10)) none
    (fun x y : ℝ => LinearMap.mul ℝ ℝ x y) (by decide) (by decide) (by decide) (by decide)
  obtain ⟨Φ, h1, h2, h3, -⟩ := C138_handles_self_adjoint ![1, 3, 2, 6] svd none (1 / 10) (LinearMap.mul ℝ ℝ) (by decide) (by decide)
    (by norm_num) (by simp) (fun x y => mul_comm y x) (fun x => mul_self_nonneg x) hsvd (fun x => 2 * x)
    (fun u v => show 2 * u * v = u * (2 * v) by ring) ![1, 3] (fun j => by fin_cases j <;> simp <;> norm_num) b hb
  exact ⟨svd, b, Φ, hb, h1, h2, h3⟩

end Modred
