import Verif.Props.Galerkin
import Verif.Spec.Stability
import Mathlib.LinearAlgebra.Matrix.PosDef

/-!
# Galerkin projection keeps the energy balance (C77)
-/

namespace Modred

open Matrix
open scoped ComplexOrder

variable {𝕜 : Type*} [RCLike 𝕜]

section

variable {E : Type*} [AddCommGroup E] [Module 𝕜 E] {r : Nat}

theorem lift_mulVec (Φ : Fin r → E) (R : Matrix (Fin r) (Fin r) 𝕜) (x : Fin r → 𝕜) :
    lift Φ (R *ᵥ x) = ∑ j, x j • ∑ k, R k j • Φ k := by
  unfold lift
  simp only [mulVec, dotProduct, Finset.sum_smul, Finset.smul_sum, smul_smul]
  rw [Finset.sum_comm]
  refine Finset.sum_congr rfl fun j _ => Finset.sum_congr rfl fun k _ => ?_
  rw [mul_comm]

theorem lift_smul (Φ : Fin r → E) (a : 𝕜) (x : Fin r → 𝕜) : lift Φ (a • x) = a • lift Φ x := by
  unfold lift
  rw [Finset.smul_sum]
  refine Finset.sum_congr rfl fun k _ => ?_
  rw [Pi.smul_apply, smul_eq_mul, mul_smul]

variable {ip : E →ₗ⋆[𝕜] E →ₗ[𝕜] 𝕜} {Φ : Fin r → E} {A : E →ₗ[𝕜] E} {R : Matrix (Fin r) (Fin r) 𝕜}

/-- The residual is orthogonal to every lifted state. -/
theorem lift_residual (h : ∀ i j, ip (Φ i) (A (Φ j) - ∑ k, R k j • Φ k) = 0) (x y : Fin r → 𝕜) :
    ip (lift Φ x) (A (lift Φ y)) = ip (lift Φ x) (lift Φ (R *ᵥ y)) := by
  rw [← sub_eq_zero, ← map_sub]
  have h1 : A (lift Φ y) - lift Φ (R *ᵥ y) = ∑ j, y j • (A (Φ j) - ∑ k, R k j • Φ k) := by
    rw [lift_mulVec]
    unfold lift
    simp only [map_sum, map_smul, smul_sub, Finset.sum_sub_distrib]
  rw [h1, map_sum]
  refine Finset.sum_eq_zero fun j _ => ?_
  unfold lift
  rw [map_smul, map_sum, LinearMap.sum_apply, Finset.sum_eq_zero, smul_zero]
  intro i _
  rw [LinearMap.map_smulₛₗ, LinearMap.smul_apply, h i j, smul_zero]

theorem lift_ne_zero (hu : IsUnit (handlesIp (fun x y => ip x y) Φ Φ).det) {x : Fin r → 𝕜} (hx : x ≠ 0) :
    lift Φ x ≠ 0 := by
  intro h0
  apply hx
  have h1 : handlesIp (fun x y => ip x y) Φ Φ *ᵥ x = 0 := by
    funext i
    have : ip (Φ i) (lift Φ x) = 0 := by rw [h0, map_zero]
    unfold lift at this
    rw [map_sum] at this
    rw [Pi.zero_apply, ← this]
    simp only [mulVec, dotProduct, handlesIp, map_smul, smul_eq_mul]
    exact Finset.sum_congr rfl fun k _ => mul_comm _ _
  rw [← one_mulVec x, ← nonsing_inv_mul _ hu, ← mulVec_mulVec, h1, mulVec_zero]

theorem inner_nonneg (hip : IsInner ip) (x : E) : 0 ≤ RCLike.re (ip x x) := by
  by_cases h : x = 0
  · rw [h, map_zero]; simp
  · exact (hip.pos x h).le

/-- The projection does not increase the energy. -/
theorem lift_contract (hip : IsInner ip) (h : ∀ i j, ip (Φ i) (A (Φ j) - ∑ k, R k j • Φ k) = 0)
    (x : Fin r → 𝕜) : RCLike.re (ip (lift Φ (R *ᵥ x)) (lift Φ (R *ᵥ x))) ≤
      RCLike.re (ip (A (lift Φ x)) (A (lift Φ x))) := by
  have h1 := lift_residual h (R *ᵥ x) x
  generalize lift Φ (R *ᵥ x) = u at *
  generalize A (lift Φ x) = v at *
  have h2 := inner_nonneg hip (v - u)
  have h3 : ip v u = ip u u := by
    rw [← hip.symm, h1, hip.symm]
  simp only [map_sub, LinearMap.sub_apply, h1, h3] at h2
  linarith

theorem keepsEnergy_of_residual (hip : IsInner ip)
    (h : ∀ i j, ip (Φ i) (A (Φ j) - ∑ k, R k j • Φ k) = 0)
    (hu : IsUnit (handlesIp (fun x y => ip x y) Φ Φ).det) : KeepsEnergy ip Φ A R := by
  have hpos : ∀ x : Fin r → 𝕜, x ≠ 0 → 0 < ipEnergy ip (lift Φ x) :=
    fun x hx => hip.pos _ (lift_ne_zero hu hx)
  have hreal : ∀ v, ip v v = (ipEnergy ip v : 𝕜) := by
    intro v
    have := hip.symm v v
    exact ((RCLike.conj_eq_iff_re).mp this).symm
  have heig : ∀ (z : 𝕜) x, R *ᵥ x = z • x →
      RCLike.re (ip (lift Φ x) (lift Φ (R *ᵥ x))) = RCLike.re z * ipEnergy ip (lift Φ x) := by
    intro z x hx
    rw [hx, lift_smul, map_smul, hreal, smul_eq_mul, RCLike.re_mul_ofReal]
  have hen : ∀ (z : 𝕜) x, R *ᵥ x = z • x →
      ipEnergy ip (lift Φ (R *ᵥ x)) = ‖z‖ ^ 2 * ipEnergy ip (lift Φ x) := by
    intro z x hx
    unfold ipEnergy
    rw [hx, lift_smul, map_smul, LinearMap.map_smulₛₗ, LinearMap.smul_apply, smul_eq_mul, smul_eq_mul,
      ← mul_assoc, RCLike.mul_conj, hreal, ← RCLike.ofReal_pow, ← RCLike.ofReal_mul, RCLike.ofReal_re,
      RCLike.ofReal_re]
  have hcon : ∀ q : ℝ, 0 ≤ q → (∀ v, ipEnergy ip (A v) ≤ q * ipEnergy ip v) →
      (∀ x (t : Nat), ipEnergy ip (lift Φ (R ^ t *ᵥ x)) ≤ q ^ t * ipEnergy ip (lift Φ x)) ∧
        ∀ z, IsEigenvalue R z → ‖z‖ ^ 2 ≤ q := by
    intro q hq hA
    have h1 : ∀ x, ipEnergy ip (lift Φ (R *ᵥ x)) ≤ q * ipEnergy ip (lift Φ x) :=
      fun x => (lift_contract hip h x).trans (hA _)
    refine ⟨fun x t => ?_, ?_⟩
    · induction t with
      | zero => simp
      | succ t ih =>
        rw [pow_succ' R, ← mulVec_mulVec, pow_succ' q, mul_assoc]
        exact (h1 _).trans (mul_le_mul_of_nonneg_left ih hq)
    · rintro z ⟨x, hx, hz⟩
      have h2 := h1 x
      rw [hen z x hz] at h2
      exact le_of_mul_le_mul_right h2 (hpos x hx)
  refine ⟨hpos, fun x => (lift_residual h x x).symm, ?_, ?_, ?_, ?_, hcon, ?_, ?_⟩
  · rintro z ⟨x, hx, hz⟩
    refine ⟨lift Φ x, hpos x hx, ?_⟩
    rw [lift_residual h, hz, lift_smul, map_smul, smul_eq_mul]
  · intro hA
    have h1 : ∀ x, RCLike.re (ip (lift Φ x) (lift Φ (R *ᵥ x))) ≤ 0 := fun x => by
      rw [← lift_residual h]; exact hA _
    refine ⟨h1, ?_⟩
    rintro z ⟨x, hx, hz⟩
    have h2 := h1 x
    rw [heig z x hz] at h2
    by_contra hlt
    have := mul_pos (not_le.mp hlt) (hpos x hx)
    linarith
  · intro hA
    have h1 : ∀ x : Fin r → 𝕜, x ≠ 0 → RCLike.re (ip (lift Φ x) (lift Φ (R *ᵥ x))) < 0 := fun x hx => by
      rw [← lift_residual h]; exact hA _ (lift_ne_zero hu hx)
    refine ⟨h1, ?_⟩
    rintro z ⟨x, hx, hz⟩
    have h2 := h1 x hx
    rw [heig z x hz] at h2
    by_contra hlt
    have := mul_nonneg (not_lt.mp hlt) (hpos x hx).le
    linarith
  · intro hA
    obtain ⟨h1, h2⟩ := hcon 1 zero_le_one fun v => by rw [one_mul]; exact hA v
    refine ⟨fun x t => by simpa using h1 x t, fun z hz => ?_⟩
    have h3 := h2 z hz
    by_contra hlt
    nlinarith [not_le.mp hlt]
  · intro hA x y
    rw [← lift_residual h, ← hA, ← hip.symm (lift Φ y), ← lift_residual h, hip.symm]
  · intro hA x
    rw [← lift_residual h]
    exact hA _

end

/-! ### Handles -/

section

variable {E : Type*} [AddCommGroup E] [Module 𝕜 E] {r : Nat} (ip : E →ₗ⋆[𝕜] E →ₗ[𝕜] 𝕜) (hip : IsInner ip)
  (Φ : Fin r → E) (flag : Bool) (g : GalerkinHandles 𝕜 E r) (calls : List (HandlesCall 𝕜 E))
  (A : E →ₗ[𝕜] E) (R : Matrix (Fin r) (Fin r) 𝕜)

/-- The reduced state matrix that `LTIGalerkinProjectionHandles` returns for `A` if no adjoint basis is given;
the basis is orthonormal if it is said to be. -/
structure ReducedHandles : Prop where
  init : galerkinHandlesInit (fun x y => ip x y) Φ (none : Option (Fin r → E)) flag = .ok g
  orthonormal : flag = true → handlesIp (fun x y => ip x y) Φ Φ = 1
  result : (reduceAHandles (calls.foldl HandlesCall.after g) fun j => A (Φ j)).1 = .ok R

variable {ip Φ flag g calls A R}

theorem ReducedHandles.spec (h : ReducedHandles ip Φ flag g calls A R) :
    (∀ i j, ip (Φ i) (A (Φ j) - ∑ k, R k j • Φ k) = 0) ∧
      IsUnit (handlesIp (fun x y => ip x y) Φ Φ).det := by
  have hr : 0 < r := by
    rcases Nat.eq_zero_or_pos r with h0 | h0
    · have := (C38_handles_empty (fun x y => ip x y) Φ none flag g calls h.init (.inl h0)
        fun j => A (Φ j)).1
      rw [h.result] at this
      cases this
    · exact h0
  have h1 := (C38_handles (fun x y => ip x y) Φ none flag g calls hr h.init).1 r (fun j => A (Φ j)) hr
  refine ⟨(C38_handles_residual ip _ _ R h.orthonormal h1 h.result R).mpr rfl, ?_⟩
  cases hf : flag with
  | true => rw [h.orthonormal hf, det_one]; exact isUnit_one
  | false =>
    by_contra hu
    have h2 := h1.singular hf hu
    rw [h.result] at h2
    cases h2

/-- **C77, handles.** If no adjoint basis is given, the model keeps the energy balance of the system: it is dissipative,
stable, contractive, self-adjoint or conservative if the system is, in the inner product of the vector space. -/
theorem C77_handles (hip : IsInner ip) (h : ReducedHandles ip Φ flag g calls A R) : KeepsEnergy ip Φ A R :=
  keepsEnergy_of_residual hip h.spec.1 h.spec.2

end

/-! ### Arrays -/

section

variable {n r : Nat}

theorem weightedIp_isInner {W : Matrix (Fin n) (Fin n) 𝕜} (hW : W.PosDef) : IsInner (weightedIp W) := by
  refine ⟨fun x y => ?_, fun x hx => ?_⟩
  · change star (star x ⬝ᵥ (W *ᵥ y)) = star y ⬝ᵥ (W *ᵥ x)
    rw [star_dotProduct, star_star, star_mulVec, hW.isHermitian.eq, dotProduct_mulVec, dotProduct_comm]
  · exact (RCLike.pos_iff.mp (hW.dotProduct_mulVec_pos hx)).1

theorem weightedIp_entry {q : Nat} (W : Matrix (Fin n) (Fin n) 𝕜) (Φ : Matrix (Fin n) (Fin r) 𝕜)
    (Y : Matrix (Fin n) (Fin q) 𝕜) (i : Fin r) (j : Fin q) :
    weightedIp W (fun k => Φ k i) (fun k => Y k j) = (Φᴴ * W * Y) i j := by
  rw [Matrix.mul_assoc]
  rfl

theorem handlesIp_weighted (W : Matrix (Fin n) (Fin n) 𝕜) (Φ : Matrix (Fin n) (Fin r) 𝕜) :
    handlesIp (fun x y => weightedIp W x y) (fun j i => Φ i j) (fun j i => Φ i j) = Φᴴ * W * Φ := by
  ext i j
  exact weightedIp_entry W Φ Φ i j

/-- **C77, arrays.** The same for arrays: columns `Φ`, weights `W` that are positive definite. -/
theorem C77_arrays (Φ : Matrix (Fin n) (Fin r) 𝕜) (flag : Bool) (weights : Option (NdArray 𝕜)) (ws : Weights 𝕜)
    (g : GalerkinArrays 𝕜 n r) (calls : List (ArraysCall 𝕜 n)) (hw : arraysInit weights = .ok ws) (hfit : ws.Fits n)
    (hW : (ws.matrix n).PosDef) (hg : galerkinArraysInit false Φ none flag weights = .ok g)
    (hflag : flag = true → Φᴴ * ws.matrix n * Φ = 1) (A : Matrix (Fin n) (Fin n) 𝕜) (R : Matrix (Fin r) (Fin r) 𝕜)
    (hR : (reduceAArrays (calls.foldl ArraysCall.after g) (A * Φ)).1 = .ok R) :
    KeepsEnergy (weightedIp (ws.matrix n)) (fun j i => Φ i j) A.mulVecLin R := by
  have h1 := (C38_arrays Φ none flag weights ws g calls hw hfit hg).1 r (A * Φ)
  have h2 := (C38_residual _ _ R hflag h1 hR R).mpr rfl
  refine keepsEnergy_of_residual (weightedIp_isInner hW) (fun i j => ?_) ?_
  · have h3 : (Φᴴ * ws.matrix n * (A * Φ - Φ * R)) i j = 0 := congrFun (congrFun h2 i) j
    rw [← weightedIp_entry] at h3
    rw [← h3]
    congr 1
    funext k
    rw [Pi.sub_apply, Finset.sum_apply, Matrix.sub_apply, Matrix.mul_apply, Matrix.mul_apply]
    congr 1
    refine Finset.sum_congr rfl fun l _ => ?_
    rw [Pi.smul_apply, smul_eq_mul, mul_comm]
  · rw [handlesIp_weighted]
    cases hf : flag with
    | true => rw [hflag hf, det_one]; exact isUnit_one
    | false =>
      by_contra hu
      have h3 := h1.singular hf hu
      rw [hR] at h3
      cases h3

end

/-! ### Examples -/

/-- A rotation with damping. -/
theorem rotation_damped (v : Fin 2 → ℝ) (hv : v ≠ 0) :
    RCLike.re (weightedIp (1 : Matrix (Fin 2) (Fin 2) ℝ) v ((!![-1, -4; 4, -1] : Matrix (Fin 2) (Fin 2) ℝ).mulVecLin v)) < 0 := by
  have h : v 0 ^ 2 + v 1 ^ 2 > 0 := by
    by_contra h
    apply hv
    funext i
    fin_cases i
    · change v 0 = 0
      nlinarith [sq_nonneg (v 0), sq_nonneg (v 1)]
    · change v 1 = 0
      nlinarith [sq_nonneg (v 0), sq_nonneg (v 1)]
  have : weightedIp (1 : Matrix (Fin 2) (Fin 2) ℝ) v ((!![-1, -4; 4, -1] : Matrix (Fin 2) (Fin 2) ℝ).mulVecLin v) =
      -(v 0 ^ 2 + v 1 ^ 2) := by
    change star v ⬝ᵥ ((1 : Matrix (Fin 2) (Fin 2) ℝ) *ᵥ _) = _
    rw [one_mulVec]
    simp [dotProduct, Fin.sum_univ_two, mulVec]
    ring
  rw [this, RCLike.re_to_real]
  linarith

/-- The hypotheses can be met: the model of the damped rotation with the state `(1, 1)` has the eigenvalue -1. -/
example : ∃ g, galerkinArraysInit false (!![1; 1] : Matrix (Fin 2) (Fin 1) ℝ) none false none = .ok g ∧
    (reduceAArrays g ((!![-1, -4; 4, -1] : Matrix (Fin 2) (Fin 2) ℝ) * (!![1; 1] : Matrix (Fin 2) (Fin 1) ℝ))).1 = .ok !![-1] ∧
    IsEigenvalue (!![-1] : Matrix (Fin 1) (Fin 1) ℝ) (-1) ∧ ((Weights.none (𝕜 := ℝ)).matrix 2).PosDef := by
  obtain ⟨g, hg, -⟩ := arraysInv_init (!![1; 1] : Matrix (Fin 2) (Fin 1) ℝ) none false none .none rfl
  obtain ⟨hA, -, -, -⟩ := C38_arrays (!![1; 1] : Matrix (Fin 2) (Fin 1) ℝ) none false none .none g [] rfl trivial hg
  have hu : IsUnit ((!![1; 1] : Matrix (Fin 2) (Fin 1) ℝ)ᴴ * (Weights.none (𝕜 := ℝ)).matrix 2 *
      (!![1; 1] : Matrix (Fin 2) (Fin 1) ℝ)).det := by
    simp [Weights.matrix, Matrix.mul_apply, Fin.sum_univ_two]
  have hAr := (hA 1 ((!![-1, -4; 4, -1] : Matrix (Fin 2) (Fin 2) ℝ) * (!![1; 1] : Matrix (Fin 2) (Fin 1) ℝ))).regular rfl hu
  have e1 := (C38_residual _ _ _ (fun h => by cases h) (hA 1 _) hAr !![-1]).mp (by
    ext i j
    fin_cases j
    simp [Weights.matrix, Matrix.mul_apply, Fin.sum_univ_two])
  refine ⟨g, hg, by rw [e1]; exact hAr, ⟨![1], ?_, ?_⟩, ?_⟩
  · intro h
    have := congrFun h 0
    simp at this
  · ext i
    fin_cases i
    simp [mulVec, dotProduct]
  · rw [show (Weights.none (𝕜 := ℝ)).matrix 2 = 1 from rfl]
    exact PosDef.one

/-- With an adjoint basis this does not hold: the same system, whose energy decays, gets a model with eigenvalue 3. -/
theorem C77_adjoint_basis_counterexample :
    (∀ v : Fin 2 → ℝ, v ≠ 0 → RCLike.re (weightedIp (1 : Matrix (Fin 2) (Fin 2) ℝ) v
      ((!![-1, -4; 4, -1] : Matrix (Fin 2) (Fin 2) ℝ).mulVecLin v)) < 0) ∧
    ∃ g, galerkinArraysInit false (!![1; 0] : Matrix (Fin 2) (Fin 1) ℝ) (some ⟨2, 1, !![1; 1]⟩) false none = .ok g ∧
      (reduceAArrays g ((!![-1, -4; 4, -1] : Matrix (Fin 2) (Fin 2) ℝ) * (!![1; 0] : Matrix (Fin 2) (Fin 1) ℝ))).1 = .ok !![3] := by
  refine ⟨rotation_damped, ?_⟩
  obtain ⟨g, hg, -⟩ := arraysInv_init (!![1; 0] : Matrix (Fin 2) (Fin 1) ℝ) (some !![1; 1]) false none .none rfl
  obtain ⟨hA, -, -, -⟩ := C38_arrays (!![1; 0] : Matrix (Fin 2) (Fin 1) ℝ) (some !![1; 1]) false none .none g [] rfl trivial hg
  have hu : IsUnit ((!![1; 1] : Matrix (Fin 2) (Fin 1) ℝ)ᴴ * (Weights.none (𝕜 := ℝ)).matrix 2 *
      (!![1; 0] : Matrix (Fin 2) (Fin 1) ℝ)).det := by
    simp [Weights.matrix, Matrix.mul_apply, Fin.sum_univ_two]
  have hAr := (hA 1 ((!![-1, -4; 4, -1] : Matrix (Fin 2) (Fin 2) ℝ) * (!![1; 0] : Matrix (Fin 2) (Fin 1) ℝ))).regular rfl hu
  have e1 := (C38_residual _ _ _ (fun h => by cases h) (hA 1 _) hAr !![3]).mp (by
    ext i j
    fin_cases j
    simp [Weights.matrix, Matrix.mul_apply, Fin.sum_univ_two]
    norm_num)
  refine ⟨g, hg, ?_⟩
  rw [e1]
  exact hAr

end Modred
