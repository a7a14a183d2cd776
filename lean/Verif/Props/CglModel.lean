import Verif.Props.Cgl
import Verif.Props.EraBpod
import Verif.Props.Balanced
import Verif.Lemmas.Cayley
import Mathlib.Data.List.GetD

/-!
# C74: impulse responses, modes and reduced model of the example
-/

namespace Modred

open Matrix

variable {𝕜 : Type*} [RCLike 𝕜]

/-! ### Impulse responses -/

/-- One step. -/
noncomputable def cayley {n : Nat} (A : Matrix (Fin n) (Fin n) 𝕜) (dt : ℝ) : Matrix (Fin n) (Fin n) 𝕜 :=
  (1 - ((dt / 2 : ℝ) : 𝕜) • A)⁻¹ * (1 + ((dt / 2 : ℝ) : 𝕜) • A)

theorem cglSteps_regular {n : Nat} (lhs rhs : Matrix (Fin n) (Fin n) 𝕜) (h : IsUnit lhs.det) (k : Nat) (q : Fin n → 𝕜) :
    cglSteps lhs rhs k q = .ok ((List.range (k + 1)).map fun j => (lhs⁻¹ * rhs) ^ j *ᵥ q) := by
  induction k generalizing q with
  | zero => simp [cglSteps]
  | succ k ih =>
    unfold cglSteps
    rw [show npSolve lhs (rhs *ᵥ q) = .ok (lhs⁻¹ *ᵥ (rhs *ᵥ q)) from if_pos h]
    dsimp only
    rw [ih, List.range_succ_eq_map (n := k + 1), List.map_cons, List.map_map, pow_zero, one_mulVec]
    dsimp only
    congr 3
    ext j
    rw [Function.comp, pow_succ, ← mulVec_mulVec, ← mulVec_mulVec]

theorem cglSteps_singular {n : Nat} (lhs rhs : Matrix (Fin n) (Fin n) 𝕜) (h : ¬ IsUnit lhs.det) (k : Nat) (q : Fin n → 𝕜) :
    cglSteps lhs rhs (k + 1) q = .error .linAlgError := by
  unfold cglSteps
  rw [show npSolve lhs (rhs *ᵥ q) = .error .linAlgError from if_neg h]

/-- When the steps can be taken, and what they are. -/
theorem cglSnapshots_ok_iff {n nt : Nat} (A : Matrix (Fin n) (Fin n) 𝕜) (dt : ℝ) (q0 : Fin n → 𝕜)
    (q : Matrix (Fin n) (Fin nt) 𝕜) : cglSnapshots A dt q0 nt = .ok q ↔
      nt ≠ 0 ∧ (2 ≤ nt → IsUnit (1 - ((dt / 2 : ℝ) : 𝕜) • A).det) ∧ q = Matrix.of fun i j => (cayley A dt ^ j.val *ᵥ q0) i := by
  unfold cglSnapshots
  by_cases h0 : nt = 0
  · rw [if_pos h0]
    simp [h0]
  rw [if_neg h0]
  dsimp only
  by_cases hu : IsUnit (1 - ((dt / 2 : ℝ) : 𝕜) • A).det
  · rw [cglSteps_regular _ _ hu]
    dsimp only
    have he : (Matrix.of fun (i : Fin n) (j : Fin nt) => ((List.range (nt - 1 + 1)).map fun j =>
        ((1 - ((dt / 2 : ℝ) : 𝕜) • A)⁻¹ * (1 + ((dt / 2 : ℝ) : 𝕜) • A)) ^ j *ᵥ q0).getD j 0 i) =
        Matrix.of fun i j => (cayley A dt ^ j.val *ᵥ q0) i := by
      ext i j
      have hj : j.val < nt - 1 + 1 := by omega
      rw [Matrix.of_apply, Matrix.of_apply, List.getD_eq_getElem _ _ (by simpa using hj), List.getElem_map,
        List.getElem_range]
      rfl
    rw [he]
    constructor
    · intro h
      cases h
      exact ⟨h0, fun _ => hu, rfl⟩
    · rintro ⟨-, -, rfl⟩
      rfl
  · rcases Nat.lt_or_ge nt 2 with h2 | h2
    · obtain rfl : nt = 1 := by omega
      constructor
      · intro h
        cases h
        refine ⟨h0, fun h => absurd h (by omega), ?_⟩
        ext i j
        obtain rfl : j = 0 := Subsingleton.elim _ _
        simp
      · rintro ⟨-, -, rfl⟩
        refine congrArg Except.ok ?_
        ext i j
        obtain rfl : j = 0 := Subsingleton.elim _ _
        simp
    · obtain ⟨k, rfl⟩ : ∃ k, nt = k + 2 := ⟨nt - 2, by omega⟩
      rw [show k + 2 - 1 = k + 1 by omega, cglSteps_singular _ _ hu]
      constructor
      · intro h
        cases h
      · rintro ⟨-, h, -⟩
        exact absurd (h h2) hu

/-- **C74.** The impulse responses are the steps of the trapezoidal rule in time. -/
theorem C74_crank_nicolson {n nt : Nat} (A : Matrix (Fin n) (Fin n) 𝕜) (dt : ℝ) (q0 : Fin n → 𝕜)
    (q : Matrix (Fin n) (Fin nt) 𝕜) (hq : cglSnapshots A dt q0 nt = .ok q) : CrankNicolson A dt q0 q := by
  obtain ⟨h0, hu, rfl⟩ := (cglSnapshots_ok_iff A dt q0 q).mp hq
  refine ⟨fun j hj => ?_, fun j j' hj => ?_⟩
  · ext i
    rw [Matrix.of_apply, hj, pow_zero, one_mulVec]
  · have hu := hu (by omega)
    simp only [Matrix.of_apply]
    rw [hj, pow_succ', ← mulVec_mulVec]
    change cayley A dt *ᵥ (cayley A dt ^ j.val *ᵥ q0) - cayley A dt ^ j.val *ᵥ q0 = _ • (A *ᵥ (cayley A dt *ᵥ (cayley A dt ^ j.val *ᵥ q0)) + A *ᵥ (cayley A dt ^ j.val *ᵥ q0))
    generalize cayley A dt ^ j.val *ᵥ q0 = z
    have h1 : (1 - ((dt / 2 : ℝ) : 𝕜) • A) *ᵥ (cayley A dt *ᵥ z) = (1 + ((dt / 2 : ℝ) : 𝕜) • A) *ᵥ z := by
      rw [mulVec_mulVec, cayley, ← Matrix.mul_assoc, mul_nonsing_inv _ hu, Matrix.one_mul]
    rw [sub_mulVec, add_mulVec, one_mulVec, one_mulVec, smul_mulVec, smul_mulVec] at h1
    rw [smul_add, sub_eq_iff_eq_add, add_assoc, add_comm (_ • _) z, add_comm, ← sub_eq_iff_eq_add]
    exact h1

/-- **C74.** They are computed unless there are none or the array on the left of the steps is singular. -/
theorem C74_snapshots_error {n nt : Nat} (A : Matrix (Fin n) (Fin n) 𝕜) (dt : ℝ) (q0 : Fin n → 𝕜) :
    (cglSnapshots A dt q0 nt = .error .indexError ↔ nt = 0) ∧
    (cglSnapshots A dt q0 nt = .error .linAlgError ↔ 2 ≤ nt ∧ ¬ IsUnit (1 - ((dt / 2 : ℝ) : 𝕜) • A).det) ∧
    ((∃ q, cglSnapshots A dt q0 nt = .ok q) ↔ nt ≠ 0 ∧ (2 ≤ nt → IsUnit (1 - ((dt / 2 : ℝ) : 𝕜) • A).det)) := by
  have h3 : (∃ q, cglSnapshots A dt q0 nt = .ok q) ↔ nt ≠ 0 ∧ (2 ≤ nt → IsUnit (1 - ((dt / 2 : ℝ) : 𝕜) • A).det) := by
    simp only [cglSnapshots_ok_iff]
    exact ⟨fun ⟨q, h1, h2, _⟩ => ⟨h1, h2⟩, fun ⟨h1, h2⟩ => ⟨_, h1, h2, rfl⟩⟩
  by_cases h0 : nt = 0
  · subst h0
    have : cglSnapshots A dt q0 0 = .error .indexError := rfl
    refine ⟨by simp [this], ?_, h3⟩
    rw [this]
    simp
  by_cases hu : 2 ≤ nt → IsUnit (1 - ((dt / 2 : ℝ) : 𝕜) • A).det
  · obtain ⟨q, hq⟩ := h3.mpr ⟨h0, hu⟩
    refine ⟨?_, ?_, h3⟩
    · rw [hq]
      simp [h0]
    · rw [hq]
      simpa using hu
  · push Not at hu
    have : cglSnapshots A dt q0 nt = .error .linAlgError := by
      unfold cglSnapshots
      rw [if_neg h0]
      dsimp only
      rw [show nt - 1 = nt - 2 + 1 by omega, cglSteps_singular _ _ hu.2]
    refine ⟨?_, ?_, h3⟩
    · rw [this]
      simp [h0]
    · rw [this]
      simpa using hu

/-! ### Adjoint impulse responses -/

section

variable {n : Nat} (w : Fin n → ℝ) (hw : ∀ i, w i ≠ 0) (A : Matrix (Fin n) (Fin n) 𝕜) (dt : ℝ)

include hw in
theorem weights_inverse : diagonal (fun i => (w i : 𝕜)⁻¹) * diagonal (fun i => (w i : 𝕜)) = 1 ∧
    diagonal (fun i => (w i : 𝕜)) * diagonal (fun i => (w i : 𝕜)⁻¹) = 1 := by
  have h : ∀ i, (w i : 𝕜) ≠ 0 := fun i => by exact_mod_cast hw i
  rw [diagonal_mul_diagonal, diagonal_mul_diagonal, ← diagonal_one]
  exact ⟨congrArg _ (funext fun i => inv_mul_cancel₀ (h i)), congrArg _ (funext fun i => mul_inv_cancel₀ (h i))⟩

include hw in
theorem adjoint_conj (c : ℝ) (M : Matrix (Fin n) (Fin n) 𝕜)
    (hM : M = 1 + (c : 𝕜) • A) : 1 + (c : 𝕜) • (diagonal (fun i => (w i : 𝕜)⁻¹) * (Aᴴ * diagonal fun i => (w i : 𝕜))) =
      diagonal (fun i => (w i : 𝕜)⁻¹) * (Mᴴ * diagonal fun i => (w i : 𝕜)) := by
  have hc : star (c : 𝕜) = c := by rw [RCLike.star_def, RCLike.conj_ofReal]
  rw [hM, conjTranspose_add, conjTranspose_one, conjTranspose_smul, hc, Matrix.add_mul, Matrix.one_mul, Matrix.mul_add,
    (weights_inverse w hw).1, Matrix.smul_mul, Matrix.mul_smul]

/-- The sign of the half step. -/
theorem half_step_neg : (1 : Matrix (Fin n) (Fin n) 𝕜) - ((dt / 2 : ℝ) : 𝕜) • A = 1 + ((-(dt / 2) : ℝ) : 𝕜) • A := by
  rw [RCLike.ofReal_neg, neg_smul, sub_eq_add_neg]

include hw in
theorem adjoint_regular :
    IsUnit (1 - ((dt / 2 : ℝ) : 𝕜) • (diagonal (fun i => (w i : 𝕜)⁻¹) * (Aᴴ * diagonal fun i => (w i : 𝕜)))).det ↔
      IsUnit (1 - ((dt / 2 : ℝ) : 𝕜) • A).det := by
  rw [half_step_neg, adjoint_conj w hw A _ _ rfl, half_step_neg, det_mul, det_mul, det_conjTranspose,
    mul_comm _ (det (diagonal fun i => (w i : 𝕜))), ← mul_assoc, ← det_mul, (weights_inverse w hw).1, det_one, one_mul]
  exact isUnit_star

include hw in
/-- The adjoint step is the adjoint of the step. -/
theorem cayley_adjoint :
    (cayley (diagonal (fun i => (w i : 𝕜)⁻¹) * (Aᴴ * diagonal fun i => (w i : 𝕜))) dt)ᴴ * diagonal (fun i => (w i : 𝕜)) =
      diagonal (fun i => (w i : 𝕜)) * cayley A dt := by
  obtain ⟨h1, h2⟩ := weights_inverse (𝕜 := 𝕜) w hw
  have hWh : (diagonal fun i => (w i : 𝕜))ᴴ = diagonal fun i => (w i : 𝕜) := by
    rw [diagonal_conjTranspose]
    congr 1
    ext i
    rw [Pi.star_apply, RCLike.star_def, RCLike.conj_ofReal]
  have hWi : (diagonal fun i => (w i : 𝕜)⁻¹)ᴴ = diagonal fun i => (w i : 𝕜)⁻¹ := by
    rw [diagonal_conjTranspose]
    congr 1
    ext i
    rw [Pi.star_apply, RCLike.star_def, map_inv₀, RCLike.conj_ofReal]
  unfold cayley
  rw [adjoint_conj w hw A (dt / 2) _ rfl, half_step_neg _ dt, adjoint_conj w hw A _ _ rfl, half_step_neg]
  have hcomm : (1 + ((-(dt / 2) : ℝ) : 𝕜) • A) * (1 + ((dt / 2 : ℝ) : 𝕜) • A) =
      (1 + ((dt / 2 : ℝ) : 𝕜) • A) * (1 + ((-(dt / 2) : ℝ) : 𝕜) • A) := by
    simp only [Matrix.add_mul, Matrix.mul_add, Matrix.one_mul, Matrix.mul_one, Matrix.smul_mul, Matrix.mul_smul, smul_add,
      smul_smul]
    rw [mul_comm ((dt / 2 : ℝ) : 𝕜)]
    generalize ((-(dt / 2) : ℝ) : 𝕜) = a
    abel
  generalize 1 + ((-(dt / 2) : ℝ) : 𝕜) • A = L at *
  generalize 1 + ((dt / 2 : ℝ) : 𝕜) • A = R at *
  generalize diagonal (fun i => (w i : 𝕜)) = W at *
  generalize diagonal (fun i => (w i : 𝕜)⁻¹) = Wi at *
  have h3 : W⁻¹ = Wi := inv_eq_left_inv h1
  have h4 : Wi⁻¹ = W := inv_eq_left_inv h2
  have hLR : R * L⁻¹ = L⁻¹ * R := by
    by_cases hu : IsUnit L.det
    · calc R * L⁻¹ = L⁻¹ * L * R * L⁻¹ := by rw [nonsing_inv_mul _ hu, Matrix.one_mul]
        _ = L⁻¹ * (R * L) * L⁻¹ := by rw [← hcomm]; simp only [Matrix.mul_assoc]
        _ = L⁻¹ * R := by rw [Matrix.mul_assoc, Matrix.mul_assoc R, mul_nonsing_inv _ hu, Matrix.mul_one]
    · rw [nonsing_inv_apply_not_isUnit _ hu, Matrix.mul_zero, Matrix.zero_mul]
  have h5 : (Wi * (Lᴴ * W))⁻¹ * (Wi * (Rᴴ * W)) = Wi * ((Lᴴ)⁻¹ * Rᴴ) * W := by
    rw [Matrix.mul_inv_rev, Matrix.mul_inv_rev, h3, h4]
    calc Wi * (Lᴴ)⁻¹ * W * (Wi * (Rᴴ * W)) = Wi * (Lᴴ)⁻¹ * (W * Wi) * (Rᴴ * W) := by simp only [Matrix.mul_assoc]
      _ = _ := by rw [h2, Matrix.mul_one]; simp only [Matrix.mul_assoc]
  rw [h5, conjTranspose_mul, conjTranspose_mul, conjTranspose_mul, conjTranspose_conjTranspose, hWh, hWi,
    conjTranspose_nonsing_inv, conjTranspose_conjTranspose, Matrix.mul_assoc, Matrix.mul_assoc, h1, Matrix.mul_one, hLR]

/-- Inner products of columns. -/
theorem weighted_entry {l m : Nat} (Y : Matrix (Fin n) (Fin l) 𝕜) (X : Matrix (Fin n) (Fin m) 𝕜) (i : Fin l) (j : Fin m) :
    (Yᴴ * diagonal (fun k => (w k : 𝕜)) * X) i j = nodeIp w (fun k => Y k i) fun k => X k j := by
  rw [Matrix.mul_apply]
  unfold nodeIp
  refine Finset.sum_congr rfl fun k _ => ?_
  rw [mul_diagonal, conjTranspose_apply, mul_assoc]

end

/-! ### The model -/

/-- The weights as they are passed. -/
noncomputable def cglNd {N : Nat} (w : Fin (N + 1) → ℝ) : NdArray 𝕜 :=
  ⟨[N + 1], fun i => if h : i < N + 1 then (w ⟨i, h⟩ : 𝕜) else 0⟩

theorem cglNd_init {N : Nat} (hN : 1 ≤ N) (w : Fin (N + 1) → ℝ) :
    ∃ ws, arraysInit (some (cglNd (𝕜 := 𝕜) w)) = .ok ws ∧ ws.Fits (N + 1) ∧ ws.matrix (N + 1) = diagonal fun i => (w i : 𝕜) := by
  refine ⟨.d1 (N + 1) (cglNd (𝕜 := 𝕜) w).data, ?_, rfl, ?_⟩
  · unfold arraysInit
    have : (cglNd (𝕜 := 𝕜) w).squeeze.shape = [N + 1] := by
      simp [NdArray.squeeze, cglNd]
      omega
    dsimp only
    rw [this]
    rfl
  · unfold Weights.matrix cglNd
    dsimp only
    congr 1
    ext i
    rw [dif_pos i.isLt]

section

variable {N : Nat} (svd : ∀ {m n : Nat}, Matrix (Fin m) (Fin n) 𝕜 → SvdOut 𝕜 m n) (dt : ℝ) (nt r : Nat) (s : CglSystem 𝕜 N)

theorem cglModel_eq (hN : 1 ≤ N) {q qAdj : Matrix (Fin (N + 1)) (Fin nt) 𝕜} (hq : cglSnapshots s.A dt s.B nt = .ok q)
    (hqAdj : cglSnapshots s.Aadj dt s.Cadj nt = .ok qAdj) {rr S Φ Ψ c1 c2 L R H}
    (hb : bpodArrays svd q qAdj 1 1 (some ((List.range r).map Int.ofNat)) (some ((List.range r).map Int.ofNat))
      (some (cglNd (𝕜 := 𝕜) s.weights)) (some svdAtol) none = .ok ⟨rr, S, ⟨r, Φ⟩, ⟨r, Ψ⟩, c1, c2, L, R, H⟩) :
    cglModel svd dt nt r s =
      match cglSnapshots (Ψᴴ * diagonal (fun i => (s.weights i : 𝕜)) * (s.A * Φ)) dt
        (fun i => (Ψᴴ * diagonal (fun i => (s.weights i : 𝕜)) * Matrix.of fun i (_ : Fin 1) => s.B i) i 0) nt with
      | .error e => .error e
      | .ok qr => .ok ⟨q, qAdj, ⟨rr, S, ⟨r, Φ⟩, ⟨r, Ψ⟩, c1, c2, L, R, H⟩,
        Ψᴴ * diagonal (fun i => (s.weights i : 𝕜)) * (s.A * Φ),
        fun i => (Ψᴴ * diagonal (fun i => (s.weights i : 𝕜)) * Matrix.of fun i (_ : Fin 1) => s.B i) i 0,
        s.C ᵥ* Φ, s.C ᵥ* q, (s.C ᵥ* Φ) ᵥ* qr⟩ := by
  obtain ⟨ws, h1, h2, h3⟩ := cglNd_init (𝕜 := 𝕜) hN s.weights
  unfold cglModel
  rw [hq]
  dsimp only
  rw [hqAdj]
  dsimp only
  unfold cglNd at hb
  rw [hb]
  dsimp only
  have hg : galerkinArraysInit false Φ (some ⟨N + 1, r, Ψ⟩) true (some (cglNd (𝕜 := 𝕜) s.weights)) =
      .ok ⟨Φ, Ψ, false, true, ws, none, none, none, none⟩ := by
    unfold galerkinArraysInit
    rw [if_neg (by simp)]
    dsimp only
    rw [dif_pos ⟨rfl, rfl⟩, h1]
    rfl
  rw [show galerkinArraysInit false Φ (some ⟨N + 1, r, Ψ⟩) true
    (some ⟨[N + 1], fun i => if h : i < N + 1 then (s.weights ⟨i, h⟩ : 𝕜) else 0⟩) = _ from hg]
  dsimp only
  unfold reduceAArrays reduceBArrays
  dsimp only
  rw [C45_formula ws h2]
  dsimp only
  rw [if_pos rfl]
  dsimp only
  rw [C45_formula ws h2]
  dsimp only
  rw [if_pos rfl, h3]
  dsimp only
  cases cglSnapshots (Ψᴴ * diagonal (fun i => (s.weights i : 𝕜)) * (s.A * Φ)) dt
    (fun i => (Ψᴴ * diagonal (fun i => (s.weights i : 𝕜)) * Matrix.of fun i (_ : Fin 1) => s.B i) i 0) nt <;> rfl

/-- What the model consists of. -/
theorem cglModel_cases (hN : 1 ≤ N) (res : CglResult 𝕜 (N + 1) nt) (hres : cglModel svd dt nt r s = .ok res) :
    ∃ q qAdj ws rows sv qr, ∃ hr : r ≤ sv.r,
      cglSnapshots s.A dt s.B nt = .ok q ∧ cglSnapshots s.Aadj dt s.Cadj nt = .ok qAdj ∧
      arraysInit (some (cglNd (𝕜 := 𝕜) s.weights)) = .ok ws ∧ ws.Fits (N + 1) ∧
      ws.matrix (N + 1) = (diagonal fun i => (s.weights i : 𝕜)) ∧
      utilSvd svd (ofRows nt nt rows) (some svdAtol) none = .ok sv ∧
      let Φ := q * (sv.V * diagPow (𝕜 := 𝕜) sv.S (-0.5)).submatrix id (Fin.castLE hr)
      let Ψ := qAdj * (sv.U * diagPow (𝕜 := 𝕜) sv.S (-0.5)).submatrix id (Fin.castLE hr)
      let bpod : BpodResult 𝕜 (N + 1) nt nt := ⟨sv.r, sv.S, ⟨r, Φ⟩, ⟨r, Ψ⟩, diagPow (𝕜 := 𝕜) sv.S 0.5 * sv.Vᴴ,
        diagPow (𝕜 := 𝕜) sv.S 0.5 * sv.Uᴴ, sv.U, sv.V, ofRows nt nt rows⟩
      bpodArrays svd q qAdj 1 1 (some ((List.range r).map Int.ofNat)) (some ((List.range r).map Int.ofNat))
        (some (cglNd (𝕜 := 𝕜) s.weights)) (some svdAtol) none = .ok bpod ∧
      cglSnapshots (Ψᴴ * diagonal (fun i => (s.weights i : 𝕜)) * (s.A * Φ)) dt
        (fun i => (Ψᴴ * diagonal (fun i => (s.weights i : 𝕜)) * Matrix.of fun i (_ : Fin 1) => s.B i) i 0) nt = .ok qr ∧
      res = ⟨q, qAdj, bpod, Ψᴴ * diagonal (fun i => (s.weights i : 𝕜)) * (s.A * Φ),
        fun i => (Ψᴴ * diagonal (fun i => (s.weights i : 𝕜)) * Matrix.of fun i (_ : Fin 1) => s.B i) i 0,
        s.C ᵥ* Φ, s.C ᵥ* q, (s.C ᵥ* Φ) ᵥ* qr⟩ := by
  obtain ⟨ws, h1, h2, h3⟩ := cglNd_init (𝕜 := 𝕜) hN s.weights
  have hres' := hres
  unfold cglModel at hres
  split at hres
  · cases hres
  rename_i q hq
  split at hres
  · cases hres
  rename_i qAdj hqAdj
  dsimp only at hres
  split at hres
  · cases hres
  rename_i bpod hb
  obtain ⟨rows, sv, dm, am, hrows, -, hsv, hdm, ham, rfl⟩ := bpodArrays_cases svd q qAdj 1 1 _ _ _ ws _ _ h1 h2 bpod hb
  obtain ⟨hr, rfl⟩ := linCombineArrays_range _ _ _ hdm
  obtain ⟨hr', rfl⟩ := linCombineArrays_range _ _ _ ham
  rw [cglModel_eq svd dt nt r s hN hq hqAdj hb] at hres'
  split at hres'
  · cases hres'
  rename_i qr hqr
  cases hres'
  exact ⟨q, qAdj, ws, rows, sv, qr, hr, hq, hqAdj, h1, h2, h3, hsv, hb, hqr, rfl⟩

end

/-! ### Properties of the model -/

theorem cglSystem_nodes {N : Nat} {x w : Fin (N + 1) → ℝ} (hw : cglWeights x = .ok w) : 1 ≤ N := by
  unfold cglWeights at hw
  split at hw
  · omega
  · cases hw

section

variable {N : Nat} {svd : ∀ {m n : Nat}, Matrix (Fin m) (Fin n) 𝕜 → SvdOut 𝕜 m n} {steps : Nat} {x : Fin (N + 1) → ℝ}
  {A Adiscrete : Matrix (Fin (N + 1)) (Fin (N + 1)) 𝕜} {sensor : Fin (N + 1) → ℝ} {s : CglSystem 𝕜 N}
  (hs : cglSystem svd steps x A Adiscrete sensor = .ok s) (dt : ℝ) (nt r : Nat)

include hs in
/-- The array of `compute_BPOD_arrays`. -/
theorem cgl_hankel {ws : Weights 𝕜} (h1 : arraysInit (some (cglNd (𝕜 := 𝕜) s.weights)) = .ok ws)
    (h2 : ws.Fits (N + 1)) (h3 : ws.matrix (N + 1) = diagonal fun i => (s.weights i : 𝕜)) (idx : Option (List Int))
    (bpod : BpodResult 𝕜 (N + 1) nt nt)
    (hb : bpodArrays svd (Matrix.of fun i (j : Fin nt) => (cayley s.A dt ^ j.val *ᵥ s.B) i)
      (Matrix.of fun i (j : Fin nt) => (cayley s.Aadj dt ^ j.val *ᵥ s.Cadj) i) 1 1 idx idx
      (some (cglNd (𝕜 := 𝕜) s.weights)) (some svdAtol) none = .ok bpod) :
    bpod.hankel = (Matrix.of fun i (j : Fin nt) => (cayley s.Aadj dt ^ j.val *ᵥ s.Cadj) i)ᴴ *
      diagonal (fun i => (s.weights i : 𝕜)) * (Matrix.of fun i (j : Fin nt) => (cayley s.A dt ^ j.val *ᵥ s.B) i) ∧
    ∀ i j, bpod.hankel i j = s.C ⬝ᵥ (cayley s.A dt ^ (i.val + j.val) *ᵥ s.B) := by
  obtain ⟨k1, k2, k3, k4, k5, k6, -⟩ := cglSystem_cases hs
  have hcol : ∀ (M : Matrix (Fin (N + 1)) (Fin (N + 1)) 𝕜) (v : Fin (N + 1) → 𝕜) i (j : Fin 1),
      (M * Matrix.of fun i (_ : Fin 1) => v i) i j = (M *ᵥ v) i := fun _ _ _ _ => rfl
  obtain ⟨h4, h5⟩ := C25_arrays svd _ _ 1 1 _ _ _ ws _ _ le_rfl le_rfl h1 h2 (cayley s.A dt) (cayley s.Aadj dt)
    (Matrix.of fun i (_ : Fin 1) => s.B i) (Matrix.of fun i (_ : Fin 1) => s.Cadj i)
    (by rw [h3, k5, k3]; exact cayley_adjoint s.weights k2 A dt)
    (fun i j => by rw [hcol, Nat.div_one, Matrix.of_apply]) (fun i j => by rw [hcol, Nat.div_one, Matrix.of_apply]) bpod hb
  rw [h3] at h4 h5
  refine ⟨h4, fun i j => ?_⟩
  rw [h5, Nat.div_one, Nat.div_one, Matrix.mul_assoc (_ * _), weighted_entry, ← (C74_adjoint svd steps x A Adiscrete sensor s hs).2.1]
  rfl

include hs in
/-- **C74.** Whatever can be computed of the direct impulse response can be computed of the adjoint one. -/
theorem C74_adjoint_snapshots :
    (∃ q, cglSnapshots s.A dt s.B nt = .ok q) ↔ ∃ q, cglSnapshots s.Aadj dt s.Cadj nt = .ok q := by
  obtain ⟨k1, k2, k3, k4, k5, k6, -⟩ := cglSystem_cases hs
  rw [(C74_snapshots_error _ _ _).2.2, (C74_snapshots_error _ _ _).2.2, k5, k3, adjoint_regular s.weights k2 A dt]

include hs in
/-- **C74.** The Hankel array has all inner products of adjoint and direct vectors, though only the first column and the
last row are computed, and these are the outputs. -/
theorem C74_hankel (res : CglResult 𝕜 (N + 1) nt) (hres : cglModel svd dt nt r s = .ok res) (i j : Fin nt) :
    CrankNicolson s.A dt s.B res.q ∧ CrankNicolson s.Aadj dt s.Cadj res.qAdj ∧
    res.bpod.hankel i j = nodeIp s.weights (fun k => res.qAdj k i) (fun k => res.q k j) ∧
    ∀ l : Fin nt, l.val = i.val + j.val → res.bpod.hankel i j = res.y l ∧
      res.y l = trapezoidalRule x fun k => (sensor k : 𝕜) * res.q k l := by
  obtain ⟨k1, k2, k3, k4, k5, k6, -⟩ := cglSystem_cases hs
  obtain ⟨q, qAdj, ws, rows, sv, qr, hr, hq, hqAdj, h1, h2, h3, hsv, hb, hqr, rfl⟩ :=
    cglModel_cases svd dt nt r s (cglSystem_nodes k1) res hres
  dsimp only
  obtain ⟨h0, -, rfl⟩ := (cglSnapshots_ok_iff _ _ _ _).mp hq
  obtain ⟨-, -, rfl⟩ := (cglSnapshots_ok_iff _ _ _ _).mp hqAdj
  obtain ⟨h4, h5⟩ := cgl_hankel hs dt nt h1 h2 h3 _ _ hb
  refine ⟨C74_crank_nicolson _ _ _ _ hq, C74_crank_nicolson _ _ _ _ hqAdj, ?_, fun l hl => ⟨?_, ?_⟩⟩
  · dsimp only at h4
    rw [h4, weighted_entry]
  · dsimp only at h5
    rw [h5, ← hl]
    rfl
  · exact (C74_adjoint svd steps x A Adiscrete sensor s hs).2.2 _

variable (hlib : ∀ {m n : Nat} (a : Matrix (Fin m) (Fin n) 𝕜), IsSvd a (svd a))

include hs hlib in
/-- **C74.** There are as many modes as asked for, they are biorthonormal, as the script says with
`is_basis_orthonormal`, and the reduced arrays are inner products of adjoint modes with what the system does to the direct
modes. -/
theorem C74_model (res : CglResult 𝕜 (N + 1) nt) (hres : cglModel svd dt nt r s = .ok res) :
    res.bpod.directModes.k = r ∧ res.bpod.adjointModes.k = r ∧
    (∀ (i : Fin res.bpod.adjointModes.k) (j : Fin res.bpod.directModes.k),
      nodeIp s.weights (fun k => res.bpod.adjointModes.a k i) (fun k => res.bpod.directModes.a k j) =
        if i.val = j.val then 1 else 0) ∧
    (∀ (i j : Fin res.bpod.directModes.k) (i' : Fin res.bpod.adjointModes.k), i'.val = i.val →
      res.Ar i j = nodeIp s.weights (fun k => res.bpod.adjointModes.a k i') (s.A *ᵥ fun k => res.bpod.directModes.a k j)) ∧
    (∀ (i : Fin res.bpod.directModes.k) (i' : Fin res.bpod.adjointModes.k), i'.val = i.val →
      res.Br i = nodeIp s.weights (fun k => res.bpod.adjointModes.a k i') s.B) ∧
    (∀ j : Fin res.bpod.directModes.k,
      res.Cr j = trapezoidalRule x fun k => (sensor k : 𝕜) * res.bpod.directModes.a k j) ∧
    ∃ qr, CrankNicolson res.Ar dt res.Br qr ∧ ∀ l : Fin nt, res.yr l = res.Cr ⬝ᵥ fun i => qr i l := by
  obtain ⟨k1, k2, k3, k4, k5, k6, -⟩ := cglSystem_cases hs
  obtain ⟨q, qAdj, ws, rows, sv, qr, hr, hq, hqAdj, h1, h2, h3, hsv, hb, hqr, rfl⟩ :=
    cglModel_cases svd dt nt r s (cglSystem_nodes k1) res hres
  obtain ⟨h0, -, rfl⟩ := (cglSnapshots_ok_iff _ _ _ _).mp hq
  obtain ⟨-, -, rfl⟩ := (cglSnapshots_ok_iff _ _ _ _).mp hqAdj
  obtain ⟨h4, -⟩ := cgl_hankel hs dt nt h1 h2 h3 _ _ hb
  dsimp only at h4 hqr ⊢
  generalize (Matrix.of fun i (j : Fin nt) => (cayley s.A dt ^ j.val *ᵥ s.B) i) = X at *
  generalize (Matrix.of fun i (j : Fin nt) => (cayley s.Aadj dt ^ j.val *ᵥ s.Cadj) i) = Y at *
  generalize ofRows nt nt rows = H at *
  obtain ⟨-, hV, hHV, hHU⟩ := utilSvd_triples svd H _ _ (hlib _) sv hsv
  have hS : ∀ i, 0 < sv.S i := fun i => svdAtol_pos.trans (utilSvd_positive svd H none svdAtol (by simp) (hlib _) sv hsv i)
  have hone := balance_one hS hV hHU
  rw [h4] at hone
  refine ⟨rfl, rfl, fun i j => ?_, fun i j i' hi => ?_, fun i i' hi => ?_, fun j => ?_, qr,
    C74_crank_nicolson _ _ _ _ hqr, fun l => rfl⟩
  · change nodeIp s.weights (fun k => (Y * (sv.U * diagPow (𝕜 := 𝕜) sv.S (-0.5))) k (Fin.castLE hr i))
      (fun k => (X * (sv.V * diagPow (𝕜 := 𝕜) sv.S (-0.5))) k (Fin.castLE hr j)) = _
    have hone' : (Y * (sv.U * diagPow (𝕜 := 𝕜) sv.S (-0.5)))ᴴ * diagonal (fun i => (s.weights i : 𝕜)) *
        (X * (sv.V * diagPow (𝕜 := 𝕜) sv.S (-0.5))) = 1 := by
      rw [← hone, conjTranspose_mul Y]
      simp only [Matrix.mul_assoc]
    rw [← weighted_entry, hone', Matrix.one_apply]
    simp only [Fin.ext_iff, Fin.val_castLE]
  · obtain rfl : i' = i := Fin.ext hi
    rw [weighted_entry]
    rfl
  · obtain rfl : i' = i := Fin.ext hi
    rw [weighted_entry]
    rfl
  · exact (C74_adjoint svd steps x A Adiscrete sensor s hs).2.2 _

include hs hlib in
/-- **C74.** If there are at least as many snapshots as nodes, no nonzero singular value is truncated and the number of
modes is the rank of the Hankel array, the reduced model is computed and has the outputs of the full one. -/
theorem C74_exact (hnt : N + 1 ≤ nt) (hu : IsUnit (1 - ((dt / 2 : ℝ) : 𝕜) • s.A).det) (y : Nat → 𝕜)
    (hy : ∀ k, y k = s.C ⬝ᵥ (((1 - ((dt / 2 : ℝ) : 𝕜) • s.A)⁻¹ * (1 + ((dt / 2 : ℝ) : 𝕜) • s.A)) ^ k *ᵥ s.B))
    (H : Matrix (Fin nt) (Fin nt) 𝕜) (hH : H = Matrix.of fun i j => y (i.val + j.val))
    (hz : ∀ i, (svd H).S i ≠ 0 → svdAtol < (svd H).S i) (hr : r = H.rank) :
    ∃ res, cglModel svd dt nt r s = .ok res ∧ ∀ l : Fin nt, res.yr l = y l ∧ res.y l = y l := by
  obtain ⟨k1, k2, k3, k4, k5, k6, -⟩ := cglSystem_cases hs
  have hN := cglSystem_nodes k1
  have hu' : IsUnit (1 - ((dt / 2 : ℝ) : 𝕜) • s.Aadj).det := by
    rw [k5, adjoint_regular s.weights k2 A dt, ← k3]
    exact hu
  have hq := (cglSnapshots_ok_iff s.A dt s.B (nt := nt) _).mpr ⟨by omega, fun _ => hu, rfl⟩
  have hqAdj := (cglSnapshots_ok_iff s.Aadj dt s.Cadj (nt := nt) _).mpr ⟨by omega, fun _ => hu', rfl⟩
  obtain ⟨ws, h1, h2, h3⟩ := cglNd_init (𝕜 := 𝕜) hN s.weights
  obtain ⟨b0, hb0⟩ := C25_no_error svd (Matrix.of fun i (j : Fin nt) => (cayley s.A dt ^ j.val *ᵥ s.B) i)
    (Matrix.of fun i (j : Fin nt) => (cayley s.Aadj dt ^ j.val *ᵥ s.Cadj) i) 1 1 (some (cglNd (𝕜 := 𝕜) s.weights)) ws
    (some svdAtol) none le_rfl le_rfl (one_dvd _) (one_dvd _) (by omega) (by omega) h1 h2
  have hrank : ∀ (bpod : BpodResult 𝕜 (N + 1) nt nt) (idx : Option (List Int)),
      bpodArrays svd (Matrix.of fun i (j : Fin nt) => (cayley s.A dt ^ j.val *ᵥ s.B) i)
        (Matrix.of fun i (j : Fin nt) => (cayley s.Aadj dt ^ j.val *ᵥ s.Cadj) i) 1 1 idx idx
        (some (cglNd (𝕜 := 𝕜) s.weights)) (some svdAtol) none = .ok bpod → bpod.hankel = H ∧ bpod.r = r := by
    intro bpod idx hb
    have hh := (cgl_hankel hs dt nt h1 h2 h3 _ _ hb).2
    have hHH : bpod.hankel = H := by
      ext i j
      rw [hh, hH, Matrix.of_apply, hy]
      rfl
    refine ⟨hHH, ?_⟩
    obtain ⟨rows, sv, dm, am, hrows, -, hsv, hdm, ham, rfl⟩ := bpodArrays_cases svd _ _ 1 1 _ _ _ ws _ _ h1 h2 bpod hb
    dsimp only at hHH ⊢
    rw [hHH] at hsv
    rw [hr]
    exact utilSvd_rank svd H svdAtol svdAtol_pos.le (hlib _) hz sv hsv
  obtain ⟨bpod, hb⟩ := (C61_number_of_modes (r := r) svd _ _ _ ws h1 h2 _ _ b0 hb0).mpr (hrank b0 _ hb0).2.ge
  obtain ⟨hHH, hbr⟩ := hrank bpod _ hb
  have hh := (cgl_hankel hs dt nt h1 h2 h3 _ _ hb).1
  obtain ⟨rows, sv, dm, am, hrows, -, hsv, hdm, ham, rfl⟩ := bpodArrays_cases svd _ _ 1 1 _ _ _ ws _ _ h1 h2 bpod hb
  obtain ⟨hle, rfl⟩ := linCombineArrays_range _ _ _ hdm
  obtain ⟨hle', rfl⟩ := linCombineArrays_range _ _ _ ham
  dsimp only at hHH hh hbr
  rw [hHH] at hsv hh
  obtain ⟨hU, hV, hHV, hHU⟩ := utilSvd_triples svd H _ _ (hlib _) sv hsv
  have hS : ∀ i, 0 < sv.S i := fun i => svdAtol_pos.trans (utilSvd_positive svd H none svdAtol (by simp) (hlib _) sv hsv i)
  have hspan : H * sv.V * sv.Vᴴ = H := by
    refine span_of_rank (Z := sv.U * diagPow (𝕜 := 𝕜) sv.S (-1)) hV ?_ (hbr.trans hr)
    rw [← Matrix.mul_assoc, hHU, Matrix.mul_assoc, diagPow_mul _ hS, add_neg_cancel, diagPow_zero, Matrix.mul_one]
  have hone := balance_one hS hV hHU
  have hleft := balance_left hS hHU
  subst hbr
  have hid : ∀ M : Matrix (Fin nt) (Fin sv.r) 𝕜, M.submatrix id (Fin.castLE hle) = M := fun M => by ext i j; rfl
  have hm := cglModel_eq svd dt nt sv.r s hN hq hqAdj hb
  have hO : ∀ i, ((Matrix.of fun i (j : Fin nt) => (cayley s.Aadj dt ^ j.val *ᵥ s.Cadj) i)ᴴ *
      diagonal (fun i => (s.weights i : 𝕜))) i = s.C ᵥ* cayley s.A dt ^ i.val := by
    intro i
    have ha : (cayley s.Aadj dt)ᴴ * diagonal (fun i => (s.weights i : 𝕜)) =
        diagonal (fun i => (s.weights i : 𝕜)) * cayley s.A dt := by
      rw [k5, k3]
      exact cayley_adjoint s.weights k2 A dt
    change star (cayley s.Aadj dt ^ i.val *ᵥ s.Cadj) ᵥ* diagonal (fun i => (s.weights i : 𝕜)) = _
    rw [star_mulVec, vecMul_vecMul, pow_adjoint _ _ _ ha, ← vecMul_vecMul]
    congr 1
    ext k
    rw [vecMul_diagonal, k4, k6, Pi.star_apply, RCLike.star_def, RCLike.conj_ofReal]
  have hX : ∀ i (j : Fin nt), (Matrix.of fun i (j : Fin nt) => (cayley s.A dt ^ j.val *ᵥ s.B) i) i j =
      (cayley s.A dt ^ j.val *ᵥ s.B) i := fun _ _ => rfl
  rw [hid, hid] at hm
  generalize hE : sv.V * diagPow (𝕜 := 𝕜) sv.S (-0.5) = E at *
  generalize hF : (sv.U * diagPow (𝕜 := 𝕜) sv.S (-0.5)) = F at *
  clear hb hq hqAdj hdm ham hb0 hrank hrows
  generalize (Matrix.of fun i (j : Fin nt) => (cayley s.A dt ^ j.val *ᵥ s.B) i) = X at *
  generalize (Matrix.of fun i (j : Fin nt) => (cayley s.Aadj dt ^ j.val *ᵥ s.Cadj) i) = Y at *
  have hEF : H * E * (Fᴴ * H) = H := by
    rw [hleft, ← hE, Matrix.mul_assoc, Matrix.mul_assoc sv.V, ← Matrix.mul_assoc _ (diagPow sv.S 0.5), diagPow_mul _ hS,
      neg_add_cancel, diagPow_zero, Matrix.one_mul, ← Matrix.mul_assoc, hspan]
  obtain ⟨hreg, hout⟩ := projection_exact (Yᴴ * diagonal fun i => (s.weights i : 𝕜)) X E Fᴴ (by omega) hnt s.A _ _
    ((dt / 2 : ℝ) : 𝕜) two_ne_zero rfl rfl hu s.C s.B hO hX (by rw [← hh, hEF])
    (by rw [← hone, hh]; simp only [Matrix.mul_assoc])
  have hΨ : (Y * F)ᴴ * diagonal (fun i => (s.weights i : 𝕜)) = Fᴴ * (Yᴴ * diagonal fun i => (s.weights i : 𝕜)) := by
    rw [conjTranspose_mul, Matrix.mul_assoc]
  rw [hΨ] at hm
  have hqr := (cglSnapshots_ok_iff (Fᴴ * (Yᴴ * diagonal fun i => (s.weights i : 𝕜)) * (s.A * (X * E))) dt
    (fun i => (Fᴴ * (Yᴴ * diagonal fun i => (s.weights i : 𝕜)) * Matrix.of fun i (_ : Fin 1) => s.B i) i 0) (nt := nt) _).mpr
    ⟨by omega, fun _ => hreg, rfl⟩
  rw [hqr] at hm
  refine ⟨_, hm, fun l => ⟨?_, ?_⟩⟩
  · rw [hy]
    exact hout l
  · rw [hy]
    change s.C ⬝ᵥ (fun i => X i l) = _
    congr 1
    ext i
    exact hX i l

end

/-- Singular values of an array whose square is a multiple of it. -/
theorem IsSvd.projection {n : Nat} {a : Matrix (Fin n) (Fin n) ℝ} {o : SvdOut ℝ n n} (h : IsSvd a o) (c : ℝ)
    (ha : aᴴ * a * (aᴴ * a) = c • (aᴴ * a)) (i : Fin (min n n)) (hi : o.S i ≠ 0) : o.S i ^ 2 = c := by
  let D := diagonal fun i => (o.S i : ℝ)
  have hD : Dᴴ = D := by simp [D]
  have h1 : aᴴ * a = o.Vhᴴ * (D * D) * o.Vh := by
    have hp : a = o.U * D * o.Vh := h.product
    conv_lhs => rw [hp]
    rw [conjTranspose_mul, conjTranspose_mul, hD]
    calc o.Vhᴴ * (D * o.Uᴴ) * (o.U * D * o.Vh) = o.Vhᴴ * D * (o.Uᴴ * o.U) * D * o.Vh := by simp only [Matrix.mul_assoc]
      _ = _ := by rw [h.left, Matrix.mul_one]; simp only [Matrix.mul_assoc]
  have h2 : ∀ M : Matrix (Fin (min n n)) (Fin (min n n)) ℝ, o.Vh * (o.Vhᴴ * M * o.Vh) * o.Vhᴴ = M := by
    intro M
    calc o.Vh * (o.Vhᴴ * M * o.Vh) * o.Vhᴴ = (o.Vh * o.Vhᴴ) * M * (o.Vh * o.Vhᴴ) := by simp only [Matrix.mul_assoc]
      _ = M := by rw [h.right, Matrix.one_mul, Matrix.mul_one]
  have h3 : D * D * (D * D) = c • (D * D) := by
    rw [h1] at ha
    rw [← h2 (D * D * (D * D)), ← h2 (c • (D * D)), Matrix.mul_smul, Matrix.smul_mul, ← ha]
    congr 2
    calc o.Vhᴴ * (D * D * (D * D)) * o.Vh = o.Vhᴴ * (D * D * (o.Vh * o.Vhᴴ) * (D * D)) * o.Vh := by
          rw [h.right, Matrix.mul_one]
      _ = _ := by simp only [Matrix.mul_assoc]
  have h4 := congrFun (congrFun h3 i) i
  simp only [D, diagonal_mul_diagonal, Matrix.smul_apply, diagonal_apply_eq, smul_eq_mul] at h4
  have h5 : o.S i * o.S i ≠ 0 := mul_ne_zero hi hi
  have h6 := mul_right_cancel₀ h5 h4
  rw [sq]
  exact h6

/-- Two nodes, two snapshots and one mode: the reduced model is exact, and the outputs are not zero. -/
example : ∃ (svd : ∀ {m n : Nat}, Matrix (Fin m) (Fin n) ℝ → SvdOut ℝ m n) (s : CglSystem ℝ 1) (res : CglResult ℝ 2 2),
    cglSystem svd 1 ![0, 2] 0 (diagonal ![1, 0]) (fun _ => 1) = .ok s ∧ cglModel svd 1 2 1 s = .ok res ∧
    ∀ l, res.yr l = res.y l ∧ res.y l ^ 2 = 1 := by
  choose svd hsvd using fun (m n : Nat) (a : Matrix (Fin m) (Fin n) ℝ) => exists_isSvd a
  have hx : StrictMono ![(0 : ℝ), 2] := by
    intro i j hij
    fin_cases i <;> fin_cases j <;> simp at hij ⊢
  have hne : (diagonal ![1, 0] : Matrix (Fin 2) (Fin 2) ℝ) ≠ 0 := by
    intro h
    have := congrFun (congrFun h 0) 0
    simp at this
  obtain ⟨s, hs⟩ := C74_system_no_error (svd 2 2) (hsvd 2 2) 1 ![0, 2] hx 0 (diagonal ![1, 0]) (fun _ => 1) le_rfl le_rfl hne
  obtain ⟨k1, -, k3, k4, -, -, -⟩ := cglSystem_cases hs
  have hw : s.weights = fun _ => 1 := by
    unfold cglWeights at k1
    rw [dif_pos le_rfl] at k1
    rw [← Except.ok.inj k1]
    ext i
    fin_cases i <;> norm_num
  obtain ⟨h1, i, hi, hi', h2⟩ := C74_optimal_disturbance (svd 2 2) (hsvd 2 2) 1 ![0, 2] hx 0 (diagonal ![1, 0]) (fun _ => 1) s hs
  obtain rfl : i = 1 := by omega
  have h3 := h2 1 le_rfl le_rfl ![1, 0]
  simp only [energy, hw, pow_one, mulVec_diagonal, Fin.sum_univ_two] at h1 h3
  simp at h1 h3
  have hB0 : s.B 0 ^ 2 = 1 := by linarith [sq_nonneg (s.B 1), (one_le_sq_iff_one_le_abs _).mpr h3]
  have hB1 : s.B 1 = 0 := by
    have : s.B 1 ^ 2 = 0 := by linarith
    exact pow_eq_zero_iff two_ne_zero |>.mp this
  have hy : ∀ k : Nat, s.B 0 = s.C ⬝ᵥ (((1 - ((1 / 2 : ℝ) : ℝ) • s.A)⁻¹ * (1 + ((1 / 2 : ℝ) : ℝ) • s.A)) ^ k *ᵥ s.B) := by
    intro k
    rw [k3, smul_zero, sub_zero, add_zero, inv_one, Matrix.one_mul, one_pow, one_mulVec, k4, hw]
    simp [dotProduct, Fin.sum_univ_two, hB1]
  let H : Matrix (Fin 2) (Fin 2) ℝ := Matrix.of fun _ _ => s.B 0
  have hHH : Hᴴ * H = Matrix.of fun _ _ => 2 := by
    ext i j
    rw [Matrix.mul_apply, Fin.sum_univ_two]
    simp only [H, conjTranspose_apply, Matrix.of_apply, star_trivial]
    nlinarith
  have hsq : Hᴴ * H * (Hᴴ * H) = (4 : ℝ) • (Hᴴ * H) := by
    rw [hHH]
    ext i j
    rw [Matrix.mul_apply, Fin.sum_univ_two]
    simp
    norm_num
  have hrank : 1 = H.rank := by
    refine le_antisymm ?_ ?_
    · rw [Nat.one_le_iff_ne_zero]
      intro h
      have hz : H *ᵥ Pi.single 0 1 ∈ LinearMap.range H.mulVecLin := ⟨_, rfl⟩
      rw [Submodule.finrank_eq_zero.mp h, Submodule.mem_bot, mulVec_single_one] at hz
      have : s.B 0 = 0 := congrFun hz 0
      rw [this] at hB0
      norm_num at hB0
    · have : H = vecMulVec (fun _ => s.B 0) fun _ => 1 := by
        ext i j
        simp [H, vecMulVec_apply]
      rw [this]
      exact rank_vecMulVec_le _ _
  obtain ⟨res, h4, h5⟩ := C74_exact (svd := fun {m n} => svd m n) hs 1 2 1 (hsvd _ _) le_rfl (by rw [k3]; simp) (fun _ => s.B 0) hy H rfl
    (fun i hi => by
      have h6 := (hsvd 2 2 H).projection 4 hsq i hi
      have h7 := (hsvd 2 2 H).nonneg i
      have h8 : 1 < (svd 2 2 H).S i := by nlinarith
      exact lt_trans (by norm_num [svdAtol]) h8) hrank
  exact ⟨fun {m n} => svd m n, s, res, hs, h4, fun l => ⟨by rw [(h5 l).1, (h5 l).2], by rw [(h5 l).2]; exact hB0⟩⟩

end Modred
