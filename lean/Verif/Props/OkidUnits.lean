import Verif.Props.Okid
import Verif.Lemmas.OkidUnits

/-!
# OKID does not depend on the order and units of inputs and outputs

`OKID` (modred/okid.py:8-99) fits the outputs to delayed inputs and outputs with `numpy.linalg.lstsq`, which picks the solution of least
norm if there are many. The norm mixes inputs and outputs, so that units matter then.
-/

namespace Modred

open Matrix Finset

variable {m q : Nat}

/-- Markov parameters in other coordinates of inputs and outputs. -/
theorem okid_change (lstsq lstsq' : ∀ {a b c : Nat}, Matrix (Fin a) (Fin b) ℝ → Matrix (Fin a) (Fin c) ℝ → Matrix (Fin b) (Fin c) ℝ)
    (hlib : ∀ {a b c : Nat} (V : Matrix (Fin a) (Fin b) ℝ) (y : Matrix (Fin a) (Fin c) ℝ), IsLstsq V y (lstsq V y))
    (hlib' : ∀ {a b c : Nat} (V : Matrix (Fin a) (Fin b) ℝ) (y : Matrix (Fin a) (Fin c) ℝ), IsLstsq V y (lstsq' V y))
    (u : Nat → Fin m → ℝ) (y : Nat → Fin q → ℝ) (p N : Nat) (hp : 0 < p) (hN : p ≤ N)
    (S Si : Matrix (Fin m) (Fin m) ℝ) (T Ti : Matrix (Fin q) (Fin q) ℝ) (hS : S * Si = 1) (hT : T * Ti = 1)
    (hdata : (Si = Sᴴ ∧ Ti = Tᴴ) ∨ LinearIndependent ℝ (regressors u y p N).row) :
    ∃ out out' : Markovs ℝ, okid lstsq id false (signalArray N u) (signalArray N y) p = .ok out ∧
      okid lstsq' id false (signalArray N fun k => S *ᵥ u k) (signalArray N fun k => T *ᵥ y k) p = .ok out' ∧
      out.nt = p ∧ out.no = q ∧ out.ni = m ∧ out'.nt = p ∧ out'.no = q ∧ out'.ni = m ∧
      ∀ k < p, (Matrix.of fun (i : Fin q) (j : Fin m) => out'.at_ k i j) =
        T * (Matrix.of fun (i : Fin q) (j : Fin m) => out.at_ k i j) * Si := by
  obtain ⟨M, out, hout, ⟨hn, Z, hZ⟩, -, a1, a2, a3, hG⟩ := okid_run_full lstsq hlib u y p N hp hN
  obtain ⟨M', out', hout', ⟨hn', Z', hZ'⟩, -, b1, b2, b3, hG'⟩ :=
    okid_run_full lstsq' hlib' (fun k => S *ᵥ u k) (fun k => T *ᵥ y k) p N hp hN
  refine ⟨out, out', hout, hout', a1, a2, a3, b1, b2, b3, ?_⟩
  have hTi : Ti * T = 1 := mul_eq_one_comm.1 hT
  have hL : changeRegressors p S T * changeRegressors p Si Ti = 1 := by
    rw [changeRegressors_mul, hS, hT, changeRegressors_one]
  have hL' : changeRegressors p Si Ti * changeRegressors p S T = 1 := mul_eq_one_comm.1 hL
  have hY : (Matrix.of fun a (k : Fin N) => (T *ᵥ y k) a) = T * (Matrix.of fun a (k : Fin N) => y k a) := rfl
  rw [regressors_change] at hn' hZ'
  rw [hY] at hn'
  generalize hR : regressors u y p N = R at hn hZ hn' hZ' hdata
  generalize (Matrix.of fun a (k : Fin N) => y k a : Matrix (Fin q) (Fin N) ℝ) = Y at hn hn'
  have hnT : T * M * changeRegressors p Si Ti * (changeRegressors p S T * R) * (changeRegressors p S T * R)ᴴ =
      T * Y * (changeRegressors p S T * R)ᴴ := by
    have e : T * M * changeRegressors p Si Ti * (changeRegressors p S T * R) = T * (M * R) := by
      rw [← Matrix.mul_assoc, Matrix.mul_assoc (T * M), hL', Matrix.mul_one, Matrix.mul_assoc]
    rw [e, conjTranspose_mul, ← Matrix.mul_assoc, Matrix.mul_assoc T (M * R), hn]
    simp only [Matrix.mul_assoc]
  have hM : M' = T * M * changeRegressors p Si Ti := by
    obtain ⟨hSo, hTo⟩ | hdata := hdata
    · refine lstsq_rows_unique _ _ _ _ Z' (T * Z) hn' hnT hZ' ?_
      rw [hZ, conjTranspose_mul, changeRegressors_conjTranspose, ← hSo, ← hTo, Matrix.mul_assoc, Matrix.mul_assoc, Matrix.mul_assoc]
    · have h0 : (M' - T * M * changeRegressors p Si Ti) * (changeRegressors p S T * R) * (changeRegressors p S T * R)ᴴ = 0 := by
        rw [Matrix.sub_mul, Matrix.sub_mul, hn', hnT, sub_self]
      have h1 := (mul_self_mul_conjTranspose_eq_zero (changeRegressors p S T * R) (M' - T * M * changeRegressors p Si Ti)).1
        (by rw [← Matrix.mul_assoc]; exact h0)
      rw [← Matrix.mul_assoc] at h1
      have h2 : (M' - T * M * changeRegressors p Si Ti) * changeRegressors p S T = 0 := by
        generalize (M' - T * M * changeRegressors p Si Ti) * changeRegressors p S T = D at h1
        rw [← vecMul_injective_iff] at hdata
        refine funext fun a => hdata ?_
        change D a ᵥ* R = 0 ᵥ* R
        rw [zero_vecMul]
        exact congrFun h1 a
      have h3 := congrArg (· * changeRegressors p Si Ti) h2
      rw [Matrix.mul_assoc, hL, Matrix.mul_one, Matrix.zero_mul] at h3
      exact sub_eq_zero.1 h3
  have e1 := hG (markovRec (augInput M) (augOutput M)) fun j _ => markovRec_eq _ _ j
  have e2 := hG' (fun k => T * markovRec (augInput M) (augOutput M) k * Si) fun j hj => by
    rw [markovRec_eq, Matrix.mul_add, Matrix.add_mul, hM, augInput_change _ _ _ _ _ hj.le, Matrix.mul_sum, Matrix.sum_mul]
    congr 1
    refine sum_congr rfl fun i hi => ?_
    rw [mem_Ico] at hi
    rw [augOutput_change _ _ _ _ _ hi.1 (by omega)]
    have e : Ti * (T * markovRec (augInput M) (augOutput M) (j - i) * Si) = markovRec (augInput M) (augOutput M) (j - i) * Si := by
      rw [← Matrix.mul_assoc, ← Matrix.mul_assoc, hTi, Matrix.one_mul]
    rw [Matrix.mul_assoc (T * augOutput M i), e, Matrix.mul_assoc, Matrix.mul_assoc, Matrix.mul_assoc]
  intro k hk
  have e3 : (Matrix.of fun (i : Fin q) (j : Fin m) => out.at_ k i j) = markovRec (augInput M) (augOutput M) k := by
    ext i j
    exact e1 k hk i j
  rw [e3]
  ext i j
  exact e2 k hk i j

section Theorems

variable (lstsq lstsq' : ∀ {a b c : Nat}, Matrix (Fin a) (Fin b) ℝ → Matrix (Fin a) (Fin c) ℝ → Matrix (Fin b) (Fin c) ℝ)
  (hlib : ∀ {a b c : Nat} (V : Matrix (Fin a) (Fin b) ℝ) (y : Matrix (Fin a) (Fin c) ℝ), IsLstsq V y (lstsq V y))
  (hlib' : ∀ {a b c : Nat} (V : Matrix (Fin a) (Fin b) ℝ) (y : Matrix (Fin a) (Fin c) ℝ), IsLstsq V y (lstsq' V y))
  (u : Nat → Fin m → ℝ) (y : Nat → Fin q → ℝ) (p N : Nat) (hp : 0 < p) (hN : p ≤ N)

include hlib hlib' hp hN

/-- The Markov parameters are determined by the data: two correct least-squares solvers give the same. -/
theorem C100_determined : ∃ out out' : Markovs ℝ, okid lstsq id false (signalArray N u) (signalArray N y) p = .ok out ∧
    okid lstsq' id false (signalArray N u) (signalArray N y) p = .ok out' ∧
    out.nt = p ∧ out.no = q ∧ out.ni = m ∧ out'.nt = p ∧ out'.no = q ∧ out'.ni = m ∧
    ∀ k < p, ∀ (i : Fin q) (j : Fin m), out'.at_ k i j = out.at_ k i j := by
  obtain ⟨out, out', h1, h2, h3, h4, h5, h6, h7, h8, h9⟩ := okid_change lstsq lstsq' hlib hlib' u y p N hp hN 1 1 1 1
    (Matrix.mul_one _) (Matrix.mul_one _) (.inl ⟨conjTranspose_one.symm, conjTranspose_one.symm⟩)
  simp only [one_mulVec] at h2
  refine ⟨out, out', h1, h2, h3, h4, h5, h6, h7, h8, fun k hk i j => ?_⟩
  have := h9 k hk
  rw [Matrix.one_mul, Matrix.mul_one] at this
  exact congrFun (congrFun this i) j

/-- Orthogonal changes of coordinates: whatever the data are, the Markov parameters change with them. -/
theorem C100_orthogonal (S : Matrix (Fin m) (Fin m) ℝ) (T : Matrix (Fin q) (Fin q) ℝ) (hS : S * Sᵀ = 1) (hT : T * Tᵀ = 1) :
    ∃ out out' : Markovs ℝ, okid lstsq id false (signalArray N u) (signalArray N y) p = .ok out ∧
      okid lstsq' id false (signalArray N fun k => S *ᵥ u k) (signalArray N fun k => T *ᵥ y k) p = .ok out' ∧
      out.nt = p ∧ out.no = q ∧ out.ni = m ∧ out'.nt = p ∧ out'.no = q ∧ out'.ni = m ∧
      ∀ k < p, (Matrix.of fun (i : Fin q) (j : Fin m) => out'.at_ k i j) =
        T * (Matrix.of fun (i : Fin q) (j : Fin m) => out.at_ k i j) * Sᵀ :=
  okid_change lstsq lstsq' hlib hlib' u y p N hp hN S Sᵀ T Tᵀ hS hT
    (.inl ⟨(conjTranspose_eq_transpose_of_trivial S).symm, (conjTranspose_eq_transpose_of_trivial T).symm⟩)

/-- The order of inputs and outputs does not matter: the Markov parameters come in the same order. -/
theorem C100_order (σ : Equiv.Perm (Fin m)) (τ : Equiv.Perm (Fin q)) :
    ∃ out out' : Markovs ℝ, okid lstsq id false (signalArray N u) (signalArray N y) p = .ok out ∧
      okid lstsq' id false (signalArray N fun k j => u k (σ j)) (signalArray N fun k i => y k (τ i)) p = .ok out' ∧
      out.nt = p ∧ out.no = q ∧ out.ni = m ∧ out'.nt = p ∧ out'.no = q ∧ out'.ni = m ∧
      ∀ k < p, ∀ (i : Fin q) (j : Fin m), out'.at_ k i j = out.at_ k (τ i) (σ j) := by
  have key : ∀ {a : Nat} (ρ : Equiv.Perm (Fin a)),
      ((1 : Matrix (Fin a) (Fin a) ℝ).submatrix ρ id) * ((1 : Matrix (Fin a) (Fin a) ℝ).submatrix ρ id)ᵀ = 1 := by
    intro a ρ
    rw [transpose_submatrix, transpose_one, ← Matrix.submatrix_mul _ _ _ _ _ Function.bijective_id, Matrix.one_mul,
      Matrix.submatrix_one_equiv]
  have act : ∀ {a : Nat} (ρ : Equiv.Perm (Fin a)) (v : Fin a → ℝ), (1 : Matrix (Fin a) (Fin a) ℝ).submatrix ρ id *ᵥ v = fun j => v (ρ j) := by
    intro a ρ v
    funext j
    change (1 : Matrix (Fin a) (Fin a) ℝ) (ρ j) ⬝ᵥ v = _
    exact congrFun (one_mulVec v) (ρ j)
  obtain ⟨out, out', h1, h2, h3, h4, h5, h6, h7, h8, h9⟩ := C100_orthogonal lstsq lstsq' hlib hlib' u y p N hp hN _ _ (key σ) (key τ)
  simp only [act] at h2
  refine ⟨out, out', h1, h2, h3, h4, h5, h6, h7, h8, fun k hk i j => ?_⟩
  have := congrFun (congrFun (h9 k hk) i) j
  refine this.trans ?_
  rw [Matrix.mul_apply]
  have e : ∀ c, (((1 : Matrix (Fin q) (Fin q) ℝ).submatrix τ id * Matrix.of fun (i : Fin q) (j : Fin m) => out.at_ k i j) i c) =
      out.at_ k (τ i) c := fun c => congrFun (act τ fun i => out.at_ k i c) i
  simp only [e]
  refine (sum_congr rfl fun c _ => mul_comm _ _).trans ?_
  exact congrFun (act σ fun c => out.at_ k (τ i) c) j

/-- Any change of coordinates, if the regressors are independent. -/
theorem C100_coordinates_partial (S Si : Matrix (Fin m) (Fin m) ℝ) (T : Matrix (Fin q) (Fin q) ℝ) (hS : S * Si = 1) (hT : IsUnit T)
    (hdata : LinearIndependent ℝ (regressors u y p N).row) :
    ∃ out out' : Markovs ℝ, okid lstsq id false (signalArray N u) (signalArray N y) p = .ok out ∧
      okid lstsq' id false (signalArray N fun k => S *ᵥ u k) (signalArray N fun k => T *ᵥ y k) p = .ok out' ∧
      out.nt = p ∧ out.no = q ∧ out.ni = m ∧ out'.nt = p ∧ out'.no = q ∧ out'.ni = m ∧
      ∀ k < p, (Matrix.of fun (i : Fin q) (j : Fin m) => out'.at_ k i j) =
        T * (Matrix.of fun (i : Fin q) (j : Fin m) => out.at_ k i j) * Si := by
  obtain ⟨Ti, hTi⟩ := hT.exists_right_inv
  exact okid_change lstsq lstsq' hlib hlib' u y p N hp hN S Si T Ti hS hTi (.inr hdata)

/-- Units do not matter if the regressors are independent: the Markov parameters come in the new units. -/
theorem C100_units_partial (a : Fin m → ℝ) (b : Fin q → ℝ) (ha : ∀ j, a j ≠ 0) (hb : ∀ i, b i ≠ 0)
    (hdata : LinearIndependent ℝ (regressors u y p N).row) :
    ∃ out out' : Markovs ℝ, okid lstsq id false (signalArray N u) (signalArray N y) p = .ok out ∧
      okid lstsq' id false (signalArray N fun k j => a j * u k j) (signalArray N fun k i => b i * y k i) p = .ok out' ∧
      out.nt = p ∧ out.no = q ∧ out.ni = m ∧ out'.nt = p ∧ out'.no = q ∧ out'.ni = m ∧
      ∀ k < p, ∀ (i : Fin q) (j : Fin m), out'.at_ k i j = b i * out.at_ k i j / a j := by
  have inv : ∀ {n : Nat} (c : Fin n → ℝ), (∀ j, c j ≠ 0) → diagonal c * diagonal (fun j => (c j)⁻¹) = 1 := by
    intro n c hc
    rw [diagonal_mul_diagonal, ← diagonal_one]
    congr 1
    funext j
    exact mul_inv_cancel₀ (hc j)
  have act : ∀ {n : Nat} (c v : Fin n → ℝ), diagonal c *ᵥ v = fun j => c j * v j := by
    intro n c v
    funext j
    exact mulVec_diagonal c v j
  obtain ⟨out, out', h1, h2, h3, h4, h5, h6, h7, h8, h9⟩ := okid_change lstsq lstsq' hlib hlib' u y p N hp hN (diagonal a)
    (diagonal fun j => (a j)⁻¹) (diagonal b) (diagonal fun i => (b i)⁻¹) (inv a ha) (inv b hb) (.inr hdata)
  simp only [act] at h2
  refine ⟨out, out', h1, h2, h3, h4, h5, h6, h7, h8, fun k hk i j => ?_⟩
  have := congrFun (congrFun (h9 k hk) i) j
  rw [mul_diagonal, diagonal_mul] at this
  rw [div_eq_mul_inv]
  exact this

end Theorems

/-- One input that starts late, one output, two samples. -/
theorem okid_late (lstsq : ∀ {a b c : Nat}, Matrix (Fin a) (Fin b) ℝ → Matrix (Fin a) (Fin c) ℝ → Matrix (Fin b) (Fin c) ℝ)
    (hlib : ∀ {a b c : Nat} (V : Matrix (Fin a) (Fin b) ℝ) (y : Matrix (Fin a) (Fin c) ℝ), IsLstsq V y (lstsq V y)) (c : ℝ) :
    ∃ out : Markovs ℝ, okid lstsq id false (signalArray 2 fun k (_ : Fin 1) => if k = 1 then c else 0)
      (signalArray 2 fun _ (_ : Fin 1) => 1) 1 = .ok out ∧ out.at_ 0 0 0 = c / (c ^ 2 + 1) := by
  obtain ⟨M, out, hout, ⟨hn, Z, hZ⟩, -, a1, a2, a3, hG⟩ := okid_run_full lstsq hlib
    (fun k (_ : Fin 1) => if k = 1 then c else 0) (fun _ (_ : Fin 1) => 1) 1 2 Nat.one_pos (by norm_num)
  refine ⟨out, hout, ?_⟩
  have e := hG (fun _ => augInput M 0) (fun j hj => by
    obtain rfl : j = 0 := by omega
    simp) 0 Nat.one_pos 0 0
  refine e.trans ?_
  change M 0 (.inl 0) = _
  have h1 : M 0 (.inl 0) = Z 0 1 * c := by
    rw [hZ, Matrix.mul_apply, Fin.sum_univ_two]
    simp [regressors]
  have h2 : M 0 (.inr (0, .inl 0)) = 0 := by
    rw [hZ, Matrix.mul_apply, Fin.sum_univ_two]
    simp [regressors, delay]
  have h3 : M 0 (.inr (0, .inr 0)) = Z 0 1 := by
    rw [hZ, Matrix.mul_apply, Fin.sum_univ_two]
    simp [regressors, delay]
  have h4 := congrFun (congrFun hn 0) (.inr (0, .inr 0))
  rw [Matrix.mul_apply, Fin.sum_univ_two] at h4
  simp [regressors, delay, Matrix.mul_apply, Fintype.sum_sum_type, Fintype.sum_prod_type, h1, h3] at h4
  have h5 : Z 0 1 * (c ^ 2 + 1) = 1 := by linarith
  rw [h1, eq_div_iff (by positivity)]
  linear_combination c * h5

/-- With dependent regressors units matter: with the input in units half as large, the Markov parameter should be a quarter, and it is
two fifths. -/
theorem C100_units_violation (lstsq : ∀ {a b c : Nat}, Matrix (Fin a) (Fin b) ℝ → Matrix (Fin a) (Fin c) ℝ → Matrix (Fin b) (Fin c) ℝ)
    (hlib : ∀ {a b c : Nat} (V : Matrix (Fin a) (Fin b) ℝ) (y : Matrix (Fin a) (Fin c) ℝ), IsLstsq V y (lstsq V y)) :
    ∃ (u y : Nat → Fin 1 → ℝ) (out out' : Markovs ℝ), okid lstsq id false (signalArray 2 u) (signalArray 2 y) 1 = .ok out ∧
      okid lstsq id false (signalArray 2 fun k j => 2 * u k j) (signalArray 2 y) 1 = .ok out' ∧
      out.at_ 0 0 0 = 1 / 2 ∧ out'.at_ 0 0 0 = 2 / 5 := by
  obtain ⟨out, h1, h2⟩ := okid_late lstsq hlib 1
  obtain ⟨out', h3, h4⟩ := okid_late lstsq hlib 2
  refine ⟨_, _, out, out', h1, ?_, by rw [h2]; norm_num, by rw [h4]; norm_num⟩
  have e : (fun (k : Nat) (_ : Fin 1) => (2 : ℝ) * if k = 1 then 1 else 0) = fun k _ => if k = 1 then 2 else 0 := by
    funext k j
    split <;> norm_num
  exact (congrArg (fun u => okid lstsq id false (signalArray 2 u) (signalArray 2 fun _ (_ : Fin 1) => 1) 1) e).trans h3

/-- Independent regressors: an impulse, and its response one step later. -/
example : LinearIndependent ℝ (regressors (fun k (_ : Fin 1) => if k = 0 then (1 : ℝ) else 0) (fun k (_ : Fin 1) => if k = 1 then 1 else 0) 1 3).row := by
  rw [Fintype.linearIndependent_iff]
  intro g hg
  have e := fun k => congrFun hg k
  simp only [Fintype.sum_sum_type, Fintype.sum_prod_type] at e
  have e0 := e 0
  have e1 := e 1
  have e2 := e 2
  simp [regressors, delay, Matrix.row] at e0 e1 e2
  rintro (j | ⟨i, j | j⟩)
  · rw [Subsingleton.elim (α := Fin 1) j 0]
    exact e0
  · rw [Subsingleton.elim (α := Fin 1) j 0, Subsingleton.elim (α := Fin 1) i 0]
    exact e1
  · rw [Subsingleton.elim (α := Fin 1) j 0, Subsingleton.elim (α := Fin 1) i 0]
    exact e2

/-- A rotation. -/
example : (!![(3/5 : ℝ), 4/5; -4/5, 3/5] : Matrix (Fin 2) (Fin 2) ℝ) * (!![3/5, 4/5; -4/5, 3/5])ᵀ = 1 := by
  ext i j
  fin_cases i <;> fin_cases j <;> norm_num [Matrix.mul_apply, Fin.sum_univ_two]

end Modred
