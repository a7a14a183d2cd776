import Verif.Props.CglModel
import Mathlib.Analysis.Normed.Algebra.MatrixExponential
import Mathlib.Analysis.SpecialFunctions.ExpDeriv

/-!
# C74: the script as a whole
-/

namespace Modred

open Matrix

/-! ### The decay rate of the global modes -/

theorem gamma_ne_zero (p : CglParams) : p.gamma ≠ 0 := by
  intro h
  have := congrArg Complex.re h
  simp [CglParams.gamma] at this

/-- **C74.** `chi` is the fourth root with positive real part whose imaginary part is not larger. -/
theorem C74_chi (p : CglParams) (hmu : p.mu2 ≠ 0) :
    p.chi ^ 4 * (2 * (1 + Complex.I * p.cd)) = -p.mu2 ∧ 0 < p.chi.re ∧ |p.chi.im| ≤ p.chi.re := by
  have hg := gamma_ne_zero p
  have hz : (-p.mu2 / (2 * p.gamma) : ℂ) ≠ 0 := by
    refine div_ne_zero (neg_ne_zero.mpr ?_) (mul_ne_zero two_ne_zero hg)
    exact_mod_cast hmu
  refine ⟨?_, chi_re_pos p hmu, ?_⟩
  · change p.chi ^ 4 * (2 * p.gamma) = -p.mu2
    unfold CglParams.chi
    rw [← Complex.cpow_nat_mul, show ((4 : ℕ) : ℂ) * 0.25 = 1 by norm_num, Complex.cpow_one]
    exact div_mul_cancel₀ _ (mul_ne_zero two_ne_zero hg)
  · unfold CglParams.chi
    rw [Complex.cpow_def_of_ne_zero hz, Complex.exp_re, Complex.exp_im]
    generalize (-p.mu2 / (2 * p.gamma) : ℂ) = z
    have him : (Complex.log z * (0.25 : ℂ)).im = z.arg / 4 := by
      rw [show (0.25 : ℂ) = ((1 / 4 : ℝ) : ℂ) by norm_num, Complex.im_mul_ofReal, Complex.log_im]
      ring
    rw [him]
    have h1 := Complex.neg_pi_lt_arg z
    have h2 := Complex.arg_le_pi z
    have h3 := Real.pi_pos
    have hc : 0 < Real.cos (z.arg / 4) := Real.cos_pos_of_mem_Ioo ⟨by linarith, by linarith⟩
    have hc2 : 0 ≤ Real.cos (2 * (z.arg / 4)) := Real.cos_nonneg_of_mem_Icc ⟨by linarith, by linarith⟩
    rw [abs_mul, abs_of_pos (Real.exp_pos _)]
    refine mul_le_mul_of_nonneg_left (abs_le_of_sq_le_sq ?_ hc.le) (Real.exp_pos _).le
    rw [Real.cos_two_mul'] at hc2
    linarith

/-- **C74.** The script says that `chi` is the decay rate of the global modes: a Gaussian with this rate, times an
exponential, is an eigenfunction of the equation that `A` discretises. -/
theorem C74_global_mode (p : CglParams) (hmu : p.mu2 ≠ 0) : ∃ (φ φ' φ'' : ℝ → ℂ) (c ev : ℂ),
    (∀ x : ℝ, φ x = Complex.exp (c * x - p.chi ^ 2 * x ^ 2 / 2)) ∧
    (∀ x, HasDerivAt φ (φ' x) x) ∧ (∀ x, HasDerivAt φ' (φ'' x) x) ∧
    ∀ x : ℝ, -(p.U + 2 * Complex.I * p.cu) * φ' x + (1 + Complex.I * p.cd) * φ'' x +
      (p.mu0 - p.cu ^ 2 + p.mu2 * x ^ 2 / 2) * φ x = ev * φ x := by
  have hg := gamma_ne_zero p
  have h4 := (C74_chi p hmu).1
  change p.chi ^ 4 * (2 * p.gamma) = -p.mu2 at h4
  change ∃ (φ φ' φ'' : ℝ → ℂ) (c ev : ℂ),
    (∀ x : ℝ, φ x = Complex.exp (c * x - p.chi ^ 2 * x ^ 2 / 2)) ∧
    (∀ x, HasDerivAt φ (φ' x) x) ∧ (∀ x, HasDerivAt φ' (φ'' x) x) ∧
    ∀ x : ℝ, -(p.U + 2 * Complex.I * p.cu) * φ' x + p.gamma * φ'' x +
      (p.mu0 - p.cu ^ 2 + p.mu2 * x ^ 2 / 2) * φ x = ev * φ x
  generalize p.gamma = γ at *
  generalize p.chi = χ at *
  generalize (p.U + 2 * Complex.I * p.cu : ℂ) = ν at *
  have hmu2 : (p.mu2 : ℂ) = -(χ ^ 4 * (2 * γ)) := by rw [h4, neg_neg]
  let c := ν / (2 * γ)
  let φ : ℝ → ℂ := fun x => Complex.exp (c * x - χ ^ 2 * x ^ 2 / 2)
  have hx : ∀ x : ℝ, HasDerivAt (fun x : ℝ => (x : ℂ)) 1 x := fun x => Complex.ofRealCLM.hasDerivAt
  have hl : ∀ x : ℝ, HasDerivAt (fun x : ℝ => c - χ ^ 2 * (x : ℂ)) (-χ ^ 2) x := by
    intro x
    have := ((hx x).const_mul (χ ^ 2)).const_sub c
    rwa [mul_one] at this
  have hφ : ∀ x : ℝ, HasDerivAt φ (φ x * (c - χ ^ 2 * x)) x := by
    intro x
    have h1 := (((hx x).const_mul c).sub ((((hx x).pow 2).const_mul (χ ^ 2)).div_const 2)).cexp
    refine h1.congr_deriv ?_
    change φ x * _ = _
    push_cast
    ring
  refine ⟨φ, fun x => φ x * (c - χ ^ 2 * x), fun x => φ x * (c - χ ^ 2 * x) * (c - χ ^ 2 * x) + φ x * -χ ^ 2, c,
    p.mu0 - p.cu ^ 2 - ν ^ 2 / (4 * γ) - γ * χ ^ 2, fun x => rfl, hφ, fun x => (hφ x).mul (hl x), fun x => ?_⟩
  rw [hmu2]
  simp only [c]
  field_simp
  ring

/-! ### The system of the script -/

section

variable (p : CglParams) (eigvalsh : Matrix (Fin (p.N + 1)) (Fin (p.N + 1)) ℝ → Fin (p.N + 1) → ℝ)
  (expm : Matrix (Fin (p.N + 1)) (Fin (p.N + 1)) ℂ → Matrix (Fin (p.N + 1)) (Fin (p.N + 1)) ℂ)
  (svd : ∀ {m n : Nat}, Matrix (Fin m) (Fin n) ℂ → SvdOut ℂ m n)
  (hmu : p.mu2 ≠ 0) (hlib : IsEigvalsh (jacobi (p.N + 1)) (eigvalsh (jacobi (p.N + 1))))
  (hexp : ∀ a, expm a = NormedSpace.exp a)
  (hsvd : ∀ {m n : Nat} (a : Matrix (Fin m) (Fin n) ℂ), IsSvd a (svd a))

include hmu hlib hexp hsvd in
/-- **C74.** With the exponential, the energy of `B` grows in some of the searched times as much as the energy of any
vector can grow in any of these times under `dq/dt = A q`. -/
theorem C74_script_growth (s : CglSystem ℂ p.N) (hs : cglScriptSystem p eigvalsh expm svd = .ok s) :
    energy s.weights s.B = 1 ∧ ∃ i : Nat, 1 ≤ i ∧ i ≤ p.steps ∧ ∀ j : Nat, 1 ≤ j → j ≤ p.steps → ∀ v : Fin (p.N + 1) → ℂ,
      energy s.weights (NormedSpace.exp ((j * p.dt : ℂ) • s.A) *ᵥ v) ≤
        energy s.weights (NormedSpace.exp ((i * p.dt : ℂ) • s.A) *ᵥ s.B) * energy s.weights v := by
  obtain ⟨x, A, D0, D1, sensor, h1, h2, -⟩ := C74_script_system p eigvalsh expm svd hmu hlib
  rw [h1] at hs
  obtain ⟨h3, i, hi, hi', h4⟩ := C74_optimal_disturbance svd hsvd p.steps x h2 A _ sensor s hs
  have hA : s.A = A := (cglSystem_cases hs).2.2.1
  have hp : ∀ k : Nat, expm ((p.dt : ℂ) • A) ^ k = NormedSpace.exp ((k * p.dt : ℂ) • s.A) := by
    intro k
    rw [hexp, ← Matrix.exp_nsmul, hA, ← Nat.cast_smul_eq_nsmul ℂ, smul_smul]
  refine ⟨h3, i, hi, hi', fun j hj hj' v => ?_⟩
  rw [← hp, ← hp]
  exact h4 j hj hj' v

include hmu hlib hexp hsvd in
/-- **C74.** With the exponential, the system is computed for any two or more nodes and one or more steps. -/
theorem C74_script_system_no_error (hN : 1 ≤ p.N) (hsteps : 1 ≤ p.steps) :
    ∃ s, cglScriptSystem p eigvalsh expm svd = .ok s := by
  refine C74_script_no_error p eigvalsh expm svd hmu hlib hsvd (fun a h => ?_) hN hsteps
  have := Matrix.isUnit_exp a
  rw [← hexp, h] at this
  exact not_isUnit_zero this

include hmu hlib hsvd in
/-- **C74.** The script: the state array is the discretised equation, the responses are those of this array and its
adjoint for the given time step, and as many modes are computed as asked for. -/
theorem C74_script (s : CglSystem ℂ p.N) (res : CglResult ℂ (p.N + 1) p.nt)
    (h : cglScript p eigvalsh expm svd = .ok (s, res)) :
    ∃ (x : Fin (p.N + 1) → ℝ) (D0 D1 : Matrix (Fin (p.N + 1)) (Fin (p.N + 1)) ℝ), StrictMono x ∧
      (∀ t, IsHermiteZero (p.N + 1) (p.chi.re * t) ↔ ∃ k, t = x k) ∧
      Differentiates (fun t => Real.exp (-(p.chi.re * t) ^ 2 / 2)) x 1 D0 ∧
      Differentiates (fun t => Real.exp (-(p.chi.re * t) ^ 2 / 2)) x 2 D1 ∧
      (∀ v i, (s.A *ᵥ v) i = -(p.U + 2 * Complex.I * p.cu) * ∑ j, (D0 i j : ℂ) * v j +
        (1 + Complex.I * p.cd) * ∑ j, (D1 i j : ℂ) * v j + (p.mu0 - p.cu ^ 2 + p.mu2 * x i ^ 2 / 2) * v i) ∧
      CrankNicolson s.A p.dt s.B res.q ∧ CrankNicolson s.Aadj p.dt s.Cadj res.qAdj ∧
      res.bpod.directModes.k = p.r ∧ res.bpod.adjointModes.k = p.r ∧
      (∃ qr, CrankNicolson res.Ar p.dt res.Br qr ∧ ∀ l, res.yr l = res.Cr ⬝ᵥ fun i => qr i l) ∧
      ∃ loc : ℝ, (0 ≤ -2 * (p.mu0 - p.cu ^ 2) / p.mu2 → p.mu0 - p.cu ^ 2 + p.mu2 * loc ^ 2 / 2 = 0) ∧
        ∀ l, res.y l = trapezoidalRule x fun k => (Real.exp (-((x k - loc) / p.s) ^ 2) : ℂ) * res.q k l := by
  unfold cglScript at h
  split at h
  · cases h
  rename_i s' hs
  split at h
  · cases h
  rename_i res' hres
  obtain ⟨rfl, rfl⟩ := Prod.mk.inj (Except.ok.inj h)
  obtain ⟨x, A, D0, D1, sensor, h1, h2, h3, h4, h5, h6, loc, -, h7, h8⟩ := C74_script_system p eigvalsh expm svd hmu hlib
  rw [h1] at hs
  have hA : s'.A = A := (cglSystem_cases hs).2.2.1
  obtain ⟨q, qAdj, ws, rows, sv, qr, hr, hq, hqAdj, -⟩ :=
    cglModel_cases svd p.dt p.nt p.r s' (cglSystem_nodes (cglSystem_cases hs).1) res' hres
  have hnt : 0 < p.nt := Nat.pos_of_ne_zero ((cglSnapshots_ok_iff _ _ _ _).mp hq).1
  have k := C74_hankel hs p.dt p.nt p.r res' hres ⟨0, hnt⟩
  obtain ⟨m1, m2, -, -, -, -, m3⟩ := C74_model hs p.dt p.nt p.r hsvd res' hres
  refine ⟨x, D0, D1, h2, h3, h4, h5, hA ▸ h6, (k ⟨0, hnt⟩).1, (k ⟨0, hnt⟩).2.1, m1, m2, m3, loc, h8, fun l => ?_⟩
  rw [((k l).2.2.2 l (by simp)).2]
  congr 1
  ext k
  rw [h7]
  rfl

end

/-- The numbers of the script: the system is computed, and `chi` is a fourth root of `0.01 / (2 (1 - i))`. -/
example : ∃ (eigvalsh : Matrix (Fin 220) (Fin 220) ℝ → Fin 220 → ℝ)
    (svd : ∀ {m n : Nat}, Matrix (Fin m) (Fin n) ℂ → SvdOut ℂ m n) (s : CglSystem ℂ 219),
    cglScriptSystem {} eigvalsh NormedSpace.exp svd = .ok s ∧ energy s.weights s.B = 1 ∧
    ({} : CglParams).chi ^ 4 * (2 * (1 - Complex.I)) = 0.01 := by
  obtain ⟨eigvalsh, he⟩ := C69_library_exists 220
  choose svd hsvd using fun (m n : Nat) (a : Matrix (Fin m) (Fin n) ℂ) => exists_isSvd a
  have hmu : ({} : CglParams).mu2 ≠ 0 := by norm_num
  obtain ⟨s, hs⟩ := C74_script_system_no_error {} eigvalsh NormedSpace.exp (fun {m n} => svd m n) hmu he (fun _ => rfl)
    (hsvd _ _) (by decide) (by decide)
  refine ⟨eigvalsh, fun {m n} => svd m n, s, hs,
    (C74_script_growth {} eigvalsh NormedSpace.exp (fun {m n} => svd m n) hmu he (fun _ => rfl) (hsvd _ _) s hs).1, ?_⟩
  have := (C74_chi {} hmu).1
  norm_num at this ⊢
  rw [← this]
  ring

end Modred
