import Verif.Props.Balanced

/-!
# Balanced truncation of complex systems (C42)
-/

namespace Modred

open Matrix
open scoped ComplexOrder

/-- A library whose left singular vectors of arrays with one entry are the imaginary unit. -/
theorem exists_turnedSvd : ∃ svd : ∀ {m n : Nat}, Matrix (Fin m) (Fin n) ℂ → SvdOut ℂ m n,
    (∀ {m n : Nat} (a : Matrix (Fin m) (Fin n) ℂ), IsSvd a (svd a)) ∧
    ∀ (a : Matrix (Fin 1) (Fin 1) ℂ) (j), (svd a).U 0 j = Complex.I := by
  have h : ∀ (m n : Nat) (a : Matrix (Fin m) (Fin n) ℂ), ∃ o, IsSvd a o ∧
      ∀ (h1 : m = 1) (_ : n = 1) (j), o.U ⟨0, by omega⟩ j = Complex.I := by
    intro m n a
    obtain ⟨o, ho⟩ := exists_isSvd a
    by_cases h : m = 1 ∧ n = 1
    · obtain ⟨rfl, rfl⟩ := h
      obtain ⟨u, hu0⟩ : ∃ u : ℂ, ∀ j, o.U 0 j = u :=
        ⟨o.U 0 ⟨0, by decide⟩, fun j => congrArg (o.U 0) (Subsingleton.elim (α := Fin 1) _ _)⟩
      have hu : star u * u = 1 := by
        have := congrFun (congrFun ho.left ⟨0, by decide⟩) ⟨0, by decide⟩
        rwa [Matrix.mul_apply, Fin.sum_univ_one, conjTranspose_apply, Matrix.one_apply_eq, hu0] at this
      have hc : star (Complex.I * star u) * (Complex.I * star u) = 1 := by
        have hI : star Complex.I * Complex.I = 1 := by simp
        rw [star_mul', star_star]
        linear_combination (star Complex.I * Complex.I) * hu + hI
      generalize hcd : Complex.I * star u = c at hc
      refine ⟨⟨c • o.U, o.S, star c • o.Vh⟩, ⟨?_, ?_, ?_, ho.nonneg, ho.sorted⟩, ?_⟩
      · dsimp only
        rw [conjTranspose_smul, Matrix.smul_mul, Matrix.mul_smul, smul_smul, hc, one_smul, ho.left]
      · dsimp only
        rw [conjTranspose_smul, star_star, Matrix.smul_mul, Matrix.mul_smul, smul_smul, hc, one_smul, ho.right]
      · dsimp only
        rw [Matrix.smul_mul, Matrix.smul_mul, Matrix.mul_smul, smul_smul, mul_comm, hc, one_smul]
        exact ho.product
      · intro _ _ j
        change c * o.U 0 j = _
        rw [← hcd, hu0, mul_assoc, hu, mul_one]
    · exact ⟨o, ho, fun h1 h2 => absurd ⟨h1, h2⟩ h⟩
  choose f hf1 hf2 using h
  exact ⟨fun {m n} a => f m n a, fun a => hf1 _ _ a, fun a j => hf2 1 1 a rfl rfl j⟩

/-- The singular value decomposition that such a library gives for an entry of magnitude one. -/
theorem turned_utilSvd (lib : Matrix (Fin 1) (Fin 1) ℂ → SvdOut ℂ 1 1) (a : Matrix (Fin 1) (Fin 1) ℂ)
    (h : IsSvd a (lib a)) (hU : ∀ j, (lib a).U 0 j = Complex.I) (z : ℂ) (ha : a = !![z]) (hz : z * z = 1) :
    utilSvd lib a (some svdAtol) none = .ok ⟨1, !![Complex.I], fun _ => 1, !![Complex.I * z]⟩ := by
  cases hs : utilSvd lib a (some svdAtol) none with
  | error e => exact absurd rfl ((C19_error_iff (fun b => lib b) a _ _ e).mp hs).2.1
  | ok s =>
    have hn : star z * z = 1 := by
      rcases mul_self_eq_one_iff.mp hz with rfl | rfl <;> simp
    have hS : ∀ j, (lib a).S j = 1 := by
      intro j
      have hj : ∀ k : Fin (min 1 1), k = j := fun k => Subsingleton.elim (α := Fin 1) _ _
      have hsum : ∀ f : Fin (min 1 1) → ℂ, ∑ k, f k = f j := by
        intro f
        exact (Finset.sum_eq_single j (fun k _ hk => absurd (hj k) hk) fun h => absurd (Finset.mem_univ j) h)
      have h1 := congrFun (congrFun h.product 0) 0
      rw [Matrix.mul_apply, hsum, Matrix.mul_diagonal, hU] at h1
      have ha0 : a 0 0 = z := by rw [ha]; rfl
      rw [ha0] at h1
      have h2 := congrFun (congrFun h.right j) j
      rw [Matrix.mul_apply, Fin.sum_univ_one, conjTranspose_apply, Matrix.one_apply_eq] at h2
      have h3 := congrArg norm h1
      have h4 := congrArg norm h2
      have h5 : ‖z‖ = 1 := by rcases mul_self_eq_one_iff.mp hz with rfl | rfl <;> simp
      rw [norm_mul, norm_star, norm_one] at h4
      have h6 : ‖(lib a).Vh j 0‖ = 1 := by nlinarith [norm_nonneg ((lib a).Vh j 0)]
      rw [norm_mul, norm_mul, Complex.norm_I, h5, h6, one_mul, mul_one] at h3
      rw [h3]
      exact (RCLike.norm_of_nonneg (K := ℂ) (h.nonneg j)).symm
    obtain ⟨k1, k2, k3⟩ := C19_kept_iff lib a _ _ h (by simp) s hs
    obtain ⟨-, -, t3, -⟩ := C19_singular_triples lib a _ _ h s hs
    obtain ⟨r, U, S, V⟩ := s
    have hr : r = 1 := by
      have := (k2 ⟨0, by decide⟩).mpr ⟨fun t ht => by rw [hS]; cases ht; norm_num [svdAtol], by simp⟩
      have : r ≤ 1 := k1
      dsimp only at *
      omega
    subst hr
    dsimp only at k3 t3
    obtain ⟨e1, e2, -⟩ := k3 0 ⟨0, by decide⟩ rfl
    have hU' : U = !![Complex.I] := by
      ext i j
      fin_cases i
      fin_cases j
      exact (e2 0).trans (hU _)
    have hS' : S = fun _ => 1 := by
      funext i
      fin_cases i
      exact e1.trans (hS _)
    subst hU' hS'
    have hV : V = !![Complex.I * z] := by
      have := congrFun (congrFun t3 0) 0
      rw [ha, Matrix.mul_apply, Matrix.mul_apply, Fin.sum_univ_one, Fin.sum_univ_one] at this
      ext i j
      fin_cases i
      fin_cases j
      simp at this ⊢
      linear_combination z * this - V 0 0 * hz
    rw [hV]

theorem entry_mul (x y : ℂ) : (!![x] : Matrix (Fin 1) (Fin 1) ℂ) * !![y] = !![x * y] := by
  ext i j
  fin_cases i
  fin_cases j
  simp

/-- **C42, negation for complex systems.** The code uses the transpose of arrays that were computed with conjugates.  If
arrays are complex, a solver and a library that obey everything that is asked of them can then give a model of full
order with another impulse response: that of the system with `A = 1/2`, `B = 1`, `C = 1` has `A = -1/2`, `B = -1`,
`C = 1`, as the left singular vectors are determined up to factors of modulus one only. -/
theorem C42_complex_violation :
    ∃ (lyapunov : ∀ {n : Nat}, Matrix (Fin n) (Fin n) ℂ → Matrix (Fin n) (Fin n) ℂ → Matrix (Fin n) (Fin n) ℂ)
      (svd : ∀ {m n : Nat}, Matrix (Fin m) (Fin n) ℂ → SvdOut ℂ m n),
      IsLyapunovSolver lyapunov ∧ (∀ {m n : Nat} (a : Matrix (Fin m) (Fin n) ℂ), IsSvd a (svd a)) ∧
      balancedTruncation lyapunov svd (!![1 / 2] : Matrix (Fin 1) (Fin 1) ℂ) (!![1] : Matrix (Fin 1) (Fin 1) ℂ)
          (!![1] : Matrix (Fin 1) (Fin 1) ℂ) none =
        .ok ⟨⟨1, 1, 1, !![-(1 / 2)], !![-1], !![1]⟩, 1, fun _ => 1⟩ ∧
      (!![1] : Matrix (Fin 1) (Fin 1) ℂ) * !![-1] ≠ !![1] * !![1] := by
  obtain ⟨l, hl⟩ := exists_lyapunovSolver (𝕜 := ℂ)
  obtain ⟨svd, hlib, hturn⟩ := exists_turnedSvd
  have h1 : (!![1] * (!![1] : Matrix (Fin 1) (Fin 1) ℂ)ᴴ) = !![1] := by
    ext i j; fin_cases i; fin_cases j; simp [Matrix.mul_apply]
  have h1' : ((!![1] : Matrix (Fin 1) (Fin 1) ℂ)ᴴ * !![1]) = !![1] := by
    ext i j; fin_cases i; fin_cases j; simp [Matrix.mul_apply]
  have ht : (!![1 / 2] : Matrix (Fin 1) (Fin 1) ℂ)ᴴ = !![1 / 2] := by ext i j; fin_cases i; fin_cases j; simp
  have hX : ∀ X, IsLyapunov (!![1 / 2] : Matrix (Fin 1) (Fin 1) ℂ) !![1] X ↔ X = !![1] := by
    intro X
    unfold IsLyapunov
    rw [ht]
    constructor
    · intro h
      ext i j
      have := congrFun (congrFun h i) j
      fin_cases i
      fin_cases j
      rw [Matrix.add_apply, Matrix.mul_apply, Matrix.mul_apply] at this
      simp at this ⊢
      linear_combination this
    · rintro rfl
      ext i j
      fin_cases i
      fin_cases j
      simp
      norm_num
  have hP : l (!![1 / 2] : Matrix (Fin 1) (Fin 1) ℂ) !![1] = !![1] := (hX _).mp (hl _ _ ⟨_, (hX _).mpr rfl⟩)
  have hs := turned_utilSvd (fun a => svd a) !![1] (hlib _) (hturn _) 1 rfl (by simp)
  have hs2 := turned_utilSvd (fun a => svd a) !![-1] (hlib _) (hturn _) (-1) rfl (by simp)
  have hd : ∀ e : ℝ, diagPow (𝕜 := ℂ) (fun _ : Fin 1 => (1 : ℝ)) e = 1 := by
    intro e
    ext i j
    fin_cases i
    fin_cases j
    simp [diagPow]
  have hII : ((!![Complex.I] : Matrix (Fin 1) (Fin 1) ℂ) * 1)ᵀ * (!![Complex.I] * 1) = !![-1] := by
    ext i j; fin_cases i; fin_cases j; simp [Matrix.mul_apply]
  refine ⟨l, svd, hl, hlib, ?_, ?_⟩
  · have hF : ∀ x : ℂ, (firstCols (!![x] : Matrix (Fin 1) (Fin 1) ℂ) 1 : Matrix (Fin 1) (Fin 1) ℂ) = !![x] := by
      intro x
      ext i j
      fin_cases i
      fin_cases j
      rfl
    have key : ∀ SL SR : Matrix (Fin 1) (Fin 1) ℂ, SL = !![-1] → SR = !![1] →
        (Except.ok ⟨⟨1, 1, 1, SLᵀ * !![1 / 2] * SR, SLᵀ * !![1], !![1] * SR⟩, 1, fun _ => 1⟩ : Except Err (Balanced ℂ)) =
          .ok ⟨⟨1, 1, 1, !![-(1 / 2)], !![-1], !![1]⟩, 1, fun _ => 1⟩ := by
      rintro _ _ rfl rfl
      have ht' : (!![-1] : Matrix (Fin 1) (Fin 1) ℂ)ᵀ = !![-1] := by ext i j; fin_cases i; fin_cases j; rfl
      rw [ht', entry_mul, entry_mul, entry_mul, entry_mul]
      norm_num
    have comb : ∀ (w : ℂ) (x y : Matrix (Fin 1) (Fin 1) ℂ), x = !![w] → y = 1 →
        !![Complex.I] * 1 * x * y = !![Complex.I * w] := by
      rintro w _ _ rfl rfl
      rw [Matrix.mul_one, Matrix.mul_one, entry_mul]
    unfold balancedTruncation
    dsimp only
    rw [h1, h1', ht, hP]
    simp only [hs, hd, hII, hs2]
    exact key _ _ ((comb _ _ _ (hF _) (hd (-0.5))).trans (by rw [Complex.I_mul_I]))
      ((comb _ _ _ (hF _) (hd (-0.5))).trans (by rw [← mul_assoc, Complex.I_mul_I]; norm_num))
  · rw [entry_mul, entry_mul]
    intro h
    have := congrFun (congrFun h 0) 0
    norm_num at this

end Modred
