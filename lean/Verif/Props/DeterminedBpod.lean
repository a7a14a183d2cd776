import Verif.Spec.DeterminedBpod
import Verif.Lemmas.DeterminedBpod
import Verif.Props.Bpod
import Verif.Spec.DmdHandles

/-!
# Balanced modes do not depend on the order and units of inputs and outputs (C97)
-/

namespace Modred

open Matrix

variable {𝕜 : Type*} [RCLike 𝕜]

/-! ### Mixing inputs -/

section Mix

variable {p p' k : Nat} (hp : 1 ≤ p) (hp' : 1 ≤ p') (T : Matrix (Fin p) (Fin p') 𝕜)

/-- Sums over the vectors of one step. -/
theorem sum_stepMix {N : Type*} [AddCommMonoid N] [Module 𝕜 N] (x : Fin (k * p) → N) (j : Fin (k * p')) :
    ∑ i, (stepMix hp hp' T : Matrix (Fin (k * p)) (Fin (k * p')) 𝕜) i j • x i =
      ∑ s : Fin p, T s ⟨j % p', Nat.mod_lt _ hp'⟩ • x ⟨j / p' * p + s, by
        have h1 : j.val / p' < k := Nat.div_lt_of_lt_mul (Nat.mul_comm k p' ▸ j.isLt)
        have h2 := Nat.mul_le_mul_right p h1
        rw [Nat.succ_mul] at h2
        omega⟩ := by
  rw [← finProdFinEquiv.sum_comp, Fintype.sum_prod_type]
  have hj : j.val / p' < k := Nat.div_lt_of_lt_mul (Nat.mul_comm k p' ▸ j.isLt)
  rw [Finset.sum_eq_single (⟨j / p', hj⟩ : Fin k)]
  · refine Finset.sum_congr rfl fun s _ => ?_
    have e1 : (s.val + p * (j.val / p')) / p = j.val / p' := by
      rw [Nat.add_mul_div_left _ _ hp, Nat.div_eq_of_lt s.isLt, Nat.zero_add]
    have e2 : (s.val + p * (j.val / p')) % p = s.val := by
      rw [Nat.add_mul_mod_self_left, Nat.mod_eq_of_lt s.isLt]
    unfold stepMix
    simp only [of_apply, finProdFinEquiv_apply_val, e1, e2, if_true]
    congr 2
    exact Fin.ext (by rw [finProdFinEquiv_apply_val]; dsimp only; rw [Nat.mul_comm, Nat.add_comm])
  · intro c _ hc
    refine Finset.sum_eq_zero fun s _ => ?_
    have e1 : (s.val + p * c.val) / p = c.val := by
      rw [Nat.add_mul_div_left _ _ hp, Nat.div_eq_of_lt s.isLt, Nat.zero_add]
    unfold stepMix
    simp only [of_apply, finProdFinEquiv_apply_val, e1]
    rw [if_neg fun h => hc (Fin.ext h), zero_smul]
  · intro h
    exact absurd (Finset.mem_univ _) h

/-- Mixing with an array whose rows are orthonormal. -/
theorem stepMix_unitary {m m' : Nat} (hm : m = k * p) (hm' : m' = k * p') (hT : T * Tᴴ = 1) :
    (stepMix hp hp' T : Matrix (Fin m) (Fin m') 𝕜) * (stepMix hp hp' T : Matrix (Fin m) (Fin m') 𝕜)ᴴ = 1 := by
  subst hm hm'
  ext i j
  have h1 := sum_stepMix (k := k) hp' hp Tᵀ
    (fun l => star ((stepMix hp hp' T : Matrix (Fin (k * p)) (Fin (k * p')) 𝕜) j l)) i
  have h0 : ∀ l, (stepMix hp' hp Tᵀ : Matrix (Fin (k * p')) (Fin (k * p)) 𝕜) l i =
      (stepMix hp hp' T : Matrix (Fin (k * p)) (Fin (k * p')) 𝕜) i l := by
    intro l
    unfold stepMix
    simp only [of_apply, transpose_apply, eq_comm]
  simp only [smul_eq_mul, h0] at h1
  rw [Matrix.mul_apply]
  simp only [conjTranspose_apply]
  rw [h1, one_apply]
  have e1 : ∀ s : Fin p', (i.val / p * p' + s.val) / p' = i.val / p := by
    intro s
    rw [Nat.add_comm, Nat.add_mul_div_right _ _ hp', Nat.div_eq_of_lt s.isLt, Nat.zero_add]
  have e2 : ∀ s : Fin p', (i.val / p * p' + s.val) % p' = s.val := by
    intro s
    rw [Nat.add_comm, Nat.add_mul_mod_self_right, Nat.mod_eq_of_lt s.isLt]
  unfold stepMix
  simp only [of_apply, e1, e2, transpose_apply]
  by_cases hc : j.val / p = i.val / p
  · simp only [hc, if_true]
    have h2 := congrFun (congrFun hT ⟨i % p, Nat.mod_lt _ hp⟩) ⟨j % p, Nat.mod_lt _ hp⟩
    rw [Matrix.mul_apply, one_apply] at h2
    simp only [conjTranspose_apply] at h2
    rw [h2]
    congr 1
    rw [eq_iff_iff, Fin.ext_iff, Fin.ext_iff]
    dsimp only
    constructor
    · intro h
      rw [← Nat.div_add_mod i.val p, ← Nat.div_add_mod j.val p, hc, h]
    · intro h
      rw [h]
  · rw [if_neg fun h => hc (by rw [h])]
    refine Finset.sum_eq_zero fun s _ => ?_
    rw [if_neg hc, star_zero, mul_zero]

end Mix

/-! ### Arrays -/

section Arrays

variable {n md ma md' ma' : Nat} (svd : Matrix (Fin ma) (Fin md) 𝕜 → SvdOut 𝕜 ma md)
  (svd' : Matrix (Fin ma') (Fin md') 𝕜 → SvdOut 𝕜 ma' md') (X : Matrix (Fin n) (Fin md) 𝕜) (X' : Matrix (Fin n) (Fin md') 𝕜)
  (Y : Matrix (Fin n) (Fin ma) 𝕜) (Y' : Matrix (Fin n) (Fin ma') 𝕜) (p q p' q' : Nat) (weights : Option (NdArray 𝕜))
  (ws : Weights 𝕜) (rtol : Option ℝ) (t : ℝ) (a b : 𝕜) (Q : Matrix (Fin md) (Fin md') 𝕜) (R : Matrix (Fin ma) (Fin ma') 𝕜)

/-- Two decompositions of which one has the direct vectors `a X Q` and the adjoint vectors `b Y R`, computed with singular value
decompositions of possibly different libraries, agree.  Both Hankel arrays are arrays of inner products, as `C25_arrays` says. -/
theorem C97_arrays (idxD idxA idxD' idxA' : Option (List Int)) (hX : X' = a • (X * Q)) (hY : Y' = b • (Y * R)) (ha : a ≠ 0)
    (hb : b ≠ 0) (hQ : Q * Qᴴ = 1) (hR : R * Rᴴ = 1) (ht : 0 ≤ t) (hr : ∀ t ∈ rtol, 0 ≤ t)
    (hws : arraysInit weights = .ok ws) (hfit : ws.Fits n) (res : BpodResult 𝕜 n md ma)
    (res' : BpodResult 𝕜 n md' ma') (hres : bpodArrays svd X Y p q idxD idxA weights (some t) rtol = .ok res)
    (hres' : bpodArrays svd' X' Y' p' q' idxD' idxA' weights (some (‖a‖ * ‖b‖ * t)) rtol = .ok res')
    (hlib : IsSvd res.hankel (svd res.hankel)) (hlib' : IsSvd res'.hankel (svd' res'.hankel))
    (hH : res.hankel = Yᴴ * ws.matrix n * X) (hH' : res'.hankel = Y'ᴴ * ws.matrix n * X') :
    ∃ (Φ Ψ : Matrix (Fin n) (Fin res.r) 𝕜) (Φ' Ψ' : Matrix (Fin n) (Fin res'.r) 𝕜),
      Chosen Φ idxD res.directModes ∧ Chosen Ψ idxA res.adjointModes ∧
      Chosen Φ' idxD' res'.directModes ∧ Chosen Ψ' idxA' res'.adjointModes ∧
      SameBalanced a b Q R ⟨res.r, res.singVals, Φ, Ψ, res.directProjCoeffs, res.adjointProjCoeffs⟩
        ⟨res'.r, res'.singVals, Φ', Ψ', res'.directProjCoeffs, res'.adjointProjCoeffs⟩ := by
  obtain ⟨rows, e, dm, am, -, -, he, hdm, ham, rfl⟩ :=
    bpodArrays_cases svd X Y p q idxD idxA weights ws _ _ hws hfit res hres
  obtain ⟨rows', e', dm', am', -, -, he', hdm', ham', rfl⟩ :=
    bpodArrays_cases svd' X' Y' p' q' idxD' idxA' weights ws _ _ hws hfit res' hres'
  dsimp only at hlib hlib' hH hH' ⊢
  generalize ofRows ma md rows = H at *
  generalize ofRows ma' md' rows' = H' at *
  have hB : H' = (star b * a) • (Rᴴ * H * Q) := by
    rw [hH', hH, hX, hY, conjTranspose_smul, conjTranspose_mul, Matrix.smul_mul, Matrix.mul_smul, Matrix.smul_mul, smul_smul,
      mul_comm a]
    simp only [Matrix.mul_assoc]
  obtain ⟨k1, k2, -⟩ := balance_determined hlib hlib' hR hQ hB ha hb ht hr e e' he he'
  have k3 := balance_determined_first hlib hlib' hR hQ hB ha hb ht hr e e' he he'
  have eX : ∀ P : Matrix (Fin md') (Fin e'.r) 𝕜, X' * P = X * ((a • Q) * P) := by
    intro P
    rw [hX, ← Matrix.mul_smul, Matrix.mul_assoc]
  have eY : ∀ P : Matrix (Fin ma') (Fin e'.r) 𝕜, Y' * P = Y * ((b • R) * P) := by
    intro P
    rw [hY, ← Matrix.mul_smul, Matrix.mul_assoc]
  have out : ∀ {u v s : Nat} (Z : Matrix (Fin n) (Fin u) 𝕜) (T : Matrix (Fin n) (Fin v) 𝕜) (M : Matrix (Fin u) (Fin s) 𝕜)
      (D : Matrix (Fin s) (Fin s) 𝕜) (N : Matrix (Fin v) (Fin s) 𝕜), Z * M * D * (T * N)ᴴ = Z * (M * D * Nᴴ) * Tᴴ := by
    intro u v s Z T M D N
    rw [conjTranspose_mul]
    simp only [Matrix.mul_assoc]
  refine ⟨X * (e.V * diagPow (𝕜 := 𝕜) e.S (-0.5)), Y * (e.U * diagPow (𝕜 := 𝕜) e.S (-0.5)),
    X' * (e'.V * diagPow (𝕜 := 𝕜) e'.S (-0.5)), Y' * (e'.U * diagPow (𝕜 := 𝕜) e'.S (-0.5)),
    linCombineArrays_ok _ _ _ _ hdm, linCombineArrays_ok _ _ _ _ ham, linCombineArrays_ok _ _ _ _ hdm',
    linCombineArrays_ok _ _ _ _ ham', k1, k2, fun f g hfg => ?_, fun f g hfg => ?_, fun f g hfg => ?_, fun f g hfg => ?_,
    fun f g hfg => ?_⟩
  · dsimp only
    rw [eX, eY, out, out, (k3 f g hfg).1]
  · dsimp only
    rw [eX, out, out, (k3 f g hfg).2.1, Matrix.mul_smul, Matrix.smul_mul]
  · dsimp only
    rw [eY, out, out, (k3 f g hfg).2.2.1, Matrix.mul_smul, Matrix.smul_mul]
  · dsimp only
    rw [eX, Matrix.mul_assoc X, Matrix.mul_assoc X, (k3 f g hfg).2.2.2.1, Matrix.mul_smul]
    simp only [Matrix.mul_assoc]
  · dsimp only
    rw [eY, Matrix.mul_assoc Y, Matrix.mul_assoc Y, (k3 f g hfg).2.2.2.2, Matrix.mul_smul]
    simp only [Matrix.mul_assoc]

/-- Mixed impulse responses are the impulse responses for mixed inputs. -/
theorem response_mix {n m m' p p' k : Nat} (hp : 1 ≤ p) (hp' : 1 ≤ p') (hm : m = k * p) (hm' : m' = k * p')
    (A : Matrix (Fin n) (Fin n) 𝕜) (B : Matrix (Fin n) (Fin p) 𝕜) (a : 𝕜) (T : Matrix (Fin p) (Fin p') 𝕜)
    (X : Matrix (Fin n) (Fin m) 𝕜) (X' : Matrix (Fin n) (Fin m') 𝕜)
    (hX : ∀ i j, X i j = (A ^ (j.val / p) * B) i ⟨j % p, Nat.mod_lt _ hp⟩)
    (hX' : ∀ i j, X' i j = (A ^ (j.val / p') * (a • (B * T))) i ⟨j % p', Nat.mod_lt _ hp'⟩) :
    X' = a • (X * stepMix hp hp' T) := by
  subst hm hm'
  ext i j
  have h1 := sum_stepMix (k := k) hp hp' T (fun l => X i l) j
  simp only [smul_eq_mul] at h1
  rw [hX', Matrix.mul_smul, Matrix.smul_apply, Matrix.smul_apply, ← Matrix.mul_assoc, Matrix.mul_apply, Matrix.mul_apply,
    Finset.sum_congr rfl fun l _ => mul_comm (X i l) _, h1]
  congr 1
  refine Finset.sum_congr rfl fun s _ => ?_
  have e1 : (j.val / p' * p + s.val) / p = j.val / p' := by
    rw [Nat.add_comm, Nat.add_mul_div_right _ _ hp, Nat.div_eq_of_lt s.isLt, Nat.zero_add]
  have e2 : (j.val / p' * p + s.val) % p = s.val := by
    rw [Nat.add_comm, Nat.add_mul_mod_self_right, Nat.mod_eq_of_lt s.isLt]
  rw [hX, mul_comm]
  simp only [e1, e2]

/-- **C97.** The impulse responses of a system to its inputs in another order and in other units, which is what `T` and `a` do, and
those of the adjoint system to the outputs in another order and in other units, give the same balanced modes.  There may be more
inputs and outputs than before, if `T` and `U` have orthonormal rows, and as many steps. -/
theorem C97_inputs_outputs (hp : 1 ≤ p) (hq : 1 ≤ q) (hp' : 1 ≤ p') (hq' : 1 ≤ q') (hmd' : md' = md / p * p')
    (hma' : ma' = ma / q * q') (ha : a ≠ 0) (hb : b ≠ 0) (T : Matrix (Fin p) (Fin p') 𝕜) (U : Matrix (Fin q) (Fin q') 𝕜)
    (hT : T * Tᴴ = 1) (hU : U * Uᴴ = 1) (ht : 0 ≤ t) (hr : ∀ t ∈ rtol, 0 ≤ t)
    (hws : arraysInit weights = .ok ws) (hfit : ws.Fits n) (A Aadj : Matrix (Fin n) (Fin n) 𝕜) (B : Matrix (Fin n) (Fin p) 𝕜)
    (C : Matrix (Fin n) (Fin q) 𝕜) (hadj : Aadjᴴ * ws.matrix n = ws.matrix n * A)
    (hX : ∀ i j, X i j = (A ^ (j.val / p) * B) i ⟨j % p, Nat.mod_lt _ hp⟩)
    (hY : ∀ i j, Y i j = (Aadj ^ (j.val / q) * C) i ⟨j % q, Nat.mod_lt _ hq⟩)
    (hX' : ∀ i j, X' i j = (A ^ (j.val / p') * (a • (B * T))) i ⟨j % p', Nat.mod_lt _ hp'⟩)
    (hY' : ∀ i j, Y' i j = (Aadj ^ (j.val / q') * (b • (C * U))) i ⟨j % q', Nat.mod_lt _ hq'⟩)
    (hlib : ∀ H, IsSvd H (svd H)) (hlib' : ∀ H, IsSvd H (svd' H)) (res : BpodResult 𝕜 n md ma)
    (hres : bpodArrays svd X Y p q none none weights (some t) rtol = .ok res) :
    ∃ (res' : BpodResult 𝕜 n md' ma') (Φ Ψ : Matrix (Fin n) (Fin res.r) 𝕜) (Φ' Ψ' : Matrix (Fin n) (Fin res'.r) 𝕜),
      bpodArrays svd' X' Y' p' q' none none weights (some (‖a‖ * ‖b‖ * t)) rtol = .ok res' ∧
      Chosen Φ none res.directModes ∧ Chosen Ψ none res.adjointModes ∧
      Chosen Φ' none res'.directModes ∧ Chosen Ψ' none res'.adjointModes ∧
      SameBalanced a b (stepMix hp hp' T) (stepMix hq hq' U)
        ⟨res.r, res.singVals, Φ, Ψ, res.directProjCoeffs, res.adjointProjCoeffs⟩
        ⟨res'.r, res'.singVals, Φ', Ψ', res'.directProjCoeffs, res'.adjointProjCoeffs⟩ := by
  obtain ⟨-, -, hmd, hma, h1, h2⟩ := C25_complete_chunks svd X Y p q none none weights ws _ _ hws hfit res hres
  have kd : md = md / p * p := (Nat.div_mul_cancel hmd).symm
  have ka : ma = ma / q * q := (Nat.div_mul_cancel hma).symm
  have s1 : p' ≤ md' := hmd' ▸ Nat.le_mul_of_pos_left p' (Nat.div_pos h1 hp)
  have s2 : q' ≤ ma' := hma' ▸ Nat.le_mul_of_pos_left q' (Nat.div_pos h2 hq)
  obtain ⟨res', hres'⟩ := C25_no_error svd' X' Y' p' q' weights ws (some (‖a‖ * ‖b‖ * t)) rtol hp' hq' ⟨_, hmd'.trans (mul_comm _ _)⟩
    ⟨_, hma'.trans (mul_comm _ _)⟩ s1 s2 hws hfit
  have hH := (C25_arrays svd X Y p q none none weights ws _ _ hp hq hws hfit A Aadj B C hadj hX hY res hres).1
  have hH' := (C25_arrays svd' X' Y' p' q' none none weights ws _ _ hp' hq' hws hfit A Aadj _ _ hadj hX' hY' res' hres').1
  obtain ⟨Φ, Ψ, Φ', Ψ', h3⟩ := C97_arrays svd svd' X X' Y Y' p q p' q' weights ws rtol t a b _ _ none none none none
    (response_mix hp hp' kd hmd' A B a T X X' hX hX') (response_mix hq hq' ka hma' Aadj C b U Y Y' hY hY') ha hb
    (stepMix_unitary hp hp' T kd hmd' hT) (stepMix_unitary hq hq' U ka hma' hU) ht hr hws hfit res res' hres hres' (hlib _) (hlib' _) hH hH'
  exact ⟨res', Φ, Ψ, Φ', Ψ', hres', h3⟩

end Arrays

/-- **C97.** Modes of a singular value that occurs once are the same up to one factor, whose absolute value is given by the units;
the adjoint mode has the inverse of its conjugate. -/
theorem C97_single_modes {n md ma md' ma' : Nat} {a b : 𝕜} {Q : Matrix (Fin md) (Fin md') 𝕜} {R : Matrix (Fin ma) (Fin ma') 𝕜}
    {d : BalancedSet 𝕜 n md ma} {d' : BalancedSet 𝕜 n md' ma'} (W : Matrix (Fin n) (Fin n) 𝕜) (h : SameBalanced a b Q R d d') (ha : a ≠ 0) (hb : b ≠ 0)
    (hd : d.adjointᴴ * W * d.direct = 1) (hd' : d'.adjointᴴ * W * d'.direct = 1) (i : Fin d.r) (i' : Fin d'.r) (hi : i'.val = i.val)
    (hsimple : ∀ j, d.S j = d.S i → j = i) :
    ∃ c : 𝕜, ‖c‖ ^ 2 = ‖a‖ / ‖b‖ ∧ (∀ k, d'.direct k i' = c * d.direct k i) ∧ ∀ k, d.adjoint k i = star c * d'.adjoint k i' := by
  classical
  have na : ‖a‖ * ‖b‖ ≠ 0 := (mul_pos (norm_pos_iff.mpr ha) (norm_pos_iff.mpr hb)).ne'
  have hr := h.number
  have hsimple' : ∀ j, d'.S j = d'.S i' → j = i' := by
    intro j hj
    rw [h.values j ⟨j, hr ▸ j.isLt⟩ rfl, h.values i' i hi] at hj
    have := congrArg Fin.val (hsimple _ (mul_left_cancel₀ na hj))
    exact Fin.ext (this.trans hi.symm)
  have hfg : ∀ x, 0 < x → (fun x => if x = d'.S i' then (1 : 𝕜) else 0) (‖a‖ * ‖b‖ * x) =
      (fun x => if x = d.S i then (1 : 𝕜) else 0) x := by
    intro x _
    dsimp only
    rw [h.values i' i hi]
    simp only [mul_right_inj' na]
  have hp := h.projections (fun x => if x = d.S i then 1 else 0) (fun x => if x = d'.S i' then 1 else 0) hfg
  have hm := h.direct (fun x => if x = d.S i then 1 else 0) (fun x => if x = d'.S i' then 1 else 0) hfg
  have col : ∀ {s : Nat} (v : Fin s → ℝ) (l : Fin s) (_ : ∀ j, v j = v l → j = l) (Z T : Matrix (Fin n) (Fin s) 𝕜) (p q : Fin n),
      (Z * diagonal (fun j => if v j = v l then (1 : 𝕜) else 0) * Tᴴ) p q = Z p l * star (T q l) := by
    intro s v l hv Z T p q
    rw [Matrix.mul_apply, Finset.sum_eq_single l]
    · rw [mul_diagonal, if_pos rfl, mul_one, conjTranspose_apply]
    · intro j _ hj
      rw [mul_diagonal, if_neg fun hc => hj (hv j hc), mul_zero, zero_mul]
    · intro hc
      exact absurd (Finset.mem_univ _) hc
  have hpq : ∀ p q, d'.direct p i' * star (d'.adjoint q i') = d.direct p i * star (d.adjoint q i) := by
    intro p q
    rw [← col d'.S i' hsimple', ← col d.S i hsimple, hp]
  have hmq : ∀ p q, d'.direct p i' * star (d'.direct q i') =
      ((‖a‖ / ‖b‖ : ℝ) : 𝕜) * (d.direct p i * star (d.direct q i)) := by
    intro p q
    rw [← col d'.S i' hsimple', ← col d.S i hsimple, hm, Matrix.smul_apply, smul_eq_mul]
  have one : ∀ {u v : Nat} (e : BalancedSet 𝕜 n u v) (l : Fin e.r), e.adjointᴴ * W * e.direct = 1 →
      ∑ q, ∑ k, star (e.adjoint q l) * W q k * e.direct k l = 1 := by
    intro u v e l he
    have h1 := congrFun (congrFun he l) l
    rw [Matrix.mul_assoc, Matrix.mul_apply, one_apply_eq] at h1
    rw [← h1]
    refine Finset.sum_congr rfl fun q _ => ?_
    rw [Matrix.mul_apply, Finset.mul_sum, conjTranspose_apply]
    exact Finset.sum_congr rfl fun l _ => mul_assoc _ _ _
  have o := one d i hd
  have o' := one d' i' hd'
  set c := ∑ q, ∑ k, star (d.adjoint q i) * W q k * d'.direct k i' with hc
  have hk : ∀ k, d'.direct k i' = c * d.direct k i := by
    intro k
    have h1 : d'.direct k i' = d'.direct k i' * ∑ q, ∑ l, star (d'.adjoint q i') * W q l * d'.direct l i' := by rw [o', mul_one]
    rw [h1, hc, mul_comm _ (d.direct k i), Finset.mul_sum, Finset.mul_sum]
    refine Finset.sum_congr rfl fun q _ => ?_
    rw [Finset.mul_sum, Finset.mul_sum]
    refine Finset.sum_congr rfl fun l _ => ?_
    rw [mul_assoc, ← mul_assoc, hpq, mul_assoc, ← mul_assoc (star _)]
  obtain ⟨k, hk0⟩ : ∃ k, d.direct k i ≠ 0 := by
    by_contra hall
    have hall : ∀ k, d.direct k i = 0 := fun k => by
      by_contra hk
      exact hall ⟨k, hk⟩
    simp only [hall, mul_zero, Finset.sum_const_zero] at o
    exact zero_ne_one o
  refine ⟨c, ?_, hk, fun q => ?_⟩
  · have h1 := hmq k k
    rw [hk, star_mul', show c * d.direct k i * (star c * star (d.direct k i)) =
      (c * star c) * (d.direct k i * star (d.direct k i)) by ring] at h1
    have h2 := mul_right_cancel₀ (mul_ne_zero hk0 (star_ne_zero.mpr hk0)) h1
    have h3 : c * star c = ((‖c‖ ^ 2 : ℝ) : 𝕜) := by
      rw [RCLike.ofReal_pow]
      exact RCLike.mul_conj c
    rw [h3] at h2
    exact RCLike.ofReal_injective h2
  · have h1 := hpq k q
    rw [hk, mul_comm c, mul_assoc] at h1
    have h2 := mul_left_cancel₀ hk0 h1
    rw [← star_star (d.adjoint q i), ← h2, star_mul', star_star]

/-! ### Handles -/

section Handles

variable {E : Type*} [AddCommGroup E] [Module 𝕜 E] {md ma md' ma' : Nat} (ip : E →ₗ⋆[𝕜] E →ₗ[𝕜] 𝕜) (X : Fin md → E)
  (X' : Fin md' → E) (Y : Fin ma → E) (Y' : Fin ma' → E) (a b : 𝕜) (Q : Matrix (Fin md) (Fin md') 𝕜) (R : Matrix (Fin ma) (Fin ma') 𝕜) (rtol : Option ℝ) (t : ℝ)

theorem combine_smul_eq {m m' : Nat} (a : 𝕜) (Q : Matrix (Fin m) (Fin m') 𝕜) (v : Fin m → E) (j : Fin m') :
    a • ∑ i, Q i j • v i = combine v (a • Q) j := by
  unfold combine
  simp only [Finset.smul_sum, smul_smul, Matrix.smul_apply, smul_eq_mul]

/-- The same for as many coefficients as vectors. -/
theorem handles_balanced {h w h' w' : Nat} (hh : h = ma) (hw : w = md) (hh' : h' = ma') (hw' : w' = md')
    (svd : Matrix (Fin h) (Fin w) 𝕜 → SvdOut 𝕜 h w) (svd' : Matrix (Fin h') (Fin w') 𝕜 → SvdOut 𝕜 h' w')
    (H : Matrix (Fin h) (Fin w) 𝕜) (H' : Matrix (Fin h') (Fin w') 𝕜) (e : Svd 𝕜 h w) (e' : Svd 𝕜 h' w') (hX : ∀ j, X' j = a • ∑ i, Q i j • X i)
    (hY : ∀ j, Y' j = b • ∑ i, R i j • Y i) (ha : a ≠ 0) (hb : b ≠ 0) (hQ : Q * Qᴴ = 1) (hR : R * Rᴴ = 1) (ht : 0 ≤ t)
    (hr : ∀ t ∈ rtol, 0 ≤ t) (hlib : IsSvd H (svd H)) (hlib' : IsSvd H' (svd' H'))
    (hH : ∀ i j, H i j = ip (Y (Fin.cast hh i)) (X (Fin.cast hw j)))
    (hH' : ∀ i j, H' i j = ip (Y' (Fin.cast hh' i)) (X' (Fin.cast hw' j))) (he : utilSvd svd H (some t) rtol = .ok e)
    (he' : utilSvd svd' H' (some (‖a‖ * ‖b‖ * t)) rtol = .ok e') :
    SameBalancedOf ip a b Q R
      ⟨e.r, e.S, combine (fun k => X (Fin.cast hw k)) (e.V * diagPow (𝕜 := 𝕜) e.S (-0.5)),
        combine (fun k => Y (Fin.cast hh k)) (e.U * diagPow (𝕜 := 𝕜) e.S (-0.5)),
        (diagPow (𝕜 := 𝕜) e.S 0.5 * e.Vᴴ).submatrix id (Fin.cast hw.symm),
        (diagPow (𝕜 := 𝕜) e.S 0.5 * e.Uᴴ).submatrix id (Fin.cast hh.symm)⟩
      ⟨e'.r, e'.S, combine (fun k => X' (Fin.cast hw' k)) (e'.V * diagPow (𝕜 := 𝕜) e'.S (-0.5)),
        combine (fun k => Y' (Fin.cast hh' k)) (e'.U * diagPow (𝕜 := 𝕜) e'.S (-0.5)),
        (diagPow (𝕜 := 𝕜) e'.S 0.5 * e'.Vᴴ).submatrix id (Fin.cast hw'.symm),
        (diagPow (𝕜 := 𝕜) e'.S 0.5 * e'.Uᴴ).submatrix id (Fin.cast hh'.symm)⟩ := by
  subst hh hw hh' hw'
  obtain rfl : X' = combine X (a • Q) := funext fun j => (hX j).trans (combine_smul_eq a Q X j)
  obtain rfl : Y' = combine Y (b • R) := funext fun j => (hY j).trans (combine_smul_eq b R Y j)
  have eH : H = handlesIp (fun x y => ip x y) Y X := by ext i j; exact hH i j
  have eH' : H' = handlesIp (fun x y => ip x y) (combine Y (b • R)) (combine X (a • Q)) := by ext i j; exact hH' i j
  have hB : H' = (star b * a) • (Rᴴ * H * Q) := by
    rw [eH', eH, handlesIp_combine, conjTranspose_smul, Matrix.smul_mul, Matrix.mul_smul, Matrix.smul_mul, smul_smul,
      mul_comm a]
  obtain ⟨k1, k2, -⟩ := balance_determined hlib hlib' hR hQ hB ha hb ht hr e e' he he'
  have k3 := balance_determined_first hlib hlib' hR hQ hB ha hb ht hr e e' he he'
  have pull : ∀ {m : Nat} (v : Fin m → E) (M : Matrix (Fin m) (Fin m) 𝕜) (c : 𝕜) (x : Fin m → 𝕜),
      ∑ j, ((c • M) *ᵥ x) j • v j = c • ∑ j, (M *ᵥ x) j • v j := by
    intro m v M c x
    rw [Finset.smul_sum]
    refine Finset.sum_congr rfl fun j _ => ?_
    rw [Matrix.smul_mulVec, Pi.smul_apply, smul_assoc]
  have cmul : ∀ {m m' : Nat} (v : Fin m → E) (M : Matrix (Fin m) (Fin m) 𝕜) (G : Matrix (Fin m) (Fin m') 𝕜) (c : 𝕜) (j : Fin m'),
      combine v (c • (M * G)) j = c • ∑ k, G k j • combine v M k := by
    intro m m' v M G c j
    rw [combine_smul_eq, combine_combine, Matrix.mul_smul]
  refine ⟨k1, k2, fun f g hfg x => ?_, fun f g hfg x => ?_, fun f g hfg x => ?_, fun f g hfg j => ?_, fun f g hfg j => ?_⟩
  · simp only [Fin.cast_eq_self]
    rw [combine_combine, combine_combine, weighted_sum_two ip _ _ _ _ (fun i => g (e'.S i)),
      weighted_sum_two ip _ _ _ _ (fun i => f (e.S i)), (k3 f g hfg).1]
  · simp only [Fin.cast_eq_self]
    rw [combine_combine, weighted_sum_two ip _ _ _ _ (fun i => g (e'.S i)),
      weighted_sum_two ip _ _ _ _ (fun i => f (e.S i)), (k3 f g hfg).2.1, pull]
  · simp only [Fin.cast_eq_self]
    rw [combine_combine, weighted_sum_two ip _ _ _ _ (fun i => g (e'.S i)),
      weighted_sum_two ip _ _ _ _ (fun i => f (e.S i)), (k3 f g hfg).2.2.1, pull]
  · simp only [Fin.cast_eq_self, submatrix_apply, id_eq]
    rw [combine_combine, weighted_combine _ _ _ (fun i => g (e'.S i)), (k3 f g hfg).2.2.2.1, cmul]
    simp only [weighted_combine _ _ _ (fun i => f (e.S i))]
  · simp only [Fin.cast_eq_self, submatrix_apply, id_eq]
    rw [combine_combine, weighted_combine _ _ _ (fun i => g (e'.S i)), (k3 f g hfg).2.2.2.2, cmul]
    simp only [weighted_combine _ _ _ (fun i => f (e.S i))]

/-- **C97.** Handles: the modes that `compute_direct_modes` and `compute_adjoint_modes` put. -/
theorem C97_handles (p q p' q' : Nat) (hmd : md / p * p = md) (hma : ma / q * q = ma) (hmd' : md' / p' * p' = md')
    (hma' : ma' / q' * q' = ma') (svd : Matrix (Fin (ma / q * q)) (Fin (md / p * p)) 𝕜 → SvdOut 𝕜 (ma / q * q) (md / p * p))
    (svd' : Matrix (Fin (ma' / q' * q')) (Fin (md' / p' * p')) 𝕜 → SvdOut 𝕜 (ma' / q' * q') (md' / p' * p'))
    (hX : ∀ j, X' j = a • ∑ i, Q i j • X i) (hY : ∀ j, Y' j = b • ∑ i, R i j • Y i) (ha : a ≠ 0) (hb : b ≠ 0)
    (hQ : Q * Qᴴ = 1) (hR : R * Rᴴ = 1) (ht : 0 ≤ t) (hr : ∀ t ∈ rtol, 0 ≤ t)
    (bpod : BpodHandles 𝕜 E md ma (ma / q * q) (md / p * p)) (bpod' : BpodHandles 𝕜 E md' ma' (ma' / q' * q') (md' / p' * p'))
    (hres : bpodHandlesDecomp (fun x y => ip x y) X Y p q svd (some t) rtol = .ok bpod)
    (hres' : bpodHandlesDecomp (fun x y => ip x y) X' Y' p' q' svd' (some (‖a‖ * ‖b‖ * t)) rtol = .ok bpod')
    (hlib : IsSvd bpod.hankel (svd bpod.hankel)) (hlib' : IsSvd bpod'.hankel (svd' bpod'.hankel))
    (hH : ∀ i j, bpod.hankel i j = ip (Y (Fin.cast hma i)) (X (Fin.cast hmd j)))
    (hH' : ∀ i j, bpod'.hankel i j = ip (Y' (Fin.cast hma' i)) (X' (Fin.cast hmd' j))) :
    ∃ (Φ Ψ : Fin bpod.r → E) (Φ' Ψ' : Fin bpod'.r → E),
      (∀ l k out, bpodHandlesDirectModes bpod l k = .ok out → ChosenVecs Φ l out) ∧
      (∀ l k out, bpodHandlesAdjointModes bpod l k = .ok out → ChosenVecs Ψ l out) ∧
      (∀ l k out, bpodHandlesDirectModes bpod' l k = .ok out → ChosenVecs Φ' l out) ∧
      (∀ l k out, bpodHandlesAdjointModes bpod' l k = .ok out → ChosenVecs Ψ' l out) ∧
      SameBalancedOf ip a b Q R
        ⟨bpod.r, bpod.singVals, Φ, Ψ, (bpodHandlesDirectProjCoeffs bpod).submatrix id (Fin.cast hmd.symm),
          (bpodHandlesAdjointProjCoeffs bpod).submatrix id (Fin.cast hma.symm)⟩
        ⟨bpod'.r, bpod'.singVals, Φ', Ψ', (bpodHandlesDirectProjCoeffs bpod').submatrix id (Fin.cast hmd'.symm),
          (bpodHandlesAdjointProjCoeffs bpod').submatrix id (Fin.cast hma'.symm)⟩ := by
  obtain ⟨rows, e, -, he, rfl⟩ := bpodHandlesDecomp_cases X Y p q svd _ rtol _ bpod hres
  obtain ⟨rows', e', -, he', rfl⟩ := bpodHandlesDecomp_cases X' Y' p' q' svd' _ rtol _ bpod' hres'
  refine ⟨combine (fun k => X (Fin.cast hmd k)) (e.V * diagPow (𝕜 := 𝕜) e.S (-0.5)),
    combine (fun k => Y (Fin.cast hma k)) (e.U * diagPow (𝕜 := 𝕜) e.S (-0.5)),
    combine (fun k => X' (Fin.cast hmd' k)) (e'.V * diagPow (𝕜 := 𝕜) e'.S (-0.5)),
    combine (fun k => Y' (Fin.cast hma' k)) (e'.U * diagPow (𝕜 := 𝕜) e'.S (-0.5)),
    fun l k out h => ?_, fun l k out h => ?_, fun l k out h => ?_, fun l k out h => ?_,
    handles_balanced ip X X' Y Y' a b Q R rtol t hma hmd hma' hmd' svd svd' _ _ e e' hX hY ha hb hQ hR ht hr hlib hlib' hH hH' he he'⟩
  all_goals
    obtain ⟨hc, h1, sel, h2, h3⟩ := linCombineSized_ok _ _ _ _ _ h
    exact ⟨h1, sel, h2, h3⟩

/-- Impulse responses of a linear system, with inputs mixed. -/
theorem response_mix_handles {m m' p p' k : Nat} (hp : 1 ≤ p) (hp' : 1 ≤ p') (hm : m = k * p) (hm' : m' = k * p')
    (A : E →ₗ[𝕜] E) (B : Fin p → E) (a : 𝕜) (T : Matrix (Fin p) (Fin p') 𝕜) (X : Fin m → E) (X' : Fin m' → E)
    (hX : ∀ j, X j = A^[j.val / p] (B ⟨j % p, Nat.mod_lt _ hp⟩))
    (hX' : ∀ j, X' j = A^[j.val / p'] (a • ∑ i, T i ⟨j % p', Nat.mod_lt _ hp'⟩ • B i)) (j : Fin m') :
    X' j = a • ∑ i, (stepMix hp hp' T : Matrix (Fin m) (Fin m') 𝕜) i j • X i := by
  subst hm hm'
  rw [sum_stepMix hp hp' T, hX', ← Module.End.pow_apply, map_smul, map_sum]
  congr 1
  refine Finset.sum_congr rfl fun s _ => ?_
  have e1 : (j.val / p' * p + s.val) / p = j.val / p' := by
    rw [Nat.add_comm, Nat.add_mul_div_right _ _ hp, Nat.div_eq_of_lt s.isLt, Nat.zero_add]
  have e2 : (j.val / p' * p + s.val) % p = s.val := by
    rw [Nat.add_comm, Nat.add_mul_mod_self_right, Nat.mod_eq_of_lt s.isLt]
  rw [hX, map_smul, ← Module.End.pow_apply]
  simp only [e1, e2]

/-- **C97.** Handles of impulse responses. -/
theorem C97_handles_inputs_outputs (p q p' q' : Nat) (hp : 1 ≤ p) (hq : 1 ≤ q) (hp' : 1 ≤ p') (hq' : 1 ≤ q')
    (hmd : md / p * p = md) (hma : ma / q * q = ma) (hmd' : md' / p' * p' = md') (hma' : ma' / q' * q' = ma')
    (kd : md' / p' = md / p) (ka : ma' / q' = ma / q)
    (svd : Matrix (Fin (ma / q * q)) (Fin (md / p * p)) 𝕜 → SvdOut 𝕜 (ma / q * q) (md / p * p))
    (svd' : Matrix (Fin (ma' / q' * q')) (Fin (md' / p' * p')) 𝕜 → SvdOut 𝕜 (ma' / q' * q') (md' / p' * p'))
    (ha : a ≠ 0) (hb : b ≠ 0) (T : Matrix (Fin p) (Fin p') 𝕜) (U : Matrix (Fin q) (Fin q') 𝕜) (hT : T * Tᴴ = 1) (hU : U * Uᴴ = 1)
    (ht : 0 ≤ t) (hr : ∀ t ∈ rtol, 0 ≤ t) (A Aadj : E →ₗ[𝕜] E) (hadj : ∀ u v, ip (Aadj u) v = ip u (A v)) (B : Fin p → E)
    (C : Fin q → E) (hX : ∀ j, X j = A^[j.val / p] (B ⟨j % p, Nat.mod_lt _ hp⟩))
    (hY : ∀ j, Y j = Aadj^[j.val / q] (C ⟨j % q, Nat.mod_lt _ hq⟩))
    (hX' : ∀ j, X' j = A^[j.val / p'] (a • ∑ i, T i ⟨j % p', Nat.mod_lt _ hp'⟩ • B i))
    (hY' : ∀ j, Y' j = Aadj^[j.val / q'] (b • ∑ i, U i ⟨j % q', Nat.mod_lt _ hq'⟩ • C i))
    (hlib : ∀ H, IsSvd H (svd H)) (hlib' : ∀ H, IsSvd H (svd' H)) (bpod : BpodHandles 𝕜 E md ma (ma / q * q) (md / p * p))
    (hres : bpodHandlesDecomp (fun x y => ip x y) X Y p q svd (some t) rtol = .ok bpod) :
    ∃ (bpod' : BpodHandles 𝕜 E md' ma' (ma' / q' * q') (md' / p' * p')) (Φ Ψ : Fin bpod.r → E) (Φ' Ψ' : Fin bpod'.r → E),
      bpodHandlesDecomp (fun x y => ip x y) X' Y' p' q' svd' (some (‖a‖ * ‖b‖ * t)) rtol = .ok bpod' ∧
      (∀ l k out, bpodHandlesDirectModes bpod l k = .ok out → ChosenVecs Φ l out) ∧
      (∀ l k out, bpodHandlesAdjointModes bpod l k = .ok out → ChosenVecs Ψ l out) ∧
      (∀ l k out, bpodHandlesDirectModes bpod' l k = .ok out → ChosenVecs Φ' l out) ∧
      (∀ l k out, bpodHandlesAdjointModes bpod' l k = .ok out → ChosenVecs Ψ' l out) ∧
      SameBalancedOf ip a b (stepMix hp hp' T) (stepMix hq hq' U)
        ⟨bpod.r, bpod.singVals, Φ, Ψ, (bpodHandlesDirectProjCoeffs bpod).submatrix id (Fin.cast hmd.symm),
          (bpodHandlesAdjointProjCoeffs bpod).submatrix id (Fin.cast hma.symm)⟩
        ⟨bpod'.r, bpod'.singVals, Φ', Ψ', (bpodHandlesDirectProjCoeffs bpod').submatrix id (Fin.cast hmd'.symm),
          (bpodHandlesAdjointProjCoeffs bpod').submatrix id (Fin.cast hma'.symm)⟩ := by
  have dma : q ∣ ma := Dvd.intro_left _ hma
  have dma' : q' ∣ ma' := Dvd.intro_left _ hma'
  obtain ⟨rows, e, hrows, -⟩ := bpodHandlesDecomp_cases X Y p q svd _ rtol _ bpod hres
  obtain ⟨-, -, h1, h2, -⟩ := bpodHankel_shape p q rfl rfl _ _ rows hrows
  have l1 : p' ≤ md' := by
    have := Nat.mul_le_mul_right p' h2
    rw [← kd] at this
    omega
  have l2 : q' ≤ ma' := by
    have := Nat.mul_le_mul_right q' h1
    rw [← ka] at this
    omega
  have md2 : md' = md / p * p' := by rw [← kd, hmd']
  have ma2 : ma' = ma / q * q' := by rw [← ka, hma']
  obtain ⟨bpod', hres'⟩ := C25_handles_no_error X' Y' p' q' svd' (some (‖a‖ * ‖b‖ * t)) rtol (fun x y => ip x y) hp' hq' l1 l2
  have hH := C25_handles X Y p q svd _ rtol (fun x y => ip x y) A Aadj hadj hp hq dma B C hX hY bpod hres
  have hH' := C25_handles X' Y' p' q' svd' _ rtol (fun x y => ip x y) A Aadj hadj hp' hq' dma'
    (fun j => a • ∑ i, T i j • B i) (fun j => b • ∑ i, U i j • C i) hX' hY' bpod' hres'
  obtain ⟨Φ, Ψ, Φ', Ψ', h3⟩ := C97_handles ip X X' Y Y' a b (stepMix hp hp' T) (stepMix hq hq' U) rtol t p q p' q' hmd hma hmd'
    hma' svd svd' (response_mix_handles hp hp' hmd.symm md2 A B a T X X' hX hX')
    (response_mix_handles hq hq' hma.symm ma2 Aadj C b U Y Y' hY hY') ha hb
    (stepMix_unitary hp hp' T hmd.symm md2 hT) (stepMix_unitary hq hq' U hma.symm ma2 hU) ht hr bpod bpod' hres hres' (hlib _) (hlib' _)
    (fun i j => hH i j _ _ rfl rfl) (fun i j => hH' i j _ _ rfl rfl)
  exact ⟨bpod', Φ, Ψ, Φ', Ψ', hres', h3⟩

end Handles

/-! ### Examples -/

/-- A system with two inputs and one output that multiplies by 2.  Exchanging the inputs and changing units of the inputs and of
the output changes singular values by the factor 15 and nothing else. -/
example : ∃ (svd : Matrix (Fin 2) (Fin 4) ℝ → SvdOut ℝ 2 4) (res res' : BpodResult ℝ 1 4 2)
    (Φ Ψ : Matrix (Fin 1) (Fin res.r) ℝ) (Φ' Ψ' : Matrix (Fin 1) (Fin res'.r) ℝ),
    (∀ a, IsSvd a (svd a)) ∧
    bpodArrays svd !![1, 3, 2, 6] !![1, 2] 2 1 none none none (some (1 / 10)) none = .ok res ∧
    bpodArrays svd !![9, 3, 18, 6] !![-5, -10] 2 1 none none none (some (‖(3 : ℝ)‖ * ‖(-5 : ℝ)‖ * (1 / 10))) none = .ok res' ∧
    SameBalanced (3 : ℝ) (-5) (stepMix (p := 2) (p' := 2) (by decide) (by decide) !![0, 1; 1, 0])
      (stepMix (p := 1) (p' := 1) (by decide) (by decide) 1)
      ⟨res.r, res.singVals, Φ, Ψ, res.directProjCoeffs, res.adjointProjCoeffs⟩
      ⟨res'.r, res'.singVals, Φ', Ψ', res'.directProjCoeffs, res'.adjointProjCoeffs⟩ := by
  choose svd hsvd using fun a : Matrix (Fin 2) (Fin 4) ℝ => exists_isSvd a
  obtain ⟨res, hres⟩ := C25_no_error svd !![1, 3, 2, 6] !![1, 2] 2 1 none .none (some (1 / 10)) none
    (by decide) (by decide) (by decide) (by decide) (by decide) (by decide) rfl trivial
  obtain ⟨res', Φ, Ψ, Φ', Ψ', hres', -, -, -, -, h⟩ := C97_inputs_outputs svd svd !![1, 3, 2, 6] !![9, 3, 18, 6] !![1, 2]
    !![-5, -10] 2 1 2 1 none .none none (1 / 10) 3 (-5) (by decide) (by decide) (by decide) (by decide) rfl rfl (by norm_num) (by norm_num)
    !![0, 1; 1, 0] 1
    (by ext i j; fin_cases i <;> fin_cases j <;> simp [Matrix.mul_apply, Fin.sum_univ_two]) (by simp) (by norm_num) (by simp) rfl
    trivial !![2] !![2] !![1, 3] !![1]
    (by ext i j; fin_cases i; fin_cases j; simp [Weights.matrix])
    (by intro i j; fin_cases i; fin_cases j <;> norm_num)
    (by intro i j; fin_cases i; fin_cases j <;> norm_num)
    (by intro i j; fin_cases i; fin_cases j <;> norm_num [Matrix.mul_apply, Fin.sum_univ_two])
    (by intro i j; fin_cases i; fin_cases j <;> norm_num)
    hsvd hsvd res hres
  exact ⟨svd, res, res', Φ, Ψ, Φ', Ψ', hsvd, hres, hres', h⟩

end Modred
