import Verif.Spec.FirstMarkov
import Verif.Props.Continuity

/-!
# C121: how models of ERA respond first

Whatever the Markov parameters are, and however few states the model has, `C B` of the model is the first Markov parameter, up to the
largest singular value that the model neglects.
-/

namespace Modred

open Matrix

variable {𝕜 : Type*} [RCLike 𝕜]

theorem sum_castLE {β : Type*} [AddCommMonoid β] {a b r : Nat} (h : a = b) (ha : a ≤ r) (hb : b ≤ r) (F : Fin r → β) :
    ∑ i : Fin a, F (Fin.castLE ha i) = ∑ i : Fin b, F (Fin.castLE hb i) := by
  subst h
  rfl

/-- Parts of arrays that make nothing long do not either. -/
theorem small_part {n m n' m' : Nat} (D : Matrix (Fin n) (Fin m) 𝕜) {b : ℝ} (hb : 0 ≤ b)
    (hD : ∀ x : Fin m → 𝕜, plainLength (∑ j, x j • Dᵀ j) ≤ b ^ 2 * ∑ j, ‖x j‖ ^ 2) (g : Fin n' → Fin n)
    (hg : Function.Injective g) (f : Fin m' → Fin m) (hf : Function.Injective f) (u : Fin m' → 𝕜) :
    √(∑ i, ‖∑ j, D (g i) (f j) * u j‖ ^ 2) ≤ b * √(∑ j, ‖u j‖ ^ 2) := by
  classical
  have h := hD (Function.extend f u 0)
  have h1 : ∑ j, ‖Function.extend f u 0 j‖ ^ 2 = ∑ j, ‖u j‖ ^ 2 := by
    refine (Fintype.sum_of_injective f hf _ _ (fun j hj => ?_) fun j => ?_).symm
    · rw [Function.extend_apply' _ _ _ fun ⟨a, ha⟩ => hj ⟨a, ha⟩]
      simp
    · rw [hf.extend_apply]
  have h2 : ∀ i, (∑ j, Function.extend f u 0 j • Dᵀ j) i = ∑ j, D i (f j) * u j := by
    intro i
    rw [Finset.sum_apply]
    refine (Fintype.sum_of_injective f hf _ _ (fun j hj => ?_) fun j => ?_).symm
    · rw [Function.extend_apply' _ _ _ fun ⟨a, ha⟩ => hj ⟨a, ha⟩]
      simp
    · rw [hf.extend_apply, Pi.smul_apply, smul_eq_mul, Matrix.transpose_apply, mul_comm]
  have h3 : ∑ i, ‖∑ j, D (g i) (f j) * u j‖ ^ 2 ≤ b ^ 2 * ∑ j, ‖u j‖ ^ 2 := by
    rw [← h1]
    refine le_trans ?_ h
    unfold plainLength
    calc ∑ i, ‖∑ j, D (g i) (f j) * u j‖ ^ 2 = ∑ i ∈ Finset.univ.map ⟨g, hg⟩, ‖(∑ j, Function.extend f u 0 j • Dᵀ j) i‖ ^ 2 := by
          rw [Finset.sum_map]
          exact Finset.sum_congr rfl fun i _ => by rw [h2]; rfl
      _ ≤ _ := Finset.sum_le_sum_of_subset_of_nonneg (Finset.subset_univ _) fun i _ _ => sq_nonneg _
  refine (Real.sqrt_le_sqrt h3).trans (le_of_eq ?_)
  rw [Real.sqrt_mul (sq_nonneg _), Real.sqrt_sq hb]

section Era

variable (svd : ∀ {m n : Nat}, Matrix (Fin m) (Fin n) 𝕜 → SvdOut 𝕜 m n) (cast : 𝕜 → 𝕜) (self o : EraObj)
  (markovs : MarkovsIn 𝕜) (mc mo : Option Int)

/-- The first block of the Hankel array is the first Markov parameter. -/
theorem hankel_first (m : Markovs 𝕜) (h : HankelPair 𝕜) (hh : assembleHankel cast m mc mo = .ok h) (i j : Nat) (hi : i < m.no)
    (hj : j < m.ni) (hi' : i < h.rows) (hj' : j < h.cols) : h.h i j = cast (m.at_ 0 i j) := by
  obtain ⟨a, b, hr, hc, hb⟩ := assembleHankel_blocks cast m mc mo h hh
  have ha : 0 < a := Nat.pos_of_ne_zero fun h0 => by rw [hr, h0, Nat.mul_zero] at hi'; omega
  have hb0 : 0 < b := Nat.pos_of_ne_zero fun h0 => by rw [hc, h0, Nat.mul_zero] at hj'; omega
  have h1 := ((hb 0 0 ha hb0).2 i j hi hj).1
  simpa using h1

/-- **C121** for `ERA.compute_model`: `C B` of the model gives the same outputs as the first Markov parameter, up to the first
singular value that the model neglects, or up to the tolerance if the model has as many states as there are singular values. -/
theorem C121_era (hlib : ∀ {m n : Nat} (a : Matrix (Fin m) (Fin n) 𝕜), IsSvd a (svd a)) (numStates : Nat)
    (model : LtiModel 𝕜) (m : Markovs 𝕜) (hm : setMarkovs markovs = .ok m)
    (hres : eraModel svd cast self markovs numStates mc mo = .ok (o, model)) :
    ∃ h s, eraHankel cast self markovs mc mo = .ok (o, h) ∧ utilSvd svd h.array (some svdAtol) none = .ok s ∧
      model.q = min m.no h.rows ∧ model.p = min m.ni h.cols ∧
      (∀ hk : numStates < s.r, SameOutputs (model.C * model.B) (Matrix.of fun i j => cast (m.at_ 0 i j)) (s.S ⟨numStates, hk⟩)) ∧
      (s.r ≤ numStates → SameOutputs (model.C * model.B) (Matrix.of fun i j => cast (m.at_ 0 i j)) svdAtol) := by
  obtain ⟨h, h1, h2, h3⟩ := eraModel_cases svd cast self o markovs m mc mo numStates model hm hres
  unfold eraReduce at h3
  split at h3
  · cases h3
  rename_i s hs
  cases h3
  have ht : (0 : ℝ) ≤ svdAtol := by norm_num [svdAtol]
  have hS := utilSvd_positive (fun a => svd a) _ none svdAtol (by simp) (hlib _) s hs
  obtain ⟨⟨e1, e2⟩, -⟩ := utilSvd_worst (svd := fun a => svd a) (hlib _) (by simp) s hs fun i => ht.trans_lt (hS i)
  refine ⟨h, s, h1, hs, rfl, rfl, ?_⟩
  have key : ∀ (k : Nat) (hk : min numStates s.r = k) (hkr : k ≤ s.r) {b : ℝ}, 0 ≤ b →
      (∀ x : Fin h.cols → 𝕜, plainLength (∑ j, x j • (h.arrayᵀ j - ∑ i : Fin k,
        (diagPow (𝕜 := 𝕜) s.S 0.5 * s.Vᴴ) (Fin.castLE hkr i) j • (s.U * diagPow (𝕜 := 𝕜) s.S 0.5)ᵀ (Fin.castLE hkr i))) ≤
          b ^ 2 * ∑ j, ‖x j‖ ^ 2) →
      SameOutputs (firstRows (firstCols s.U numStates) m.no * diagPow (𝕜 := 𝕜) (firstEntries s.S numStates) 0.5 *
        (diagPow (𝕜 := 𝕜) (firstEntries s.S numStates) 0.5 * firstCols (firstCols s.V numStates)ᴴ m.ni))
        (Matrix.of fun i j => cast (m.at_ 0 i j)) b := by
    intro k hk hkr b hb hD u
    have hp := small_part (Matrix.of fun i j => h.array i j - ∑ l : Fin k, (diagPow (𝕜 := 𝕜) s.S 0.5 * s.Vᴴ) (Fin.castLE hkr l) j *
      (s.U * diagPow (𝕜 := 𝕜) s.S 0.5) i (Fin.castLE hkr l)) hb (fun x => by
        refine le_trans (le_of_eq (congrArg plainLength ?_)) (hD x)
        refine Finset.sum_congr rfl fun j _ => congrArg _ ?_
        funext i
        rw [Pi.sub_apply, Finset.sum_apply]
        rfl) (Fin.castLE (Nat.min_le_right m.no h.rows)) (Fin.castLE_injective _) (Fin.castLE (Nat.min_le_right m.ni h.cols))
        (Fin.castLE_injective _) u
    refine le_trans (le_of_eq (congrArg _ (Finset.sum_congr rfl fun i _ => congrArg (· ^ 2) ?_))) hp
    rw [← Finset.sum_sub_distrib, ← norm_neg, ← Finset.sum_neg_distrib]
    refine congrArg _ (Finset.sum_congr rfl fun j _ => ?_)
    rw [← sub_mul, ← neg_mul, neg_sub]
    refine congrArg (· * u j) ?_
    rw [Matrix.of_apply, Matrix.of_apply]
    refine congrArg₂ (· - ·) ?_ ?_
    · exact (hankel_first cast mc mo m h h2 i j (lt_of_lt_of_le i.isLt (Nat.min_le_left _ _))
        (lt_of_lt_of_le j.isLt (Nat.min_le_left _ _)) (lt_of_lt_of_le i.isLt (Nat.min_le_right _ _))
        (lt_of_lt_of_le j.isLt (Nat.min_le_right _ _))).symm
    · rw [← sum_castLE hk (Nat.min_le_right _ _) hkr fun l => (diagPow (𝕜 := 𝕜) s.S 0.5 * s.Vᴴ) l
        (Fin.castLE (Nat.min_le_right m.ni h.cols) j) * (s.U * diagPow (𝕜 := 𝕜) s.S 0.5) (Fin.castLE (Nat.min_le_right m.no h.rows) i) l,
        Matrix.mul_apply]
      refine Finset.sum_congr rfl fun l _ => ?_
      unfold diagPow
      rw [Matrix.mul_diagonal, Matrix.diagonal_mul, Matrix.mul_diagonal, Matrix.diagonal_mul, mul_comm]
      rfl
  refine ⟨fun hk => key numStates (min_eq_left hk.le) hk.le (ht.trans (hS _).le) (e1.error ⟨numStates, hk⟩), fun hk =>
    key s.r (min_eq_right hk) le_rfl ht (e2 svdAtol ⟨ht, by simp, by simp⟩)⟩

end Era

/-- Models of Markov parameters `1, 1/2, 1/4, …`, with two states and with one. -/
example : ∃ (svd : ∀ {m n : Nat}, Matrix (Fin m) (Fin n) ℝ → SvdOut ℝ m n) (o : EraObj) (model model' : LtiModel ℝ),
    eraModel svd id (eraInit none none) (.d3 (halves 1)) 2 (some 2) (some 2) = .ok (o, model) ∧
    eraModel svd id (eraInit none none) (.d3 (halves 1)) 1 (some 2) (some 2) = .ok (o, model') ∧
    SameOutputs (model.C * model.B) (Matrix.of fun _ _ => 1) svdAtol ∧
    ∃ h s, eraHankel id (eraInit none none) (.d3 (halves 1)) (some 2) (some 2) = .ok (o, h) ∧
      utilSvd svd h.array (some svdAtol) none = .ok s ∧
      ((∃ hk : 1 < s.r, SameOutputs (model'.C * model'.B) (Matrix.of fun _ _ => 1) (s.S ⟨1, hk⟩)) ∨
        s.r ≤ 1 ∧ SameOutputs (model'.C * model'.B) (Matrix.of fun _ _ => 1) svdAtol) := by
  choose svd hsvd using fun (m n : Nat) (a : Matrix (Fin m) (Fin n) ℝ) => exists_isSvd a
  have hnt : (halves 1).nt = 6 := by simp [halves]
  obtain ⟨h1, hh1, hr1, hc1, -⟩ := C33_blocks id (halves 1) 2 2 (by rw [hnt]) (by rw [hnt])
  have he1 := eraHankel_ok id (eraInit none none) (.d3 (halves 1)) (halves 1) 2 2 h1 (halves_set 1) hh1
  obtain ⟨model, hmodel⟩ := C36_no_error (fun {m n} => svd m n) id (eraInit none none) _ (.d3 (halves 1)) _ _ 2 h1 he1
  obtain ⟨model', hmodel'⟩ := C36_no_error (fun {m n} => svd m n) id (eraInit none none) _ (.d3 (halves 1)) _ _ 1 h1 he1
  obtain ⟨h, s, e1, e2, -, -, -, e3⟩ := C121_era (fun {m n} => svd m n) id _ _ _ _ _
    (fun a => hsvd _ _ a) 2 model _ (halves_set 1) hmodel
  obtain ⟨h', s', e1', e2', -, -, e3', e4'⟩ := C121_era (fun {m n} => svd m n) id _ _ _ _ _
    (fun a => hsvd _ _ a) 1 model' _ (halves_set 1) hmodel'
  refine ⟨fun {m n} => svd m n, _, model, model', hmodel, hmodel', ?_, h', s', e1', e2', ?_⟩
  · have hr := (C19_kept_iff _ _ _ _ (hsvd _ _ _) (by simp) s e2).1
    have heq := he1.symm.trans e1
    cases heq
    have h2 : h1.rows = 2 := by rw [hr1]; simp [halves]
    have h := e3 (hr.trans ((Nat.min_le_left _ _).trans h2.le))
    simpa [halves] using h
  · rcases Nat.lt_or_ge 1 s'.r with hk | hk
    · have h := e3' hk
      exact Or.inl ⟨hk, by simpa [halves] using h⟩
    · have h := e4' hk
      exact Or.inr ⟨hk, by simpa [halves] using h⟩

end Modred
