import Verif.Props.Continuity
import Mathlib.Algebra.Order.Chebyshev

/-!
# C119 for models of changed Markov parameters

Errors of measured Markov parameters change the singular values of the Hankel array, and with them the number of states, only so
much: at most the largest error of an entry times the root of the number of entries of the Hankel array.
-/

namespace Modred

open Matrix

variable {𝕜 : Type*} [RCLike 𝕜]

/-- Arrays of small entries. -/
theorem small_entries {n m : Nat} (D : Matrix (Fin n) (Fin m) 𝕜) {ε : ℝ} (hε : 0 ≤ ε) (hD : ∀ i j, ‖D i j‖ ≤ ε) :
    SmallChange 𝕜 plainLength (fun j => Dᵀ j) (ε * √(n * m)) := by
  intro x
  have hrow : ∀ i, ‖(∑ j, x j • Dᵀ j) i‖ ^ 2 ≤ ε ^ 2 * (m * ∑ j, ‖x j‖ ^ 2) := by
    intro i
    have h1 : ‖(∑ j, x j • Dᵀ j) i‖ ≤ ε * ∑ j, ‖x j‖ := by
      rw [Finset.sum_apply, Finset.mul_sum]
      refine (norm_sum_le _ _).trans (Finset.sum_le_sum fun j _ => ?_)
      rw [Pi.smul_apply, Matrix.transpose_apply, smul_eq_mul, norm_mul, mul_comm]
      exact mul_le_mul_of_nonneg_right (hD i j) (norm_nonneg _)
    have h2 := sq_sum_le_card_mul_sum_sq (s := Finset.univ) (f := fun j => ‖x j‖)
    rw [Finset.card_univ, Fintype.card_fin] at h2
    calc _ ≤ (ε * ∑ j, ‖x j‖) ^ 2 := pow_le_pow_left₀ (norm_nonneg _) h1 2
      _ = ε ^ 2 * (∑ j, ‖x j‖) ^ 2 := mul_pow _ _ _
      _ ≤ _ := mul_le_mul_of_nonneg_left h2 (sq_nonneg _)
  have hsum : plainLength (∑ j, x j • Dᵀ j) ≤ ε ^ 2 * ((n * m) * ∑ j, ‖x j‖ ^ 2) := by
    refine (Finset.sum_le_sum fun i _ => hrow i).trans (le_of_eq ?_)
    rw [Finset.sum_const, Finset.card_univ, Fintype.card_fin, nsmul_eq_mul]
    ring
  calc _ ≤ √(ε ^ 2 * ((n * m) * ∑ j, ‖x j‖ ^ 2)) := Real.sqrt_le_sqrt hsum
    _ = _ := by
      rw [Real.sqrt_mul (sq_nonneg _), Real.sqrt_sq hε, Real.sqrt_mul (by positivity), mul_assoc]

section Era

variable (svd svd' : ∀ {m n : Nat}, Matrix (Fin m) (Fin n) 𝕜 → SvdOut 𝕜 m n) (cast : 𝕜 → 𝕜) (self self' o o' : EraObj)
  (markovs markovs' : MarkovsIn 𝕜) (mc mo : Option Int)

/-- Hankel arrays of as many Markov parameters are as large. -/
theorem assembleHankel_size (m : Markovs 𝕜) (h : HankelPair 𝕜) (hh : assembleHankel cast m mc mo = .ok h) :
    h.rows = m.no * (blockCounts m.nt mc mo).1.toNat ∧ h.cols = m.ni * (blockCounts m.nt mc mo).2.toNat := by
  unfold assembleHankel at hh
  dsimp only at hh
  split at hh
  · cases hh
  split at hh
  · cases hh
  generalize (blockCounts m.nt mc mo).1.toNat = mo' at hh ⊢
  generalize (blockCounts m.nt mc mo).2.toNat = mc' at hh ⊢
  have hok : ∀ p ∈ (List.range mo').flatMap (fun row => (List.range mc').map fun col => (row, col)),
      2 * (p.1 + p.2) + 1 < m.nt := by
    by_contra hc
    push Not at hc
    rw [hankel_fold_index _ _ _ hc] at hh
    cases hh
  obtain ⟨b', hb', h1, h2, h3⟩ := hankel_fold_ok cast m _ hok
    ⟨m.no * mo', m.ni * mc', fun _ _ => 0, fun _ _ => 0⟩
  rw [hh] at hb'
  cases hb'
  exact ⟨h1, h2⟩

/-- Entries of the Hankel array change no more than the Markov parameters. -/
theorem hankel_close (m m' : Markovs 𝕜) (hno : m'.no = m.no) (hni : m'.ni = m.ni) {ε : ℝ}
    (hat : ∀ k i j, k < m.nt → i < m.no → j < m.ni → ‖cast (m.at_ k i j) - cast (m'.at_ k i j)‖ ≤ ε) (h h' : HankelPair 𝕜)
    (hh : assembleHankel cast m mc mo = .ok h) (hh' : assembleHankel cast m' mc mo = .ok h') (i j : Nat) (hi : i < h.rows)
    (hj : j < h.cols) (hi' : i < h'.rows) (hj' : j < h'.cols) : ‖h.h i j - h'.h i j‖ ≤ ε := by
  obtain ⟨a, b, hr, hc, hb⟩ := assembleHankel_blocks cast m mc mo h hh
  obtain ⟨a', b', hr', hc', hb'⟩ := assembleHankel_blocks cast m' mc mo h' hh'
  rw [hno] at hr' hb'
  rw [hni] at hc' hb'
  have hno0 : 0 < m.no := Nat.pos_of_ne_zero fun h0 => by rw [hr, h0, Nat.zero_mul] at hi; omega
  have hni0 : 0 < m.ni := Nat.pos_of_ne_zero fun h0 => by rw [hc, h0, Nat.zero_mul] at hj; omega
  have e1 : i / m.no * m.no + i % m.no = i := Nat.div_add_mod' i m.no
  have e2 : j / m.ni * m.ni + j % m.ni = j := Nat.div_add_mod' j m.ni
  obtain ⟨h1, h2⟩ := hb (i / m.no) (j / m.ni) (Nat.div_lt_of_lt_mul (hr ▸ hi)) (Nat.div_lt_of_lt_mul (hc ▸ hj))
  obtain ⟨h1', h2'⟩ := hb' (i / m.no) (j / m.ni) (Nat.div_lt_of_lt_mul (hr' ▸ hi')) (Nat.div_lt_of_lt_mul (hc' ▸ hj'))
  have h3 := (h2 (i % m.no) (j % m.ni) (Nat.mod_lt _ hno0) (Nat.mod_lt _ hni0)).1
  have h3' := (h2' (i % m.no) (j % m.ni) (Nat.mod_lt _ hno0) (Nat.mod_lt _ hni0)).1
  rw [e1, e2] at h3 h3'
  rw [h3, h3']
  exact hat _ _ _ (by omega) (Nat.mod_lt _ hno0) (Nat.mod_lt _ hni0)

/-- **C119** for `ERA.compute_model`: if no entry of the Markov parameters changes by more than `ε`, then no singular value of the
Hankel array changes by more than `ε` times the root of the number of its entries; singular values that only one of both has are at
most the tolerance and as much. -/
theorem C119_era (hlib : ∀ {m n : Nat} (a : Matrix (Fin m) (Fin n) 𝕜), IsSvd a (svd a))
    (hlib' : ∀ {m n : Nat} (a : Matrix (Fin m) (Fin n) 𝕜), IsSvd a (svd' a)) (numStates numStates' : Nat)
    (model model' : LtiModel 𝕜) (m m' : Markovs 𝕜) (hm : setMarkovs markovs = .ok m) (hm' : setMarkovs markovs' = .ok m')
    (hres : eraModel svd cast self markovs numStates mc mo = .ok (o, model))
    (hres' : eraModel svd' cast self' markovs' numStates' mc mo = .ok (o', model')) (hnt : m'.nt = m.nt) (hno : m'.no = m.no)
    (hni : m'.ni = m.ni) {ε : ℝ} (hε : 0 ≤ ε)
    (hat : ∀ k i j, k < m.nt → i < m.no → j < m.ni → ‖cast (m.at_ k i j) - cast (m'.at_ k i j)‖ ≤ ε) :
    ∃ h h' s s', eraHankel cast self markovs mc mo = .ok (o, h) ∧ eraHankel cast self' markovs' mc mo = .ok (o', h') ∧
      utilSvd svd h.array (some svdAtol) none = .ok s ∧ utilSvd svd' h'.array (some svdAtol) none = .ok s' ∧
      model.r = min numStates s.r ∧ model'.r = min numStates' s'.r ∧
      (∀ (i : Fin s.r) (i' : Fin s'.r), i.val = i'.val → |s.S i - s'.S i'| ≤ ε * √(h.rows * h.cols)) ∧
      (∀ i : Fin s.r, s'.r ≤ i.val → s.S i ≤ svdAtol + ε * √(h.rows * h.cols)) ∧
      ∀ i : Fin s'.r, s.r ≤ i.val → s'.S i ≤ svdAtol + ε * √(h.rows * h.cols) := by
  obtain ⟨h, h1, h2, h3⟩ := eraModel_cases svd cast self o markovs m mc mo numStates model hm hres
  obtain ⟨h', h1', h2', h3'⟩ := eraModel_cases svd' cast self' o' markovs' m' mc mo numStates' model' hm' hres'
  have hclose := hankel_close cast mc mo m m' hno hni hat h h' h2 h2'
  obtain ⟨hr, hc⟩ := assembleHankel_size cast mc mo m h h2
  obtain ⟨hr', hc'⟩ := assembleHankel_size cast mc mo m' h' h2'
  rw [hnt, hno, ← hr] at hr'
  rw [hnt, hni, ← hc] at hc'
  clear h2 h2' hr hc
  unfold eraReduce at h3 h3'
  split at h3
  · cases h3
  rename_i s hs
  cases h3
  split at h3'
  · cases h3'
  rename_i s' hs'
  cases h3'
  refine ⟨h, h', s, s', h1, h1', hs, hs', rfl, rfl, ?_⟩
  clear h1 h1' hres hres'
  obtain ⟨rows, cols, f, f2⟩ := h
  obtain ⟨rows', cols', f', f2'⟩ := h'
  dsimp only at hr' hc' hclose s s' hs hs' ⊢
  subst hr' hc'
  have ht : (0 : ℝ) ≤ svdAtol := by norm_num [svdAtol]
  have hS := utilSvd_positive (fun a => svd a) _ none svdAtol (by simp) (hlib _) s hs
  have hS' := utilSvd_positive (fun a => svd' a) _ none svdAtol (by simp) (hlib' _) s' hs'
  refine close_roots ht ht (fun i => ht.trans (hS i).le) (fun i => ht.trans (hS' i).le)
    (svd_close (svd := fun a => svd a) (svd₂ := fun a => svd' a) (hlib _) (hlib' _) ht ht s s' hs hs' (small_entries _ hε ?_))
  intro i j
  exact hclose i j i.isLt j.isLt i.isLt j.isLt

end Era

/-- Markov parameters `1, 1/2, 1/4, …` and twice as large ones, in Hankel arrays of two rows and columns: no entry changes by more
than one, and no singular value by more than two. -/
example : ∃ (svd : ∀ {m n : Nat}, Matrix (Fin m) (Fin n) ℝ → SvdOut ℝ m n) (o o' : EraObj) (model model' : LtiModel ℝ),
    eraModel svd id (eraInit none none) (.d3 (halves 1)) 3 (some 2) (some 2) = .ok (o, model) ∧
    eraModel svd id (eraInit none none) (.d3 (halves 2)) 3 (some 2) (some 2) = .ok (o', model') ∧
    ∃ h h' s s', eraHankel id (eraInit none none) (.d3 (halves 1)) (some 2) (some 2) = .ok (o, h) ∧
      eraHankel id (eraInit none none) (.d3 (halves 2)) (some 2) (some 2) = .ok (o', h') ∧
      utilSvd svd h.array (some svdAtol) none = .ok s ∧ utilSvd svd h'.array (some svdAtol) none = .ok s' ∧
      ∀ (i : Fin s.r) (i' : Fin s'.r), i.val = i'.val → |s.S i - s'.S i'| ≤ 2 := by
  choose svd hsvd using fun (m n : Nat) (a : Matrix (Fin m) (Fin n) ℝ) => exists_isSvd a
  have hnt : ∀ b, (halves b).nt = 6 := fun b => by simp [halves]
  obtain ⟨h1, hh1, hr1, hc1, -⟩ := C33_blocks id (halves 1) 2 2 (by rw [hnt]) (by rw [hnt])
  obtain ⟨h2, hh2, -, -, -⟩ := C33_blocks id (halves 2) 2 2 (by rw [hnt]) (by rw [hnt])
  have he1 := eraHankel_ok id (eraInit none none) (.d3 (halves 1)) (halves 1) 2 2 h1 (halves_set 1) hh1
  have he2 := eraHankel_ok id (eraInit none none) (.d3 (halves 2)) (halves 2) 2 2 h2 (halves_set 2) hh2
  obtain ⟨model, hmodel⟩ := C36_no_error (fun {m n} => svd m n) id (eraInit none none) _ (.d3 (halves 1)) _ _ 3 h1 he1
  obtain ⟨model', hmodel'⟩ := C36_no_error (fun {m n} => svd m n) id (eraInit none none) _ (.d3 (halves 2)) _ _ 3 h2 he2
  obtain ⟨h, h', s, s', e1, e2, e3, e4, -, -, e5, -, -⟩ := C119_era (fun {m n} => svd m n) (fun {m n} => svd m n) id _ _ _ _ _ _ _ _
    (fun a => hsvd _ _ a) (fun a => hsvd _ _ a) 3 3 model model' _ _ (halves_set 1) (halves_set 2) hmodel hmodel' rfl rfl rfl
    (ε := 1) zero_le_one (by
      intro k i j _ _ _
      have hk : ((1 : ℝ) / 2) ^ k ≤ 1 := pow_le_one₀ (by norm_num) (by norm_num)
      have hk0 : (0 : ℝ) ≤ (1 / 2) ^ k := by positivity
      change ‖(1 / 2 : ℝ) ^ k * 1 - (1 / 2) ^ k * 2‖ ≤ 1
      rw [Real.norm_eq_abs, abs_le]
      constructor <;> linarith)
  refine ⟨fun {m n} => svd m n, _, _, model, model', hmodel, hmodel', h, h', s, s', e1, e2, e3, e4, fun i i' hi => (e5 i i' hi).trans ?_⟩
  have heq := he1.symm.trans e1
  cases heq
  rw [hr1, hc1]
  have h4 : √(4 : ℝ) = 2 := by
    rw [show (4 : ℝ) = 2 ^ 2 by norm_num, Real.sqrt_sq (by norm_num)]
  norm_num [halves, h4]

end Modred
