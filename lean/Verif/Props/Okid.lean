import Verif.Lemmas.Okid
import Verif.Props.Era
import Verif.Lemmas.SvdExists
import Mathlib.LinearAlgebra.LinearIndependent.Lemmas
import Mathlib.LinearAlgebra.Matrix.Notation

/-!
# OKID (C37, C54)
-/

namespace Modred

open Matrix Finset

/-- The array of a signal with `N` samples. -/
def signalArray {K : Type*} [Zero K] {m : Nat} (N : Nat) (u : Nat → Fin m → K) : SignalsIn K :=
  .d2 m N fun r k => if h : r < m then u k ⟨r, h⟩ else 0

section Real

variable (lstsq : ∀ {a b c : Nat}, Matrix (Fin a) (Fin b) ℝ → Matrix (Fin a) (Fin c) ℝ → Matrix (Fin b) (Fin c) ℝ)
  {n m q : Nat}

/-- What a call computes: coefficients of the regressors, which explain the outputs if any do, and the solution of a
recursion. -/
theorem okid_run_full (hlib : ∀ {a b c : Nat} (V : Matrix (Fin a) (Fin b) ℝ) (y : Matrix (Fin a) (Fin c) ℝ),
      IsLstsq V y (lstsq V y)) (u : Nat → Fin m → ℝ) (y : Nat → Fin q → ℝ) (p N : Nat) (hp : 0 < p) (hN : p ≤ N) :
    ∃ (M : Matrix (Fin q) (Fin m ⊕ Fin p × (Fin m ⊕ Fin q)) ℝ) (out : Markovs ℝ),
      okid lstsq id false (signalArray N u) (signalArray N y) p = .ok out ∧
      (M * regressors u y p N * (regressors u y p N)ᴴ = (Matrix.of fun a (k : Fin N) => y k a) * (regressors u y p N)ᴴ ∧
        ∃ Z, M = Z * (regressors u y p N)ᴴ) ∧
      ((∃ M', M' * regressors u y p N = Matrix.of fun a (k : Fin N) => y k a) →
        M * regressors u y p N = Matrix.of fun a (k : Fin N) => y k a) ∧
      out.nt = p ∧ out.no = q ∧ out.ni = m ∧
      ∀ G : Nat → Matrix (Fin q) (Fin m) ℝ,
        (∀ j < p, G j = augInput M j + ∑ i ∈ Ico 1 (j + 1), augOutput M i * G (j - i)) →
        ∀ k < p, ∀ (i : Fin q) (j : Fin m), out.at_ k i j = G k i j := by
  obtain ⟨V, hV, h1, h2, h3, -⟩ := okidData_ok (𝕜 := ℝ) id
    ⟨m, N, fun r k => if h : r < m then u k ⟨r, h⟩ else 0⟩ ⟨q, N, fun r k => if h : r < q then y k ⟨r, h⟩ else 0⟩ p hN
  have hVr : (Matrix.of fun (r : Fin (m + (m + q) * p)) (k : Fin N) => V r k).submatrix (rowEquiv m q p) id =
      regressors u y p N := by
    ext r k
    change V (rowEquiv m q p r).val k.val = _
    obtain j | ⟨i, j | j⟩ := r
    · rw [rowEquiv_inl, h1 _ _ j.isLt]
      exact dif_pos j.isLt
    · rw [rowEquiv_input, h2 _ _ _ i.isLt j.isLt]
      change _ = delay (i.val + 1) u k j
      unfold delay
      dsimp only
      rw [dif_pos j.isLt]
      by_cases hk : i.val + 1 ≤ k.val
      · rw [if_pos hk, if_pos hk]
        rfl
      · rw [if_neg hk, if_neg hk]
        rfl
    · rw [rowEquiv_output, h3 _ _ _ i.isLt j.isLt]
      change _ = delay (i.val + 1) y k j
      unfold delay
      dsimp only
      rw [dif_pos j.isLt]
      by_cases hk : i.val + 1 ≤ k.val
      · rw [if_pos hk, if_pos hk]
        rfl
      · rw [if_neg hk, if_neg hk]
        rfl
  obtain ⟨Vm, hVm⟩ : ∃ Vm : Matrix (Fin (m + (m + q) * p)) (Fin N) ℝ,
    Vm = Matrix.of fun (r : Fin (m + (m + q) * p)) (k : Fin N) => V r k := ⟨_, rfl⟩
  rw [← hVm] at hVr
  have hY : (Matrix.of fun (r : Fin q) (k : Fin N) => if h : r.val < q then y k ⟨r, h⟩ else 0 : Matrix (Fin q) (Fin N) ℝ) =
      Matrix.of fun a (k : Fin N) => y k a := by
    ext a k
    exact dif_pos a.isLt
  obtain ⟨aug, haug⟩ : ∃ aug : Matrix (Fin q) (Fin (m + (m + q) * p)) ℝ,
    aug = (lstsq Vmᴴ (Matrix.of fun a (k : Fin N) => y k a)ᵀ)ᴴ := ⟨_, rfl⟩
  have hmul : ∀ M' : Matrix (Fin q) (Fin (m + (m + q) * p)) ℝ,
      M'.submatrix id (rowEquiv m q p) * regressors u y p N = M' * Vm := by
    intro M'
    rw [← hVr, Matrix.submatrix_mul_equiv]
    rfl
  have hD : colBlock aug 0 m = augInput (aug.submatrix id (rowEquiv m q p)) 0 := by
    ext a j
    unfold colBlock
    rw [of_apply, dif_pos (show 0 + j.val < m + (m + q) * p by have := j.isLt; omega)]
    change _ = aug a (rowEquiv m q p (.inl j))
    congr 1
    exact Fin.ext (Nat.zero_add _)
  have hle : ∀ i, i < p → m + i * (m + q) + (m + q) ≤ m + (m + q) * p := by
    intro i hi
    have := Nat.mul_le_mul_left (m + q) (show i + 1 ≤ p from hi)
    calc m + i * (m + q) + (m + q) = m + (m + q) * (i + 1) := by ring
      _ ≤ _ := by omega
  have hI : ∀ i, i < p → colBlock aug (m + i * (m + q)) m = augInput (aug.submatrix id (rowEquiv m q p)) (i + 1) := by
    intro i hi
    have := hle i hi
    ext a j
    unfold colBlock
    rw [of_apply, dif_pos (by have := j.isLt; omega)]
    change _ = dite _ _ _
    rw [dif_pos hi, submatrix_apply]
    congr 1
    exact Fin.ext (rowEquiv_input m q p ⟨i, hi⟩ j).symm
  have hO : ∀ i, i < p → colBlock aug (m + i * (m + q) + m) q = augOutput (aug.submatrix id (rowEquiv m q p)) (i + 1) := by
    intro i hi
    have := hle i hi
    ext a j
    unfold colBlock
    rw [of_apply, dif_pos (by have := j.isLt; omega)]
    change _ = dite _ _ _
    rw [dif_pos hi, submatrix_apply]
    congr 1
    exact Fin.ext (((rowEquiv_output m q p ⟨i, hi⟩ j).trans (Nat.add_assoc _ _ _).symm).symm)
  refine ⟨aug.submatrix id (rowEquiv m q p), ⟨p, q, m, fun k i j => if h : i < q ∧ j < m then (okidEstimates id (colBlock aug 0 m)
      (fun i => if i = 0 then colBlock aug 0 m else colBlock aug (m + (i - 1) * (m + q)) m)
      (fun i => -colBlock aug (m + (i - 1) * (m + q) + m) q) p).getD k 0 ⟨i, h.1⟩ ⟨j, h.2⟩ else 0⟩, ?_, ?_, ?_, rfl, rfl, rfl, ?_⟩
  · unfold okid signalArray signals2d
    dsimp only
    rw [if_neg (by simp), hV]
    dsimp only
    rw [if_neg hp.ne', if_neg (by simp), hY, ← hVm, ← haug]
  · have hls := hlib Vmᴴ (Matrix.of fun a (k : Fin N) => y k a)ᵀ
    have hR : (regressors u y p N)ᴴ = Vmᴴ.submatrix id (rowEquiv m q p) := by
      rw [← hVr]
      rfl
    constructor
    · have h := congrArg conjTranspose hls.normal
      rw [conjTranspose_mul, conjTranspose_mul, conjTranspose_conjTranspose, conjTranspose_mul, ← haug,
        Matrix.conjTranspose_eq_transpose_of_trivial (Matrix.of fun a (k : Fin N) => y k a)ᵀ, transpose_transpose] at h
      rw [hmul, hR]
      exact congrArg (fun X => X.submatrix id (rowEquiv m q p)) h
    · obtain ⟨Z, hZ⟩ := hls.least
      refine ⟨Zᴴ, ?_⟩
      rw [haug, hZ, hR, conjTranspose_conjTranspose, conjTranspose_mul]
      rfl
  · rintro ⟨M', hM'⟩
    rw [hmul, haug]
    refine IsLstsq.fit (hlib _ _) (M'.submatrix id (rowEquiv m q p).symm) ?_
    rw [← hmul, Matrix.submatrix_submatrix]
    simpa using hM'
  · intro G hG k hk i j
    dsimp only
    rw [dif_pos ⟨i.isLt, j.isLt⟩, okidEstimates_eq _ _ _ p hp G]
    · rw [List.getD_eq_getElem?_getD, List.getElem?_map, List.getElem?_range hk]
      rfl
    · rw [hG 0 hp, hD]
      simp
    · intro k h0 hk
      obtain ⟨k, rfl⟩ : ∃ l, k = l + 1 := ⟨k - 1, by omega⟩
      rw [if_neg (Nat.succ_ne_zero k), Nat.add_sub_cancel, hI k (by omega), hG (k + 1) hk, sub_eq_add_neg, ← sum_neg_distrib]
      congr 1
      refine sum_congr rfl fun i hi => ?_
      rw [mem_Ico] at hi
      obtain ⟨i, rfl⟩ : ∃ l, i = l + 1 := ⟨i - 1, by omega⟩
      rw [Nat.add_sub_cancel, hO i (by omega), Matrix.neg_mul, neg_neg]

theorem okid_run (hlib : ∀ {a b c : Nat} (V : Matrix (Fin a) (Fin b) ℝ) (y : Matrix (Fin a) (Fin c) ℝ),
      IsLstsq V y (lstsq V y)) (u : Nat → Fin m → ℝ) (y : Nat → Fin q → ℝ) (p N : Nat) (hp : 0 < p) (hN : p ≤ N) :
    ∃ (M : Matrix (Fin q) (Fin m ⊕ Fin p × (Fin m ⊕ Fin q)) ℝ) (out : Markovs ℝ),
      okid lstsq id false (signalArray N u) (signalArray N y) p = .ok out ∧
      ((∃ M', M' * regressors u y p N = Matrix.of fun a (k : Fin N) => y k a) →
        M * regressors u y p N = Matrix.of fun a (k : Fin N) => y k a) ∧
      out.nt = p ∧ out.no = q ∧ out.ni = m ∧
      ∀ G : Nat → Matrix (Fin q) (Fin m) ℝ,
        (∀ j < p, G j = augInput M j + ∑ i ∈ Ico 1 (j + 1), augOutput M i * G (j - i)) →
        ∀ k < p, ∀ (i : Fin q) (j : Fin m), out.at_ k i j = G k i j := by
  obtain ⟨M, out, h1, -, h2⟩ := okid_run_full lstsq hlib u y p N hp hN
  exact ⟨M, out, h1, h2⟩

variable (hlib : ∀ {a b c : Nat} (V : Matrix (Fin a) (Fin b) ℝ) (y : Matrix (Fin a) (Fin c) ℝ), IsLstsq V y (lstsq V y))
  (A : Matrix (Fin n) (Fin n) ℝ) (B : Matrix (Fin n) (Fin m) ℝ) (C : Matrix (Fin q) (Fin n) ℝ) (D : Matrix (Fin q) (Fin m) ℝ)
  (u : Nat → Fin m → ℝ) (p N : Nat) (hp : 0 < p) (hN : p ≤ N)

/-- The regressors are made of the given samples. -/
theorem regressors_agree (y y' : Nat → Fin q → ℝ) (hy : ∀ k < N, y k = y' k) : regressors u y p N = regressors u y' p N := by
  ext r k
  obtain j | ⟨i, j | j⟩ := r
  · rfl
  · rfl
  · change delay _ y k j = delay _ y' k j
    unfold delay
    rw [hy _ (by omega)]

variable (y : Nat → Fin q → ℝ)

include hlib hp hN

theorem okid_rich (hy : ∀ k < N, y k = restOutput A B C D u k) (P : Nat → Matrix (Fin q) (Fin q) ℝ) (hP : C * A ^ p = ∑ i ∈ Ico 1 (p + 1), P i * C * A ^ (p - i))
    (hrich : ∀ (E : Nat → Matrix (Fin q) (Fin m) ℝ) (F : Matrix (Fin q) (Fin n) ℝ),
      (∀ k < N, ∑ j ∈ range (p + 1), E j *ᵥ delay j u k + F *ᵥ delay p (restState A B u) k = 0) → ∀ j < p, E j = 0) :
    ∃ out : Markovs ℝ, okid lstsq id false (signalArray N u) (signalArray N y) p = .ok out ∧
      out.nt = p ∧ out.no = q ∧ out.ni = m ∧
      ∀ k < p, ∀ (i : Fin q) (j : Fin m), out.at_ k i j = markov A B C D k i j := by
  obtain ⟨M, out, hout, hfit, h1, h2, h3, h4⟩ := okid_run lstsq hlib u y p N hp hN
  have hY : (Matrix.of fun a (k : Fin N) => y k a) = Matrix.of fun a (k : Fin N) => restOutput A B C D u k a := by
    ext a k
    exact congrFun (hy k k.isLt) a
  rw [regressors_agree u p N y _ hy, hY] at hfit
  obtain ⟨M', hM', -⟩ := fit_exists A B C D u p N P hP
  exact ⟨out, hout, h1, h2, h3, h4 _ (markov_of_fit A B C D u p N M (hfit ⟨M', hM'⟩) hrich)⟩

/-- **C37.** If there is a dead-beat observer with `p` steps and the rows of the data matrix are independent, the Markov
parameters of the system are returned.  The outputs are those of the system at the sampled times. -/
theorem C37_independent_data (hy : ∀ k < N, y k = restOutput A B C D u k) (M : Matrix (Fin n) (Fin q) ℝ) (hM : C * (A + M * C) ^ p = 0)
    (hV : LinearIndependent ℝ (regressors u (restOutput A B C D u) p N).row) :
    ∃ out : Markovs ℝ, okid lstsq id false (signalArray N u) (signalArray N y) p = .ok out ∧
      out.nt = p ∧ out.no = q ∧ out.ni = m ∧
      ∀ k < p, ∀ (i : Fin q) (j : Fin m), out.at_ k i j = markov A B C D k i j := by
  obtain ⟨M, out, hout, hfit, h1, h2, h3, h4⟩ := okid_run lstsq hlib u y p N hp hN
  have hY : (Matrix.of fun a (k : Fin N) => y k a) = Matrix.of fun a (k : Fin N) => restOutput A B C D u k a := by
    ext a k
    exact congrFun (hy k k.isLt) a
  rw [regressors_agree u p N y _ hy, hY] at hfit
  obtain ⟨P, hP⟩ := explained_of_deadbeat A C _ p hM
  obtain ⟨M', hM', hrec⟩ := fit_exists A B C D u p N P hP
  have heq : M = M' := by
    ext a b
    have h := congrFun ((hfit ⟨M', hM'⟩).trans hM'.symm) a
    exact congrFun ((Matrix.vecMul_injective_iff.mpr hV) h) b
  subst heq
  exact ⟨out, hout, h1, h2, h3, h4 _ fun j hj => hrec j hj.le⟩

omit hlib hp hN in
theorem explained (hn : n ≤ p ∨ ∃ M : Matrix (Fin n) (Fin q) ℝ, C * (A + M * C) ^ p = 0) :
    ∃ P : Nat → Matrix (Fin q) (Fin q) ℝ, C * A ^ p = ∑ i ∈ Ico 1 (p + 1), P i * C * A ^ (p - i) := by
  rcases hn with hn | ⟨M, hM⟩
  · exact explained_of_order A C p hn
  · exact explained_of_deadbeat A C M p hM

/-- **C37.** If at least as many Markov parameters are asked for as the system has states, or there is a dead-beat
observer, and the delayed inputs and the state are independent, the Markov parameters of the system are returned.  Rows
of the data matrix need not be independent. -/
theorem C37_independent_inputs (hy : ∀ k < N, y k = restOutput A B C D u k) (hn : n ≤ p ∨ ∃ M : Matrix (Fin n) (Fin q) ℝ, C * (A + M * C) ^ p = 0)
    (hW : LinearIndependent ℝ (inputsAndState u (restState A B u) p N).row) :
    ∃ out : Markovs ℝ, okid lstsq id false (signalArray N u) (signalArray N y) p = .ok out ∧
      out.nt = p ∧ out.no = q ∧ out.ni = m ∧
      ∀ k < p, ∀ (i : Fin q) (j : Fin m), out.at_ k i j = markov A B C D k i j := by
  obtain ⟨P, hP⟩ := explained A C p hn
  refine okid_rich lstsq hlib A B C D u p N hp hN y hy P hP fun E F h j hj => ?_
  have hinj := Matrix.vecMul_injective_iff.mpr hW
  ext a b
  have hz := @hinj (Sum.elim (fun x => E x.1 a x.2) fun x => F a x) 0 (by
    dsimp only
    rw [Matrix.zero_vecMul]
    funext k
    have := congrFun (h k k.isLt) a
    unfold Matrix.vecMul dotProduct
    rw [Fintype.sum_sum_type, Fintype.sum_prod_type]
    rw [Pi.add_apply, Finset.sum_apply, Finset.sum_range] at this
    exact this)
  exact congrFun hz (.inl (⟨j, by omega⟩, b))

/-- **C37.** With a single input whose first sample is not zero, the Markov parameters are returned whatever the rest
of the input is, if at least as many are asked for as the system has states or there is a dead-beat observer. -/
theorem C37_single_input (B : Matrix (Fin n) (Fin 1) ℝ) (D : Matrix (Fin q) (Fin 1) ℝ) (u : Nat → Fin 1 → ℝ)
    (hy : ∀ k < N, y k = restOutput A B C D u k) (hn : n ≤ p ∨ ∃ M : Matrix (Fin n) (Fin q) ℝ, C * (A + M * C) ^ p = 0) (hu : u 0 0 ≠ 0) :
    ∃ out : Markovs ℝ, okid lstsq id false (signalArray N u) (signalArray N y) p = .ok out ∧
      out.nt = p ∧ out.no = q ∧ out.ni = 1 ∧
      ∀ k < p, ∀ (i : Fin q) (j : Fin 1), out.at_ k i j = markov A B C D k i j := by
  obtain ⟨P, hP⟩ := explained A C p hn
  refine okid_rich lstsq hlib A B C D u p N hp hN y hy P hP fun E F h j => ?_
  induction j using Nat.strong_induction_on with
  | _ j ih =>
    intro hj
    have := h j (by omega)
    rw [sum_eq_single_of_mem j (mem_range.mpr (by omega))] at this
    · unfold delay at this
      rw [if_pos le_rfl, if_neg (by omega), Nat.sub_self, Matrix.mulVec_zero, add_zero] at this
      ext a b
      have ha := congrFun this a
      obtain rfl := Subsingleton.elim b 0
      simpa [Matrix.mulVec, dotProduct, hu] using ha
    · intro i _ hij
      by_cases hlt : i < j
      · rw [ih i hlt (by omega), Matrix.zero_mulVec]
      · unfold delay
        rw [if_neg (by omega), Matrix.mulVec_zero]

end Real

/-! ### Errors -/

section Errors

variable {𝕜 : Type*} [RCLike 𝕜]
  (lstsq : ∀ {a b c : Nat}, Matrix (Fin a) (Fin b) 𝕜 → Matrix (Fin a) (Fin c) 𝕜 → Matrix (Fin b) (Fin c) 𝕜)
  (cast : 𝕜 → 𝕜) (complex : Bool)

/-- **C37.** A single signal may be given as an array with one dimension. -/
theorem C37_one_dimension (n n' : Nat) (f g : Nat → 𝕜) (s : SignalsIn 𝕜) (p : Nat) :
    okid lstsq cast complex (.d1 n f) s p = okid lstsq cast complex (.d2 1 n fun _ k => f k) s p ∧
    okid lstsq cast complex s (.d1 n' g) p = okid lstsq cast complex s (.d2 1 n' fun _ k => g k) p := ⟨rfl, rfl⟩

/-- **C37.** Arrays with three or more dimensions and different numbers of samples are refused. -/
theorem C37_wrong_shapes (m q N N' p : Nat) (f g : Nat → Nat → 𝕜) (s : SignalsIn 𝕜) :
    okid lstsq cast complex .higher s p = .error .valueError ∧
    okid lstsq cast complex (.d2 m N f) .higher p = .error .valueError ∧
    (N ≠ N' → okid lstsq cast complex (.d2 m N f) (.d2 q N' g) p = .error .valueError) := by
  refine ⟨rfl, rfl, fun h => ?_⟩
  unfold okid signals2d
  dsimp only
  rw [if_pos h]

/-- **C37.** Asking for no Markov parameters is an `IndexError`, and asking for more than there are samples a
`ValueError` unless there are less than three. -/
theorem C37_wrong_number (m q N p : Nat) (f g : Nat → Nat → 𝕜) :
    okid lstsq cast complex (.d2 m N f) (.d2 q N g) 0 = .error .indexError ∧
    (3 ≤ N → N < p → okid lstsq cast complex (.d2 m N f) (.d2 q N g) p = .error .valueError) := by
  constructor
  · unfold okid signals2d
    dsimp only
    rw [if_neg (by simp)]
    obtain ⟨V, hV, -⟩ := okidData_ok cast ⟨m, N, f⟩ ⟨q, N, g⟩ 0 (Nat.zero_le _)
    rw [hV]
    dsimp only
    rw [if_pos rfl]
  · intro h3 hNp
    unfold okid signals2d
    dsimp only
    rw [if_neg (by simp)]
    have hdata : okidData cast ⟨m, N, f⟩ ⟨q, N, g⟩ p = .error .valueError := by
      obtain ⟨V, hV, -⟩ := okidData_ok cast ⟨m, N, f⟩ ⟨q, N, g⟩ N le_rfl
      obtain ⟨d, rfl⟩ : ∃ d, p = N + (d + 1) := ⟨p - N - 1, by omega⟩
      unfold okidData at hV ⊢
      rw [← List.range'_append_1, List.foldlM_append]
      dsimp only at hV ⊢
      rw [hV, List.range'_succ]
      change List.foldlM _ V _ = _
      rw [List.foldlM_cons]
      unfold okidWrite
      rw [if_neg (by unfold sliceCols; rw [if_neg (by omega)]; omega)]
      rfl
    rw [hdata]

/-- **C37.** Otherwise nothing is raised for real outputs. -/
theorem C37_no_error (m q N p : Nat) (hp : 0 < p) (hN : p ≤ N) (f g : Nat → Nat → 𝕜) :
    ∃ out, okid lstsq cast false (.d2 m N f) (.d2 q N g) p = .ok out := by
  unfold okid signals2d
  dsimp only
  rw [if_neg (by simp)]
  obtain ⟨V, hV, -⟩ := okidData_ok cast ⟨m, N, f⟩ ⟨q, N, g⟩ p hN
  rw [hV]
  dsimp only
  rw [if_neg hp.ne', if_neg (by simp)]
  exact ⟨_, rfl⟩

end Errors

/-! ### Complex signals -/

section Complex

variable (lstsq : ∀ {a b c : Nat}, Matrix (Fin a) (Fin b) ℂ → Matrix (Fin a) (Fin c) ℂ → Matrix (Fin b) (Fin c) ℂ)

/-- **C54, violation.** With complex outputs more than one Markov parameter cannot be computed. -/
theorem C54_okid_type_violation (m q N p : Nat) (hp : 1 < p) (hN : p ≤ N) (f g : Nat → Nat → ℂ) :
    okid lstsq storeReal true (.d2 m N f) (.d2 q N g) p = .error .typeError := by
  unfold okid signals2d
  dsimp only
  rw [if_neg (by simp)]
  obtain ⟨V, hV, -⟩ := okidData_ok storeReal ⟨m, N, f⟩ ⟨q, N, g⟩ p hN
  rw [hV]
  dsimp only
  rw [if_neg (by omega), if_pos ⟨rfl, hp⟩]

/-- **C54, violation.** Imaginary parts of the inputs are ignored. -/
theorem C54_okid_inputs_violation (complex : Bool) (m q N p : Nat) (f g : Nat → Nat → ℂ) :
    okid lstsq storeReal complex (.d2 m N f) (.d2 q N g) p =
      okid lstsq storeReal complex (.d2 m N fun r k => storeReal (f r k)) (.d2 q N g) p := by
  have hs : ∀ z, storeReal (storeReal z) = storeReal z := fun z => by simp [storeReal]
  have hdata : okidData storeReal ⟨m, N, f⟩ ⟨q, N, g⟩ p =
      okidData storeReal ⟨m, N, fun r k => storeReal (f r k)⟩ ⟨q, N, g⟩ p := by
    unfold okidData
    dsimp only
    congr 1
    · funext V i
      unfold okidWrite
      congr 2
      funext r k
      congr 1
      generalize (r - (m + (i - 1) * (m + q))) = r'
      dsimp only
      by_cases hr : r' < m
      · rw [if_pos hr, if_pos hr, hs]
      · rw [if_neg hr, if_neg hr]
  unfold okid signals2d
  dsimp only
  rw [hdata]

theorem okidEstimates_stored {q u : Nat} (cast : ℂ → ℂ) (D : Matrix (Fin q) (Fin u) ℂ) (input : Nat → Matrix (Fin q) (Fin u) ℂ)
    (output : Nat → Matrix (Fin q) (Fin q) ℂ) (num : Nat) :
    ∀ M ∈ okidEstimates cast D input output num, ∃ M' : Matrix (Fin q) (Fin u) ℂ, M = M'.map cast := by
  unfold okidEstimates
  generalize hl : List.range' 1 (num - 1) = l
  clear hl
  have main : ∀ (l : List Nat) (est : List (Matrix (Fin q) (Fin u) ℂ)),
      (∀ M ∈ est, ∃ M' : Matrix (Fin q) (Fin u) ℂ, M = M'.map cast) →
      ∀ M ∈ l.foldl (fun est k => est ++ [(input k -
        (List.range' 1 k).foldl (fun sum i => sum + output i * est.getD (k - i) 0) 0).map cast]) est,
        ∃ M' : Matrix (Fin q) (Fin u) ℂ, M = M'.map cast := by
    intro l
    induction l with
    | nil => exact fun est h => h
    | cons k l ih =>
      intro est h
      refine ih _ ?_
      intro M hM
      rcases List.mem_append.mp hM with hM | hM
      · exact h M hM
      · exact ⟨_, List.mem_singleton.mp hM⟩
  refine main l _ ?_
  intro M hM
  exact ⟨_, List.mem_singleton.mp hM⟩

/-- **C54, violation.** All computed Markov parameters are real numbers, whatever the signals are. -/
theorem C54_okid_real_violation (complex : Bool) (inputs outputs : SignalsIn ℂ) (p : Nat) (out : Markovs ℂ)
    (h : okid lstsq storeReal complex inputs outputs p = .ok out) (k i j : Nat) : (out.at_ k i j).im = 0 := by
  unfold okid at h
  split at h
  · simp at h
  split at h
  · simp at h
  split at h
  · simp at h
  dsimp only at h
  split at h
  · simp at h
  split at h
  · simp at h
  split at h
  · simp at h
  simp only [Except.ok.injEq] at h
  subst h
  dsimp only
  split
  · rename_i hij
    generalize hest : okidEstimates storeReal _ _ _ p = est
    rw [List.getD_eq_getElem?_getD]
    cases hk : est[k]? with
    | none => simp
    | some M =>
      obtain ⟨M', rfl⟩ := okidEstimates_stored _ _ _ _ _ M (hest ▸ List.mem_of_getElem? hk)
      simp [storeReal]
  · simp

/-- **C54, violation.** The feedthrough of the system `y = u` is computed as zero if all signals are imaginary. -/
theorem C54_okid_violation (hlib : ∀ {a b c : Nat} (V : Matrix (Fin a) (Fin b) ℂ) (y : Matrix (Fin a) (Fin c) ℂ),
      IsLstsq V y (lstsq V y)) (N : Nat) (hN : 0 < N) (f : Nat → ℝ) :
    ∃ out, okid lstsq storeReal true (.d1 N fun k => f k * Complex.I) (.d1 N fun k => f k * Complex.I) 1 = .ok out ∧
      out.nt = 1 ∧ out.at_ 0 0 0 = 0 := by
  unfold okid signals2d
  dsimp only
  rw [if_neg (by simp)]
  obtain ⟨V, hV, h1, h2, h3, -⟩ := okidData_ok storeReal ⟨1, N, fun _ k => f k * Complex.I⟩ ⟨1, N, fun _ k => f k * Complex.I⟩ 1 hN
  rw [hV]
  dsimp only
  rw [if_neg one_ne_zero, if_neg (by simp)]
  refine ⟨_, rfl, rfl, ?_⟩
  have hs : ∀ x : ℝ, storeReal (x * Complex.I) = 0 := fun x => by simp [storeReal]
  have hzero : (Matrix.of fun (r : Fin (1 + (1 + 1) * 1)) (k : Fin N) => V r k : Matrix (Fin (1 + (1 + 1) * 1)) (Fin N) ℂ) = 0 := by
    ext r k
    have hr := r.isLt
    change V r.val k.val = 0
    have hc : r.val = 0 ∨ r.val = 1 ∨ r.val = 2 := by omega
    rcases hc with hc | hc | hc
    · rw [hc, h1 0 _ (by simp), hs]
    · rw [hc]
      refine (h2 0 0 k (by simp) (by simp)).trans ?_
      simp only [hs, ite_self]
    · rw [hc]
      refine (h3 0 0 k (by simp) (by simp)).trans ?_
      simp only [hs, ite_self]
  dsimp only
  rw [dif_pos ⟨Nat.one_pos, Nat.one_pos⟩, hzero]
  obtain ⟨Z, hZ⟩ := (hlib (0 : Matrix (Fin (1 + (1 + 1) * 1)) (Fin N) ℂ)ᴴ
    (Matrix.of fun (r : Fin 1) (k : Fin N) => (f k * Complex.I : ℂ))ᵀ).least
  rw [hZ]
  unfold okidEstimates colBlock storeReal
  simp

end Complex

/-! ### Examples -/

/-- A function like `numpy.linalg.lstsq` exists. -/
theorem exists_lstsq (𝕜 : Type*) [RCLike 𝕜] :
    ∃ lstsq : ∀ {a b c : Nat}, Matrix (Fin a) (Fin b) 𝕜 → Matrix (Fin a) (Fin c) 𝕜 → Matrix (Fin b) (Fin c) 𝕜,
      ∀ {a b c : Nat} (V : Matrix (Fin a) (Fin b) 𝕜) (y : Matrix (Fin a) (Fin c) 𝕜), IsLstsq V y (lstsq V y) := by
  have key : ∀ {a b c : Nat} (V : Matrix (Fin a) (Fin b) 𝕜) (y : Matrix (Fin a) (Fin c) 𝕜), ∃ X, IsLstsq V y X := by
    intro a b c V y
    obtain ⟨⟨U, S, Vh⟩, hU, hVh, hprod, -, -⟩ := exists_isSvd V
    dsimp only at hU hVh hprod
    have hadj : Vᴴ = Vhᴴ * (diagonal (fun i => (S i : 𝕜)) * Uᴴ) := by
      rw [hprod, conjTranspose_mul, conjTranspose_mul, diagonal_conjTranspose]
      congr 3
      funext i
      simp
    refine ⟨Vhᴴ * (diagonal (fun i => ((S i : 𝕜))⁻¹) * (Uᴴ * y)), ?_, U * (diagonal (fun i => ((S i : 𝕜))⁻¹ * ((S i : 𝕜))⁻¹) * (Uᴴ * y)), ?_⟩
    · have e : V * (Vhᴴ * (diagonal (fun i => ((S i : 𝕜))⁻¹) * (Uᴴ * y))) =
          U * (diagonal (fun i => (S i : 𝕜) * ((S i : 𝕜))⁻¹) * (Uᴴ * y)) := by
        rw [hprod, Matrix.mul_assoc _ Vh, ← Matrix.mul_assoc Vh, hVh, Matrix.one_mul, Matrix.mul_assoc U, ← Matrix.mul_assoc (diagonal _),
          diagonal_mul_diagonal]
      rw [e, hadj, Matrix.mul_assoc, Matrix.mul_assoc, ← Matrix.mul_assoc Uᴴ, hU, Matrix.one_mul, ← Matrix.mul_assoc (diagonal _) (diagonal _),
        diagonal_mul_diagonal, Matrix.mul_assoc, Matrix.mul_assoc]
      congr 3
      funext i
      by_cases h : (S i : 𝕜) = 0
      · simp [h]
      · field_simp
    · rw [hadj, Matrix.mul_assoc, Matrix.mul_assoc, ← Matrix.mul_assoc Uᴴ, hU, Matrix.one_mul, ← Matrix.mul_assoc (diagonal _) (diagonal _),
        diagonal_mul_diagonal]
      congr 3
      funext i
      by_cases h : (S i : 𝕜) = 0
      · simp [h]
      · field_simp
  choose f hf using fun (x : Nat × Nat × Nat) (V : Matrix (Fin x.1) (Fin x.2.1) 𝕜) (y : Matrix (Fin x.1) (Fin x.2.2) 𝕜) =>
    key V y
  exact ⟨fun {a b c} V y => f (a, b, c) V y, fun {a b c} V y => hf (a, b, c) V y⟩

/-- A system whose impulse response is 1, 1, 1, 2, 3, 5, ... -/
def fibA : Matrix (Fin 2) (Fin 2) ℝ := !![1, 1; 1, 0]
def fibB : Matrix (Fin 2) (Fin 1) ℝ := !![1; 0]
def fibC : Matrix (Fin 1) (Fin 2) ℝ := !![1, 0]
def fibD : Matrix (Fin 1) (Fin 1) ℝ := !![1]

/-- An impulse. -/
def impulseAt0 (k : Nat) (_ : Fin 1) : ℝ := if k = 0 then 1 else 0

theorem fib_state : restState fibA fibB impulseAt0 1 = ![1, 0] ∧ restState fibA fibB impulseAt0 2 = ![1, 1] ∧
    restState fibA fibB impulseAt0 3 = ![2, 1] := by
  have h1 : restState fibA fibB impulseAt0 1 = ![1, 0] := by
    change fibA *ᵥ 0 + fibB *ᵥ impulseAt0 0 = _
    ext i
    fin_cases i <;> simp [fibB, impulseAt0, Matrix.mulVec, dotProduct]
  have h2 : restState fibA fibB impulseAt0 2 = ![1, 1] := by
    change fibA *ᵥ restState fibA fibB impulseAt0 1 + fibB *ᵥ impulseAt0 1 = _
    rw [h1]
    ext i
    fin_cases i <;> simp [fibA, fibB, impulseAt0, Matrix.mulVec, dotProduct, Fin.sum_univ_two]
  refine ⟨h1, h2, ?_⟩
  change fibA *ᵥ restState fibA fibB impulseAt0 2 + fibB *ᵥ impulseAt0 2 = _
  rw [h2]
  ext i
  fin_cases i <;> simp [fibA, fibB, impulseAt0, Matrix.mulVec, dotProduct, Fin.sum_univ_two]
  norm_num

theorem fib_output : restOutput fibA fibB fibC fibD impulseAt0 0 0 = 1 ∧ restOutput fibA fibB fibC fibD impulseAt0 1 0 = 1 ∧
    restOutput fibA fibB fibC fibD impulseAt0 2 0 = 1 ∧ restOutput fibA fibB fibC fibD impulseAt0 3 0 = 2 := by
  obtain ⟨h1, h2, h3⟩ := fib_state
  unfold restOutput
  rw [h1, h2, h3]
  refine ⟨?_, ?_, ?_, ?_⟩ <;> simp [restState, fibC, fibD, impulseAt0, Matrix.mulVec, dotProduct, Fin.sum_univ_two]

/-- The first two Markov parameters from five samples of the impulse response. -/
example : ∃ (lstsq : ∀ {a b c : Nat}, Matrix (Fin a) (Fin b) ℝ → Matrix (Fin a) (Fin c) ℝ → Matrix (Fin b) (Fin c) ℝ)
    (out : Markovs ℝ),
    okid lstsq id false (signalArray 5 impulseAt0) (signalArray 5 (restOutput fibA fibB fibC fibD impulseAt0)) 2 = .ok out ∧
    out.nt = 2 ∧ out.at_ 0 0 0 = 1 ∧ out.at_ 1 0 0 = 1 := by
  obtain ⟨lstsq, hlib⟩ := exists_lstsq ℝ
  obtain ⟨h0, h1, h2, h3⟩ := fib_output
  have hdead : fibC * (fibA + (!![-1; -1] : Matrix (Fin 2) (Fin 1) ℝ) * fibC) ^ 2 = 0 := by
    have : fibA + (!![-1; -1] : Matrix (Fin 2) (Fin 1) ℝ) * fibC = !![0, 1; 0, 0] := by
      ext i j
      fin_cases i <;> fin_cases j <;> simp [fibA, fibC, Matrix.mul_apply]
    rw [this, pow_two]
    ext i j
    fin_cases i
    fin_cases j <;> simp [fibC]
  have hind : LinearIndependent ℝ (regressors impulseAt0 (restOutput fibA fibB fibC fibD impulseAt0) 2 5).row := by
    rw [Fintype.linearIndependent_iff]
    intro g hg
    have hk : ∀ k : Fin 5, g (.inl 0) * impulseAt0 k 0 + (g (.inr (0, .inl 0)) * delay 1 impulseAt0 k 0 +
        g (.inr (0, .inr 0)) * delay 1 (restOutput fibA fibB fibC fibD impulseAt0) k 0 +
        (g (.inr (1, .inl 0)) * delay 2 impulseAt0 k 0 +
        g (.inr (1, .inr 0)) * delay 2 (restOutput fibA fibB fibC fibD impulseAt0) k 0)) = 0 := by
      intro k
      have := congrFun hg k
      rw [Finset.sum_apply, Fintype.sum_sum_type, Fintype.sum_prod_type, Fin.sum_univ_two, Fintype.sum_sum_type,
        Fintype.sum_sum_type] at this
      simp only [Finset.univ_unique, Finset.sum_singleton] at this
      exact this
    have k0 := hk 0
    have k1 := hk 1
    have k2 := hk 2
    have k3 := hk 3
    have k4 := hk 4
    simp [delay, impulseAt0, h0, h1, h2, h3] at k0 k1 k2 k3 k4
    have : ∀ i, g i = 0 := by
      rintro (i | ⟨i, j | j⟩)
      · obtain rfl := Subsingleton.elim i 0
        exact k0
      all_goals
        obtain rfl := Subsingleton.elim j 0
        fin_cases i
        all_goals
          simp only [Fin.zero_eta, Fin.mk_one]
          linarith
    exact this
  obtain ⟨out, hout, hnt, -, -, h⟩ := C37_independent_data lstsq hlib fibA fibB fibC fibD impulseAt0 2 5 (by norm_num)
    (by norm_num) _ (fun _ _ => rfl) _ hdead hind
  refine ⟨lstsq, out, hout, hnt, (h 0 (by norm_num) 0 0).trans ?_, (h 1 (by norm_num) 0 0).trans ?_⟩
  · simp [markov, fibD]
  · simp [markov, fibC, fibB]

/-- Any number of Markov parameters from any input whose first sample is not zero. -/
example (u : Nat → Fin 1 → ℝ) (hu : u 0 0 ≠ 0) :
    ∃ (lstsq : ∀ {a b c : Nat}, Matrix (Fin a) (Fin b) ℝ → Matrix (Fin a) (Fin c) ℝ → Matrix (Fin b) (Fin c) ℝ)
    (out : Markovs ℝ),
    okid lstsq id false (signalArray 7 u) (signalArray 7 (restOutput fibA fibB fibC fibD u)) 3 = .ok out ∧
    out.nt = 3 ∧ out.at_ 2 0 0 = 1 := by
  obtain ⟨lstsq, hlib⟩ := exists_lstsq ℝ
  obtain ⟨out, hout, hnt, -, -, h⟩ := C37_single_input lstsq hlib fibA fibC 3 7 (by norm_num) (by norm_num) _ fibB fibD u
    (fun _ _ => rfl) (Or.inl (by norm_num)) hu
  refine ⟨lstsq, out, hout, hnt, (h 2 (by norm_num) 0 0).trans ?_⟩
  simp [markov, fibA, fibB, fibC, Matrix.mul_apply, Fin.sum_univ_two]

/-- A system with two inputs. -/
def sumA : Matrix (Fin 1) (Fin 1) ℝ := 1
def sumB : Matrix (Fin 1) (Fin 2) ℝ := !![1, 1]
def twoImpulses (k : Nat) : Fin 2 → ℝ := if k = 0 then ![1, 0] else if k = 2 then ![0, 1] else 0

example : ∃ (lstsq : ∀ {a b c : Nat}, Matrix (Fin a) (Fin b) ℝ → Matrix (Fin a) (Fin c) ℝ → Matrix (Fin b) (Fin c) ℝ)
    (out : Markovs ℝ),
    okid lstsq id false (signalArray 5 twoImpulses) (signalArray 5 (restOutput sumA sumB 1 !![3, 4] twoImpulses)) 1 = .ok out ∧
    out.nt = 1 ∧ out.at_ 0 0 1 = 4 := by
  obtain ⟨lstsq, hlib⟩ := exists_lstsq ℝ
  have hA : ∀ x, sumA *ᵥ x = x := fun x => Matrix.one_mulVec x
  have hB : ∀ x, (sumB *ᵥ x) 0 = x 0 + x 1 := fun x => by simp [sumB, Matrix.vecHead, Matrix.vecTail]
  have hx : ∀ k, restState sumA sumB twoImpulses (k + 1) 0 =
      restState sumA sumB twoImpulses k 0 + (twoImpulses k 0 + twoImpulses k 1) := fun k => by
    rw [restState, Pi.add_apply, hA, hB]
  have x1 : restState sumA sumB twoImpulses 1 0 = 1 := by
    rw [hx]
    simp [restState, twoImpulses]
  have x2 : restState sumA sumB twoImpulses 2 0 = 1 := by
    rw [hx, x1]
    simp [twoImpulses]
  have x3 : restState sumA sumB twoImpulses 3 0 = 2 := by
    rw [hx, x2]
    simp [twoImpulses]
    norm_num
  have hind : LinearIndependent ℝ (inputsAndState twoImpulses (restState sumA sumB twoImpulses) 1 5).row := by
    rw [Fintype.linearIndependent_iff]
    intro g hg
    have hk : ∀ k : Fin 5, g (.inl (0, 0)) * delay 0 twoImpulses k 0 + g (.inl (0, 1)) * delay 0 twoImpulses k 1 +
        (g (.inl (1, 0)) * delay 1 twoImpulses k 0 + g (.inl (1, 1)) * delay 1 twoImpulses k 1) +
        g (.inr 0) * delay 1 (restState sumA sumB twoImpulses) k 0 = 0 := by
      intro k
      have := congrFun hg k
      rw [Finset.sum_apply, Fintype.sum_sum_type, Fintype.sum_prod_type, Fin.sum_univ_two, Fin.sum_univ_two,
        Fin.sum_univ_two] at this
      simp only [Finset.univ_unique, Finset.sum_singleton] at this
      exact this
    have k0 := hk 0
    have k1 := hk 1
    have k2 := hk 2
    have k3 := hk 3
    have k4 := hk 4
    simp [delay, twoImpulses, x1, x2, x3, restState] at k0 k1 k2 k3 k4
    rintro (⟨i, j⟩ | j)
    · fin_cases i <;> fin_cases j
      all_goals
        simp only [Fin.zero_eta, Fin.mk_one]
        linarith
    · obtain rfl := Subsingleton.elim j 0
      linarith
  obtain ⟨out, hout, hnt, -, -, h⟩ := C37_independent_inputs lstsq hlib sumA sumB 1 !![3, 4] twoImpulses 1 5 (by norm_num)
    (by norm_num) _ (fun _ _ => rfl) (Or.inl le_rfl) hind
  refine ⟨lstsq, out, hout, hnt, (h 0 (by norm_num) 0 1).trans ?_⟩
  simp [markov]

end Modred
