import Verif.Props.Balanced
import Verif.Props.Galerkin
import Verif.Props.EraModel
import Verif.Spec.Corner

/-!
# Smaller models are corners of larger ones (C110)
-/

namespace Modred

open Matrix

variable {𝕜 : Type*} [RCLike 𝕜]

omit [RCLike 𝕜] in
/-- The first `k` of the first `l` columns. -/
theorem firstCols_val {m : Type*} {n : Nat} (a : Matrix m (Fin n) 𝕜) (k l : Nat) (i : m) (j : Fin (min k n))
    (j' : Fin (min l n)) (h : j.val = j'.val) : firstCols a k i j = firstCols a l i j' :=
  congrArg (a i) (Fin.ext h)

theorem firstEntries_val {α : Type*} {n : Nat} (x : Fin n → α) (k l : Nat) (j : Fin (min k n))
    (j' : Fin (min l n)) (h : j.val = j'.val) : firstEntries x k j = firstEntries x l j' :=
  congrArg x (Fin.ext h)

variable (svd : ∀ {m n : Nat}, Matrix (Fin m) (Fin n) 𝕜 → SvdOut 𝕜 m n)

theorem eraReduce_corner (h : HankelPair 𝕜) (no ni k l : Nat) (hkl : k ≤ l) :
    (∃ e, eraReduce svd h no ni k = .error e ∧ eraReduce svd h no ni l = .error e) ∨
    ∃ s t, eraReduce svd h no ni k = .ok s ∧ eraReduce svd h no ni l = .ok t ∧ IsCorner k s t := by
  unfold eraReduce
  cases hs : utilSvd svd h.array (some svdAtol) none with
  | error e => exact .inl ⟨e, rfl, rfl⟩
  | ok s =>
    refine .inr ⟨_, _, rfl, rfl, ?_, rfl, rfl, ?_, ?_, ?_⟩
    · dsimp only
      omega
    · intro i j i' j' hi hj
      dsimp only [diagPow]
      rw [diagonal_mul, diagonal_mul, firstEntries_val s.S k l i i' hi, Matrix.mul_apply, Matrix.mul_apply]
      congr 1
      refine Finset.sum_congr rfl fun c _ => ?_
      rw [conjTranspose_apply, conjTranspose_apply, firstCols_val s.U k l c i i' hi]
      congr 1
      rw [Matrix.mul_apply, Matrix.mul_apply]
      refine Finset.sum_congr rfl fun d _ => ?_
      rw [mul_diagonal, mul_diagonal, firstCols_val s.V k l d j j' hj, firstEntries_val s.S k l j j' hj]
    · intro i j i' j' hi hj
      obtain rfl : j = j' := Fin.ext hj
      dsimp only [diagPow]
      rw [diagonal_mul, diagonal_mul, firstEntries_val s.S k l i i' hi]
      congr 1
      exact congrArg star (firstCols_val s.V k l _ i i' hi)
    · intro i j i' j' hi hj
      obtain rfl : i = i' := Fin.ext hi
      dsimp only [diagPow]
      rw [mul_diagonal, mul_diagonal, firstEntries_val s.S k l j j' hj]
      congr 1
      exact firstCols_val s.U k l _ j j' hj

/-- **C110, ERA.** The model with fewer states consists of the first states of the model with more, for all Markov
parameters, numbers of blocks and libraries; both calls leave the same object or raise the same exception. -/
theorem C110_era (cast : 𝕜 → 𝕜) (self : EraObj) (markovs : MarkovsIn 𝕜) (mc mo : Option Int) (k l : Nat) (hkl : k ≤ l) :
    (∃ e, eraModel svd cast self markovs k mc mo = .error e ∧ eraModel svd cast self markovs l mc mo = .error e) ∨
    ∃ after s t, eraModel svd cast self markovs k mc mo = .ok (after, s) ∧
      eraModel svd cast self markovs l mc mo = .ok (after, t) ∧ IsCorner k s t := by
  unfold eraModel
  cases setMarkovs markovs with
  | error e => exact .inl ⟨e, rfl, rfl⟩
  | ok m =>
    cases eraHankel cast self markovs mc mo with
    | error e => exact .inl ⟨e, rfl, rfl⟩
    | ok p =>
      obtain ⟨after, h⟩ := p
      dsimp only
      rcases eraReduce_corner svd h m.no m.ni k l hkl with ⟨e, h1, h2⟩ | ⟨s, t, h1, h2, h3⟩
      · exact .inl ⟨e, by rw [h1], by rw [h2]⟩
      · exact .inr ⟨after, s, t, by rw [h1], by rw [h2], h3⟩

/-- **C110, function for ERA.** -/
theorem C110_era_function (cast : 𝕜 → 𝕜) (markovs : MarkovsIn 𝕜) (k l : Nat) (hkl : k ≤ l) :
    (∃ e, computeEraModel svd cast markovs k = .error e ∧ computeEraModel svd cast markovs l = .error e) ∨
    ∃ s t, computeEraModel svd cast markovs k = .ok s ∧ computeEraModel svd cast markovs l = .ok t ∧ IsCorner k s t := by
  unfold computeEraModel
  rcases C110_era svd cast (eraInit none none) markovs none none k l hkl with ⟨e, h1, h2⟩ | ⟨after, s, t, h1, h2, h3⟩
  · exact .inl ⟨e, by rw [h1], by rw [h2]⟩
  · exact .inr ⟨s, t, by rw [h1], by rw [h2], h3⟩

/-- Two models of the impulse response `1, 1/2, 1/4, …`, one with no more states than the other. -/
example (svd : ∀ {m n : Nat}, Matrix (Fin m) (Fin n) ℝ → SvdOut ℝ m n) :
    ∃ s t, computeEraModel svd id (.d3 (halves 1)) 1 = .ok s ∧ computeEraModel svd id (.d3 (halves 1)) 2 = .ok t ∧
      IsCorner 1 s t := by
  obtain ⟨o, h, hh, -⟩ := halves_hankel 1
  obtain ⟨model, hmodel⟩ := C36_no_error (fun {m n} => svd (m := m) (n := n)) id (eraInit none none) o (.d3 (halves 1)) none none 1
    h hh
  rcases C110_era_function (fun {m n} => svd (m := m) (n := n)) id (.d3 (halves 1)) 1 2 (by decide) with ⟨e, h1, -⟩ | h1
  · unfold computeEraModel at h1
    rw [hmodel] at h1
    cases h1
  · exact h1

/-- **C110, balanced truncation.** The model of lower order consists of the first states of that of higher order, or
of that without a given order; the singular values are the same. -/
theorem C110_balanced
    (lyapunov : ∀ {n : Nat}, Matrix (Fin n) (Fin n) 𝕜 → Matrix (Fin n) (Fin n) 𝕜 → Matrix (Fin n) (Fin n) 𝕜)
    {n p q : Nat} (A : Matrix (Fin n) (Fin n) 𝕜) (B : Matrix (Fin n) (Fin p) 𝕜) (C : Matrix (Fin q) (Fin n) 𝕜)
    (k : Nat) (order : Option Nat) (hkl : ∀ l ∈ order, k ≤ l) :
    (∃ e, balancedTruncation lyapunov svd A B C (some k) = .error e ∧
      balancedTruncation lyapunov svd A B C order = .error e) ∨
    ∃ s t num singVals, balancedTruncation lyapunov svd A B C (some k) = .ok ⟨s, num, singVals⟩ ∧
      balancedTruncation lyapunov svd A B C order = .ok ⟨t, num, singVals⟩ ∧ IsCorner k s t := by
  unfold balancedTruncation
  dsimp only
  cases utilSvd svd (lyapunov A (B * Bᴴ)) (some svdAtol) none with
  | error e => exact .inl ⟨e, rfl, rfl⟩
  | ok sc =>
  cases utilSvd svd (lyapunov Aᴴ (Cᴴ * C)) (some svdAtol) none with
  | error e => exact .inl ⟨e, rfl, rfl⟩
  | ok so =>
  dsimp only
  cases utilSvd svd ((so.U * diagPow (𝕜 := 𝕜) so.S 0.5)ᵀ * (sc.U * diagPow (𝕜 := 𝕜) sc.S 0.5)) (some svdAtol) none with
  | error e => exact .inl ⟨e, rfl, rfl⟩
  | ok s =>
  have hL : ∀ (a b : Nat) {m : Nat} (L : Matrix (Fin n) (Fin m) 𝕜) (U : Matrix (Fin m) (Fin s.r) 𝕜) (c : Fin n)
      (j : Fin (min a s.r)) (j' : Fin (min b s.r)), j.val = j'.val →
      (L * firstCols U a * diagPow (𝕜 := 𝕜) (firstEntries s.S a) (-0.5)) c j =
        (L * firstCols U b * diagPow (𝕜 := 𝕜) (firstEntries s.S b) (-0.5)) c j' := by
    intro a b m L U c j j' h
    unfold diagPow
    rw [mul_diagonal, mul_diagonal, firstEntries_val s.S a b j j' h, Matrix.mul_apply, Matrix.mul_apply]
    congr 1
    exact Finset.sum_congr rfl fun d _ => by rw [firstCols_val U a b d j j' h]
  refine .inr ⟨_, _, _, _, rfl, rfl, ?_, rfl, rfl, ?_, ?_, ?_⟩
  · dsimp only [Option.getD_some]
    cases order with
    | none => rw [Option.getD_none]; omega
    | some l => have := hkl l rfl; rw [Option.getD_some]; omega
  · intro i j i' j' hi hj
    dsimp only
    rw [Matrix.mul_apply, Matrix.mul_apply]
    refine Finset.sum_congr rfl fun d _ => ?_
    rw [hL _ (order.getD s.r) _ _ d j j' hj, Matrix.mul_apply, Matrix.mul_apply]
    congr 1
    exact Finset.sum_congr rfl fun c _ => congrArg (· * A c d) (hL _ (order.getD s.r) _ _ c i i' hi)
  · intro i j i' j' hi hj
    obtain rfl : j = j' := Fin.ext hj
    dsimp only
    rw [Matrix.mul_apply, Matrix.mul_apply]
    exact Finset.sum_congr rfl fun c _ => congrArg (· * B c j) (hL _ (order.getD s.r) _ _ c i i' hi)
  · intro i j i' j' hi hj
    obtain rfl : i = i' := Fin.ext hi
    dsimp only
    rw [Matrix.mul_apply, Matrix.mul_apply]
    refine Finset.sum_congr rfl fun c _ => ?_
    rw [hL _ (order.getD s.r) _ _ c j j' hj]

/-- What a reduction returns for chosen basis vectors, if the flag is set or the basis is biorthonormal. -/
theorem galerkinResult_chosen {k r q s : Nat} {flag : Bool} {G : Matrix (Fin r) (Fin r) 𝕜} {P : Matrix (Fin r) (Fin q) 𝕜}
    {G' : Matrix (Fin k) (Fin k) 𝕜} {P' : Matrix (Fin k) (Fin s) 𝕜} (c : Fin k → Fin r) (d : Fin s → Fin q)
    (hc : flag = false → G = 1 ∧ Function.Injective c) (hG : G' = G.submatrix c c) (hP : P' = P.submatrix c d)
    {res : Except Err (Matrix (Fin r) (Fin q) 𝕜)} {res' : Except Err (Matrix (Fin k) (Fin s) 𝕜)}
    (h : GalerkinResult flag G P res) (h' : GalerkinResult flag G' P' res') :
    ∃ R, res = .ok R ∧ res' = .ok (R.submatrix c d) := by
  cases flag with
  | true => exact ⟨P, h.orthonormal rfl, by rw [h'.orthonormal rfl, hP]⟩
  | false =>
    obtain ⟨h1, h2⟩ := hc rfl
    subst h1
    have h3 : G' = 1 := by rw [hG, Matrix.submatrix_one c h2]
    refine ⟨P, ?_, ?_⟩
    · rw [h.regular rfl (by simp)]
      simp
    · rw [h'.regular rfl (by rw [h3]; simp), h3, hP]
      simp

section Arrays

variable {n r k : Nat} (Φ : Matrix (Fin n) (Fin r) 𝕜) (adj : Option (Matrix (Fin n) (Fin r) 𝕜)) (flag : Bool)
  (weights : Option (NdArray 𝕜)) (ws : Weights 𝕜) (g : GalerkinArrays 𝕜 n r) (g' : GalerkinArrays 𝕜 n k)
  (calls calls' : List (ArraysCall 𝕜 n)) (c : Fin k → Fin r)

/-- **C110, Galerkin projection of arrays.** If the flag for orthonormal bases is set, or the basis is biorthonormal, the
model for some of the basis vectors consists of these states of the model for all, whatever the methods were called
with before. -/
theorem C110_galerkin_arrays (hw : arraysInit weights = .ok ws) (hfit : ws.Fits n)
    (hg : galerkinArraysInit false Φ (adj.map fun a => ⟨n, r, a⟩) flag weights = .ok g)
    (hg' : galerkinArraysInit false (Φ.submatrix id c) (adj.map fun a => ⟨n, k, a.submatrix id c⟩) flag weights = .ok g')
    (hbi : flag = false → (adj.getD Φ)ᴴ * ws.matrix n * Φ = 1 ∧ Function.Injective c) :
    (∀ X : Matrix (Fin n) (Fin r) 𝕜, ∃ R, (reduceAArrays (calls.foldl ArraysCall.after g) X).1 = .ok R ∧
      (reduceAArrays (calls'.foldl ArraysCall.after g') (X.submatrix id c)).1 = .ok (R.submatrix c c)) ∧
    (∀ q (X : Matrix (Fin n) (Fin q) 𝕜), ∃ R, (reduceBArrays (calls.foldl ArraysCall.after g) X).1 = .ok R ∧
      (reduceBArrays (calls'.foldl ArraysCall.after g') X).1 = .ok (R.submatrix c id)) ∧
    ∀ q (x : Matrix (Fin q) (Fin r) 𝕜), (reduceCArrays (calls.foldl ArraysCall.after g) (.rows q r x)).1 = ⟨q, r, x⟩ ∧
      (reduceCArrays (calls'.foldl ArraysCall.after g') (.rows q k (x.submatrix id c))).1 = ⟨q, k, x.submatrix id c⟩ := by
  obtain ⟨h1, h2, h3, -⟩ := C38_arrays Φ adj flag weights ws g calls hw hfit hg
  obtain ⟨h1', h2', h3', -⟩ := C38_arrays (Φ.submatrix id c) (adj.map fun a => a.submatrix id c) flag weights ws g'
    calls' hw hfit (by rw [Option.map_map]; exact hg')
  have hadj : (adj.map fun a => a.submatrix id c).getD (Φ.submatrix id c) = (adj.getD Φ).submatrix id c := by
    cases adj <;> rfl
  rw [hadj] at h1' h2'
  refine ⟨fun X => ?_, fun q X => ?_, fun q x => ⟨h3 q r x, h3' q k _⟩⟩
  · exact galerkinResult_chosen c c hbi (by ext; rfl) (by ext; rfl) (h1 r X) (h1' k (X.submatrix id c))
  · exact galerkinResult_chosen c id hbi (by ext; rfl) (by ext; rfl) (h2 q X) (h2' q X)

end Arrays

section Handles

variable {E : Type*} {r k : Nat} (ip : E → E → 𝕜) (Φ : Fin r → E) (adj : Option (Fin r → E)) (flag : Bool)
  (g : GalerkinHandles 𝕜 E r) (g' : GalerkinHandles 𝕜 E k) (calls calls' : List (HandlesCall 𝕜 E)) (c : Fin k → Fin r)

/-- **C110, Galerkin projection with handles.** -/
theorem C110_galerkin_handles (hk : 0 < k) (hg : galerkinHandlesInit ip Φ adj flag = .ok g)
    (hg' : galerkinHandlesInit ip (fun i => Φ (c i)) (adj.map fun a i => a (c i)) flag = .ok g')
    (hbi : flag = false → handlesIp ip (adj.getD Φ) Φ = 1 ∧ Function.Injective c) :
    (∀ X : Fin r → E, ∃ R, (reduceAHandles (calls.foldl HandlesCall.after g) X).1 = .ok R ∧
      (reduceAHandles (calls'.foldl HandlesCall.after g') fun i => X (c i)).1 = .ok (R.submatrix c c)) ∧
    (∀ q (X : Fin q → E), 0 < q → ∃ R, (reduceBHandles (calls.foldl HandlesCall.after g) X).1 = .ok R ∧
      (reduceBHandles (calls'.foldl HandlesCall.after g') X).1 = .ok (R.submatrix c id)) ∧
    ∀ q (x : Matrix (Fin r) (Fin q) 𝕜), (reduceCHandles (calls.foldl HandlesCall.after g) (.rows r q x)).1 = ⟨q, r, xᵀ⟩ ∧
      (reduceCHandles (calls'.foldl HandlesCall.after g') (.rows k q (x.submatrix c id))).1 =
        ⟨q, k, xᵀ.submatrix id c⟩ := by
  have hr : 0 < r := (c ⟨0, hk⟩).pos
  obtain ⟨h1, h2, h3, -⟩ := C38_handles ip Φ adj flag g calls hr hg
  obtain ⟨h1', h2', h3', -⟩ := C38_handles ip (fun i => Φ (c i)) (adj.map fun a i => a (c i)) flag g' calls' hk hg'
  have hadj : (adj.map fun a i => a (c i)).getD (fun i => Φ (c i)) = fun i => adj.getD Φ (c i) := by
    cases adj <;> rfl
  rw [hadj] at h1' h2'
  refine ⟨fun X => ?_, fun q X hq => ?_, fun q x => ⟨h3 r q x, h3' k q _⟩⟩
  · exact galerkinResult_chosen c c hbi rfl rfl (h1 r X hr) (h1' k (fun i => X (c i)) hk)
  · exact galerkinResult_chosen c id hbi rfl rfl (h2 q X hq) (h2' q X hq)

end Handles

/-- **C110, limit.** For bases that are not biorthonormal, the smaller model need not consist of states of the larger one:
for the basis `(1, 0)`, `(1, 1)`, the array `[[1, 0], [1, 1]]` is reduced to `[[0, -1], [1, 2]]`, and for the first basis
vector alone to `1`. -/
theorem C110_needs_biorthonormal :
    ∃ (g : GalerkinArrays ℝ 2 2) (g' : GalerkinArrays ℝ 2 1),
      galerkinArraysInit false (!![1, 1; 0, 1] : Matrix (Fin 2) (Fin 2) ℝ) none false none = .ok g ∧
      galerkinArraysInit false (!![1; 0] : Matrix (Fin 2) (Fin 1) ℝ) none false none = .ok g' ∧
      (reduceAArrays g ((!![1, 0; 1, 1] : Matrix (Fin 2) (Fin 2) ℝ) * !![1, 1; 0, 1])).1 = .ok !![0, -1; 1, 2] ∧
      (reduceAArrays g' ((!![1, 0; 1, 1] : Matrix (Fin 2) (Fin 2) ℝ) * (!![1; 0] : Matrix (Fin 2) (Fin 1) ℝ))).1 = .ok !![1] := by
  obtain ⟨g, hg, -⟩ := arraysInv_init (!![1, 1; 0, 1] : Matrix (Fin 2) (Fin 2) ℝ) none false none .none rfl
  obtain ⟨g', hg', -⟩ := arraysInv_init (!![1; 0] : Matrix (Fin 2) (Fin 1) ℝ) none false none .none rfl
  obtain ⟨hA, -⟩ := C38_arrays _ none false none .none g [] rfl trivial hg
  obtain ⟨hA', -⟩ := C38_arrays _ none false none .none g' [] rfl trivial hg'
  refine ⟨g, g', hg, hg', ?_, ?_⟩
  · have hu : IsUnit ((!![1, 1; 0, 1] : Matrix (Fin 2) (Fin 2) ℝ)ᴴ * (Weights.none (𝕜 := ℝ)).matrix 2 * !![1, 1; 0, 1]).det := by
      simp [Weights.matrix, Matrix.det_mul, Matrix.det_fin_two]
    have hAr := (hA 2 ((!![1, 0; 1, 1] : Matrix (Fin 2) (Fin 2) ℝ) * !![1, 1; 0, 1])).regular rfl hu
    have e1 := (C38_residual _ _ _ (fun h => by cases h) (hA 2 _) hAr !![0, -1; 1, 2]).mp (by
      ext i j
      fin_cases i <;> fin_cases j <;> simp [Weights.matrix, Matrix.mul_apply, Fin.sum_univ_two] <;> norm_num)
    rw [e1]
    exact hAr
  · have hu : IsUnit ((!![1; 0] : Matrix (Fin 2) (Fin 1) ℝ)ᴴ * (Weights.none (𝕜 := ℝ)).matrix 2 * (!![1; 0] : Matrix (Fin 2) (Fin 1) ℝ)).det := by
      simp [Weights.matrix, Matrix.mul_apply, Fin.sum_univ_two]
    have hAr := (hA' 1 ((!![1, 0; 1, 1] : Matrix (Fin 2) (Fin 2) ℝ) * (!![1; 0] : Matrix (Fin 2) (Fin 1) ℝ))).regular rfl hu
    have e1 := (C38_residual _ _ _ (fun h => by cases h) (hA' 1 _) hAr !![1]).mp (by
      ext i j
      simp [Weights.matrix, Matrix.mul_apply, Fin.sum_univ_two])
    rw [e1]
    exact hAr

/-- The hypotheses can be met: of a system with two states given in a biorthonormal basis that is not orthonormal, the
model for the second basis vector alone is the second state. -/
example : ∃ (g : GalerkinArrays ℝ 2 2) (g' : GalerkinArrays ℝ 2 1) (R : Matrix (Fin 2) (Fin 2) ℝ),
    galerkinArraysInit false (!![1, 1; 0, 1] : Matrix (Fin 2) (Fin 2) ℝ) (some ⟨2, 2, !![1, 0; -1, 1]⟩) false none = .ok g ∧
    galerkinArraysInit false ((!![1, 1; 0, 1] : Matrix (Fin 2) (Fin 2) ℝ).submatrix id ![1])
      (some ⟨2, 1, (!![1, 0; -1, 1] : Matrix (Fin 2) (Fin 2) ℝ).submatrix id ![1]⟩) false none = .ok g' ∧
    (reduceAArrays g !![1, 1; 1, 2]).1 = .ok R ∧
    (reduceAArrays g' ((!![1, 1; 1, 2] : Matrix (Fin 2) (Fin 2) ℝ).submatrix id ![1])).1 = .ok (R.submatrix ![1] ![1]) := by
  obtain ⟨g, hg, -⟩ := arraysInv_init (!![1, 1; 0, 1] : Matrix (Fin 2) (Fin 2) ℝ) (some !![1, 0; -1, 1]) false none .none rfl
  obtain ⟨g', hg', -⟩ := arraysInv_init ((!![1, 1; 0, 1] : Matrix (Fin 2) (Fin 2) ℝ).submatrix id ![(1 : Fin 2)])
    (some ((!![1, 0; -1, 1] : Matrix (Fin 2) (Fin 2) ℝ).submatrix id ![1])) false none .none rfl
  obtain ⟨R, h1, h2⟩ := (C110_galerkin_arrays _ (some !![1, 0; -1, 1]) false none .none g g' [] [] ![1] rfl trivial hg hg'
    (fun _ => ⟨by
      ext i j
      fin_cases i <;> fin_cases j <;> simp [Weights.matrix, Matrix.mul_apply, Fin.sum_univ_two],
      Function.injective_of_subsingleton _⟩)).1 !![1, 1; 1, 2]
  exact ⟨g, g', R, hg, hg', h1, h2⟩

end Modred
