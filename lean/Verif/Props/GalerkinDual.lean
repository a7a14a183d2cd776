import Verif.Spec.GalerkinDual
import Verif.Props.Galerkin
import Verif.Props.DmdHandles

/-!
# C129: Galerkin projection of the adjoint system gives the dual model
-/

namespace Modred

open Matrix

variable {𝕜 : Type*} [RCLike 𝕜]

/-- Both models, in terms of inner products. -/
theorem dual_models {r q p : Nat} {flag : Bool} {G K : Matrix (Fin r) (Fin r) 𝕜} {P : Matrix (Fin r) (Fin q) 𝕜} {S : Matrix (Fin p) (Fin r) 𝕜}
    {a : Except Err (Matrix (Fin r) (Fin r) 𝕜)} {b : Except Err (Matrix (Fin r) (Fin q) 𝕜)} {a' : Except Err (Matrix (Fin r) (Fin r) 𝕜)}
    {b' : Except Err (Matrix (Fin r) (Fin p) 𝕜)} (ha : GalerkinResult flag G K a) (hb : GalerkinResult flag G P b)
    (ha' : GalerkinResult flag Gᴴ Kᴴ a') (hb' : GalerkinResult flag Gᴴ Sᴴ b')
    {res res' : Except Err (Option (Cols 𝕜 r) × Option (Cols 𝕜 r) × Option (Arr 𝕜))}
    (hres : ∀ x y, a = .ok x → b = .ok y → res = .ok (some ⟨r, x⟩, some ⟨q, y⟩, some ⟨p, r, S⟩))
    (herr : ∀ e, a = .error e → res = .error e)
    (hres' : ∀ x y, a' = .ok x → b' = .ok y → res' = .ok (some ⟨r, x⟩, some ⟨p, y⟩, some ⟨q, r, Pᴴ⟩))
    (herr' : ∀ e, a' = .error e → res' = .error e) : DualModels q p (flag = true ∨ G = 1) res res' := by
  cases flag with
  | true =>
    refine Or.inr ⟨K, P, S, Kᴴ, Sᴴ, Pᴴ, hres _ _ (ha.orthonormal rfl) (hb.orthonormal rfl),
      hres' _ _ (ha'.orthonormal rfl) (hb'.orthonormal rfl), fun k => ?_, fun _ => ⟨rfl, rfl, rfl⟩⟩
    rw [conjTranspose_mul, conjTranspose_mul, conjTranspose_pow, Matrix.mul_assoc]
  | false =>
    have hdet : IsUnit Gᴴ.det ↔ IsUnit G.det := by
      rw [det_conjTranspose, isUnit_star]
    by_cases hu : IsUnit G.det
    · have hu' := hdet.mpr hu
      refine Or.inr ⟨_, _, S, _, _, Pᴴ, hres _ _ (ha.regular rfl hu) (hb.regular rfl hu),
        hres' _ _ (ha'.regular rfl hu') (hb'.regular rfl hu'), fun k => ?_, ?_⟩
      · have hpow : ∀ k, G⁻¹ * (K * G⁻¹) ^ k = (G⁻¹ * K) ^ k * G⁻¹ := by
          intro k
          induction k with
          | zero => simp
          | succ k ih => rw [pow_succ, ← Matrix.mul_assoc, ih, pow_succ, Matrix.mul_assoc, Matrix.mul_assoc, Matrix.mul_assoc]
        have h1 : S * (G⁻¹ * K) ^ k * (G⁻¹ * P) = S * G⁻¹ * (K * G⁻¹) ^ k * P := by
          rw [← Matrix.mul_assoc, Matrix.mul_assoc S, ← hpow, ← Matrix.mul_assoc S]
        rw [h1]
        simp only [conjTranspose_mul, conjTranspose_pow, conjTranspose_nonsing_inv, Matrix.mul_assoc]
      · rintro (h | rfl)
        · cases h
        · simp
    · exact Or.inl ⟨_, herr _ (ha.singular rfl hu), herr' _ (ha'.singular rfl fun h => hu (hdet.mp h))⟩

/-! ### Arrays -/

section Arrays

variable {n r q p : Nat} (Φ Ψ : Matrix (Fin n) (Fin r) 𝕜) (adj adj' : Option (Matrix (Fin n) (Fin r) 𝕜)) (flag : Bool)
  (weights : Option (NdArray 𝕜)) (ws : Weights 𝕜) (g g' : GalerkinArrays 𝕜 n r) (calls calls' : List (ArraysCall 𝕜 n))

/-- **C129** for arrays.  `X` are the basis vectors advanced by the system, `X'` the adjoint basis vectors advanced by the adjoint
system, `B` the inputs and `S` the vectors whose inner products with a state are the outputs. -/
theorem C129_arrays (hw : arraysInit weights = .ok ws) (hfit : ws.Fits n) (hW : (ws.matrix n).IsHermitian) (hΨ : adj.getD Φ = Ψ)
    (hΦ : adj'.getD Ψ = Φ) (hg : galerkinArraysInit false Φ (adj.map fun a => ⟨n, r, a⟩) flag weights = .ok g)
    (hg' : galerkinArraysInit false Ψ (adj'.map fun a => ⟨n, r, a⟩) flag weights = .ok g')
    (X X' : Matrix (Fin n) (Fin r) 𝕜) (B : Matrix (Fin n) (Fin q) 𝕜) (S : Matrix (Fin n) (Fin p) 𝕜)
    (hX : X'ᴴ * ws.matrix n * Φ = Ψᴴ * ws.matrix n * X) :
    DualModels q p (flag = true ∨ Ψᴴ * ws.matrix n * Φ = 1)
      (galerkinModelArrays (calls.foldl ArraysCall.after g) X B (.rows p r (Sᴴ * ws.matrix n * Φ))).1
      (galerkinModelArrays (calls'.foldl ArraysCall.after g') X' S (.rows q r (Bᴴ * ws.matrix n * Ψ))).1 := by
  have flip : ∀ {k l : Nat} (a : Matrix (Fin n) (Fin k) 𝕜) (b : Matrix (Fin n) (Fin l) 𝕜), aᴴ * ws.matrix n * b = (bᴴ * ws.matrix n * a)ᴴ := by
    intro k l a b
    rw [conjTranspose_mul, conjTranspose_mul, conjTranspose_conjTranspose, hW.eq, Matrix.mul_assoc]
  obtain ⟨hA, hB, -⟩ := C38_arrays Φ adj flag weights ws g calls hw hfit hg
  obtain ⟨hA', hB', -⟩ := C38_arrays Ψ adj' flag weights ws g' calls' hw hfit hg'
  obtain ⟨m1, m2⟩ := C38_arrays_model Φ adj flag weights ws g calls hw hfit hg X B (.rows p r (Sᴴ * ws.matrix n * Φ))
  obtain ⟨m1', m2'⟩ := C38_arrays_model Ψ adj' flag weights ws g' calls' hw hfit hg' X' S (.rows q r (Bᴴ * ws.matrix n * Ψ))
  have a' := hA' r X'
  have b' := hB' p S
  have a := hA r X
  have b := hB q B
  rw [hΨ] at a b
  rw [hΦ, flip Φ Ψ] at a' b'
  rw [flip Φ X', hX] at a'
  rw [flip Φ S] at b'
  refine dual_models a b a' b' (fun x y hx hy => ?_) m2 (fun x y hx hy => ?_) m2'
  · exact m1 x y hx hy
  · rw [m1' x y hx hy, ← flip B Ψ]
    rfl

end Arrays

/-! ### Handles -/

section Handles

variable {E : Type*} [AddCommGroup E] [Module 𝕜 E] {r q p : Nat} (ip : E →ₗ⋆[𝕜] E →ₗ[𝕜] 𝕜) (Φ Ψ : Fin r → E) (adj adj' : Option (Fin r → E))
  (flag : Bool) (g g' : GalerkinHandles 𝕜 E r) (calls calls' : List (HandlesCall 𝕜 E))

/-- **C129** for handles. -/
theorem C129_handles (hr : 0 < r) (hq : 0 < q) (hp : 0 < p) (hsym : ∀ x y, ip y x = star (ip x y)) (hΨ : adj.getD Φ = Ψ)
    (hΦ : adj'.getD Ψ = Φ) (hg : galerkinHandlesInit (fun x y => ip x y) Φ adj flag = .ok g)
    (hg' : galerkinHandlesInit (fun x y => ip x y) Ψ adj' flag = .ok g') (X X' : Fin r → E) (B : Fin q → E) (S : Fin p → E)
    (hX : ∀ i j, ip (X' i) (Φ j) = ip (Ψ i) (X j)) :
    DualModels q p (flag = true ∨ ∀ i j, ip (Ψ i) (Φ j) = if i = j then 1 else 0)
      (galerkinModelHandles (calls.foldl HandlesCall.after g) X B (.rows r p fun j i => ip (S i) (Φ j))).1
      (galerkinModelHandles (calls'.foldl HandlesCall.after g') X' S (.rows r q fun j i => ip (B i) (Ψ j))).1 := by
  have flip : ∀ {k l : Nat} (a : Fin k → E) (b : Fin l → E), handlesIp (fun x y => ip x y) a b = (handlesIp (fun x y => ip x y) b a)ᴴ := by
    intro k l a b
    ext i j
    exact hsym (b j) (a i)
  obtain ⟨hA, hB, hC, -⟩ := C38_handles (fun x y => ip x y) Φ adj flag g calls hr hg
  obtain ⟨hA', hB', hC', -⟩ := C38_handles (fun x y => ip x y) Ψ adj' flag g' calls' hr hg'
  obtain ⟨m1, m2⟩ := C38_handles_model (fun x y => ip x y) Φ adj flag g calls hr hg hq X B (.rows r p fun j i => ip (S i) (Φ j))
  obtain ⟨m1', m2'⟩ := C38_handles_model (fun x y => ip x y) Ψ adj' flag g' calls' hr hg' hp X' S (.rows r q fun j i => ip (B i) (Ψ j))
  have hX' : handlesIp (fun x y => ip x y) X' Φ = handlesIp (fun x y => ip x y) Ψ X := by
    ext i j
    exact hX i j
  have a' := hA' r X' hr
  have b' := hB' p S hp
  have a := hA r X hr
  have b := hB q B hq
  rw [hΨ] at a b
  rw [hΦ, flip Φ Ψ] at a' b'
  rw [flip Φ X', hX'] at a'
  rw [flip Φ S] at b'
  have key := dual_models a b a' b' (res := (galerkinModelHandles (calls.foldl HandlesCall.after g) X B (.rows r p fun j i => ip (S i) (Φ j))).1)
    (res' := (galerkinModelHandles (calls'.foldl HandlesCall.after g') X' S (.rows r q fun j i => ip (B i) (Ψ j))).1) (fun x y hx hy => ?_) m2
    (fun x y hx hy => ?_) m2'
  · have e : (handlesIp (fun x y => ip x y) Ψ Φ = 1) ↔ ∀ i j, ip (Ψ i) (Φ j) = if i = j then 1 else 0 := by
      rw [← Matrix.ext_iff]
      simp only [Matrix.one_apply]
      rfl
    rw [e] at key
    exact key
  · rw [m1 x y hx hy, hC]
    rfl
  · rw [m1' x y hx hy, hC', ← flip B Ψ]
    rfl

end Handles

/-! ### Examples -/

/-- The system with rows (1, 2) and (3, 4), projected along (1, 1) onto (1, 0), which is not a biorthonormal pair. -/
example : ∃ (g g' : GalerkinArrays ℝ 2 1),
    galerkinArraysInit false (!![2; 0] : Matrix (Fin 2) (Fin 1) ℝ) (some ⟨2, 1, !![1; 1]⟩) false none = .ok g ∧
    galerkinArraysInit false (!![1; 1] : Matrix (Fin 2) (Fin 1) ℝ) (some ⟨2, 1, !![2; 0]⟩) false none = .ok g' ∧
    (galerkinModelArrays g (!![2; 6] : Matrix (Fin 2) (Fin 1) ℝ) (!![1; 5] : Matrix (Fin 2) (Fin 1) ℝ)
      (.rows 1 1 ((!![3; 1] : Matrix (Fin 2) (Fin 1) ℝ)ᴴ * (1 : Matrix (Fin 2) (Fin 2) ℝ) * (!![2; 0] : Matrix (Fin 2) (Fin 1) ℝ)))).1.isOk ∧
    DualModels 1 1 False
      (galerkinModelArrays g (!![2; 6] : Matrix (Fin 2) (Fin 1) ℝ) (!![1; 5] : Matrix (Fin 2) (Fin 1) ℝ)
        (.rows 1 1 ((!![3; 1] : Matrix (Fin 2) (Fin 1) ℝ)ᴴ * (1 : Matrix (Fin 2) (Fin 2) ℝ) * (!![2; 0] : Matrix (Fin 2) (Fin 1) ℝ)))).1
      (galerkinModelArrays g' (!![4; 6] : Matrix (Fin 2) (Fin 1) ℝ) (!![3; 1] : Matrix (Fin 2) (Fin 1) ℝ)
        (.rows 1 1 ((!![1; 5] : Matrix (Fin 2) (Fin 1) ℝ)ᴴ * (1 : Matrix (Fin 2) (Fin 2) ℝ) * (!![1; 1] : Matrix (Fin 2) (Fin 1) ℝ)))).1 := by
  obtain ⟨g, hg, -⟩ := arraysInv_init (!![2; 0] : Matrix (Fin 2) (Fin 1) ℝ) (some !![1; 1]) false none .none rfl
  obtain ⟨g', hg', -⟩ := arraysInv_init (!![1; 1] : Matrix (Fin 2) (Fin 1) ℝ) (some !![2; 0]) false none .none rfl
  have h1 := C129_arrays (!![2; 0] : Matrix (Fin 2) (Fin 1) ℝ) !![1; 1] (some !![1; 1]) (some !![2; 0]) false none .none g g' [] [] rfl trivial
    (by simp [Weights.matrix, Matrix.IsHermitian]) rfl rfl hg hg' !![2; 6] !![4; 6] (!![1; 5] : Matrix (Fin 2) (Fin 1) ℝ)
    (!![3; 1] : Matrix (Fin 2) (Fin 1) ℝ) (by
      ext i j
      simp [Weights.matrix, Matrix.mul_apply, Fin.sum_univ_two]
      norm_num)
  obtain ⟨hA, hB, -⟩ := C38_arrays (!![2; 0] : Matrix (Fin 2) (Fin 1) ℝ) (some !![1; 1]) false none .none g [] rfl trivial hg
  have hu : IsUnit ((!![1; 1] : Matrix (Fin 2) (Fin 1) ℝ)ᴴ * (Weights.none (𝕜 := ℝ)).matrix 2 * (!![2; 0] : Matrix (Fin 2) (Fin 1) ℝ)).det := by
    simp [Weights.matrix, Matrix.mul_apply, Fin.sum_univ_two]
  obtain ⟨m1, -⟩ := C38_arrays_model (!![2; 0] : Matrix (Fin 2) (Fin 1) ℝ) (some !![1; 1]) false none .none g [] rfl trivial hg
    (!![2; 6] : Matrix (Fin 2) (Fin 1) ℝ) (!![1; 5] : Matrix (Fin 2) (Fin 1) ℝ) (.rows 1 1 ((!![3; 1] : Matrix (Fin 2) (Fin 1) ℝ)ᴴ * (1 : Matrix (Fin 2) (Fin 2) ℝ) * (!![2; 0] : Matrix (Fin 2) (Fin 1) ℝ)))
  have m2 := m1 _ _ ((hA 1 _).regular rfl hu) ((hB 1 _).regular rfl hu)
  refine ⟨g, g', hg, hg', ?_, ?_⟩
  · rw [show (galerkinModelArrays g _ _ _).1 = _ from m2]
    rfl
  · rcases h1 with h | ⟨A, B, C, A', B', C', h2, h3, h4, -⟩
    · exact Or.inl h
    · exact Or.inr ⟨A, B, C, A', B', C', h2, h3, h4, False.elim⟩

/-- The same with handles. -/
example : ∃ (g g' : GalerkinHandles ℝ (Fin 2 → ℝ) 1),
    galerkinHandlesInit (fun x y => dotIp x y) ![![2, 0]] (some ![![1, 1]]) false = .ok g ∧
    galerkinHandlesInit (fun x y => dotIp x y) ![![1, 1]] (some ![![2, 0]]) false = .ok g' ∧
    DualModels 1 1 (false = true ∨ ∀ i j, dotIp ((![![1, 1]] : Fin 1 → Fin 2 → ℝ) i) ((![![2, 0]] : Fin 1 → Fin 2 → ℝ) j) = if i = j then 1 else 0)
      (galerkinModelHandles g (![![2, 6]] : Fin 1 → Fin 2 → ℝ) (![![1, 5]] : Fin 1 → Fin 2 → ℝ) (.rows 1 1 fun j i =>
        dotIp ((![![3, 1]] : Fin 1 → Fin 2 → ℝ) i) ((![![2, 0]] : Fin 1 → Fin 2 → ℝ) j))).1
      (galerkinModelHandles g' (![![4, 6]] : Fin 1 → Fin 2 → ℝ) (![![3, 1]] : Fin 1 → Fin 2 → ℝ) (.rows 1 1 fun j i =>
        dotIp ((![![1, 5]] : Fin 1 → Fin 2 → ℝ) i) ((![![1, 1]] : Fin 1 → Fin 2 → ℝ) j))).1 := by
  obtain ⟨g, hg⟩ := (C38_handles_constructor (fun x y => dotIp x y) ![![2, 0]] (some ![![1, 1]]) false (![] : Fin 0 → _)).2
  obtain ⟨g', hg'⟩ := (C38_handles_constructor (fun x y => dotIp x y) ![![1, 1]] (some ![![2, 0]]) false (![] : Fin 0 → _)).2
  refine ⟨g, g', hg, hg', C129_handles dotIp ![![2, 0]] ![![1, 1]] (some ![![1, 1]]) (some ![![2, 0]]) false g g' [] [] one_pos one_pos one_pos
    dotIp_symm rfl rfl hg hg' ![![2, 6]] ![![4, 6]] ![![1, 5]] ![![3, 1]] fun i j => ?_⟩
  rw [dotIp_apply, dotIp_apply]
  fin_cases i
  fin_cases j
  simp
  norm_num

end Modred
