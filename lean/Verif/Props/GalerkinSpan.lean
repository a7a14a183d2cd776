import Verif.Spec.GalerkinSpan
import Verif.Props.Galerkin
import Verif.Props.DmdHandles

/-!
# C132: Galerkin projection depends only on the spaces that the bases span
-/

namespace Modred

open Matrix

variable {𝕜 : Type*} [RCLike 𝕜]

/-- Both models, in terms of inner products. -/
theorem span_models {r q p : Nat} {flag : Bool} {G K S R : Matrix (Fin r) (Fin r) 𝕜} {P : Matrix (Fin r) (Fin q) 𝕜}
    {M : Matrix (Fin p) (Fin r) 𝕜} {a a' : Except Err (Matrix (Fin r) (Fin r) 𝕜)} {b b' : Except Err (Matrix (Fin r) (Fin q) 𝕜)}
    (hS : IsUnit S.det) (hR : IsUnit R.det) (hf : flag = true → Rᴴ * S = 1)
    (ha : GalerkinResult flag G K a) (hb : GalerkinResult flag G P b)
    (ha' : GalerkinResult flag (Rᴴ * G * S) (Rᴴ * K * S) a') (hb' : GalerkinResult flag (Rᴴ * G * S) (Rᴴ * P) b')
    {res res' : Except Err (Option (Cols 𝕜 r) × Option (Cols 𝕜 r) × Option (Arr 𝕜))}
    (hres : ∀ x y, a = .ok x → b = .ok y → res = .ok (some ⟨r, x⟩, some ⟨q, y⟩, some ⟨p, r, M⟩))
    (herr : ∀ e, a = .error e → res = .error e)
    (hres' : ∀ x y, a' = .ok x → b' = .ok y → res' = .ok (some ⟨r, x⟩, some ⟨q, y⟩, some ⟨p, r, M * S⟩))
    (herr' : ∀ e, a' = .error e → res' = .error e) : SameSpanModels q p S res res' := by
  have hR' : IsUnit Rᴴ.det := by
    rw [det_conjTranspose, isUnit_star]
    exact hR
  have same : ∀ (A A' : Matrix (Fin r) (Fin r) 𝕜) (B B' : Matrix (Fin r) (Fin q) 𝕜), S * A' = A * S → S * B' = B →
      ∀ k, M * S * A' ^ k * B' = M * A ^ k * B := by
    intro A A' B B' h1 h2 k
    have hp : S * A' ^ k = A ^ k * S := by
      induction k with
      | zero => simp
      | succ k ih => rw [pow_succ, ← Matrix.mul_assoc, ih, Matrix.mul_assoc, h1, ← Matrix.mul_assoc, pow_succ]
    rw [Matrix.mul_assoc M, hp, ← Matrix.mul_assoc, Matrix.mul_assoc _ S, h2]
  cases flag with
  | true =>
    have hSR : S * Rᴴ = 1 := mul_eq_one_comm.mp (hf rfl)
    have h1 : S * (Rᴴ * K * S) = K * S := by rw [← Matrix.mul_assoc, ← Matrix.mul_assoc, hSR, Matrix.one_mul]
    have h2 : S * (Rᴴ * P) = P := by rw [← Matrix.mul_assoc, hSR, Matrix.one_mul]
    exact Or.inr ⟨K, P, M, _, _, _, hres _ _ (ha.orthonormal rfl) (hb.orthonormal rfl),
      hres' _ _ (ha'.orthonormal rfl) (hb'.orthonormal rfl), h1, h2, rfl, same _ _ _ _ h1 h2⟩
  | false =>
    have hdet : IsUnit (Rᴴ * G * S).det ↔ IsUnit G.det := by
      rw [det_mul, det_mul, IsUnit.mul_iff, IsUnit.mul_iff]
      exact ⟨fun h => h.1.2, fun h => ⟨⟨hR', h⟩, hS⟩⟩
    by_cases hu : IsUnit G.det
    · have hu' := hdet.mpr hu
      have hinv : ∀ {l : Nat} (Z : Matrix (Fin r) (Fin l) 𝕜), S * ((Rᴴ * G * S)⁻¹ * (Rᴴ * Z)) = G⁻¹ * Z := by
        intro l Z
        rw [Matrix.mul_inv_rev, Matrix.mul_inv_rev, Matrix.mul_assoc S⁻¹, mul_nonsing_inv_cancel_left S _ hS, Matrix.mul_assoc,
          nonsing_inv_mul_cancel_left Rᴴ _ hR']
      have h1 : S * ((Rᴴ * G * S)⁻¹ * (Rᴴ * K * S)) = G⁻¹ * K * S := by
        rw [Matrix.mul_assoc Rᴴ K S, hinv, Matrix.mul_assoc]
      exact Or.inr ⟨_, _, M, _, _, _, hres _ _ (ha.regular rfl hu) (hb.regular rfl hu),
        hres' _ _ (ha'.regular rfl hu') (hb'.regular rfl hu'), h1, hinv P, rfl, same _ _ _ _ h1 (hinv P)⟩
    · exact Or.inl ⟨_, herr _ (ha.singular rfl hu), herr' _ (ha'.singular rfl fun h => hu (hdet.mp h))⟩

/-! ### Arrays -/

section Arrays

variable {n r q p : Nat} (Φ : Matrix (Fin n) (Fin r) 𝕜) (adj adj' : Option (Matrix (Fin n) (Fin r) 𝕜)) (flag : Bool)
  (weights : Option (NdArray 𝕜)) (ws : Weights 𝕜) (g g' : GalerkinArrays 𝕜 n r) (calls calls' : List (ArraysCall 𝕜 n))
  (S R : Matrix (Fin r) (Fin r) 𝕜)

/-- **C132** for arrays.  `S` and `R` are the coefficients of the other basis vectors and adjoint basis vectors, which are given
or not; `X` are the advanced basis vectors, `B` the inputs and `M` the outputs for the basis vectors. -/
theorem C132_arrays (hw : arraysInit weights = .ok ws) (hfit : ws.Fits n) (hS : IsUnit S.det) (hR : IsUnit R.det)
    (hf : flag = true → Rᴴ * S = 1) (hadj : adj'.getD (Φ * S) = adj.getD Φ * R)
    (hg : galerkinArraysInit false Φ (adj.map fun a => ⟨n, r, a⟩) flag weights = .ok g)
    (hg' : galerkinArraysInit false (Φ * S) (adj'.map fun a => ⟨n, r, a⟩) flag weights = .ok g')
    (X : Matrix (Fin n) (Fin r) 𝕜) (B : Matrix (Fin n) (Fin q) 𝕜) (M : Matrix (Fin p) (Fin r) 𝕜) :
    SameSpanModels q p S (galerkinModelArrays (calls.foldl ArraysCall.after g) X B (.rows p r M)).1
      (galerkinModelArrays (calls'.foldl ArraysCall.after g') (X * S) B (.rows p r (M * S))).1 := by
  obtain ⟨hA, hB, -⟩ := C38_arrays Φ adj flag weights ws g calls hw hfit hg
  obtain ⟨hA', hB', -⟩ := C38_arrays (Φ * S) adj' flag weights ws g' calls' hw hfit hg'
  obtain ⟨m1, m2⟩ := C38_arrays_model Φ adj flag weights ws g calls hw hfit hg X B (.rows p r M)
  obtain ⟨m1', m2'⟩ := C38_arrays_model (Φ * S) adj' flag weights ws g' calls' hw hfit hg' (X * S) B (.rows p r (M * S))
  have a' := hA' r (X * S)
  have b' := hB' q B
  have a := hA r X
  have b := hB q B
  rw [hadj] at a' b'
  generalize adj.getD Φ = Ψ at *
  have move : ∀ {l : Nat} (Z : Matrix (Fin n) (Fin l) 𝕜), (Ψ * R)ᴴ * ws.matrix n * Z = Rᴴ * (Ψᴴ * ws.matrix n * Z) := by
    intro l Z
    rw [conjTranspose_mul]
    simp only [Matrix.mul_assoc]
  rw [move, move, ← Matrix.mul_assoc _ Φ, ← Matrix.mul_assoc Rᴴ _ S, ← Matrix.mul_assoc _ X, ← Matrix.mul_assoc Rᴴ _ S] at a'
  rw [move, move, ← Matrix.mul_assoc _ Φ, ← Matrix.mul_assoc Rᴴ _ S] at b'
  refine span_models (M := M) hS hR hf a b a' b' (fun x y hx hy => ?_) m2 (fun x y hx hy => ?_) m2'
  · exact m1 x y hx hy
  · exact m1' x y hx hy

end Arrays

/-! ### Handles -/

section Handles

variable {E : Type*} [AddCommGroup E] [Module 𝕜 E] {r q p : Nat} (ip : E →ₗ⋆[𝕜] E →ₗ[𝕜] 𝕜) (Φ : Fin r → E) (adj adj' : Option (Fin r → E))
  (flag : Bool) (g g' : GalerkinHandles 𝕜 E r) (calls calls' : List (HandlesCall 𝕜 E)) (S R : Matrix (Fin r) (Fin r) 𝕜)

/-- **C132** for handles. -/
theorem C132_handles (hr : 0 < r) (hq : 0 < q) (hS : IsUnit S.det) (hR : IsUnit R.det) (hf : flag = true → Rᴴ * S = 1)
    (hadj : adj'.getD (columnSums Φ S) = columnSums (adj.getD Φ) R)
    (hg : galerkinHandlesInit (fun x y => ip x y) Φ adj flag = .ok g)
    (hg' : galerkinHandlesInit (fun x y => ip x y) (columnSums Φ S) adj' flag = .ok g') (X : Fin r → E) (B : Fin q → E)
    (M : Matrix (Fin p) (Fin r) 𝕜) :
    SameSpanModels q p S (galerkinModelHandles (calls.foldl HandlesCall.after g) X B (.rows r p Mᵀ)).1
      (galerkinModelHandles (calls'.foldl HandlesCall.after g') (columnSums X S) B (.rows r p (M * S)ᵀ)).1 := by
  obtain ⟨hA, hB, hC, -⟩ := C38_handles (fun x y => ip x y) Φ adj flag g calls hr hg
  obtain ⟨hA', hB', hC', -⟩ := C38_handles (fun x y => ip x y) (columnSums Φ S) adj' flag g' calls' hr hg'
  obtain ⟨m1, m2⟩ := C38_handles_model (fun x y => ip x y) Φ adj flag g calls hr hg hq X B (.rows r p Mᵀ)
  obtain ⟨m1', m2'⟩ := C38_handles_model (fun x y => ip x y) (columnSums Φ S) adj' flag g' calls' hr hg' hq (columnSums X S) B
    (.rows r p (M * S)ᵀ)
  have a' := hA' r (columnSums X S) hr
  have b' := hB' q B hq
  have a := hA r X hr
  have b := hB q B hq
  rw [hadj] at a' b'
  generalize adj.getD Φ = Ψ at *
  have left : ∀ {l : Nat} (Z : Fin l → E), handlesIp (fun x y => ip x y) (columnSums Ψ R) Z = Rᴴ * handlesIp (fun x y => ip x y) Ψ Z := by
    intro l Z
    ext i j
    rw [Matrix.mul_apply]
    change ip (∑ k, R k i • Ψ k) (Z j) = ∑ k, star (R k i) * ip (Ψ k) (Z j)
    simp [map_sum, LinearMap.sum_apply]
  have right : ∀ {l : Nat} (Z : Fin l → E) (Y : Fin r → E),
      handlesIp (fun x y => ip x y) Z (columnSums Y S) = handlesIp (fun x y => ip x y) Z Y * S := by
    intro l Z Y
    ext i j
    rw [Matrix.mul_apply]
    change ip (Z i) (∑ k, S k j • Y k) = ∑ k, ip (Z i) (Y k) * S k j
    simp [map_sum, mul_comm]
  rw [left, left, right, right, ← Matrix.mul_assoc Rᴴ _ S, ← Matrix.mul_assoc Rᴴ _ S] at a'
  rw [left, left, right, ← Matrix.mul_assoc Rᴴ _ S] at b'
  refine span_models (M := M) hS hR hf a b a' b' (fun x y hx hy => ?_) m2 (fun x y hx hy => ?_) m2'
  · exact (m1 x y hx hy).trans (congrArg (fun c => Except.ok (some _, some _, some c)) (hC r p Mᵀ))
  · exact (m1' x y hx hy).trans (congrArg (fun c => Except.ok (some _, some _, some c)) (hC' r p (M * S)ᵀ))

end Handles

/-! ### Examples -/

/-- The system with rows (1, 2) and (3, 4), projected along (1, 1) onto (1, 0), with vectors of other lengths. -/
example : ∃ (g g' : GalerkinArrays ℝ 2 1),
    galerkinArraysInit false (!![2; 0] : Matrix (Fin 2) (Fin 1) ℝ) (some ⟨2, 1, !![1; 1]⟩) false none = .ok g ∧
    galerkinArraysInit false ((!![2; 0] : Matrix (Fin 2) (Fin 1) ℝ) * (!![3] : Matrix (Fin 1) (Fin 1) ℝ))
      (some ⟨2, 1, (!![1; 1] : Matrix (Fin 2) (Fin 1) ℝ) * (!![5] : Matrix (Fin 1) (Fin 1) ℝ)⟩) false none = .ok g' ∧
    (galerkinModelArrays g (!![2; 6] : Matrix (Fin 2) (Fin 1) ℝ) (!![1; 5] : Matrix (Fin 2) (Fin 1) ℝ) (.rows 1 1 !![7])).1.isOk ∧
    SameSpanModels 1 1 (!![3] : Matrix (Fin 1) (Fin 1) ℝ)
      (galerkinModelArrays g (!![2; 6] : Matrix (Fin 2) (Fin 1) ℝ) (!![1; 5] : Matrix (Fin 2) (Fin 1) ℝ) (.rows 1 1 !![7])).1
      (galerkinModelArrays g' ((!![2; 6] : Matrix (Fin 2) (Fin 1) ℝ) * (!![3] : Matrix (Fin 1) (Fin 1) ℝ)) (!![1; 5] : Matrix (Fin 2) (Fin 1) ℝ)
        (.rows 1 1 ((!![7] : Matrix (Fin 1) (Fin 1) ℝ) * (!![3] : Matrix (Fin 1) (Fin 1) ℝ)))).1 := by
  obtain ⟨g, hg, -⟩ := arraysInv_init (!![2; 0] : Matrix (Fin 2) (Fin 1) ℝ) (some !![1; 1]) false none .none rfl
  obtain ⟨g', hg', -⟩ := arraysInv_init ((!![2; 0] : Matrix (Fin 2) (Fin 1) ℝ) * (!![3] : Matrix (Fin 1) (Fin 1) ℝ))
    (some ((!![1; 1] : Matrix (Fin 2) (Fin 1) ℝ) * (!![5] : Matrix (Fin 1) (Fin 1) ℝ))) false none .none rfl
  have h1 := C132_arrays (!![2; 0] : Matrix (Fin 2) (Fin 1) ℝ) (some !![1; 1])
    (some ((!![1; 1] : Matrix (Fin 2) (Fin 1) ℝ) * (!![5] : Matrix (Fin 1) (Fin 1) ℝ))) false none .none g g' [] [] !![3] !![5] rfl trivial
    (by simp) (by simp) (by simp) rfl hg hg' !![2; 6] (!![1; 5] : Matrix (Fin 2) (Fin 1) ℝ) (!![7] : Matrix (Fin 1) (Fin 1) ℝ)
  obtain ⟨hA, hB, -⟩ := C38_arrays (!![2; 0] : Matrix (Fin 2) (Fin 1) ℝ) (some !![1; 1]) false none .none g [] rfl trivial hg
  have hu : IsUnit ((!![1; 1] : Matrix (Fin 2) (Fin 1) ℝ)ᴴ * (Weights.none (𝕜 := ℝ)).matrix 2 * (!![2; 0] : Matrix (Fin 2) (Fin 1) ℝ)).det := by
    simp [Weights.matrix, Matrix.mul_apply, Fin.sum_univ_two]
  obtain ⟨m1, -⟩ := C38_arrays_model (!![2; 0] : Matrix (Fin 2) (Fin 1) ℝ) (some !![1; 1]) false none .none g [] rfl trivial hg
    (!![2; 6] : Matrix (Fin 2) (Fin 1) ℝ) (!![1; 5] : Matrix (Fin 2) (Fin 1) ℝ) (.rows 1 1 !![7])
  have m2 := m1 _ _ ((hA 1 _).regular rfl hu) ((hB 1 _).regular rfl hu)
  refine ⟨g, g', hg, hg', ?_, h1⟩
  rw [show (galerkinModelArrays g _ _ _).1 = _ from m2]
  rfl

/-- The same with handles, and no adjoint basis vectors. -/
example : ∃ (g g' : GalerkinHandles ℝ (Fin 2 → ℝ) 1),
    galerkinHandlesInit (s := 1) (fun x y => dotIp x y) ![![2, 0]] none false = .ok g ∧
    galerkinHandlesInit (s := 1) (fun x y => dotIp x y) (columnSums ![![2, 0]] (!![3] : Matrix (Fin 1) (Fin 1) ℝ)) none false = .ok g' ∧
    SameSpanModels 1 1 (!![3] : Matrix (Fin 1) (Fin 1) ℝ)
      (galerkinModelHandles g (![![2, 6]] : Fin 1 → Fin 2 → ℝ) (![![1, 5]] : Fin 1 → Fin 2 → ℝ)
        (.rows 1 1 (!![7] : Matrix (Fin 1) (Fin 1) ℝ)ᵀ)).1
      (galerkinModelHandles g' (columnSums (![![2, 6]] : Fin 1 → Fin 2 → ℝ) (!![3] : Matrix (Fin 1) (Fin 1) ℝ)) (![![1, 5]] : Fin 1 → Fin 2 → ℝ)
        (.rows 1 1 ((!![7] : Matrix (Fin 1) (Fin 1) ℝ) * (!![3] : Matrix (Fin 1) (Fin 1) ℝ))ᵀ)).1 := by
  obtain ⟨g, hg⟩ := (C38_handles_constructor (fun x y => dotIp x y) ![![2, 0]] none false (![] : Fin 0 → _)).2
  obtain ⟨g', hg'⟩ := (C38_handles_constructor (fun x y => dotIp x y) (columnSums ![![2, 0]] (!![3] : Matrix (Fin 1) (Fin 1) ℝ)) none false
    (![] : Fin 0 → _)).2
  exact ⟨g, g', hg, hg', C132_handles dotIp ![![2, 0]] none none false g g' [] [] !![3] !![3] one_pos one_pos (by simp) (by simp) (by simp) rfl
    hg hg' ![![2, 6]] ![![1, 5]] !![7]⟩

end Modred
