import Verif.Spec.ReducedAgain
import Verif.Props.GalerkinSpan

/-!
# C136: reducing a model again is reducing the system
-/

namespace Modred

open Matrix

variable {𝕜 : Type*} [RCLike 𝕜]

/-- Reductions from the same inner products are the same. -/
theorem same_galerkin {r q p : Nat} {flag : Bool} {G K : Matrix (Fin r) (Fin r) 𝕜} {P : Matrix (Fin r) (Fin q) 𝕜}
    {M : Matrix (Fin p) (Fin r) 𝕜} {a a' : Except Err (Matrix (Fin r) (Fin r) 𝕜)} {b b' : Except Err (Matrix (Fin r) (Fin q) 𝕜)}
    (ha : GalerkinResult flag G K a) (hb : GalerkinResult flag G P b) (ha' : GalerkinResult flag G K a')
    (hb' : GalerkinResult flag G P b') {res res' : Except Err (Option (Cols 𝕜 r) × Option (Cols 𝕜 r) × Option (Arr 𝕜))}
    (hres : ∀ x y, a = .ok x → b = .ok y → res = .ok (some ⟨r, x⟩, some ⟨q, y⟩, some ⟨p, r, M⟩))
    (herr : ∀ e, a = .error e → res = .error e)
    (hres' : ∀ x y, a' = .ok x → b' = .ok y → res' = .ok (some ⟨r, x⟩, some ⟨q, y⟩, some ⟨p, r, M⟩))
    (herr' : ∀ e, a' = .error e → res' = .error e) : res = res' := by
  cases flag with
  | true => rw [hres _ _ (ha.orthonormal rfl) (hb.orthonormal rfl), hres' _ _ (ha'.orthonormal rfl) (hb'.orthonormal rfl)]
  | false =>
    by_cases hu : IsUnit G.det
    · rw [hres _ _ (ha.regular rfl hu) (hb.regular rfl hu), hres' _ _ (ha'.regular rfl hu) (hb'.regular rfl hu)]
    · rw [herr _ (ha.singular rfl hu), herr' _ (ha'.singular rfl hu)]

/-- What a reduction returns, in terms of what undoes the inner products. -/
theorem GalerkinResult.undone {r q : Nat} {flag : Bool} {G H : Matrix (Fin r) (Fin r) 𝕜} {P : Matrix (Fin r) (Fin q) 𝕜}
    {a : Except Err (Matrix (Fin r) (Fin q) 𝕜)} (h : GalerkinResult flag G P a) (hH : Undoes flag G H) : a = .ok (H * P) := by
  cases flag with
  | true =>
    have h1 := hH.1
    rw [hH.2 rfl, Matrix.mul_one] at h1
    rw [h1, Matrix.one_mul]
    exact h.orthonormal rfl
  | false =>
    have hu : IsUnit G.det := (isUnit_iff_isUnit_det G).mp (IsUnit.of_mul_eq_one_right H hH.1)
    rw [← inv_eq_left_inv hH.1]
    exact h.regular rfl hu

section Arrays

variable {n r s q p : Nat} (Φ : Matrix (Fin n) (Fin r) 𝕜) (adj : Option (Matrix (Fin n) (Fin r) 𝕜)) (flag flag₂ : Bool)
  (weights : Option (NdArray 𝕜)) (ws : Weights 𝕜) (g : GalerkinArrays 𝕜 n r) (g₂ : GalerkinArrays 𝕜 r s) (g₃ : GalerkinArrays 𝕜 n s)
  (calls : List (ArraysCall 𝕜 n)) (calls₂ : List (ArraysCall 𝕜 r)) (calls₃ : List (ArraysCall 𝕜 n))
  (Φ₂ : Matrix (Fin r) (Fin s) 𝕜) (adj₂ : Option (Matrix (Fin r) (Fin s) 𝕜)) (H : Matrix (Fin r) (Fin r) 𝕜)

/-- **C136** for arrays: `Φ` and `adj` reduce the system, `Φ₂` and `adj₂` reduce the model. -/
theorem C136_arrays (hw : arraysInit weights = .ok ws) (hfit : ws.Fits n)
    (hH : Undoes flag ((adj.getD Φ)ᴴ * ws.matrix n * Φ) H)
    (hg : galerkinArraysInit false Φ (adj.map fun a => ⟨n, r, a⟩) flag weights = .ok g)
    (hg₂ : galerkinArraysInit false Φ₂ (adj₂.map fun a => ⟨r, s, a⟩) flag₂ none = .ok g₂)
    (hg₃ : galerkinArraysInit false (Φ * Φ₂) (some ⟨n, s, adj.getD Φ * (Hᴴ * adj₂.getD Φ₂)⟩) flag₂ weights = .ok g₃)
    (X : Matrix (Fin n) (Fin r) 𝕜) (B : Matrix (Fin n) (Fin q) 𝕜) (M : Matrix (Fin p) (Fin r) 𝕜) :
    ∃ (A' : Matrix (Fin r) (Fin r) 𝕜) (B' : Matrix (Fin r) (Fin q) 𝕜) (C' : Matrix (Fin p) (Fin r) 𝕜),
      (galerkinModelArrays (calls.foldl ArraysCall.after g) X B (.rows p r M)).1 =
        .ok (some ⟨r, A'⟩, some ⟨q, B'⟩, some ⟨p, r, C'⟩) ∧
      (galerkinModelArrays (calls₂.foldl ArraysCall.after g₂) (A' * Φ₂) B' (.rows p s (C' * Φ₂))).1 =
        (galerkinModelArrays (calls₃.foldl ArraysCall.after g₃) (X * Φ₂) B (.rows p s (M * Φ₂))).1 := by
  obtain ⟨hA, hB, -⟩ := C38_arrays Φ adj flag weights ws g calls hw hfit hg
  obtain ⟨m1, -⟩ := C38_arrays_model Φ adj flag weights ws g calls hw hfit hg X B (.rows p r M)
  refine ⟨_, _, _, m1 _ _ ((hA r X).undone hH) ((hB q B).undone hH), ?_⟩
  change (galerkinModelArrays (calls₂.foldl ArraysCall.after g₂) (H * ((adj.getD Φ)ᴴ * ws.matrix n * X) * Φ₂)
    (H * ((adj.getD Φ)ᴴ * ws.matrix n * B)) (.rows p s (M * Φ₂))).1 = _
  obtain ⟨hA₂, hB₂, -⟩ := C38_arrays Φ₂ adj₂ flag₂ none .none g₂ calls₂ rfl trivial hg₂
  obtain ⟨m2, e2⟩ := C38_arrays_model Φ₂ adj₂ flag₂ none .none g₂ calls₂ rfl trivial hg₂
    (H * ((adj.getD Φ)ᴴ * ws.matrix n * X) * Φ₂) (H * ((adj.getD Φ)ᴴ * ws.matrix n * B)) (.rows p s (M * Φ₂))
  obtain ⟨hA₃, hB₃, -⟩ := C38_arrays (Φ * Φ₂) (some (adj.getD Φ * (Hᴴ * adj₂.getD Φ₂))) flag₂ weights ws g₃ calls₃ hw hfit hg₃
  obtain ⟨m3, e3⟩ := C38_arrays_model (Φ * Φ₂) (some (adj.getD Φ * (Hᴴ * adj₂.getD Φ₂))) flag₂ weights ws g₃ calls₃ hw hfit hg₃
    (X * Φ₂) B (.rows p s (M * Φ₂))
  have a2 := hA₂ s (H * ((adj.getD Φ)ᴴ * ws.matrix n * X) * Φ₂)
  have b2 := hB₂ q (H * ((adj.getD Φ)ᴴ * ws.matrix n * B))
  have a3 := hA₃ s (X * Φ₂)
  have b3 := hB₃ q B
  rw [Option.getD_some] at a3 b3
  rw [show (Weights.none : Weights 𝕜).matrix r = 1 from rfl, Matrix.mul_one] at a2 b2
  generalize adj.getD Φ = Ψ at *
  generalize adj₂.getD Φ₂ = Ψ₂ at *
  have move : ∀ {l : Nat} (Z : Matrix (Fin n) (Fin l) 𝕜),
      (Ψ * (Hᴴ * Ψ₂))ᴴ * ws.matrix n * Z = Ψ₂ᴴ * (H * (Ψᴴ * ws.matrix n * Z)) := by
    intro l Z
    rw [conjTranspose_mul, conjTranspose_mul, conjTranspose_conjTranspose]
    simp only [Matrix.mul_assoc]
  have hG : (Ψ * (Hᴴ * Ψ₂))ᴴ * ws.matrix n * (Φ * Φ₂) = Ψ₂ᴴ * Φ₂ := by
    rw [move, ← Matrix.mul_assoc _ Φ, ← Matrix.mul_assoc H, hH.1, Matrix.one_mul]
  rw [hG, move, ← Matrix.mul_assoc _ X, ← Matrix.mul_assoc H] at a3
  rw [hG, move] at b3
  refine same_galerkin (M := M * Φ₂) a2 b2 a3 b3 (fun x y hx hy => ?_) e2 (fun x y hx hy => ?_) e3
  · exact m2 x y hx hy
  · exact m3 x y hx hy

end Arrays

section Handles

variable {E : Type*} [AddCommGroup E] [Module 𝕜 E] {r s q p : Nat} (ip : E →ₗ⋆[𝕜] E →ₗ[𝕜] 𝕜) (Φ : Fin r → E) (adj : Option (Fin r → E))
  (flag flag₂ : Bool) (g : GalerkinHandles 𝕜 E r) (g₂ : GalerkinArrays 𝕜 r s) (g₃ : GalerkinHandles 𝕜 E s)
  (calls : List (HandlesCall 𝕜 E)) (calls₂ : List (ArraysCall 𝕜 r)) (calls₃ : List (HandlesCall 𝕜 E))
  (Φ₂ : Matrix (Fin r) (Fin s) 𝕜) (adj₂ : Option (Matrix (Fin r) (Fin s) 𝕜)) (H : Matrix (Fin r) (Fin r) 𝕜)

/-- **C136** for handles: the model of a system with handles is reduced again as arrays. -/
theorem C136_handles (hr : 0 < r) (hs : 0 < s) (hq : 0 < q)
    (hH : Undoes flag (handlesIp (fun x y => ip x y) (adj.getD Φ) Φ) H)
    (hg : galerkinHandlesInit (fun x y => ip x y) Φ adj flag = .ok g)
    (hg₂ : galerkinArraysInit false Φ₂ (adj₂.map fun a => ⟨r, s, a⟩) flag₂ none = .ok g₂)
    (hg₃ : galerkinHandlesInit (fun x y => ip x y) (columnSums Φ Φ₂) (some (columnSums (adj.getD Φ) (Hᴴ * adj₂.getD Φ₂))) flag₂ = .ok g₃)
    (X : Fin r → E) (B : Fin q → E) (M : Matrix (Fin p) (Fin r) 𝕜) :
    ∃ (A' : Matrix (Fin r) (Fin r) 𝕜) (B' : Matrix (Fin r) (Fin q) 𝕜) (C' : Matrix (Fin p) (Fin r) 𝕜),
      (galerkinModelHandles (calls.foldl HandlesCall.after g) X B (.rows r p Mᵀ)).1 =
        .ok (some ⟨r, A'⟩, some ⟨q, B'⟩, some ⟨p, r, C'⟩) ∧
      (galerkinModelArrays (calls₂.foldl ArraysCall.after g₂) (A' * Φ₂) B' (.rows p s (C' * Φ₂))).1 =
        (galerkinModelHandles (calls₃.foldl HandlesCall.after g₃) (columnSums X Φ₂) B (.rows s p (M * Φ₂)ᵀ)).1 := by
  obtain ⟨hA, hB, hC, -⟩ := C38_handles (fun x y => ip x y) Φ adj flag g calls hr hg
  obtain ⟨m1, -⟩ := C38_handles_model (fun x y => ip x y) Φ adj flag g calls hr hg hq X B (.rows r p Mᵀ)
  refine ⟨_, _, M, (m1 _ _ ((hA r X hr).undone hH) ((hB q B hq).undone hH)).trans
    (congrArg (fun c => Except.ok (some _, some _, some c)) (hC r p Mᵀ)), ?_⟩
  obtain ⟨hA₂, hB₂, -⟩ := C38_arrays Φ₂ adj₂ flag₂ none .none g₂ calls₂ rfl trivial hg₂
  obtain ⟨m2, e2⟩ := C38_arrays_model Φ₂ adj₂ flag₂ none .none g₂ calls₂ rfl trivial hg₂
    (H * handlesIp (fun x y => ip x y) (adj.getD Φ) X * Φ₂) (H * handlesIp (fun x y => ip x y) (adj.getD Φ) B) (.rows p s (M * Φ₂))
  obtain ⟨hA₃, hB₃, hC₃, -⟩ := C38_handles (fun x y => ip x y) (columnSums Φ Φ₂) (some (columnSums (adj.getD Φ) (Hᴴ * adj₂.getD Φ₂)))
    flag₂ g₃ calls₃ hs hg₃
  obtain ⟨m3, e3⟩ := C38_handles_model (fun x y => ip x y) (columnSums Φ Φ₂) (some (columnSums (adj.getD Φ) (Hᴴ * adj₂.getD Φ₂)))
    flag₂ g₃ calls₃ hs hg₃ hq (columnSums X Φ₂) B (.rows s p (M * Φ₂)ᵀ)
  have a2 := hA₂ s (H * handlesIp (fun x y => ip x y) (adj.getD Φ) X * Φ₂)
  have b2 := hB₂ q (H * handlesIp (fun x y => ip x y) (adj.getD Φ) B)
  have a3 := hA₃ s (columnSums X Φ₂) hs
  have b3 := hB₃ q B hq
  rw [Option.getD_some] at a3 b3
  rw [show (Weights.none : Weights 𝕜).matrix r = 1 from rfl, Matrix.mul_one] at a2 b2
  generalize adj.getD Φ = Ψ at *
  generalize adj₂.getD Φ₂ = Ψ₂ at *
  have left : ∀ {l : Nat} (Z : Fin l → E), handlesIp (fun x y => ip x y) (columnSums Ψ (Hᴴ * Ψ₂)) Z =
      Ψ₂ᴴ * (H * handlesIp (fun x y => ip x y) Ψ Z) := by
    intro l Z
    have h1 : handlesIp (fun x y => ip x y) (columnSums Ψ (Hᴴ * Ψ₂)) Z = (Hᴴ * Ψ₂)ᴴ * handlesIp (fun x y => ip x y) Ψ Z := by
      ext i j
      rw [Matrix.mul_apply]
      change ip (∑ k, (Hᴴ * Ψ₂) k i • Ψ k) (Z j) = ∑ k, star ((Hᴴ * Ψ₂) k i) * ip (Ψ k) (Z j)
      simp only [map_sum, LinearMap.sum_apply, LinearMap.map_smulₛₗ, LinearMap.smul_apply, smul_eq_mul, starRingEnd_apply]
    rw [h1, conjTranspose_mul, conjTranspose_conjTranspose, Matrix.mul_assoc]
  have right : ∀ (Y : Fin r → E),
      handlesIp (fun x y => ip x y) Ψ (columnSums Y Φ₂) = handlesIp (fun x y => ip x y) Ψ Y * Φ₂ := by
    intro Y
    ext i j
    rw [Matrix.mul_apply]
    change ip (Ψ i) (∑ k, Φ₂ k j • Y k) = ∑ k, ip (Ψ i) (Y k) * Φ₂ k j
    simp [map_sum, mul_comm]
  have hG : handlesIp (fun x y => ip x y) (columnSums Ψ (Hᴴ * Ψ₂)) (columnSums Φ Φ₂) = Ψ₂ᴴ * Φ₂ := by
    rw [left, right, ← Matrix.mul_assoc H, hH.1, Matrix.one_mul]
  rw [hG, left, right, ← Matrix.mul_assoc H] at a3
  rw [hG, left] at b3
  refine same_galerkin (M := M * Φ₂) a2 b2 a3 b3 (fun x y hx hy => ?_) e2 (fun x y hx hy => ?_) e3
  · exact m2 x y hx hy
  · exact (m3 x y hx hy).trans (congrArg (fun c => Except.ok (some _, some _, some c)) (hC₃ s p (M * Φ₂)ᵀ))

end Handles

/-! ### Example -/

/-- A system with two states, its model with vectors twice as long as unit vectors, and its model with the first of these only. -/
example : ∃ (g : GalerkinArrays ℝ 2 2) (g₂ g₃ : GalerkinArrays ℝ 2 1),
    galerkinArraysInit false ((2 : ℝ) • (1 : Matrix (Fin 2) (Fin 2) ℝ)) none false none = .ok g ∧
    galerkinArraysInit false (!![1; 0] : Matrix (Fin 2) (Fin 1) ℝ) none false none = .ok g₂ ∧
    galerkinArraysInit false ((2 : ℝ) • (1 : Matrix (Fin 2) (Fin 2) ℝ) * (!![1; 0] : Matrix (Fin 2) (Fin 1) ℝ))
      (some ⟨2, 1, (2 : ℝ) • (1 : Matrix (Fin 2) (Fin 2) ℝ) *
        (((1 / 4 : ℝ) • (1 : Matrix (Fin 2) (Fin 2) ℝ))ᴴ * (!![1; 0] : Matrix (Fin 2) (Fin 1) ℝ))⟩) false none = .ok g₃ ∧
    ∃ (A' : Matrix (Fin 2) (Fin 2) ℝ) (B' : Matrix (Fin 2) (Fin 1) ℝ) (C' : Matrix (Fin 1) (Fin 2) ℝ),
      (galerkinModelArrays g (!![2, 4; 6, 8] : Matrix (Fin 2) (Fin 2) ℝ) (!![1; 5] : Matrix (Fin 2) (Fin 1) ℝ)
        (.rows 1 2 (!![7, 9] : Matrix (Fin 1) (Fin 2) ℝ))).1 = .ok (some ⟨2, A'⟩, some ⟨1, B'⟩, some ⟨1, 2, C'⟩) ∧
      (galerkinModelArrays g₂ (A' * (!![1; 0] : Matrix (Fin 2) (Fin 1) ℝ)) B'
        (.rows 1 1 (C' * (!![1; 0] : Matrix (Fin 2) (Fin 1) ℝ)))).1 =
      (galerkinModelArrays g₃ ((!![2, 4; 6, 8] : Matrix (Fin 2) (Fin 2) ℝ) * (!![1; 0] : Matrix (Fin 2) (Fin 1) ℝ))
        (!![1; 5] : Matrix (Fin 2) (Fin 1) ℝ)
        (.rows 1 1 ((!![7, 9] : Matrix (Fin 1) (Fin 2) ℝ) * (!![1; 0] : Matrix (Fin 2) (Fin 1) ℝ)))).1 := by
  generalize (!![2, 4; 6, 8] : Matrix (Fin 2) (Fin 2) ℝ) = X
  generalize (!![1; 5] : Matrix (Fin 2) (Fin 1) ℝ) = B
  generalize (!![7, 9] : Matrix (Fin 1) (Fin 2) ℝ) = M
  generalize (!![1; 0] : Matrix (Fin 2) (Fin 1) ℝ) = Φ₂
  obtain ⟨g, hg, -⟩ := arraysInv_init ((2 : ℝ) • (1 : Matrix (Fin 2) (Fin 2) ℝ)) none false none .none rfl
  obtain ⟨g₂, hg₂, -⟩ := arraysInv_init Φ₂ none false none .none rfl
  obtain ⟨g₃, hg₃, -⟩ := arraysInv_init ((2 : ℝ) • (1 : Matrix (Fin 2) (Fin 2) ℝ) * Φ₂)
    (some ((2 : ℝ) • (1 : Matrix (Fin 2) (Fin 2) ℝ) * (((1 / 4 : ℝ) • (1 : Matrix (Fin 2) (Fin 2) ℝ))ᴴ * Φ₂))) false none .none rfl
  have hH : Undoes false (((2 : ℝ) • (1 : Matrix (Fin 2) (Fin 2) ℝ))ᴴ * (Weights.none : Weights ℝ).matrix 2 *
      ((2 : ℝ) • (1 : Matrix (Fin 2) (Fin 2) ℝ))) ((1 / 4 : ℝ) • (1 : Matrix (Fin 2) (Fin 2) ℝ)) := by
    refine ⟨?_, by simp⟩
    rw [show (Weights.none : Weights ℝ).matrix 2 = 1 from rfl, conjTranspose_smul, conjTranspose_one]
    simp only [Matrix.mul_one, Matrix.smul_mul, Matrix.one_mul, smul_smul]
    norm_num
  have h := C136_arrays ((2 : ℝ) • (1 : Matrix (Fin 2) (Fin 2) ℝ)) none false false none .none g g₂ g₃ [] [] [] Φ₂ none
    ((1 / 4 : ℝ) • (1 : Matrix (Fin 2) (Fin 2) ℝ)) rfl trivial hH hg hg₂ hg₃ X B M
  exact ⟨g, g₂, g₃, hg, hg₂, hg₃, h⟩

end Modred
