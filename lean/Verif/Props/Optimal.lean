import Verif.Lemmas.Optimal
import Verif.Spec.Optimal
import Verif.Props.Pod

/-!
# C70: POD modes are best
-/

namespace Modred

open Matrix
open scoped ComplexOrder

variable {𝕜 : Type*} [RCLike 𝕜]

/-! ### Arrays of inner products -/

/-- The first columns of a sorted decomposition. -/
theorem first_columns {m s : Nat} {C : Matrix (Fin m) (Fin m) 𝕜} {V : Matrix (Fin m) (Fin s) 𝕜} {a : Fin s → ℝ}
    (hV : Vᴴ * V = 1) (hC : C = V * diagonal (fun i => (a i : 𝕜)) * Vᴴ) {k : Nat} (hk : k ≤ s) :
    RCLike.re ((1 - V.submatrix id (Fin.castLE hk) * (V.submatrix id (Fin.castLE hk))ᴴ)ᴴ * C *
        (1 - V.submatrix id (Fin.castLE hk) * (V.submatrix id (Fin.castLE hk))ᴴ)).trace =
      RCLike.re C.trace - ∑ i ∈ Finset.univ.filter (fun i : Fin s => i.val < k), a i := by
  have h1 : (V.submatrix id (Fin.castLE hk))ᴴ * V.submatrix id (Fin.castLE hk) = 1 :=
    orthonormal_submatrix V hV _ (Fin.castLE_injective hk)
  have h2 : Cᴴ = C := by
    rw [hC, conjTranspose_mul, conjTranspose_mul, conjTranspose_conjTranspose, diagonal_real_conjTranspose,
      Matrix.mul_assoc]
  have h3 : C * V = V * diagonal (fun i => (a i : 𝕜)) := by
    rw [hC, Matrix.mul_assoc _ Vᴴ, hV, Matrix.mul_one]
  have h4 : C * V.submatrix id (Fin.castLE hk) =
      V.submatrix id (Fin.castLE hk) * diagPow (𝕜 := 𝕜) (fun i => a (Fin.castLE hk i)) 1 := by
    rw [mul_submatrix_cols, h3, mul_diagonal_submatrix, diagPow_one]
  rw [residual_trace h1 h2 h4, map_sub]
  congr 1
  rw [← RCLike.ofReal_sum, RCLike.ofReal_re]
  have himg : Finset.univ.filter (fun i : Fin s => i.val < k) =
      Finset.univ.map ⟨Fin.castLE hk, Fin.castLE_injective hk⟩ := by
    ext i
    simp only [Finset.mem_filter, Finset.mem_univ, true_and, Finset.mem_map, Function.Embedding.coeFn_mk]
    constructor
    · intro h
      exact ⟨⟨i.val, h⟩, rfl⟩
    · rintro ⟨j, rfl⟩
      exact j.isLt
  rw [himg, Finset.sum_map]
  rfl

/-- Best approximation by projection. -/
theorem projection_best {n m s : Nat} {W : Matrix (Fin n) (Fin n) 𝕜} (hW : W.PosSemidef)
    (X : Matrix (Fin n) (Fin m) 𝕜) {V : Matrix (Fin m) (Fin s) 𝕜} {a : Fin s → ℝ} (hV : Vᴴ * V = 1)
    (hC : Xᴴ * W * X = V * diagonal (fun i => (a i : 𝕜)) * Vᴴ) (ha : Antitone a) (h0 : ∀ i, 0 ≤ a i)
    {k : Nat} (hk : k ≤ s) (Q : Matrix (Fin n) (Fin k) 𝕜) (c : Matrix (Fin k) (Fin m) 𝕜) :
    RCLike.re (weightedSq W
      (X - X * (V.submatrix id (Fin.castLE hk) * (V.submatrix id (Fin.castLE hk))ᴴ))) ≤
    RCLike.re (weightedSq W (X - Q * c)) := by
  have hG : (X - Q * c)ᴴ * W * (X - Q * c) =
      Xᴴ * W * X - cᴴ * (Qᴴ * W * X) - (Qᴴ * W * X)ᴴ * c + cᴴ * (Qᴴ * W * Q) * c := by
    rw [conjTranspose_sub, conjTranspose_mul, Matrix.sub_mul, Matrix.sub_mul, Matrix.mul_sub, Matrix.mul_sub,
      conjTranspose_mul, conjTranspose_mul, conjTranspose_conjTranspose, hW.isHermitian.eq]
    simp only [Matrix.mul_assoc]
    abel
  have hb := approximation_bound hV hC ha h0 c (Qᴴ * W * X) (Qᴴ * W * Q)
    (by rw [← hG]; exact hW.conjTranspose_mul_mul_same _)
  rw [← hG] at hb
  rw [weightedSq_eq_trace, weightedSq_eq_trace]
  have hl := first_columns hV hC hk
  generalize V.submatrix id (Fin.castLE hk) * (V.submatrix id (Fin.castLE hk))ᴴ = P at *
  rw [show (X - X * P)ᴴ * W * (X - X * P) = (1 - P)ᴴ * (Xᴴ * W * X) * (1 - P) by
    rw [show X - X * P = X * (1 - P) by rw [Matrix.mul_sub, Matrix.mul_one], conjTranspose_mul]
    simp only [Matrix.mul_assoc], hl]
  exact hb

/-- Products of the first modes and coefficients, for coefficients computed from eigenvectors. -/
theorem first_build_mul_proj {m r k : Nat} (hk : k ≤ r) {V : Matrix (Fin m) (Fin r) 𝕜} {w : Fin r → ℝ}
    (hw : ∀ i, 0 < w i) :
    (V * diagPow (𝕜 := 𝕜) w (-0.5)).submatrix id (Fin.castLE hk) *
      (diagPow (𝕜 := 𝕜) w 0.5 * Vᴴ).submatrix (Fin.castLE hk) id =
    V.submatrix id (Fin.castLE hk) * (V.submatrix id (Fin.castLE hk))ᴴ := by
  have h1 : (V * diagPow (𝕜 := 𝕜) w (-0.5)).submatrix id (Fin.castLE hk) =
      V.submatrix id (Fin.castLE hk) * diagPow (𝕜 := 𝕜) (fun i => w (Fin.castLE hk i)) (-0.5) :=
    mul_diagonal_submatrix _ _ _
  have h2 : (diagPow (𝕜 := 𝕜) w 0.5 * Vᴴ).submatrix (Fin.castLE hk) id =
      diagPow (𝕜 := 𝕜) (fun i => w (Fin.castLE hk i)) 0.5 * (V.submatrix id (Fin.castLE hk))ᴴ := by
    ext i j
    simp [diagPow, diagonal_mul]
  rw [h1, h2, build_mul_proj fun i => hw _]

/-- What the sorted and truncated eigendecomposition is a part of. -/
theorem utilEigh_sorted {m : Nat} (lib : Matrix (Fin m) (Fin m) 𝕜 → EighOut 𝕜 m)
    (argsort : (Fin m → ℝ) → Equiv.Perm (Fin m)) (C : Matrix (Fin m) (Fin m) 𝕜) (atol rtol : Option ℝ) (pd : Bool)
    (hC : C.PosSemidef) (hlib : IsEigh C (lib C)) (hs : IsArgsort argsort) (hr : ∀ t ∈ rtol, 0 ≤ t)
    (e : Eigh 𝕜 m) (he : utilEigh lib argsort C atol rtol pd = .ok e) :
    ∃ (V : Matrix (Fin m) (Fin m) 𝕜) (a : Fin m → ℝ) (hle : e.r ≤ m), Vᴴ * V = 1 ∧
      C = V * diagonal (fun i => (a i : 𝕜)) * Vᴴ ∧ Antitone a ∧ (∀ i, 0 ≤ a i) ∧
      e.V = V.submatrix id (Fin.castLE hle) ∧ e.w = fun i => a (Fin.castLE hle i) := by
  obtain ⟨p, hp, hle, -, hv⟩ := C20_kept_iff lib argsort C atol rtol pd hs hr e he
  have hnn : ∀ i, 0 ≤ (lib C).w i := by
    intro i
    have h1 := (hC.conjTranspose_mul_mul_same (lib C).V).diag_nonneg (i := i)
    rw [Matrix.mul_assoc, hlib.eigen, ← Matrix.mul_assoc, hlib.orthonormal, Matrix.one_mul,
      diagonal_apply_eq] at h1
    exact_mod_cast h1
  have hu : (lib C).V * (lib C).Vᴴ = 1 := mul_eq_one_comm.mp hlib.orthonormal
  refine ⟨(lib C).V.submatrix id p, fun i => (lib C).w (p i), hle,
    orthonormal_submatrix _ hlib.orthonormal _ p.injective, ?_, ?_, fun i => hnn _, ?_, ?_⟩
  · rw [← mul_diagonal_submatrix (lib C).V (fun i => ((lib C).w i : 𝕜)) p, ← hlib.eigen]
    have : (C * (lib C).V).submatrix id p * ((lib C).V.submatrix id p)ᴴ = C * (lib C).V * (lib C).Vᴴ := by
      ext i j
      rw [Matrix.mul_apply, Matrix.mul_apply]
      exact Equiv.sum_comp p fun l => (C * (lib C).V) i l * (lib C).Vᴴ l j
    rw [this, Matrix.mul_assoc, hu, Matrix.mul_one]
  · intro i j hij
    have := hp i j hij
    rwa [abs_of_nonneg (hnn _), abs_of_nonneg (hnn _)] at this
  · ext i j
    exact (hv j (Fin.castLE hle j) rfl).2 i
  · ext i
    exact (hv i (Fin.castLE hle i) rfl).1

theorem selectedFrom_of_pick {n r : Nat} (modeIndices : Option (List Int)) (a : Matrix (Fin n) (Fin r) 𝕜)
    (c : Cols 𝕜 n) (h : pickCols a modeIndices = .ok c) : SelectedFrom modeIndices c a := by
  obtain ⟨sel, h1, h2, h3⟩ := pickCols_ok _ _ _ h
  intro i j hij b
  rw [h1, submatrix_apply]
  have hsel : sel i = j := by
    cases modeIndices with
    | none =>
      dsimp only at hij
      exact Fin.ext (((h3 rfl).2 i).trans hij)
    | some l =>
      dsimp only at hij
      have := (h2 l rfl).2 i _ hij
      unfold npAxisIndex at this
      have hj := j.isLt
      rw [dif_pos (by omega)] at this
      rw [← Except.ok.inj this]
      rfl
  rw [hsel]
  rfl

/-! ### The property -/

/-- **C70** for the method of snapshots. -/
theorem C70_snaps {n m : Nat} (lib : PodLib 𝕜 n m) (vecs : Matrix (Fin n) (Fin m) 𝕜)
    (modeIndices : Option (List Int)) (weights : Option (NdArray 𝕜)) (ws : Weights 𝕜) (rtol : Option ℝ)
    (t : ℝ) (ht : 0 ≤ t) (hr : ∀ t ∈ rtol, 0 ≤ t) (hs : IsArgsort lib.argsort)
    (hws : arraysInit weights = .ok ws) (hfit : ws.Fits n) (hW : (ws.matrix n).PosSemidef)
    (hlib : IsEigh (vecsᴴ * ws.matrix n * vecs) (lib.eigh (vecsᴴ * ws.matrix n * vecs)))
    (res : PodResult 𝕜 n m) (corr : Matrix (Fin m) (Fin m) 𝕜)
    (hres : podSnaps lib vecs modeIndices weights (some t) rtol = .ok (res, corr)) :
    ∃ modes : Matrix (Fin n) (Fin res.r) 𝕜, SelectedFrom modeIndices res.modes modes ∧
      AreBest (ws.matrix n) vecs modes res.projCoeffs := by
  obtain ⟨e, c, he, hc, h⟩ := podSnaps_cases lib vecs modeIndices weights ws _ _ hws hfit _ hres
  obtain ⟨rfl, rfl⟩ := Prod.mk.inj h
  have hw := C20_positive_partial _ _ _ _ t ht hs hr e he
  refine ⟨vecs * (e.V * diagPow (𝕜 := 𝕜) e.w (-0.5)), ?_, ?_⟩
  · intro i j hij b
    have h1 := selectedFrom_of_pick _ _ _ hc i j hij
    dsimp only
    rw [Matrix.mul_apply]
    simp only [h1]
    rw [← Matrix.mul_apply, Matrix.mul_one]
  · intro k hk Q c
    obtain ⟨V, a, hle, hV, hC, ha, h0, hVe, hwe⟩ := utilEigh_sorted _ _ _ _ _ _
      (hW.conjTranspose_mul_mul_same vecs) hlib hs hr e he
    dsimp only at hk ⊢
    rw [← mul_submatrix_cols, Matrix.mul_assoc, first_build_mul_proj hk hw]
    rw [show e.V.submatrix id (Fin.castLE hk) = V.submatrix id (Fin.castLE (hk.trans hle)) by rw [hVe]; rfl]
    exact projection_best hW vecs hV hC ha h0 _ Q c

/-- The method of snapshots with weights 2 and 3, with all assumptions met. -/
example : ∃ (lib : PodLib ℝ 2 3) (res : PodResult ℝ 2 3) (corr : Matrix (Fin 3) (Fin 3) ℝ),
    podSnaps lib exampleData none (some exampleWeights) (some (1 / 10)) (some (1 / 100)) = .ok (res, corr) ∧
    ∃ modes : Matrix (Fin 2) (Fin res.r) ℝ, SelectedFrom none res.modes modes ∧
      AreBest (diagonal ![2, 3]) exampleData modes res.projCoeffs := by
  obtain ⟨lib, -, heigh, hs, -⟩ := exists_podLib (𝕜 := ℝ) 2 3
  let ws : Weights ℝ := .d1 2 fun i => if i = 0 then 2 else 3
  have hW : ws.matrix 2 = diagonal ![2, 3] := by
    ext i j
    fin_cases i <;> fin_cases j <;> simp [ws, Weights.matrix]
  have hWp : (ws.matrix 2).PosSemidef := by
    rw [hW]
    refine PosSemidef.diagonal fun i => ?_
    fin_cases i <;> simp
  have hC := (hWp.conjTranspose_mul_mul_same exampleData).isHermitian
  obtain ⟨e, he⟩ := C20_no_error lib.eigh lib.argsort (exampleDataᴴ * ws.matrix 2 * exampleData)
    (some (1 / 100)) true (1 / 10) (by norm_num)
  have hres : podSnaps lib exampleData none (some exampleWeights) (some (1 / 10)) (some (1 / 100)) =
      .ok (⟨e.r, e.w, ⟨e.r, exampleData * (e.V * diagPow e.w (-0.5))⟩, diagPow e.w 0.5 * e.Vᴴ, e.V⟩,
        exampleDataᴴ * ws.matrix 2 * exampleData) := by
    unfold podSnaps
    rw [exampleWeights_init]
    dsimp only
    unfold symmIpArray
    rw [C45_formula ws rfl]
    dsimp only
    rw [he]
    rfl
  refine ⟨lib, _, _, hres, ?_⟩
  rw [← hW]
  exact C70_snaps lib exampleData none _ ws _ (1 / 10) (by norm_num) (by simp) hs exampleWeights_init rfl hWp
    (heigh _ hC) _ _ hres

/-- **C70** for the direct method. -/
theorem C70_direct {n m : Nat} (lib : PodLib 𝕜 n m) (vecs : Matrix (Fin n) (Fin m) 𝕜)
    (modeIndices : Option (List Int)) (ws : DirectWeights 𝕜) (atol rtol : Option ℝ) (hr : ∀ t ∈ rtol, 0 ≤ t)
    (hfit : ws.Fits n) (hchol : ∀ p q w, ws = .d2 p q w → IsCholesky lib.cholesky (ws.matrix n))
    (hlib : ∀ a, IsSvd a (lib.svd a)) (res : PodResult 𝕜 n m)
    (hres : podDirect lib vecs modeIndices ws atol rtol = .ok res) :
    ∃ modes : Matrix (Fin n) (Fin res.r) 𝕜, SelectedFrom modeIndices res.modes modes ∧
      AreBest (ws.matrix n) vecs modes res.projCoeffs := by
  obtain ⟨G, H, h1, h2, h3⟩ := podDirect_cases lib vecs modeIndices ws atol rtol hfit hchol
  obtain ⟨s, c, hs, hc, rfl⟩ := h3 res hres
  refine ⟨H * s.U, selectedFrom_of_pick _ _ _ hc, fun k hk Q c => ?_⟩
  obtain ⟨-, -, hAV, -, hS, -⟩ := C19_singular_triples _ _ _ _ (hlib _) s hs
  obtain ⟨hle, -, hv⟩ := C19_kept_iff _ _ _ _ (hlib _) hr s hs
  have hsvd := hlib (G * vecs)
  have hW : (ws.matrix n).PosSemidef := by rw [← h2]; exact posSemidef_conjTranspose_mul_self _
  have hHG : H * G = 1 := mul_eq_one_comm.mp h1
  have hC : vecsᴴ * ws.matrix n * vecs = (lib.svd (G * vecs)).Vhᴴ *
      diagonal (fun i => (((lib.svd (G * vecs)).S i ^ 2 : ℝ) : 𝕜)) * ((lib.svd (G * vecs)).Vhᴴ)ᴴ := by
    rw [← h2, show vecsᴴ * (Gᴴ * G) * vecs = (G * vecs)ᴴ * (G * vecs) by
      rw [conjTranspose_mul]; simp only [Matrix.mul_assoc]]
    generalize hA : G * vecs = A at *
    conv_lhs => rw [hsvd.product]
    rw [conjTranspose_mul, conjTranspose_mul, diagonal_real_conjTranspose, conjTranspose_conjTranspose]
    rw [show (lib.svd A).Vhᴴ * (diagonal (fun i => ((lib.svd A).S i : 𝕜)) * (lib.svd A).Uᴴ) *
        ((lib.svd A).U * diagonal (fun i => ((lib.svd A).S i : 𝕜)) * (lib.svd A).Vh) =
      (lib.svd A).Vhᴴ * (diagonal (fun i => ((lib.svd A).S i : 𝕜)) * ((lib.svd A).Uᴴ * (lib.svd A).U) *
        diagonal (fun i => ((lib.svd A).S i : 𝕜))) * (lib.svd A).Vh by simp only [Matrix.mul_assoc]]
    rw [hsvd.left, Matrix.mul_one, diagonal_mul_diagonal]
    congr 3
    ext i
    rw [← RCLike.ofReal_mul, sq]
  have hV : ((lib.svd (G * vecs)).Vhᴴ)ᴴ * (lib.svd (G * vecs)).Vhᴴ = 1 := by
    rw [conjTranspose_conjTranspose]
    exact hsvd.right
  have ha : Antitone fun i => (lib.svd (G * vecs)).S i ^ 2 := fun i j hij =>
    pow_le_pow_left₀ (hsvd.nonneg j) (hsvd.sorted hij) 2
  have hbest := projection_best hW vecs hV hC ha (fun i => sq_nonneg _) (hk.trans hle) Q c
  have hVs : (lib.svd (G * vecs)).Vhᴴ.submatrix id (Fin.castLE (hk.trans hle)) =
      s.V.submatrix id (Fin.castLE hk) := by
    ext i j
    exact ((hv (Fin.castLE hk j) (Fin.castLE (hk.trans hle) j) rfl).2.2 i).symm
  rw [hVs] at hbest
  dsimp only at hk ⊢
  rw [diagPow_sq hS]
  have hprod : (H * s.U).submatrix id (Fin.castLE hk) *
      (diagonal (fun i => (s.S i : 𝕜)) * s.Vᴴ).submatrix (Fin.castLE hk) id =
      vecs * (s.V.submatrix id (Fin.castLE hk) * (s.V.submatrix id (Fin.castLE hk))ᴴ) := by
    have e1 : (diagonal (fun i => (s.S i : 𝕜)) * s.Vᴴ).submatrix (Fin.castLE hk) id =
        diagonal (fun i => (s.S (Fin.castLE hk i) : 𝕜)) * (s.V.submatrix id (Fin.castLE hk))ᴴ := by
      ext i j
      simp [diagonal_mul]
    rw [e1, ← mul_submatrix_cols, Matrix.mul_assoc, ← Matrix.mul_assoc (s.U.submatrix id _),
      ← mul_diagonal_submatrix s.U (fun i => (s.S i : 𝕜)), ← hAV, ← mul_submatrix_cols,
      Matrix.mul_assoc G, ← Matrix.mul_assoc, ← Matrix.mul_assoc, hHG, Matrix.one_mul, Matrix.mul_assoc]
  rw [hprod]
  exact hbest

/-- The direct method with weights 2 and 3, with all assumptions met. -/
example : ∃ (lib : PodLib ℝ 2 3) (res : PodResult ℝ 2 3),
    podDirect lib exampleData none (.d1 2 fun i => if i = 0 then 2 else 3) none none = .ok res ∧
    ∃ modes : Matrix (Fin 2) (Fin res.r) ℝ, SelectedFrom none res.modes modes ∧
      AreBest (diagonal ![2, 3]) exampleData modes res.projCoeffs := by
  obtain ⟨lib, hsvd, -, -, -⟩ := exists_podLib (𝕜 := ℝ) 2 3
  have hfit : (DirectWeights.d1 2 fun i => if i = 0 then 2 else 3 : DirectWeights ℝ).Fits 2 := by
    refine ⟨rfl, fun i => ?_⟩
    dsimp only
    split <;> norm_num
  obtain ⟨res, hres⟩ := C22_direct_no_error lib exampleData _ none none hfit (by simp) (Or.inl rfl)
  refine ⟨lib, res, hres, ?_⟩
  have h := C70_direct lib exampleData none _ none none (by simp) hfit (by simp) hsvd res hres
  rwa [show (DirectWeights.d1 2 fun i => if i = 0 then 2 else 3 : DirectWeights ℝ).matrix 2 = diagonal ![2, 3] by
    ext i j
    fin_cases i <;> fin_cases j <;> simp [DirectWeights.matrix]] at h

/-! ### Handles -/

section Handles

variable {E : Type*} [AddCommGroup E] [Module 𝕜 E]

theorem handlesIp_sub (ip : E →ₗ⋆[𝕜] E →ₗ[𝕜] 𝕜) {p : Nat} (v w : Fin p → E) :
    handlesIp (fun x y => ip x y) (v - w) (v - w) = handlesIp (fun x y => ip x y) v v -
      handlesIp (fun x y => ip x y) w v - handlesIp (fun x y => ip x y) v w + handlesIp (fun x y => ip x y) w w := by
  ext i j
  simp [handlesIp]
  ring

theorem handlesIp_posSemidef (ip : E →ₗ⋆[𝕜] E →ₗ[𝕜] 𝕜) (hsymm : ∀ x y, ip y x = star (ip x y))
    (hnn : ∀ x, 0 ≤ RCLike.re (ip x x)) {p : Nat} (v : Fin p → E) :
    (handlesIp (fun x y => ip x y) v v).PosSemidef := by
  refine Matrix.PosSemidef.of_dotProduct_mulVec_nonneg ?_ fun x => ?_
  · ext i j
    exact (hsymm _ _).symm
  · have h := congrFun (congrFun (handlesIp_combine ip v v (Matrix.of fun i (_ : Fin 1) => x i)
      (Matrix.of fun i (_ : Fin 1) => x i)) 0) 0
    have h2 : star x ⬝ᵥ (handlesIp (fun x y => ip x y) v v *ᵥ x) =
        ip (combine v (Matrix.of fun i (_ : Fin 1) => x i) 0) (combine v (Matrix.of fun i (_ : Fin 1) => x i) 0) := by
      rw [show ip (combine v (Matrix.of fun i (_ : Fin 1) => x i) 0) (combine v (Matrix.of fun i (_ : Fin 1) => x i) 0)
        = ((Matrix.of fun i (_ : Fin 1) => x i)ᴴ * handlesIp (fun x y => ip x y) v v *
          Matrix.of fun i (_ : Fin 1) => x i) 0 0 from h, Matrix.mul_assoc, Matrix.mul_apply]
      rfl
    rw [h2]
    generalize combine v (Matrix.of fun i (_ : Fin 1) => x i) 0 = y
    rw [RCLike.nonneg_iff]
    refine ⟨hnn y, ?_⟩
    have := hsymm y y
    rw [RCLike.star_def] at this
    exact RCLike.conj_eq_iff_im.mp this.symm

/-- **C70** for `PODHandles`: the modes put and the projection coefficients. -/
theorem C70_handles {m : Nat} (eigh : Matrix (Fin m) (Fin m) 𝕜 → EighOut 𝕜 m)
    (argsort : (Fin m → ℝ) → Equiv.Perm (Fin m)) (ip : E →ₗ⋆[𝕜] E →ₗ[𝕜] 𝕜) (vecs : Fin m → E) (rtol : Option ℝ)
    (t : ℝ) (ht : 0 ≤ t) (hr : ∀ t ∈ rtol, 0 ≤ t) (hs : IsArgsort argsort)
    (hsymm : ∀ x y, ip y x = star (ip x y)) (hnn : ∀ x, 0 ≤ RCLike.re (ip x x))
    (hlib : IsEigh (handlesSymmIp (fun x y => ip x y) vecs) (eigh (handlesSymmIp (fun x y => ip x y) vecs)))
    (pod : PodHandles 𝕜 E m)
    (hpod : podHandlesDecomp eigh argsort (fun x y => ip x y) vecs (some t) rtol = .ok pod) :
    ∃ modes : Fin pod.r → E,
      (∀ l k out, podHandlesModes pod l k = .ok out → ∀ (i : Fin out.k) (j : Fin pod.r),
        l[i.val]? = some (j : Int) → out.v i = modes j) ∧
      ∀ (k : Nat) (hk : k ≤ pod.r) (q : Fin k → E) (c : Fin k → Fin m → 𝕜),
        ∑ j, RCLike.re (ip
          (vecs j - ∑ i : Fin k, podHandlesProjCoeffs pod (Fin.castLE hk i) j • modes (Fin.castLE hk i))
          (vecs j - ∑ i : Fin k, podHandlesProjCoeffs pod (Fin.castLE hk i) j • modes (Fin.castLE hk i))) ≤
        ∑ j, RCLike.re (ip (vecs j - ∑ i, c i j • q i) (vecs j - ∑ i, c i j • q i)) := by
  obtain ⟨e, he, rfl⟩ := podHandlesDecomp_cases eigh argsort ip vecs _ _ pod hpod
  have hw := C20_positive_partial _ _ _ _ t ht hs hr e he
  have h4 : handlesSymmIp (fun x y => ip x y) vecs = handlesIp (fun x y => ip x y) vecs vecs := rfl
  refine ⟨combine vecs (e.V * diagPow (𝕜 := 𝕜) e.w (-0.5)), ?_, fun k hk q c => ?_⟩
  · intro l k out hout i j hij
    obtain ⟨sel, -, h2, h3⟩ := podHandlesModes_cases _ l k out hout
    have := h2 i _ hij
    unfold npAxisIndex at this
    have hj := j.isLt
    dsimp only at hj this
    rw [dif_pos (by omega)] at this
    rw [h3]
    dsimp only
    congr 1
    have := Except.ok.inj this
    rw [← this]
    rfl
  · have hC0 := handlesIp_posSemidef ip hsymm hnn vecs
    obtain ⟨V, a, hle, hV, hC, ha, h0, hVe, hwe⟩ := utilEigh_sorted _ _ _ _ _ _
      (by rw [h4]; exact hC0) hlib hs hr e he
    have htrace : ∀ v : Fin m → E, ∑ j, RCLike.re (ip (v j) (v j)) =
        RCLike.re (handlesIp (fun x y => ip x y) v v).trace := by
      intro v
      rw [trace, map_sum]
      rfl
    have hright : (fun j => vecs j - ∑ i, c i j • q i) = vecs - combine q (Matrix.of c) := rfl
    have hres : (fun j => vecs j - ∑ i : Fin k, podHandlesProjCoeffs
        (⟨vecs, handlesSymmIp (fun x y => ip x y) vecs, e.r, e.w, e.V⟩ : PodHandles 𝕜 E m) (Fin.castLE hk i) j •
          combine vecs (e.V * diagPow (𝕜 := 𝕜) e.w (-0.5)) (Fin.castLE hk i)) =
        combine vecs (1 - V.submatrix id (Fin.castLE (hk.trans hle)) *
          (V.submatrix id (Fin.castLE (hk.trans hle)))ᴴ) := by
      ext j
      rw [combine_sub, combine_one]
      congr 1
      rw [show V.submatrix id (Fin.castLE (hk.trans hle)) = e.V.submatrix id (Fin.castLE hk) by rw [hVe]; rfl,
        ← first_build_mul_proj hk hw]
      rw [← combine_combine vecs ((e.V * diagPow (𝕜 := 𝕜) e.w (-0.5)).submatrix id (Fin.castLE hk))]
      rfl
    have hl := htrace (combine vecs (1 - V.submatrix id (Fin.castLE (hk.trans hle)) *
          (V.submatrix id (Fin.castLE (hk.trans hle)))ᴴ))
    rw [handlesIp_combine, ← h4, first_columns hV hC] at hl
    rw [← hres] at hl
    dsimp only at hl hk ⊢
    rw [hl]
    have hrr := htrace (vecs - combine q (Matrix.of c))
    rw [← hright] at hrr
    dsimp only at hrr
    rw [hrr, hright, handlesIp_sub, handlesIp_combine, handlesIp_combine_left, handlesIp_combine_right]
    have hD : handlesIp (fun x y => ip x y) vecs q = (handlesIp (fun x y => ip x y) q vecs)ᴴ := by
      ext i j
      exact hsymm _ _
    rw [hD, ← h4]
    refine approximation_bound hV hC ha h0 (Matrix.of c) _ _ ?_
    have := handlesIp_posSemidef ip hsymm hnn (vecs - combine q (Matrix.of c))
    rwa [handlesIp_sub, handlesIp_combine, handlesIp_combine_left, handlesIp_combine_right, hD, ← h4] at this

/-- Handles of the numbers 3 and 4, with all assumptions met. -/
example : ∃ pod : PodHandles ℝ ℝ 2,
    podHandlesDecomp (fun _ => exampleCorrEigh) (fun x => Tuple.sort x) (fun x y => LinearMap.mul ℝ ℝ x y)
      ![3, 4] (some (1 / 10)) none = .ok pod ∧
    ∃ modes : Fin pod.r → ℝ, ∀ (k : Nat) (hk : k ≤ pod.r) (q : Fin k → ℝ) (c : Fin k → Fin 2 → ℝ),
      ∑ j, (![3, 4] j - ∑ i : Fin k, podHandlesProjCoeffs pod (Fin.castLE hk i) j * modes (Fin.castLE hk i)) ^ 2 ≤
      ∑ j, (![3, 4] j - ∑ i, c i j * q i) ^ 2 := by
  obtain ⟨e, he⟩ := C20_no_error (fun _ => exampleCorrEigh) (fun x => Tuple.sort x)
    (handlesSymmIp (fun x y : ℝ => LinearMap.mul ℝ ℝ x y) ![3, 4]) none true (1 / 10) (by norm_num)
  have h2 : podHandlesDecomp (fun _ => exampleCorrEigh) (fun x => Tuple.sort x)
      (fun x y => LinearMap.mul ℝ ℝ x y) ![3, 4] (some (1 / 10)) none =
      .ok ⟨![3, 4], handlesSymmIp (fun x y : ℝ => LinearMap.mul ℝ ℝ x y) ![3, 4], e.r, e.w, e.V⟩ := by
    unfold podHandlesDecomp
    rw [if_neg (by norm_num)]
    dsimp only
    rw [he]
  refine ⟨_, h2, ?_⟩
  let ip : ℝ →ₗ⋆[ℝ] ℝ →ₗ[ℝ] ℝ := LinearMap.mul ℝ ℝ
  obtain ⟨modes, -, h⟩ := C70_handles (fun _ => exampleCorrEigh) (fun x => Tuple.sort x) ip ![3, 4] none (1 / 10)
    (by norm_num) (by simp) (sort_isArgsort 2) (fun x y => mul_comm y x)
    (fun x => mul_self_nonneg (x : ℝ))
    (by rw [show handlesSymmIp (fun x y => ip x y) ![3, 4] = _ from exampleCorr]; exact exampleCorrEigh_isEigh) _ h2
  refine ⟨modes, fun k hk q c => ?_⟩
  simp only [sq]
  exact h k hk q c

end Handles

end Modred
