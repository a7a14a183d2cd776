import Verif.Spec.HankelBest
import Verif.Props.TlsqrBest
import Verif.Props.EraModel
import Verif.Props.Bpod

/-!
# C73: BPOD and ERA approximate the Hankel array best
-/

namespace Modred

open Matrix
open scoped ComplexOrder

variable {𝕜 : Type*} [RCLike 𝕜]

/-! ### Sums of squares -/

theorem squares_eq_trace {m n : Nat} (a : Matrix (Fin m) (Fin n) 𝕜) : squares a = RCLike.re (aᴴ * a).trace := by
  rw [← frobSq_eq_trace, RCLike.ofReal_re]
  rfl

theorem squares_eq_weightedSq {m n : Nat} (a : Matrix (Fin m) (Fin n) 𝕜) : squares a = RCLike.re (weightedSq 1 a) := by
  rw [weightedSq_eq_trace, Matrix.mul_one, squares_eq_trace]

theorem squares_conjTranspose {m n : Nat} (a : Matrix (Fin m) (Fin n) 𝕜) : squares aᴴ = squares a := by
  unfold squares
  rw [Finset.sum_comm]
  simp

theorem squares_nonneg {m n : Nat} (a : Matrix (Fin m) (Fin n) 𝕜) : 0 ≤ squares a :=
  Finset.sum_nonneg fun _ _ => Finset.sum_nonneg fun _ _ => sq_nonneg _

theorem squares_eq_zero {m n : Nat} {a : Matrix (Fin m) (Fin n) 𝕜} (h : squares a = 0) : a = 0 := by
  ext i j
  have h1 := (Finset.sum_eq_zero_iff_of_nonneg fun i _ => Finset.sum_nonneg fun j _ => sq_nonneg ‖a i j‖).mp h i
    (Finset.mem_univ _)
  have h2 := (Finset.sum_eq_zero_iff_of_nonneg fun j _ => sq_nonneg ‖a i j‖).mp h1 j (Finset.mem_univ _)
  simpa using h2

theorem entry_le_squares {m n : Nat} (a : Matrix (Fin m) (Fin n) 𝕜) (i : Fin m) (j : Fin n) :
    ‖a i j‖ ^ 2 ≤ squares a :=
  (Finset.single_le_sum (f := fun j => ‖a i j‖ ^ 2) (fun _ _ => sq_nonneg _) (Finset.mem_univ j)).trans
    (Finset.single_le_sum (f := fun i => ∑ j, ‖a i j‖ ^ 2) (fun _ _ => Finset.sum_nonneg fun _ _ => sq_nonneg _)
      (Finset.mem_univ i))

/-! ### Singular triples -/

/-- Products of the first singular vectors, weighted with square roots of singular values. -/
theorem first_triples {m n r k : Nat} (hk : k ≤ r) {H : Matrix (Fin m) (Fin n) 𝕜} {U : Matrix (Fin m) (Fin r) 𝕜}
    {S : Fin r → ℝ} {V : Matrix (Fin n) (Fin r) 𝕜} (hS : ∀ i, 0 < S i) (hHV : H * V = U * diagPow (𝕜 := 𝕜) S 1) :
    (U * diagPow (𝕜 := 𝕜) S 0.5).submatrix id (Fin.castLE hk) *
      (diagPow (𝕜 := 𝕜) S 0.5 * Vᴴ).submatrix (Fin.castLE hk) id =
    H * (V.submatrix id (Fin.castLE hk) * (V.submatrix id (Fin.castLE hk))ᴴ) := by
  have h1 : (U * diagPow (𝕜 := 𝕜) S 0.5).submatrix id (Fin.castLE hk) =
      U.submatrix id (Fin.castLE hk) * diagPow (𝕜 := 𝕜) (fun i => S (Fin.castLE hk i)) 0.5 :=
    mul_diagonal_submatrix _ _ _
  have h2 : (diagPow (𝕜 := 𝕜) S 0.5 * Vᴴ).submatrix (Fin.castLE hk) id =
      diagPow (𝕜 := 𝕜) (fun i => S (Fin.castLE hk i)) 0.5 * (V.submatrix id (Fin.castLE hk))ᴴ := by
    ext i j
    simp [diagPow, diagonal_mul]
  have h3 : H * V.submatrix id (Fin.castLE hk) =
      U.submatrix id (Fin.castLE hk) * diagPow (𝕜 := 𝕜) (fun i => S (Fin.castLE hk i)) 1 := by
    rw [mul_submatrix_cols, hHV]
    exact mul_diagonal_submatrix _ _ _
  rw [h1, h2, ← Matrix.mul_assoc H, h3, Matrix.mul_assoc, ← Matrix.mul_assoc (diagPow _ _),
    diagPow_mul _ fun i => hS _, show (0.5 + 0.5 : ℝ) = 1 by norm_num, Matrix.mul_assoc]

theorem utilSvd_best {m n : Nat} {svd : Matrix (Fin m) (Fin n) 𝕜 → SvdOut 𝕜 m n} {H : Matrix (Fin m) (Fin n) 𝕜}
    (hlib : IsSvd H (svd H)) {atol rtol : Option ℝ} (hr : ∀ t ∈ rtol, 0 ≤ t) (s : Svd 𝕜 m n)
    (hs : utilSvd svd H atol rtol = .ok s) (hS : ∀ i, 0 < s.S i) :
    BestProducts H (s.U * diagPow (𝕜 := 𝕜) s.S 0.5) (diagPow (𝕜 := 𝕜) s.S 0.5 * s.Vᴴ) s.S := by
  obtain ⟨hU, hV, hHV, hHU⟩ := utilSvd_triples svd H _ _ hlib s hs
  refine ⟨fun k hk X Y => ?_, fun k hk => ?_⟩
  · rw [first_triples hk hS hHV]
    obtain ⟨r, V, a, hle, h1, h2, h3, h4, h5⟩ := utilSvd_first hlib hr s hs
    rw [h5, squares_eq_weightedSq, squares_eq_weightedSq]
    exact projection_best PosSemidef.one H h1 (by rw [Matrix.mul_one]; exact h2) h3 h4 (hk.trans hle) X Y
  · rw [first_triples hk hS hHV, squares_eq_weightedSq, weightedSq_eq_trace, residual_proj, Matrix.mul_one,
      residual_trace (w := fun i => s.S (Fin.castLE hk i) ^ 2) (orthonormal_submatrix _ hV _ (Fin.castLE_injective hk))
        (by rw [conjTranspose_mul, conjTranspose_conjTranspose]), map_sub, ← squares_eq_trace, ← RCLike.ofReal_sum,
      RCLike.ofReal_re]
    rw [Matrix.mul_assoc, mul_submatrix_cols, mul_submatrix_cols, hHV, ← Matrix.mul_assoc, hHU, Matrix.mul_assoc,
      diagPow_mul _ hS, show (1 + 1 : ℝ) = 2 by norm_num]
    rw [show diagPow (𝕜 := 𝕜) s.S 2 = diagPow (𝕜 := 𝕜) (fun i => s.S i ^ 2) 1 by
      unfold diagPow
      congr 1
      ext i
      rw [Real.rpow_one]
      norm_cast]
    exact mul_diagonal_submatrix _ _ _

theorem BestProducts.conjTranspose {m n r : Nat} {H : Matrix (Fin m) (Fin n) 𝕜} {O : Matrix (Fin m) (Fin r) 𝕜}
    {K : Matrix (Fin r) (Fin n) 𝕜} {S : Fin r → ℝ} (h : BestProducts H O K S) : BestProducts Hᴴ Kᴴ Oᴴ S := by
  have key : ∀ k (hk : k ≤ r), squares (Hᴴ - Kᴴ.submatrix id (Fin.castLE hk) * Oᴴ.submatrix (Fin.castLE hk) id) =
      squares (H - O.submatrix id (Fin.castLE hk) * K.submatrix (Fin.castLE hk) id) := by
    intro k hk
    rw [← squares_conjTranspose (H - _), conjTranspose_sub, conjTranspose_mul]
    rfl
  refine ⟨fun k hk X Y => ?_, fun k hk => ?_⟩
  · rw [key, ← squares_conjTranspose (Hᴴ - _), conjTranspose_sub, conjTranspose_mul, conjTranspose_conjTranspose]
    exact h.best k hk _ _
  · rw [key, h.error, squares_conjTranspose]

/-- Fewer columns and rows. -/
theorem BestProducts.truncate {m n r k : Nat} {H : Matrix (Fin m) (Fin n) 𝕜} {O : Matrix (Fin m) (Fin r) 𝕜}
    {K : Matrix (Fin r) (Fin n) 𝕜} {S : Fin r → ℝ} (h : BestProducts H O K S) (hk : k ≤ r) :
    BestProducts H (O.submatrix id (Fin.castLE hk)) (K.submatrix (Fin.castLE hk) id) fun i => S (Fin.castLE hk i) :=
  ⟨fun l hl X Y => h.best l (hl.trans hk) X Y, fun l hl => h.error l (hl.trans hk)⟩

/-! ### BPOD -/

section Arrays

variable {n md ma : Nat} (svd : Matrix (Fin ma) (Fin md) 𝕜 → SvdOut 𝕜 ma md) (X : Matrix (Fin n) (Fin md) 𝕜)
  (Y : Matrix (Fin n) (Fin ma) 𝕜) (p q : Nat) (idxD idxA : Option (List Int)) (weights : Option (NdArray 𝕜))
  (ws : Weights 𝕜) (atol rtol : Option ℝ)

/-- **C73** for arrays.  The inner products of the adjoint vectors with the direct modes, times the direct projection
coefficients, approximate the inner products of the adjoint with the direct vectors best, for each number of modes; the
same holds for the other kind. -/
theorem C73_arrays (hr : ∀ t ∈ rtol, 0 ≤ t) (hws : arraysInit weights = .ok ws) (hfit : ws.Fits n)
    (res : BpodResult 𝕜 n md ma) (hres : bpodArrays svd X Y p q idxD idxA weights atol rtol = .ok res)
    (hlib : IsSvd res.hankel (svd res.hankel)) (hS : ∀ i, 0 < res.singVals i) (hH : res.hankel = Yᴴ * ws.matrix n * X) :
    ∃ Φ Ψ : Matrix (Fin n) (Fin res.r) 𝕜, Chosen Φ idxD res.directModes ∧ Chosen Ψ idxA res.adjointModes ∧
      BestProducts (Yᴴ * ws.matrix n * X) (Yᴴ * ws.matrix n * Φ) res.directProjCoeffs res.singVals ∧
      ((ws.matrix n).IsHermitian →
        BestProducts (Xᴴ * ws.matrix n * Y) (Xᴴ * ws.matrix n * Ψ) res.adjointProjCoeffs res.singVals) := by
  obtain ⟨rows, s, dm, am, -, -, hs, hdm, ham, rfl⟩ :=
    bpodArrays_cases svd X Y p q idxD idxA weights ws _ _ hws hfit res hres
  dsimp only at hlib hH hS ⊢
  generalize ofRows ma md rows = H at *
  obtain ⟨-, hV, hHV, hHU⟩ := utilSvd_triples svd H _ _ hlib s hs
  have hb := utilSvd_best hlib hr s hs hS
  refine ⟨X * (s.V * diagPow (𝕜 := 𝕜) s.S (-0.5)), Y * (s.U * diagPow (𝕜 := 𝕜) s.S (-0.5)),
    linCombineArrays_ok _ _ _ _ hdm, linCombineArrays_ok _ _ _ _ ham, ?_, fun hW => ?_⟩
  · rw [← Matrix.mul_assoc, ← hH]
    have h := balance_right hS hHV
    rw [← conjTranspose_mul, ← conjTranspose_inj, conjTranspose_conjTranspose, conjTranspose_mul,
      conjTranspose_conjTranspose, diagPow_conjTranspose] at h
    rwa [h]
  · have hX : Hᴴ = Xᴴ * ws.matrix n * Y := by
      rw [hH, conjTranspose_mul, conjTranspose_mul, conjTranspose_conjTranspose, hW.eq, Matrix.mul_assoc]
    have h := balance_left hS hHU
    rw [← conjTranspose_inj, conjTranspose_mul, conjTranspose_conjTranspose, conjTranspose_mul,
      conjTranspose_conjTranspose, diagPow_conjTranspose, hX] at h
    rw [← Matrix.mul_assoc, ← Matrix.mul_assoc, Matrix.mul_assoc (Xᴴ * ws.matrix n * Y), h, ← hX]
    have := hb.conjTranspose
    rwa [conjTranspose_mul, conjTranspose_mul, conjTranspose_conjTranspose, diagPow_conjTranspose] at this

/-- **C73** for arrays of impulse responses: no other `k` vectors with any coefficients reproduce what the outputs see of
the impulse responses better than the first `k` direct modes. -/
theorem C73_arrays_outputs (hr : ∀ t ∈ rtol, 0 ≤ t) (hp : 1 ≤ p) (hq : 1 ≤ q) (hws : arraysInit weights = .ok ws)
    (hfit : ws.Fits n) (A Aadj : Matrix (Fin n) (Fin n) 𝕜) (B : Matrix (Fin n) (Fin p) 𝕜) (C : Matrix (Fin n) (Fin q) 𝕜)
    (hadj : Aadjᴴ * ws.matrix n = ws.matrix n * A)
    (hX : ∀ i j, X i j = (A ^ (j.val / p) * B) i ⟨j % p, Nat.mod_lt _ hp⟩)
    (hY : ∀ i j, Y i j = (Aadj ^ (j.val / q) * C) i ⟨j % q, Nat.mod_lt _ hq⟩) (res : BpodResult 𝕜 n md ma)
    (hres : bpodArrays svd X Y p q idxD idxA weights atol rtol = .ok res)
    (hlib : IsSvd res.hankel (svd res.hankel)) (hS : ∀ i, 0 < res.singVals i) :
    ∃ Φ : Matrix (Fin n) (Fin res.r) 𝕜, Chosen Φ idxD res.directModes ∧
      ∀ (k : Nat) (hk : k ≤ res.r) (Q : Matrix (Fin n) (Fin k) 𝕜) (c : Matrix (Fin k) (Fin md) 𝕜),
        squares (Yᴴ * ws.matrix n * (X - Φ.submatrix id (Fin.castLE hk) * res.directProjCoeffs.submatrix (Fin.castLE hk) id)) ≤
        squares (Yᴴ * ws.matrix n * (X - Q * c)) := by
  have hH := (C25_arrays svd X Y p q _ _ weights ws _ _ hp hq hws hfit A Aadj B C hadj hX hY res hres).1
  obtain ⟨Φ, Ψ, h1, -, h2, -⟩ := C73_arrays svd X Y p q idxD idxA weights ws atol rtol hr hws hfit res hres hlib hS hH
  refine ⟨Φ, h1, fun k hk Q c => ?_⟩
  have h3 := h2.best k hk (Yᴴ * ws.matrix n * Q) c
  rw [Matrix.mul_sub, Matrix.mul_sub, ← Matrix.mul_assoc _ Q, ← Matrix.mul_assoc _ (Φ.submatrix _ _)]
  exact h3

end Arrays

section Handles

variable {E : Type*} {md ma : Nat} (X : Fin md → E) (Y : Fin ma → E) (p q : Nat)
  (svd : Matrix (Fin (ma / q * q)) (Fin (md / p * p)) 𝕜 → SvdOut 𝕜 (ma / q * q) (md / p * p)) (atol rtol : Option ℝ)
  [AddCommGroup E] [Module 𝕜 E]

theorem linCombineSized_mode {p h r : Nat} (numSums : Nat) (basis : Fin p → E) (coeff : Matrix (Fin h) (Fin r) 𝕜)
    (hle : h ≤ p) (l : List Int) (out : Vecs E) (hout : linCombineSized numSums basis coeff (some l) = .ok out)
    (i : Fin out.k) (j : Fin r) (hij : l[i.val]? = some (j : Int)) :
    out.v i = combine (fun k => basis (Fin.castLE hle k)) coeff j := by
  obtain ⟨hp, -, sel, h1, h2⟩ := linCombineSized_ok _ _ _ _ _ hout
  have := h1 i _ hij
  unfold npAxisIndex at this
  have hj := j.isLt
  rw [dif_pos (by omega)] at this
  have := Except.ok.inj this
  rw [h2, ← this]
  rfl

/-- **C73** for `BPODHandles`: the modes put and the projection coefficients. -/
theorem C73_handles (hr : ∀ t ∈ rtol, 0 ≤ t) (ip : E →ₗ⋆[𝕜] E →ₗ[𝕜] 𝕜)
    (b : BpodHandles 𝕜 E md ma (ma / q * q) (md / p * p))
    (hb : bpodHandlesDecomp (fun x y => ip x y) X Y p q svd atol rtol = .ok b)
    (hlib : IsSvd b.hankel (svd b.hankel)) (hS : ∀ i, 0 < b.singVals i)
    (hH : ∀ (i : Fin (ma / q * q)) (j : Fin (md / p * p)) (i' : Fin ma) (j' : Fin md), i'.val = i.val →
      j'.val = j.val → b.hankel i j = ip (Y i') (X j')) :
    ∃ Φ Ψ : Fin b.r → E,
      (∀ l k out, bpodHandlesDirectModes b l k = .ok out → ∀ (i : Fin out.k) (j : Fin b.r),
        l[i.val]? = some (j : Int) → out.v i = Φ j) ∧
      (∀ l k out, bpodHandlesAdjointModes b l k = .ok out → ∀ (i : Fin out.k) (j : Fin b.r),
        l[i.val]? = some (j : Int) → out.v i = Ψ j) ∧
      BestProducts b.hankel (Matrix.of fun i j => ip (Y (Fin.castLE (Nat.div_mul_le_self ma q) i)) (Φ j))
        (bpodHandlesDirectProjCoeffs b) b.singVals ∧
      ((∀ x y, ip y x = star (ip x y)) →
        BestProducts b.hankelᴴ (Matrix.of fun i j => ip (X (Fin.castLE (Nat.div_mul_le_self md p) i)) (Ψ j))
          (bpodHandlesAdjointProjCoeffs b) b.singVals) := by
  obtain ⟨rows, s, hrows, hs, rfl⟩ := bpodHandlesDecomp_cases X Y p q svd _ rtol _ b hb
  dsimp only at *
  generalize ofRows (ma / q * q) (md / p * p) rows = H at *
  have hH' : H = handlesIp (fun x y => ip x y) (fun k => Y (Fin.castLE (Nat.div_mul_le_self ma q) k))
      (fun k => X (Fin.castLE (Nat.div_mul_le_self md p) k)) := by
    ext i j
    exact hH i j _ _ rfl rfl
  obtain ⟨-, hV, hHV, hHU⟩ := utilSvd_triples svd H _ _ hlib s hs
  have hbest := utilSvd_best hlib hr s hs hS
  refine ⟨combine (fun k => X (Fin.castLE (Nat.div_mul_le_self md p) k)) (s.V * diagPow (𝕜 := 𝕜) s.S (-0.5)),
    combine (fun k => Y (Fin.castLE (Nat.div_mul_le_self ma q) k)) (s.U * diagPow (𝕜 := 𝕜) s.S (-0.5)),
    fun l k out hout i j hij => linCombineSized_mode _ _ _ _ _ _ hout i j hij,
    fun l k out hout i j hij => linCombineSized_mode _ _ _ _ _ _ hout i j hij, ?_, fun hsymm => ?_⟩
  · have h := balance_right hS hHV
    rw [← conjTranspose_mul, ← conjTranspose_inj, conjTranspose_conjTranspose, conjTranspose_mul,
      conjTranspose_conjTranspose, diagPow_conjTranspose] at h
    have e : (Matrix.of fun i j => ip (Y (Fin.castLE (Nat.div_mul_le_self ma q) i))
        (combine (fun k => X (Fin.castLE (Nat.div_mul_le_self md p) k)) (s.V * diagPow (𝕜 := 𝕜) s.S (-0.5)) j)) =
        s.U * diagPow (𝕜 := 𝕜) s.S 0.5 := by
      rw [← h, hH', ← handlesIp_combine_right]
      rfl
    rw [e]
    exact hbest
  · have h := balance_left hS hHU
    rw [← conjTranspose_inj, conjTranspose_mul, conjTranspose_conjTranspose, conjTranspose_mul,
      conjTranspose_conjTranspose, diagPow_conjTranspose] at h
    have hHs : Hᴴ = handlesIp (fun x y => ip x y) (fun k => X (Fin.castLE (Nat.div_mul_le_self md p) k))
        (fun k => Y (Fin.castLE (Nat.div_mul_le_self ma q) k)) := by
      rw [hH']
      ext i j
      exact (hsymm _ _).symm
    have e : (Matrix.of fun i j => ip (X (Fin.castLE (Nat.div_mul_le_self md p) i))
        (combine (fun k => Y (Fin.castLE (Nat.div_mul_le_self ma q) k)) (s.U * diagPow (𝕜 := 𝕜) s.S (-0.5)) j)) =
        s.V * diagPow (𝕜 := 𝕜) s.S 0.5 := by
      rw [← h, hHs, ← handlesIp_combine_right]
      rfl
    rw [e]
    have := hbest.conjTranspose
    rwa [conjTranspose_mul, conjTranspose_mul, conjTranspose_conjTranspose, diagPow_conjTranspose] at this

end Handles

/-! ### ERA -/

/-- Errors orthogonal to the factors are the smallest. -/
theorem squares_add {m n r : Nat} {R : Matrix (Fin m) (Fin n) 𝕜} {O : Matrix (Fin m) (Fin r) 𝕜}
    {K : Matrix (Fin r) (Fin n) 𝕜} (h : Oᴴ * R * Kᴴ = 0) (N : Matrix (Fin r) (Fin r) 𝕜) :
    squares (R + O * N * K) = squares R + squares (O * N * K) := by
  have h1 : ((O * N * K)ᴴ * R).trace = 0 := by
    rw [conjTranspose_mul, conjTranspose_mul, show Kᴴ * (Nᴴ * Oᴴ) * R = Kᴴ * (Nᴴ * (Oᴴ * R)) by
      simp only [Matrix.mul_assoc], trace_mul_comm, Matrix.mul_assoc, h, Matrix.mul_zero, trace_zero]
  have h2 : (Rᴴ * (O * N * K)).trace = 0 := by
    rw [show Rᴴ * (O * N * K) = ((O * N * K)ᴴ * R)ᴴ by rw [conjTranspose_mul, conjTranspose_conjTranspose],
      trace_conjTranspose, h1, star_zero]
  rw [squares_eq_trace, squares_eq_trace, squares_eq_trace, conjTranspose_add, Matrix.add_mul, Matrix.mul_add,
    Matrix.mul_add, trace_add, trace_add, trace_add, h1, h2, add_zero, zero_add, map_add]

/-- The array between the factors. -/
theorem middle_best {m n r : Nat} {U : Matrix (Fin m) (Fin r) 𝕜} {V : Matrix (Fin n) (Fin r) 𝕜} {S : Fin r → ℝ}
    (hU : Uᴴ * U = 1) (hV : Vᴴ * V = 1) (hS : ∀ i, 0 < S i) (H2 : Matrix (Fin m) (Fin n) 𝕜)
    (M : Matrix (Fin r) (Fin r) 𝕜) :
    let O := U * diagPow (𝕜 := 𝕜) S 0.5
    let K := diagPow (𝕜 := 𝕜) S 0.5 * Vᴴ
    let A := diagPow (𝕜 := 𝕜) S (-0.5) * (Uᴴ * (H2 * (V * diagPow (𝕜 := 𝕜) S (-0.5))))
    squares (H2 - O * A * K) ≤ squares (H2 - O * M * K) ∧
      (squares (H2 - O * A * K) = squares (H2 - O * M * K) → M = A) := by
  intro O K A
  have hD : diagPow (𝕜 := 𝕜) S 0.5 * diagPow (𝕜 := 𝕜) S (-0.5) = 1 := by
    rw [diagPow_mul _ hS, show (0.5 + -0.5 : ℝ) = 0 by norm_num, diagPow_zero]
  have hD' : diagPow (𝕜 := 𝕜) S (-0.5) * diagPow (𝕜 := 𝕜) S 0.5 = 1 := by
    rw [diagPow_mul _ hS, show (-0.5 + 0.5 : ℝ) = 0 by norm_num, diagPow_zero]
  have hO : diagPow (𝕜 := 𝕜) S (-0.5) * Uᴴ * O = 1 := by
    rw [show diagPow (𝕜 := 𝕜) S (-0.5) * Uᴴ * (U * diagPow (𝕜 := 𝕜) S 0.5) =
      diagPow (𝕜 := 𝕜) S (-0.5) * (Uᴴ * U) * diagPow (𝕜 := 𝕜) S 0.5 by simp only [Matrix.mul_assoc], hU, Matrix.mul_one,
      hD']
  have hK : K * (V * diagPow (𝕜 := 𝕜) S (-0.5)) = 1 := by
    rw [show diagPow (𝕜 := 𝕜) S 0.5 * Vᴴ * (V * diagPow (𝕜 := 𝕜) S (-0.5)) =
      diagPow (𝕜 := 𝕜) S 0.5 * (Vᴴ * V) * diagPow (𝕜 := 𝕜) S (-0.5) by simp only [Matrix.mul_assoc], hV, Matrix.mul_one,
      hD]
  have hOAK : O * A * K = U * (Uᴴ * H2 * V) * Vᴴ := by
    change U * diagPow (𝕜 := 𝕜) S 0.5 * (diagPow (𝕜 := 𝕜) S (-0.5) * (Uᴴ * (H2 * (V * diagPow (𝕜 := 𝕜) S (-0.5))))) *
      (diagPow (𝕜 := 𝕜) S 0.5 * Vᴴ) = _
    rw [show U * diagPow (𝕜 := 𝕜) S 0.5 * (diagPow (𝕜 := 𝕜) S (-0.5) * (Uᴴ * (H2 * (V * diagPow (𝕜 := 𝕜) S (-0.5))))) *
      (diagPow (𝕜 := 𝕜) S 0.5 * Vᴴ) = U * (diagPow (𝕜 := 𝕜) S 0.5 * diagPow (𝕜 := 𝕜) S (-0.5)) * (Uᴴ * H2 * V) *
        (diagPow (𝕜 := 𝕜) S (-0.5) * diagPow (𝕜 := 𝕜) S 0.5) * Vᴴ by simp only [Matrix.mul_assoc], hD, hD',
      Matrix.mul_one, Matrix.mul_one]
  have horth : Oᴴ * (H2 - O * A * K) * Kᴴ = 0 := by
    change (U * diagPow (𝕜 := 𝕜) S 0.5)ᴴ * _ * (diagPow (𝕜 := 𝕜) S 0.5 * Vᴴ)ᴴ = 0
    rw [hOAK, conjTranspose_mul, conjTranspose_mul, conjTranspose_conjTranspose, diagPow_conjTranspose]
    rw [show diagPow (𝕜 := 𝕜) S 0.5 * Uᴴ * (H2 - U * (Uᴴ * H2 * V) * Vᴴ) * (V * diagPow (𝕜 := 𝕜) S 0.5) =
      diagPow (𝕜 := 𝕜) S 0.5 * (Uᴴ * H2 * V - Uᴴ * U * (Uᴴ * H2 * V) * (Vᴴ * V)) * diagPow (𝕜 := 𝕜) S 0.5 by
        simp only [Matrix.mul_sub, Matrix.sub_mul, Matrix.mul_assoc], hU, hV, Matrix.one_mul, Matrix.mul_one, sub_self,
      Matrix.mul_zero, Matrix.zero_mul]
  have hsum : H2 - O * M * K = H2 - O * A * K + O * (A - M) * K := by
    rw [Matrix.mul_sub, Matrix.sub_mul]
    abel
  rw [hsum, squares_add horth]
  refine ⟨le_add_of_nonneg_right (squares_nonneg _), fun h => ?_⟩
  have h0 : O * (A - M) * K = 0 := squares_eq_zero (by linarith)
  have h1 : diagPow (𝕜 := 𝕜) S (-0.5) * Uᴴ * (O * (A - M) * K) * (V * diagPow (𝕜 := 𝕜) S (-0.5)) = A - M := by
    rw [show diagPow (𝕜 := 𝕜) S (-0.5) * Uᴴ * (O * (A - M) * K) * (V * diagPow (𝕜 := 𝕜) S (-0.5)) =
      diagPow (𝕜 := 𝕜) S (-0.5) * Uᴴ * O * (A - M) * (K * (V * diagPow (𝕜 := 𝕜) S (-0.5))) by simp only [Matrix.mul_assoc],
      hO, hK, Matrix.one_mul, Matrix.mul_one]
  rw [h0, Matrix.mul_zero, Matrix.zero_mul] at h1
  exact (sub_eq_zero.mp h1.symm).symm

theorem eraReduce_fits (svd : ∀ {m n : Nat}, Matrix (Fin m) (Fin n) 𝕜 → SvdOut 𝕜 m n) (h : HankelPair 𝕜)
    (numOutputs numInputs numStates : Nat) (hlib : IsSvd h.array (svd h.array)) (model : LtiModel 𝕜)
    (hm : eraReduce svd h numOutputs numInputs numStates = .ok model) :
    ∃ s hle, utilSvd svd h.array (some svdAtol) none = .ok s ∧ model.r = min numStates s.r ∧
      ModelFits h.array h.array2 model.A model.B model.C fun i => s.S (Fin.castLE hle i) := by
  unfold eraReduce at hm
  split at hm
  · cases hm
  rename_i s hs
  cases hm
  obtain ⟨hU, hV, hHV, hHU⟩ := utilSvd_triples svd _ _ _ hlib s hs
  have hS : ∀ i, 0 < s.S i := fun i =>
    lt_trans (by norm_num [svdAtol]) (utilSvd_positive svd _ none svdAtol (by simp) hlib s hs i)
  have hle : min numStates s.r ≤ s.r := Nat.min_le_right _ _
  refine ⟨s, hle, hs, rfl, firstCols s.U numStates * diagPow (𝕜 := 𝕜) (firstEntries s.S numStates) 0.5,
    diagPow (𝕜 := 𝕜) (firstEntries s.S numStates) 0.5 * (firstCols s.V numStates)ᴴ, ?_, ?_, ?_, ?_⟩
  · have hb := (utilSvd_best hlib (by simp) s hs hS).truncate hle
    have e1 : firstCols s.U numStates * diagPow (𝕜 := 𝕜) (firstEntries s.S numStates) 0.5 =
        (s.U * diagPow (𝕜 := 𝕜) s.S 0.5).submatrix id (Fin.castLE hle) := by
      ext i j
      simp [firstCols, firstEntries, diagPow, mul_diagonal]
    have e2 : diagPow (𝕜 := 𝕜) (firstEntries s.S numStates) 0.5 * (firstCols s.V numStates)ᴴ =
        (diagPow (𝕜 := 𝕜) s.S 0.5 * s.Vᴴ).submatrix (Fin.castLE hle) id := by
      ext i j
      simp [firstCols, firstEntries, diagPow, diagonal_mul]
    rw [e1, e2]
    exact hb
  · intro i j j' hj
    dsimp only
    rw [show j' = Fin.castLE (Nat.min_le_right _ _) j from Fin.ext hj]
    rfl
  · intro i j i' hi
    dsimp only
    rw [show i' = Fin.castLE (Nat.min_le_right _ _) i from Fin.ext hi]
    rfl
  · exact middle_best (orthonormal_submatrix _ hU _ (Fin.castLE_injective _))
      (orthonormal_submatrix _ hV _ (Fin.castLE_injective _)) (fun i => hS _) _

section Era

variable (svd : ∀ {m n : Nat}, Matrix (Fin m) (Fin n) 𝕜 → SvdOut 𝕜 m n) (cast : 𝕜 → 𝕜) (self o : EraObj)
  (markovs : MarkovsIn 𝕜) (mc mo : Option Int)

/-- **C73** for `ERA.compute_model`: the model fits the Hankel arrays, and its states are the first ones of the
decomposition. -/
theorem C73_era (hlib : ∀ {m n : Nat} (a : Matrix (Fin m) (Fin n) 𝕜), IsSvd a (svd a)) (numStates : Nat)
    (model : LtiModel 𝕜) (hres : eraModel svd cast self markovs numStates mc mo = .ok (o, model)) :
    ∃ h s hle, eraHankel cast self markovs mc mo = .ok (o, h) ∧ utilSvd svd h.array (some svdAtol) none = .ok s ∧
      model.r = min numStates s.r ∧
      ModelFits h.array h.array2 model.A model.B model.C fun i => s.S (Fin.castLE hle i) := by
  cases hm : setMarkovs markovs with
  | error e =>
    unfold eraModel at hres
    rw [hm] at hres
    cases hres
  | ok m =>
    obtain ⟨h, h1, -, h2⟩ := eraModel_cases svd cast self o markovs m mc mo numStates model hm hres
    obtain ⟨s, hle, h3, h4, h5⟩ := eraReduce_fits svd h _ _ _ (hlib _) model h2
    exact ⟨h, s, hle, h1, h3, h4, h5⟩

/-- **C73.** The squared error of each entry of the first Markov parameter of the model is at most the sum of the squares
of the Hankel array less that of the singular values used. -/
theorem C73_era_first_markov (hlib : ∀ {m n : Nat} (a : Matrix (Fin m) (Fin n) 𝕜), IsSvd a (svd a)) (numStates : Nat)
    (m : Markovs 𝕜) (hm : setMarkovs markovs = .ok m) (model : LtiModel 𝕜)
    (hres : eraModel svd cast self markovs numStates mc mo = .ok (o, model)) :
    ∃ h s hle, eraHankel cast self markovs mc mo = .ok (o, h) ∧ utilSvd svd h.array (some svdAtol) none = .ok s ∧
      ∀ (i : Fin model.q) (j : Fin model.p), ‖cast (m.at_ 0 i j) - (model.C * model.B) i j‖ ^ 2 ≤
        squares h.array - ∑ l : Fin model.r, s.S (Fin.castLE hle l) ^ 2 := by
  obtain ⟨h, h1, hh, h2⟩ := eraModel_cases svd cast self o markovs m mc mo numStates model hm hres
  obtain ⟨s, hle, h3, h4, O, K, hb, hB, hC, -⟩ := eraReduce_fits svd h _ _ _ (hlib _) model h2
  refine ⟨h, s, hle, h1, h3, fun i j => ?_⟩
  have hpq : model.q = min m.no h.rows ∧ model.p = min m.ni h.cols := by
    unfold eraReduce at h2
    rw [h3] at h2
    cases h2
    exact ⟨rfl, rfl⟩
  obtain ⟨mo', mc', hr, hc, hent⟩ := assembleHankel_blocks cast m mc mo h hh
  have hi : i.val < min m.no h.rows := lt_of_lt_of_eq i.isLt hpq.1
  have hj : j.val < min m.ni h.cols := lt_of_lt_of_eq j.isLt hpq.2
  have hi1 : i.val < h.rows := lt_of_lt_of_le hi (Nat.min_le_right _ _)
  have hj1 : j.val < h.cols := lt_of_lt_of_le hj (Nat.min_le_right _ _)
  have hmo : 0 < mo' := by
    rcases Nat.eq_zero_or_pos mo' with h0 | h0
    · rw [hr, h0] at hi1
      simp at hi1
    · exact h0
  have hmc : 0 < mc' := by
    rcases Nat.eq_zero_or_pos mc' with h0 | h0
    · rw [hc, h0] at hj1
      simp at hj1
    · exact h0
  have h0 := ((hent 0 0 hmo hmc).2 i j (lt_of_lt_of_le hi (Nat.min_le_left _ _))
    (lt_of_lt_of_le hj (Nat.min_le_left _ _))).1
  simp only [Nat.zero_mul, Nat.zero_add, Nat.mul_zero] at h0
  have he := hb.error model.r le_rfl
  have hle' := entry_le_squares (h.array - O.submatrix id (Fin.castLE le_rfl) * K.submatrix (Fin.castLE le_rfl) id)
    ⟨i, hi1⟩ ⟨j, hj1⟩
  rw [he] at hle'
  have e1 : (h.array - O.submatrix id (Fin.castLE le_rfl) * K.submatrix (Fin.castLE le_rfl) id) ⟨i, hi1⟩ ⟨j, hj1⟩ =
      cast (m.at_ 0 i j) - (model.C * model.B) i j := by
    rw [Matrix.sub_apply, ← h0, Matrix.mul_apply, Matrix.mul_apply]
    congr 1
    refine Finset.sum_congr rfl fun l _ => ?_
    rw [hC i l ⟨i, hi1⟩ rfl, hB l j ⟨j, hj1⟩ rfl]
    rfl
  rw [e1] at hle'
  exact hle'

end Era

/-- A system with state array 1/2 whose model is computed. -/
example : ∃ (svd : ∀ {m n : Nat}, Matrix (Fin m) (Fin n) ℝ → SvdOut ℝ m n) (o : EraObj) (model : LtiModel ℝ)
    (h : HankelPair ℝ) (S : Fin model.r → ℝ),
    eraModel svd id (eraInit none none) (.d3 (halves 1)) 1 none none = .ok (o, model) ∧
    eraHankel id (eraInit none none) (.d3 (halves 1)) none none = .ok (o, h) ∧ h.rows = 1 ∧ h.cols = 1 ∧ h.h 0 0 = 1 ∧
    ModelFits h.array h.array2 model.A model.B model.C S := by
  choose svd hsvd using fun (m n : Nat) (a : Matrix (Fin m) (Fin n) ℝ) => exists_isSvd a
  obtain ⟨o, h, hh, h1, h2, h3⟩ := halves_hankel 1
  obtain ⟨model, hmodel⟩ := C36_no_error (fun {m n} => svd m n) id (eraInit none none) o (.d3 (halves 1)) none none 1
    h hh
  obtain ⟨h', s, hle, k1, k2, k3, k4⟩ := C73_era (fun {m n} => svd m n) id (eraInit none none) o (.d3 (halves 1)) none none
    (fun a => hsvd _ _ a) 1 model hmodel
  rw [hh] at k1
  cases k1
  exact ⟨fun {m n} => svd m n, o, model, h, _, hmodel, hh, h1, h2, h3, k4⟩

/-- One state with impulse response 1, 2. -/
example : ∃ (svd : Matrix (Fin 2) (Fin 2) ℝ → SvdOut ℝ 2 2) (res : BpodResult ℝ 1 2 2) (Φ : Matrix (Fin 1) (Fin res.r) ℝ),
    bpodArrays svd !![1, 2] !![1, 2] 1 1 none none none (some (1 / 10)) none = .ok res ∧
    BestProducts ((!![1, 2] : Matrix (Fin 1) (Fin 2) ℝ)ᴴ * Weights.none.matrix 1 * (!![1, 2] : Matrix (Fin 1) (Fin 2) ℝ))
      ((!![1, 2] : Matrix (Fin 1) (Fin 2) ℝ)ᴴ * Weights.none.matrix 1 * Φ) res.directProjCoeffs res.singVals := by
  choose svd hsvd using fun a : Matrix (Fin 2) (Fin 2) ℝ => exists_isSvd a
  obtain ⟨res, hres⟩ := C25_no_error svd !![1, 2] !![1, 2] 1 1 none .none (some (1 / 10)) none
    (by decide) (by decide) (by decide) (by decide) (by decide) (by decide) rfl trivial
  obtain ⟨Φ, Ψ, -, -, h, -⟩ := C73_arrays svd !![1, 2] !![1, 2] 1 1 none none none .none (some (1 / 10)) none (by simp) rfl
    trivial res hres (hsvd _) (fun i => lt_trans (by norm_num)
    (C24_positive svd _ _ 1 1 none none none .none none (1 / 10) (by simp) rfl trivial res hres (hsvd _) i)) (by
      refine (C25_arrays svd _ _ 1 1 none none none .none _ _ le_rfl le_rfl rfl trivial !![2] !![2] !![1] !![1]
        ?_ ?_ ?_ res hres).1
      · ext i j
        fin_cases i; fin_cases j
        simp [Weights.matrix]
      · intro i j
        fin_cases i; fin_cases j <;> simp
      · intro i j
        fin_cases i; fin_cases j <;> simp)
  exact ⟨svd, res, Φ, hres, h⟩

/-- Handles of impulse responses with two inputs and one output. -/
example : ∃ (svd : Matrix (Fin (2 / 1 * 1)) (Fin (4 / 2 * 2)) ℝ → SvdOut ℝ (2 / 1 * 1) (4 / 2 * 2)) (b : _) (Φ : Fin b.r → ℝ),
    bpodHandlesDecomp (fun x y : ℝ => LinearMap.mul ℝ ℝ x y) ![1, 3, 2, 6] ![1, 2] 2 1 svd (some (1 / 10)) none =
      .ok b ∧
    BestProducts b.hankel (Matrix.of fun i j => LinearMap.mul ℝ ℝ ((![1, 2] : Fin 2 → ℝ) (Fin.castLE (by decide) i)) (Φ j))
      (bpodHandlesDirectProjCoeffs b) b.singVals := by
  choose svd hsvd using fun a : Matrix (Fin (2 / 1 * 1)) (Fin (4 / 2 * 2)) ℝ => exists_isSvd a
  obtain ⟨b, hb⟩ := C25_handles_no_error ![1, 3, 2, 6] ![1, 2] 2 1 svd (some (1 / 10)) none
    (fun x y : ℝ => LinearMap.mul ℝ ℝ x y) (by decide) (by decide) (by decide) (by decide)
  have hH := C25_handles ![1, 3, 2, 6] ![1, 2] 2 1 svd _ _ (fun x y : ℝ => LinearMap.mul ℝ ℝ x y) (fun x => 2 * x) (fun x => 2 * x)
    (fun u v => by simp only [LinearMap.mul_apply']; ring) (by decide) (by decide) (by decide) ![1, 3] ![1]
    (fun j => by fin_cases j <;> norm_num) (fun i => by fin_cases i <;> norm_num) b hb
  obtain ⟨Φ, -, -, -, h, -⟩ := C73_handles ![1, 3, 2, 6] ![1, 2] 2 1 svd (some (1 / 10)) none (by simp) (LinearMap.mul ℝ ℝ) b hb
    (hsvd _) (fun i => lt_trans (by norm_num)
      (C24_handles_positive ![1, 3, 2, 6] ![1, 2] 2 1 svd none (fun x y : ℝ => LinearMap.mul ℝ ℝ x y) (1 / 10) (by simp) b hb
        (hsvd _) i)) hH
  exact ⟨svd, b, Φ, hb, h⟩

end Modred
