import Mathlib.LinearAlgebra.Finsupp.LinearCombination
import Mathlib.LinearAlgebra.Matrix.ToLin
import Verif.Spec.MatchedResponses
import Verif.Props.Galerkin
import Verif.Props.DmdHandles
import Verif.Spec.Stability

/-!
# C134: Galerkin projection reproduces the first responses
-/

namespace Modred

open Matrix

variable {𝕜 : Type*} [RCLike 𝕜]

/-- `φ` maps states of the model to vectors, `π` maps vectors to states of the model. -/
theorem responses_core {E V : Type*} [AddCommGroup E] [Module 𝕜 E] [AddCommGroup V] [Module 𝕜 V] (F : E →ₗ[𝕜] E) (φ : V →ₗ[𝕜] E)
    (π : E →ₗ[𝕜] V) (hφ : ∀ v, π (φ v) = v) (c : E →ₗ[𝕜] 𝕜) (b : E) (K L : Nat) (hK : ∀ k < K, ∃ v, (F ^ k) b = φ v)
    (hL : ∀ l < L, ∃ d : V →ₗ[𝕜] 𝕜, ∀ x, c ((F ^ l) x) = d (π x)) :
    ∀ k < K + L, c (φ (((π ∘ₗ F ∘ₗ φ) ^ k) (π b))) = c ((F ^ k) b) := by
  have h1 : ∀ k < K, φ (((π ∘ₗ F ∘ₗ φ) ^ k) (π b)) = (F ^ k) b := by
    intro k
    induction k with
    | zero =>
      intro hk
      obtain ⟨v, hv⟩ := hK 0 hk
      simp only [pow_zero, Module.End.one_apply] at hv ⊢
      rw [hv, hφ]
    | succ k ih =>
      intro hk
      obtain ⟨v, hv⟩ := hK _ hk
      rw [pow_succ', Module.End.mul_apply, LinearMap.comp_apply, LinearMap.comp_apply, ih (by omega), ← Module.End.mul_apply,
        ← pow_succ', hv, hφ]
  have h2 : ∀ l ≤ L, ∀ v, c (φ (((π ∘ₗ F ∘ₗ φ) ^ l) v)) = c ((F ^ l) (φ v)) := by
    intro l
    induction l with
    | zero =>
      intro _ v
      simp
    | succ l ih =>
      intro hl v
      obtain ⟨d, hd⟩ := hL l (by omega)
      rw [pow_succ, Module.End.mul_apply, ih (by omega), LinearMap.comp_apply, LinearMap.comp_apply, hd, hφ, ← hd, pow_succ,
        Module.End.mul_apply]
  intro k hk
  rcases Nat.lt_or_ge k K with h | h
  · rw [h1 k h]
  · rcases Nat.eq_zero_or_pos K with h0 | h0
    · obtain ⟨d, hd⟩ := hL k (by omega)
      rw [h2 k (by omega), hd, hφ, ← hd]
    · obtain ⟨l, rfl⟩ : ∃ l, k = l + (K - 1) := ⟨k - (K - 1), by omega⟩
      rw [pow_add, Module.End.mul_apply, h2 l (by omega), h1 (K - 1) (by omega), ← Module.End.mul_apply, ← pow_add]

section Vectors

variable {E : Type*} [AddCommGroup E] [Module 𝕜 E] {r q p : Nat} {ip : E →ₗ⋆[𝕜] E →ₗ[𝕜] 𝕜} {Φ Ψ : Fin r → E} {F : E →ₗ[𝕜] E}
  {b : Fin q → E} {c : Fin p → E →ₗ[𝕜] 𝕜} {K L : Nat}

theorem responses_vectors {H : Matrix (Fin r) (Fin r) 𝕜} (hH : H * handlesIp (fun x y => ip x y) Ψ Φ = 1)
    (hK : ∀ k < K, ∀ j, (F ^ k) (b j) ∈ Submodule.span 𝕜 (Set.range Φ))
    (hL : ∀ l < L, ∀ i, ∃ d : Fin r → 𝕜, ∀ x, c i ((F ^ l) x) = ∑ m, d m * ip (Ψ m) x) :
    ∀ k < K + L, (Matrix.of fun i m => c i (Φ m)) * (H * handlesIp (fun x y => ip x y) Ψ fun m => F (Φ m)) ^ k *
      (H * handlesIp (fun x y => ip x y) Ψ b) = Matrix.of fun i j => c i ((F ^ k) (b j)) := by
  have hH' := mul_eq_one_comm.mp hH
  let φ : (Fin r → 𝕜) →ₗ[𝕜] E := Fintype.linearCombination 𝕜 Φ
  let ψ : E →ₗ[𝕜] (Fin r → 𝕜) := LinearMap.pi fun m => ip (Ψ m)
  let π : E →ₗ[𝕜] (Fin r → 𝕜) := H.mulVecLin ∘ₗ ψ
  have eφ : ∀ v, φ v = ∑ m, v m • Φ m := fun v => rfl
  have eψ : ∀ v, ψ (φ v) = handlesIp (fun x y => ip x y) Ψ Φ *ᵥ v := by
    intro v
    ext m
    change ip (Ψ m) (φ v) = ∑ l, ip (Ψ m) (Φ l) * v l
    rw [eφ, map_sum]
    refine Finset.sum_congr rfl fun l _ => ?_
    rw [map_smul, smul_eq_mul, mul_comm]
  have hφ : ∀ v, π (φ v) = v := by
    intro v
    change H *ᵥ ψ (φ v) = v
    rw [eψ, mulVec_mulVec, hH, one_mulVec]
  set A := H * handlesIp (fun x y => ip x y) Ψ fun m => F (Φ m) with hA
  have eA : ∀ v, A *ᵥ v = (π ∘ₗ F ∘ₗ φ) v := by
    intro v
    change A *ᵥ v = H *ᵥ ψ (F (φ v))
    rw [hA, ← mulVec_mulVec]
    congr 1
    ext m
    change ∑ l, ip (Ψ m) (F (Φ l)) * v l = ip (Ψ m) (F (φ v))
    rw [eφ, map_sum, map_sum]
    refine Finset.sum_congr rfl fun l _ => ?_
    rw [map_smul, map_smul, smul_eq_mul, mul_comm]
  have ePow : ∀ k v, (A ^ k) *ᵥ v = ((π ∘ₗ F ∘ₗ φ) ^ k) v := by
    intro k
    induction k with
    | zero => simp
    | succ k ih =>
      intro v
      rw [pow_succ, ← mulVec_mulVec, eA, ih, pow_succ, Module.End.mul_apply]
  intro k hk
  ext i j
  have h1 := responses_core F φ π hφ (c i) (b j) K L (fun k hk => ?_) (fun l hl => ?_) k hk
  · rw [of_apply, ← h1, ← ePow, eφ, map_sum, Matrix.mul_assoc, Matrix.mul_apply]
    refine Finset.sum_congr rfl fun m _ => ?_
    rw [map_smul, smul_eq_mul, mul_comm, of_apply]
    congr 1
  · obtain ⟨v, hv⟩ := (Submodule.mem_span_range_iff_exists_fun 𝕜).mp (hK k hk j)
    exact ⟨v, hv.symm⟩
  · obtain ⟨d, hd⟩ := hL l hl i
    refine ⟨(Matrix.of fun (_ : Fin 1) m => d m).mulVecLin.comp (handlesIp (fun x y => ip x y) Ψ Φ).mulVecLin |> (LinearMap.proj 0).comp, ?_⟩
    intro x
    change c i ((F ^ l) x) = ∑ m, d m * (handlesIp (fun x y => ip x y) Ψ Φ *ᵥ (H *ᵥ ψ x)) m
    rw [mulVec_mulVec, hH', one_mulVec, hd]
    rfl

/-- The model in terms of what the reductions return. -/
theorem responses_model {flag : Bool} (hfit : BasisFits flag (handlesIp (fun x y => ip x y) Ψ Φ))
    (hK : ∀ k < K, ∀ j, (F ^ k) (b j) ∈ Submodule.span 𝕜 (Set.range Φ))
    (hL : ∀ l < L, ∀ i, ∃ d : Fin r → 𝕜, ∀ x, c i ((F ^ l) x) = ∑ m, d m * ip (Ψ m) x)
    {x : Except Err (Matrix (Fin r) (Fin r) 𝕜)} {y : Except Err (Matrix (Fin r) (Fin q) 𝕜)}
    (hx : GalerkinResult flag (handlesIp (fun x y => ip x y) Ψ Φ) (handlesIp (fun x y => ip x y) Ψ fun m => F (Φ m)) x)
    (hy : GalerkinResult flag (handlesIp (fun x y => ip x y) Ψ Φ) (handlesIp (fun x y => ip x y) Ψ b) y)
    {res : Except Err (Option (Cols 𝕜 r) × Option (Cols 𝕜 r) × Option (Arr 𝕜))}
    (hres : ∀ A B, x = .ok A → y = .ok B → res = .ok (some ⟨r, A⟩, some ⟨q, B⟩, some ⟨p, r, Matrix.of fun i m => c i (Φ m)⟩)) :
    MatchesResponses (K + L) (fun k => Matrix.of fun i j => c i ((F ^ k) (b j))) res := by
  unfold BasisFits at hfit
  cases flag with
  | true =>
    rw [if_pos rfl] at hfit
    have h := responses_vectors (H := 1) (by rw [Matrix.one_mul, hfit]) hK hL
    rw [Matrix.one_mul, Matrix.one_mul] at h
    exact ⟨_, _, _, hres _ _ (hx.orthonormal rfl) (hy.orthonormal rfl), h⟩
  | false =>
    rw [if_neg (by simp)] at hfit
    exact ⟨_, _, _, hres _ _ (hx.regular rfl hfit) (hy.regular rfl hfit), responses_vectors (nonsing_inv_mul _ hfit) hK hL⟩

end Vectors

/-! ### Handles -/

section Handles

variable {E : Type*} [AddCommGroup E] [Module 𝕜 E] {r q p : Nat} (ip : E →ₗ⋆[𝕜] E →ₗ[𝕜] 𝕜) (Φ : Fin r → E) (adj : Option (Fin r → E))
  (flag : Bool) (g : GalerkinHandles 𝕜 E r) (calls : List (HandlesCall 𝕜 E)) (F : E →ₗ[𝕜] E) (b : Fin q → E) (c : Fin p → E →ₗ[𝕜] 𝕜)
  (K L : Nat)

/-- **C134** for handles.  `F` is the system, `b` are its inputs and `c` its outputs. -/
theorem C134_handles (hr : 0 < r) (hq : 0 < q) (hg : galerkinHandlesInit (fun x y => ip x y) Φ adj flag = .ok g)
    (hfit : BasisFits flag (handlesIp (fun x y => ip x y) (adj.getD Φ) Φ))
    (hK : ∀ k < K, ∀ j, (F ^ k) (b j) ∈ Submodule.span 𝕜 (Set.range Φ))
    (hL : ∀ l < L, ∀ i, ∃ d : Fin r → 𝕜, ∀ x, c i ((F ^ l) x) = ∑ m, d m * ip (adj.getD Φ m) x) :
    MatchesResponses (K + L) (fun k => Matrix.of fun i j => c i ((F ^ k) (b j)))
      (galerkinModelHandles (calls.foldl HandlesCall.after g) (fun m => F (Φ m)) b (.rows r p fun m i => c i (Φ m))).1 := by
  obtain ⟨hA, hB, hC, -⟩ := C38_handles (fun x y => ip x y) Φ adj flag g calls hr hg
  obtain ⟨m1, -⟩ := C38_handles_model (fun x y => ip x y) Φ adj flag g calls hr hg hq (fun m => F (Φ m)) b
    (.rows r p fun m i => c i (Φ m))
  refine responses_model hfit hK hL (hA r _ hr) (hB q _ hq) fun x y hx hy => ?_
  exact (m1 x y hx hy).trans (congrArg (fun c => Except.ok (some _, some _, some c)) (hC r p _))

end Handles

/-! ### Arrays -/

section Arrays

variable {n r q p : Nat} (Φ : Matrix (Fin n) (Fin r) 𝕜) (adj : Option (Matrix (Fin n) (Fin r) 𝕜)) (flag : Bool)
  (weights : Option (NdArray 𝕜)) (ws : Weights 𝕜) (g : GalerkinArrays 𝕜 n r) (calls : List (ArraysCall 𝕜 n))
  (A : Matrix (Fin n) (Fin n) 𝕜) (B : Matrix (Fin n) (Fin q) 𝕜) (C : Matrix (Fin p) (Fin n) 𝕜) (K L : Nat)

/-- **C134** for arrays: `A`, `B` and `C` are the system. -/
theorem C134_arrays (hw : arraysInit weights = .ok ws) (hws : ws.Fits n)
    (hg : galerkinArraysInit false Φ (adj.map fun a => ⟨n, r, a⟩) flag weights = .ok g)
    (hfit : BasisFits flag ((adj.getD Φ)ᴴ * ws.matrix n * Φ)) (hK : ∀ k < K, ∃ S : Matrix (Fin r) (Fin q) 𝕜, A ^ k * B = Φ * S)
    (hL : ∀ l < L, ∃ D : Matrix (Fin p) (Fin r) 𝕜, C * A ^ l = D * ((adj.getD Φ)ᴴ * ws.matrix n)) :
    MatchesResponses (K + L) (fun k => C * A ^ k * B)
      (galerkinModelArrays (calls.foldl ArraysCall.after g) (A * Φ) B (.rows p r (C * Φ))).1 := by
  obtain ⟨hA, hB, -⟩ := C38_arrays Φ adj flag weights ws g calls hw hws hg
  obtain ⟨m1, -⟩ := C38_arrays_model Φ adj flag weights ws g calls hw hws hg (A * Φ) B (.rows p r (C * Φ))
  have a := hA r (A * Φ)
  have b := hB q B
  generalize adj.getD Φ = Ψ at *
  have hgr : ∀ {l : Nat} (Z : Matrix (Fin n) (Fin l) 𝕜),
      Ψᴴ * ws.matrix n * Z = handlesIp (fun x y => weightedIp (ws.matrix n) x y) Ψ.col Z.col := by
    intro l Z
    ext i j
    rw [Matrix.mul_assoc]
    rfl
  have hpow : ∀ k (x : Fin n → 𝕜), (A.mulVecLin ^ k) x = A ^ k *ᵥ x := by
    intro k
    induction k with
    | zero => simp
    | succ k ih =>
      intro x
      rw [pow_succ, Module.End.mul_apply, ih, pow_succ, ← mulVec_mulVec]
      rfl
  have hout : ∀ (D : Matrix (Fin p) (Fin n) 𝕜) {l : Nat} (Z : Matrix (Fin n) (Fin l) 𝕜) i j, (D * Z) i j = (D *ᵥ Z.col j) i :=
    fun D l Z i j => rfl
  rw [hgr, hgr] at a b
  rw [hgr] at hfit
  have h := responses_model (p := p) (F := A.mulVecLin) (b := B.col) (c := fun i => (LinearMap.proj i).comp C.mulVecLin) (K := K) (L := L)
    (res := (galerkinModelArrays (calls.foldl ArraysCall.after g) (A * Φ) B (.rows p r (C * Φ))).1) hfit ?_ ?_ a b m1
  · obtain ⟨x, y, z, h1, h2⟩ := h
    refine ⟨x, y, z, h1, fun k hk => ?_⟩
    rw [h2 k hk]
    ext i j
    change (C *ᵥ ((A.mulVecLin ^ k) (B.col j))) i = _
    rw [hpow, mulVec_mulVec]
    rfl
  · intro k hk j
    obtain ⟨S, hS⟩ := hK k hk
    refine (Submodule.mem_span_range_iff_exists_fun 𝕜).mpr ⟨S.col j, ?_⟩
    rw [hpow]
    ext i
    have h3 := congrFun (congrFun hS i) j
    change _ = (A ^ k * B) i j
    rw [h3, Matrix.mul_apply, Finset.sum_apply]
    refine Finset.sum_congr rfl fun m _ => ?_
    exact mul_comm _ _
  · intro l hl i
    obtain ⟨D, hD⟩ := hL l hl
    refine ⟨D i, fun x => ?_⟩
    change (C *ᵥ ((A.mulVecLin ^ l) x)) i = _
    rw [hpow, mulVec_mulVec, hD, ← mulVec_mulVec]
    change ∑ m, D i m * ((Ψᴴ * ws.matrix n) *ᵥ x) m = _
    refine Finset.sum_congr rfl fun m _ => ?_
    congr 1
    have h4 := congrFun (congrFun (hgr (Matrix.of fun k (_ : Fin 1) => x k)) m) 0
    exact h4

end Arrays

/-! ### Examples -/

/-- The system with rows (1, 2) and (3, 4), the input (1, 0) and the sum of the states as output: the model with one direct and one
adjoint basis vector has its first two responses, 1 and 4. -/
example : ∃ g : GalerkinArrays ℝ 2 1,
    galerkinArraysInit false (!![1; 0] : Matrix (Fin 2) (Fin 1) ℝ) (some ⟨2, 1, !![1; 1]⟩) false none = .ok g ∧
    MatchesResponses 2 (fun k => (!![1, 1] : Matrix (Fin 1) (Fin 2) ℝ) * (!![1, 2; 3, 4] : Matrix (Fin 2) (Fin 2) ℝ) ^ k * (!![1; 0] : Matrix (Fin 2) (Fin 1) ℝ))
      (galerkinModelArrays g ((!![1, 2; 3, 4] : Matrix (Fin 2) (Fin 2) ℝ) * (!![1; 0] : Matrix (Fin 2) (Fin 1) ℝ)) (!![1; 0] : Matrix (Fin 2) (Fin 1) ℝ)
        (.rows 1 1 ((!![1, 1] : Matrix (Fin 1) (Fin 2) ℝ) * (!![1; 0] : Matrix (Fin 2) (Fin 1) ℝ)))).1 := by
  obtain ⟨g, hg, -⟩ := arraysInv_init (!![1; 0] : Matrix (Fin 2) (Fin 1) ℝ) (some !![1; 1]) false none .none rfl
  have h := C134_arrays (!![1; 0] : Matrix (Fin 2) (Fin 1) ℝ) (some !![1; 1]) false none .none g [] (!![1, 2; 3, 4] : Matrix (Fin 2) (Fin 2) ℝ)
    (!![1; 0] : Matrix (Fin 2) (Fin 1) ℝ) (!![1, 1] : Matrix (Fin 1) (Fin 2) ℝ) 1 1 rfl trivial hg ?_ ?_ ?_
  · exact ⟨g, hg, h⟩
  · unfold BasisFits
    simp [Weights.matrix, Matrix.mul_apply, Fin.sum_univ_two]
  · intro k hk
    obtain rfl : k = 0 := by omega
    exact ⟨1, by simp⟩
  · intro l hl
    obtain rfl : l = 0 := by omega
    refine ⟨1, ?_⟩
    ext i j
    fin_cases i
    fin_cases j <;> simp [Weights.matrix]

/-- The same with handles, and no adjoint basis vectors: the first response only. -/
example : ∃ g : GalerkinHandles ℝ (Fin 2 → ℝ) 1,
    galerkinHandlesInit (s := 1) (fun x y => dotIp x y) ![![1, 0]] none true = .ok g ∧
    MatchesResponses 1 (fun k => Matrix.of fun (_ : Fin 1) (j : Fin 1) =>
        ((LinearMap.proj 0 : (Fin 2 → ℝ) →ₗ[ℝ] ℝ) ((!![1, 2; 3, 4] : Matrix (Fin 2) (Fin 2) ℝ).mulVecLin ^ k <| (![![5, 0]] : Fin 1 → Fin 2 → ℝ) j)))
      (galerkinModelHandles g (fun m => (!![1, 2; 3, 4] : Matrix (Fin 2) (Fin 2) ℝ).mulVecLin ((![![1, 0]] : Fin 1 → Fin 2 → ℝ) m))
        (![![5, 0]] : Fin 1 → Fin 2 → ℝ) (.rows 1 1 fun m (_ : Fin 1) => (LinearMap.proj 0 : (Fin 2 → ℝ) →ₗ[ℝ] ℝ) ((![![1, 0]] : Fin 1 → Fin 2 → ℝ) m))).1 := by
  obtain ⟨g, hg⟩ := (C38_handles_constructor (fun x y => dotIp x y) ![![1, 0]] none true (![] : Fin 0 → _)).2
  refine ⟨g, hg, C134_handles dotIp ![![1, 0]] none true g [] (!![1, 2; 3, 4] : Matrix (Fin 2) (Fin 2) ℝ).mulVecLin
    (![![5, 0]] : Fin 1 → Fin 2 → ℝ) (fun _ => LinearMap.proj 0) 1 0 one_pos one_pos hg ?_ ?_ (by simp)⟩
  · unfold BasisFits
    rw [if_pos rfl]
    ext i j
    fin_cases i
    fin_cases j
    simp [handlesIp, dotIp]
  · intro k hk j
    obtain rfl : k = 0 := by omega
    refine (Submodule.mem_span_range_iff_exists_fun ℝ).mpr ⟨![5], ?_⟩
    fin_cases j
    simp

end Modred
