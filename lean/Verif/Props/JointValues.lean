import Verif.Spec.JointValues
import Verif.Props.ErrorExamples

/-!
# C123: data in two parts

If vectors are given in two parts, `k₁` modes of the first and `k₂` of the second represent all of them.  Hence the eigenvalue of all
vectors that follows the first `k₁ + k₂` is at most the sum of those of the parts that follow the first `k₁` and the first `k₂`.
-/

namespace Modred

open Matrix
open scoped ComplexOrder

variable {𝕜 : Type*} [RCLike 𝕜] {E : Type*} [AddCommGroup E] [Module 𝕜 E]

theorem joint_value {m m₁ m₂ r k₁ k₂ : Nat} (e : Fin m₁ ⊕ Fin m₂ ≃ Fin m) {sqL : E → ℝ} {data : Fin m → E} {modes : Fin r → E}
    {coeffs : Matrix (Fin r) (Fin m) 𝕜} {S : Fin r → ℝ} (tri : ∀ u v, √(sqL (u + v)) ≤ √(sqL u) + √(sqL v)) (hsq : ∀ v, 0 ≤ sqL v)
    (hbest : BestInWorstCase sqL data modes coeffs S) (q₁ : Fin k₁ → E) (c₁ : Fin k₁ → Fin m₁ → 𝕜) (q₂ : Fin k₂ → E)
    (c₂ : Fin k₂ → Fin m₂ → 𝕜) {b₁ b₂ : ℝ} (hb₁ : 0 ≤ b₁) (hb₂ : 0 ≤ b₂)
    (h₁ : ∀ x : Fin m₁ → 𝕜, sqL (∑ j, x j • (data (e (.inl j)) - ∑ i, c₁ i j • q₁ i)) ≤ b₁ * ∑ j, ‖x j‖ ^ 2)
    (h₂ : ∀ x : Fin m₂ → 𝕜, sqL (∑ j, x j • (data (e (.inr j)) - ∑ i, c₂ i j • q₂ i)) ≤ b₂ * ∑ j, ‖x j‖ ^ 2) (k : Fin r)
    (hk : k.val = k₁ + k₂) : S k ≤ b₁ + b₂ := by
  obtain ⟨x, hx, hle⟩ := hbest.best k (fun i => Fin.append q₁ q₂ (Fin.cast hk i)) (Matrix.of fun i j =>
    Fin.append (fun a => Sum.elim (c₁ a) (fun _ => 0) (e.symm j)) (fun a => Sum.elim (fun _ => 0) (c₂ a) (e.symm j)) (Fin.cast hk i))
  have hsum : ∀ j, ∑ i : Fin k, (Matrix.of fun (i : Fin k) j =>
      Fin.append (fun a => Sum.elim (c₁ a) (fun _ => (0 : 𝕜)) (e.symm j)) (fun a => Sum.elim (fun _ => 0) (c₂ a) (e.symm j))
        (Fin.cast hk i)) i j • Fin.append q₁ q₂ (Fin.cast hk i) =
      ∑ a, Sum.elim (c₁ a) (fun _ => (0 : 𝕜)) (e.symm j) • q₁ a + ∑ a, Sum.elim (fun _ => (0 : 𝕜)) (c₂ a) (e.symm j) • q₂ a := by
    intro j
    simp only [Matrix.of_apply]
    refine (Fintype.sum_equiv (finCongr hk) _ (fun i => Fin.append (fun a => Sum.elim (c₁ a) (fun _ => (0 : 𝕜)) (e.symm j))
      (fun a => Sum.elim (fun _ => 0) (c₂ a) (e.symm j)) i • Fin.append q₁ q₂ i) (fun i => rfl)).trans ?_
    rw [Fin.sum_univ_add]
    simp only [Fin.append_left, Fin.append_right]
  simp only [hsum] at hle
  rw [← e.sum_comp, ← e.sum_comp, Fintype.sum_sum_type, Fintype.sum_sum_type] at hle
  simp only [Equiv.symm_apply_apply, Sum.elim_inl, Sum.elim_inr, zero_smul, Finset.sum_const_zero, add_zero, zero_add] at hle
  have e₁ := h₁ fun j => x (e (.inl j))
  have e₂ := h₂ fun j => x (e (.inr j))
  set n₁ := ∑ j, ‖x (e (.inl j))‖ ^ 2
  set n₂ := ∑ j, ‖x (e (.inr j))‖ ^ 2
  have hn₁ : 0 ≤ n₁ := Finset.sum_nonneg fun _ _ => sq_nonneg _
  have hn₂ : 0 ≤ n₂ := Finset.sum_nonneg fun _ _ => sq_nonneg _
  have hpos : 0 < n₁ + n₂ := by
    have h : n₁ + n₂ = ∑ j, ‖x j‖ ^ 2 := by rw [← e.sum_comp, Fintype.sum_sum_type]
    rw [h]
    obtain ⟨j, hj⟩ := Function.ne_iff.mp hx
    exact Finset.sum_pos' (fun _ _ => sq_nonneg _) ⟨j, Finset.mem_univ _, by have := norm_pos_iff.mpr hj; positivity⟩
  have ht := tri (∑ j, x (e (.inl j)) • (data (e (.inl j)) - ∑ i, c₁ i j • q₁ i))
    (∑ j, x (e (.inr j)) • (data (e (.inr j)) - ∑ i, c₂ i j • q₂ i))
  have hs₁ := Real.sqrt_le_sqrt e₁
  have hs₂ := Real.sqrt_le_sqrt e₂
  rw [Real.sqrt_mul hb₁] at hs₁
  rw [Real.sqrt_mul hb₂] at hs₂
  have hfin : S k * (n₁ + n₂) ≤ (b₁ + b₂) * (n₁ + n₂) := by
    refine hle.trans ?_
    rw [← Real.sq_sqrt (hsq _)]
    refine (pow_le_pow_left₀ (Real.sqrt_nonneg _) (ht.trans (add_le_add hs₁ hs₂)) 2).trans ?_
    have a₁ := Real.sq_sqrt hb₁
    have a₂ := Real.sq_sqrt hb₂
    have a₃ := Real.sq_sqrt hn₁
    have a₄ := Real.sq_sqrt hn₂
    rw [← a₁, ← a₂, ← a₃, ← a₄]
    simp only [Real.sqrt_sq (Real.sqrt_nonneg _)]
    nlinarith [sq_nonneg (√b₁ * √n₂ - √b₂ * √n₁)]
  exact le_of_mul_le_mul_right hfin hpos

theorem joint_values {m m₁ m₂ r r₁ r₂ : Nat} (e : Fin m₁ ⊕ Fin m₂ ≃ Fin m) {sqL : E → ℝ} {data : Fin m → E} {modes : Fin r → E}
    {modes₁ : Fin r₁ → E} {modes₂ : Fin r₂ → E} {coeffs : Matrix (Fin r) (Fin m) 𝕜} {coeffs₁ : Matrix (Fin r₁) (Fin m₁) 𝕜}
    {coeffs₂ : Matrix (Fin r₂) (Fin m₂) 𝕜} {S : Fin r → ℝ} {S₁ : Fin r₁ → ℝ} {S₂ : Fin r₂ → ℝ}
    (tri : ∀ u v, √(sqL (u + v)) ≤ √(sqL u) + √(sqL v)) (hsq : ∀ v, 0 ≤ sqL v) (hbest : BestInWorstCase sqL data modes coeffs S)
    {data₁ : Fin m₁ → E} {data₂ : Fin m₂ → E} (hd₁ : ∀ j, data₁ j = data (e (.inl j))) (hd₂ : ∀ j, data₂ j = data (e (.inr j)))
    (h₁ : BestInWorstCase sqL data₁ modes₁ coeffs₁ S₁) (h₂ : BestInWorstCase sqL data₂ modes₂ coeffs₂ S₂) (hS₁ : ∀ i, 0 ≤ S₁ i)
    (hS₂ : ∀ i, 0 ≤ S₂ i) {b₁ b₂ : ℝ} (hb₁ : 0 ≤ b₁) (hb₂ : 0 ≤ b₂) (ht₁ : WithinTolerance sqL data₁ modes₁ coeffs₁ b₁)
    (ht₂ : WithinTolerance sqL data₂ modes₂ coeffs₂ b₂) : JointValues S S₁ S₂ b₁ b₂ := by
  obtain rfl : data₁ = fun j => data (e (.inl j)) := funext hd₁
  obtain rfl : data₂ = fun j => data (e (.inr j)) := funext hd₂
  exact ⟨fun k k₁ k₂ hk => joint_value e tri hsq hbest _ _ _ _ (hS₁ _) (hS₂ _) (h₁.error k₁) (h₂.error k₂) k hk,
    fun k k₂ hk => joint_value e tri hsq hbest _ _ _ _ hb₁ (hS₂ _) ht₁ (h₂.error k₂) k hk,
    fun k k₁ hk => joint_value e tri hsq hbest _ _ _ _ (hS₁ _) hb₂ (h₁.error k₁) ht₂ k hk,
    fun k hk => joint_value e tri hsq hbest _ _ _ _ hb₁ hb₂ ht₁ ht₂ k hk⟩

/-- Eigenvalues of the direct method are squares. -/
theorem direct_nonneg {n m : Nat} (lib : PodLib 𝕜 n m) (X : Matrix (Fin n) (Fin m) 𝕜) (idx : Option (List Int)) (ws : DirectWeights 𝕜)
    (atol rtol : Option ℝ) (hfit : ws.Fits n) (hchol : ∀ p q w, ws = .d2 p q w → IsCholesky lib.cholesky (ws.matrix n))
    (res : PodResult 𝕜 n m) (hres : podDirect lib X idx ws atol rtol = .ok res) (i : Fin res.r) : 0 ≤ res.eigvals i := by
  obtain ⟨G, H, -, -, h3⟩ := podDirect_cases lib X idx ws atol rtol hfit hchol
  obtain ⟨s, c, -, -, rfl⟩ := h3 res hres
  dsimp only
  rw [Real.rpow_two]
  exact sq_nonneg _

section Arrays

variable {n m m₁ m₂ : Nat} (e : Fin m₁ ⊕ Fin m₂ ≃ Fin m) (lib : PodLib 𝕜 n m) (lib₁ : PodLib 𝕜 n m₁) (lib₂ : PodLib 𝕜 n m₂)
  (X : Matrix (Fin n) (Fin m) 𝕜) (X₁ : Matrix (Fin n) (Fin m₁) 𝕜) (X₂ : Matrix (Fin n) (Fin m₂) 𝕜) (idx idx₁ idx₂ : Option (List Int))

/-- **C123**, method of snapshots. -/
theorem C123_snaps (weights : Option (NdArray 𝕜)) (ws : Weights 𝕜) (rtol rtol₁ rtol₂ : Option ℝ) (t t₁ t₂ : ℝ)
    (ht : 0 ≤ t) (ht₁ : 0 ≤ t₁) (ht₂ : 0 ≤ t₂) (hr : ∀ t ∈ rtol, 0 ≤ t) (hr₁ : ∀ t ∈ rtol₁, 0 ≤ t) (hr₂ : ∀ t ∈ rtol₂, 0 ≤ t)
    (hs : IsArgsort lib.argsort) (hs₁ : IsArgsort lib₁.argsort) (hs₂ : IsArgsort lib₂.argsort) (hws : arraysInit weights = .ok ws)
    (hfit : ws.Fits n) (hW : (ws.matrix n).PosSemidef)
    (hlib : IsEigh (Xᴴ * ws.matrix n * X) (lib.eigh (Xᴴ * ws.matrix n * X)))
    (hlib₁ : IsEigh (X₁ᴴ * ws.matrix n * X₁) (lib₁.eigh (X₁ᴴ * ws.matrix n * X₁)))
    (hlib₂ : IsEigh (X₂ᴴ * ws.matrix n * X₂) (lib₂.eigh (X₂ᴴ * ws.matrix n * X₂)))
    (hX₁ : ∀ i j, X₁ i j = X i (e (.inl j))) (hX₂ : ∀ i j, X₂ i j = X i (e (.inr j)))
    (res : PodResult 𝕜 n m) (res₁ : PodResult 𝕜 n m₁) (res₂ : PodResult 𝕜 n m₂) (corr : Matrix (Fin m) (Fin m) 𝕜)
    (corr₁ : Matrix (Fin m₁) (Fin m₁) 𝕜) (corr₂ : Matrix (Fin m₂) (Fin m₂) 𝕜)
    (hres : podSnaps lib X idx weights (some t) rtol = .ok (res, corr))
    (hres₁ : podSnaps lib₁ X₁ idx₁ weights (some t₁) rtol₁ = .ok (res₁, corr₁))
    (hres₂ : podSnaps lib₂ X₂ idx₂ weights (some t₂) rtol₂ = .ok (res₂, corr₂)) {b₁ b₂ : ℝ}
    (hb₁ : ToleranceBound (lib₁.eigh (X₁ᴴ * ws.matrix n * X₁)).w (some t₁) rtol₁ b₁)
    (hb₂ : ToleranceBound (lib₂.eigh (X₂ᴴ * ws.matrix n * X₂)).w (some t₂) rtol₂ b₂) :
    JointValues res.eigvals res₁.eigvals res₂.eigvals b₁ b₂ := by
  obtain ⟨M, -, h, -⟩ := C81_snaps lib X idx weights ws rtol t ht hr hs hws hfit hW hlib res corr hres
  obtain ⟨M₁, -, h₁, h₁'⟩ := C81_snaps lib₁ X₁ idx₁ weights ws rtol₁ t₁ ht₁ hr₁ hs₁ hws hfit hW hlib₁ res₁ corr₁ hres₁
  obtain ⟨M₂, -, h₂, h₂'⟩ := C81_snaps lib₂ X₂ idx₂ weights ws rtol₂ t₂ ht₂ hr₂ hs₂ hws hfit hW hlib₂ res₂ corr₂ hres₂
  exact joint_values e (weighted_tri hW) (fun v => weightedIp_nonneg hW v) h (fun j => funext fun i => hX₁ i j)
    (fun j => funext fun i => hX₂ i j) h₁ h₂
    (fun i => ht₁.trans (snaps_above lib₁ X₁ idx₁ weights ws rtol₁ t₁ ht₁ hr₁ hs₁ hws hfit res₁ corr₁ hres₁ i).le)
    (fun i => ht₂.trans (snaps_above lib₂ X₂ idx₂ weights ws rtol₂ t₂ ht₂ hr₂ hs₂ hws hfit res₂ corr₂ hres₂ i).le)
    hb₁.nonneg hb₂.nonneg (h₁' b₁ hb₁) (h₂' b₂ hb₂)

/-- **C123**, direct method. -/
theorem C123_direct (ws : DirectWeights 𝕜) (atol rtol atol₁ rtol₁ atol₂ rtol₂ : Option ℝ) (hr : ∀ t ∈ rtol, 0 ≤ t)
    (hr₁ : ∀ t ∈ rtol₁, 0 ≤ t) (hr₂ : ∀ t ∈ rtol₂, 0 ≤ t) (hfit : ws.Fits n)
    (hchol : ∀ p q w, ws = .d2 p q w → IsCholesky lib.cholesky (ws.matrix n))
    (hchol₁ : ∀ p q w, ws = .d2 p q w → IsCholesky lib₁.cholesky (ws.matrix n))
    (hchol₂ : ∀ p q w, ws = .d2 p q w → IsCholesky lib₂.cholesky (ws.matrix n)) (hlib : ∀ a, IsSvd a (lib.svd a))
    (hlib₁ : ∀ a, IsSvd a (lib₁.svd a)) (hlib₂ : ∀ a, IsSvd a (lib₂.svd a))
    (hX₁ : ∀ i j, X₁ i j = X i (e (.inl j))) (hX₂ : ∀ i j, X₂ i j = X i (e (.inr j)))
    (res : PodResult 𝕜 n m) (res₁ : PodResult 𝕜 n m₁) (res₂ : PodResult 𝕜 n m₂)
    (hres : podDirect lib X idx ws atol rtol = .ok res) (hres₁ : podDirect lib₁ X₁ idx₁ ws atol₁ rtol₁ = .ok res₁)
    (hres₂ : podDirect lib₂ X₂ idx₂ ws atol₂ rtol₂ = .ok res₂) :
    ∃ G₁ G₂ : Matrix (Fin n) (Fin n) 𝕜, G₁ᴴ * G₁ = ws.matrix n ∧ G₂ᴴ * G₂ = ws.matrix n ∧
      ∀ b₁ b₂, ToleranceBound (lib₁.svd (G₁ * X₁)).S atol₁ rtol₁ b₁ → ToleranceBound (lib₂.svd (G₂ * X₂)).S atol₂ rtol₂ b₂ →
        JointValues res.eigvals res₁.eigvals res₂.eigvals (b₁ ^ 2) (b₂ ^ 2) := by
  obtain ⟨M, G, -, h, -, -⟩ := C81_direct lib X idx ws atol rtol hr hfit hchol hlib res hres
  obtain ⟨M₁, G₁, -, h₁, hG₁, h₁'⟩ := C81_direct lib₁ X₁ idx₁ ws atol₁ rtol₁ hr₁ hfit hchol₁ hlib₁ res₁ hres₁
  obtain ⟨M₂, G₂, -, h₂, hG₂, h₂'⟩ := C81_direct lib₂ X₂ idx₂ ws atol₂ rtol₂ hr₂ hfit hchol₂ hlib₂ res₂ hres₂
  have hW : (ws.matrix n).PosSemidef := by
    rw [← hG₁]
    exact posSemidef_conjTranspose_mul_self _
  exact ⟨G₁, G₂, hG₁, hG₂, fun b₁ b₂ hb₁ hb₂ => joint_values e (weighted_tri hW) (fun v => weightedIp_nonneg hW v) h
    (fun j => funext fun i => hX₁ i j) (fun j => funext fun i => hX₂ i j) h₁ h₂
    (direct_nonneg lib₁ X₁ idx₁ ws atol₁ rtol₁ hfit hchol₁ res₁ hres₁)
    (direct_nonneg lib₂ X₂ idx₂ ws atol₂ rtol₂ hfit hchol₂ res₂ hres₂) (sq_nonneg _) (sq_nonneg _) (h₁' b₁ hb₁) (h₂' b₂ hb₂)⟩

end Arrays

/-- **C123** for `PODHandles`. -/
theorem C123_handles {m m₁ m₂ : Nat} (e : Fin m₁ ⊕ Fin m₂ ≃ Fin m) (eigh : Matrix (Fin m) (Fin m) 𝕜 → EighOut 𝕜 m)
    (eigh₁ : Matrix (Fin m₁) (Fin m₁) 𝕜 → EighOut 𝕜 m₁) (eigh₂ : Matrix (Fin m₂) (Fin m₂) 𝕜 → EighOut 𝕜 m₂)
    (argsort : (Fin m → ℝ) → Equiv.Perm (Fin m)) (argsort₁ : (Fin m₁ → ℝ) → Equiv.Perm (Fin m₁))
    (argsort₂ : (Fin m₂ → ℝ) → Equiv.Perm (Fin m₂)) (ip : E →ₗ⋆[𝕜] E →ₗ[𝕜] 𝕜) (vecs : Fin m → E) (rtol rtol₁ rtol₂ : Option ℝ)
    (t t₁ t₂ : ℝ) (ht : 0 ≤ t) (ht₁ : 0 ≤ t₁) (ht₂ : 0 ≤ t₂) (hr : ∀ t ∈ rtol, 0 ≤ t) (hr₁ : ∀ t ∈ rtol₁, 0 ≤ t)
    (hr₂ : ∀ t ∈ rtol₂, 0 ≤ t) (hs : IsArgsort argsort) (hs₁ : IsArgsort argsort₁) (hs₂ : IsArgsort argsort₂)
    (hsymm : ∀ x y, ip y x = star (ip x y)) (hnn : ∀ x, 0 ≤ RCLike.re (ip x x)) (vecs₁ : Fin m₁ → E) (vecs₂ : Fin m₂ → E)
    (h₁ : ∀ j, vecs₁ j = vecs (e (.inl j))) (h₂ : ∀ j, vecs₂ j = vecs (e (.inr j)))
    (hlib : IsEigh (gram ip vecs vecs) (eigh (gram ip vecs vecs)))
    (hlib₁ : IsEigh (gram ip vecs₁ vecs₁) (eigh₁ (gram ip vecs₁ vecs₁)))
    (hlib₂ : IsEigh (gram ip vecs₂ vecs₂) (eigh₂ (gram ip vecs₂ vecs₂)))
    (pod : PodHandles 𝕜 E m) (pod₁ : PodHandles 𝕜 E m₁) (pod₂ : PodHandles 𝕜 E m₂)
    (hpod : podHandlesDecomp eigh argsort (fun x y => ip x y) vecs (some t) rtol = .ok pod)
    (hpod₁ : podHandlesDecomp eigh₁ argsort₁ (fun x y => ip x y) vecs₁ (some t₁) rtol₁ = .ok pod₁)
    (hpod₂ : podHandlesDecomp eigh₂ argsort₂ (fun x y => ip x y) vecs₂ (some t₂) rtol₂ = .ok pod₂) {b₁ b₂ : ℝ}
    (hb₁ : ToleranceBound (eigh₁ (gram ip vecs₁ vecs₁)).w (some t₁) rtol₁ b₁)
    (hb₂ : ToleranceBound (eigh₂ (gram ip vecs₂ vecs₂)).w (some t₂) rtol₂ b₂) :
    JointValues pod.eigvals pod₁.eigvals pod₂.eigvals b₁ b₂ := by
  obtain ⟨M, -, g, -⟩ := C81_handles eigh argsort ip vecs rtol t ht hr hs hsymm hnn hlib pod hpod
  obtain ⟨M₁, -, g₁, g₁'⟩ := C81_handles eigh₁ argsort₁ ip vecs₁ rtol₁ t₁ ht₁ hr₁ hs₁ hsymm hnn hlib₁ pod₁ hpod₁
  obtain ⟨M₂, -, g₂, g₂'⟩ := C81_handles eigh₂ argsort₂ ip vecs₂ rtol₂ t₂ ht₂ hr₂ hs₂ hsymm hnn hlib₂ pod₂ hpod₂
  exact joint_values e (length_add ip hsymm hnn) hnn g h₁ h₂ g₁ g₂
    (fun i => ht₁.trans (handles_above eigh₁ argsort₁ ip vecs₁ rtol₁ t₁ ht₁ hr₁ hs₁ pod₁ hpod₁ i).le)
    (fun i => ht₂.trans (handles_above eigh₂ argsort₂ ip vecs₂ rtol₂ t₂ ht₂ hr₂ hs₂ pod₂ hpod₂ i).le)
    hb₁.nonneg hb₂.nonneg (g₁' b₁ hb₁) (g₂' b₂ hb₂)

/-- Singular values of arrays whose columns are in two parts. -/
theorem svd_joint {n m m₁ m₂ : Nat} (e : Fin m₁ ⊕ Fin m₂ ≃ Fin m) {svd : Matrix (Fin n) (Fin m) 𝕜 → SvdOut 𝕜 n m}
    {svd₁ : Matrix (Fin n) (Fin m₁) 𝕜 → SvdOut 𝕜 n m₁} {svd₂ : Matrix (Fin n) (Fin m₂) 𝕜 → SvdOut 𝕜 n m₂} {H : Matrix (Fin n) (Fin m) 𝕜}
    {H₁ : Matrix (Fin n) (Fin m₁) 𝕜} {H₂ : Matrix (Fin n) (Fin m₂) 𝕜} (hlib : IsSvd H (svd H)) (hlib₁ : IsSvd H₁ (svd₁ H₁))
    (hlib₂ : IsSvd H₂ (svd₂ H₂)) (hH₁ : ∀ i j, H₁ i j = H i (e (.inl j))) (hH₂ : ∀ i j, H₂ i j = H i (e (.inr j))) {t t₁ t₂ : ℝ}
    (ht : 0 ≤ t) (ht₁ : 0 ≤ t₁) (ht₂ : 0 ≤ t₂) (s : Svd 𝕜 n m) (s₁ : Svd 𝕜 n m₁) (s₂ : Svd 𝕜 n m₂)
    (hs : utilSvd svd H (some t) none = .ok s) (hs₁ : utilSvd svd₁ H₁ (some t₁) none = .ok s₁)
    (hs₂ : utilSvd svd₂ H₂ (some t₂) none = .ok s₂) :
    JointValues (fun i => s.S i ^ 2) (fun i => s₁.S i ^ 2) (fun i => s₂.S i ^ 2) (t₁ ^ 2) (t₂ ^ 2) := by
  have hS := utilSvd_positive svd _ none t (by simp) hlib s hs
  have hS₁ := utilSvd_positive svd₁ _ none t₁ (by simp) hlib₁ s₁ hs₁
  have hS₂ := utilSvd_positive svd₂ _ none t₂ (by simp) hlib₂ s₂ hs₂
  obtain ⟨⟨h, -⟩, -⟩ := utilSvd_worst hlib (by simp) s hs fun i => ht.trans_lt (hS i)
  obtain ⟨⟨h₁, h₁'⟩, -⟩ := utilSvd_worst hlib₁ (by simp) s₁ hs₁ fun i => ht₁.trans_lt (hS₁ i)
  obtain ⟨⟨h₂, h₂'⟩, -⟩ := utilSvd_worst hlib₂ (by simp) s₂ hs₂ fun i => ht₂.trans_lt (hS₂ i)
  exact joint_values e plain_tri (fun v => Finset.sum_nonneg fun _ _ => sq_nonneg _) h (fun j => funext fun i => hH₁ i j)
    (fun j => funext fun i => hH₂ i j) h₁ h₂ (fun i => sq_nonneg _) (fun i => sq_nonneg _) (sq_nonneg _) (sq_nonneg _)
    (h₁' t₁ ⟨ht₁, by simp, by simp⟩) (h₂' t₂ ⟨ht₂, by simp, by simp⟩)

/-- **C123** for balanced POD of arrays: direct vectors in two parts, for instance those of different inputs. -/
theorem C123_bpod_arrays {n md md₁ md₂ ma : Nat} (e : Fin md₁ ⊕ Fin md₂ ≃ Fin md) (svd : Matrix (Fin ma) (Fin md) 𝕜 → SvdOut 𝕜 ma md)
    (svd₁ : Matrix (Fin ma) (Fin md₁) 𝕜 → SvdOut 𝕜 ma md₁) (svd₂ : Matrix (Fin ma) (Fin md₂) 𝕜 → SvdOut 𝕜 ma md₂)
    (X : Matrix (Fin n) (Fin md) 𝕜) (X₁ : Matrix (Fin n) (Fin md₁) 𝕜) (X₂ : Matrix (Fin n) (Fin md₂) 𝕜) (Y : Matrix (Fin n) (Fin ma) 𝕜)
    (p p₁ p₂ q : Nat) (idxD idxA idxD₁ idxA₁ idxD₂ idxA₂ : Option (List Int)) (weights : Option (NdArray 𝕜)) (ws : Weights 𝕜)
    (t t₁ t₂ : ℝ) (ht : 0 ≤ t) (ht₁ : 0 ≤ t₁) (ht₂ : 0 ≤ t₂) (hws : arraysInit weights = .ok ws) (hfit : ws.Fits n)
    (hlib : ∀ a, IsSvd a (svd a)) (hlib₁ : ∀ a, IsSvd a (svd₁ a)) (hlib₂ : ∀ a, IsSvd a (svd₂ a)) (res : BpodResult 𝕜 n md ma)
    (res₁ : BpodResult 𝕜 n md₁ ma) (res₂ : BpodResult 𝕜 n md₂ ma)
    (hres : bpodArrays svd X Y p q idxD idxA weights (some t) none = .ok res)
    (hres₁ : bpodArrays svd₁ X₁ Y p₁ q idxD₁ idxA₁ weights (some t₁) none = .ok res₁)
    (hres₂ : bpodArrays svd₂ X₂ Y p₂ q idxD₂ idxA₂ weights (some t₂) none = .ok res₂)
    (hH₁ : ∀ i j, res₁.hankel i j = res.hankel i (e (.inl j))) (hH₂ : ∀ i j, res₂.hankel i j = res.hankel i (e (.inr j))) :
    JointValues (fun i => res.singVals i ^ 2) (fun i => res₁.singVals i ^ 2) (fun i => res₂.singVals i ^ 2) (t₁ ^ 2) (t₂ ^ 2) := by
  obtain ⟨rows, s, dm, am, -, -, hs, -, -, rfl⟩ := bpodArrays_cases svd X Y p q idxD idxA weights ws _ _ hws hfit res hres
  obtain ⟨rows₁, s₁, dm₁, am₁, -, -, hs₁, -, -, rfl⟩ := bpodArrays_cases svd₁ X₁ Y p₁ q idxD₁ idxA₁ weights ws _ _ hws hfit res₁ hres₁
  obtain ⟨rows₂, s₂, dm₂, am₂, -, -, hs₂, -, -, rfl⟩ := bpodArrays_cases svd₂ X₂ Y p₂ q idxD₂ idxA₂ weights ws _ _ hws hfit res₂ hres₂
  exact svd_joint e (hlib _) (hlib₁ _) (hlib₂ _) hH₁ hH₂ ht ht₁ ht₂ s s₁ s₂ hs hs₁ hs₂

/-! ### Examples -/

/-- Balanced POD of direct vectors 1 and 2, of two inputs, and of each of them. -/
example : ∃ (svd : Matrix (Fin 1) (Fin 2) ℝ → SvdOut ℝ 1 2) (svd₁ : Matrix (Fin 1) (Fin 1) ℝ → SvdOut ℝ 1 1) (res : BpodResult ℝ 1 2 1)
    (res₁ res₂ : BpodResult ℝ 1 1 1),
    bpodArrays svd !![1, 2] !![1] 2 1 none none none (some (1 / 10)) none = .ok res ∧
    bpodArrays svd₁ !![1] !![1] 1 1 none none none (some (1 / 10)) none = .ok res₁ ∧
    bpodArrays svd₁ !![2] !![1] 1 1 none none none (some (1 / 10)) none = .ok res₂ ∧
    JointValues (fun i => res.singVals i ^ 2) (fun i => res₁.singVals i ^ 2) (fun i => res₂.singVals i ^ 2) ((1 / 10) ^ 2) ((1 / 10) ^ 2) := by
  choose svd hsvd using fun a : Matrix (Fin 1) (Fin 2) ℝ => exists_isSvd a
  choose svd₁ hsvd₁ using fun a : Matrix (Fin 1) (Fin 1) ℝ => exists_isSvd a
  obtain ⟨res, hres⟩ := C25_no_error svd !![1, 2] !![1] 2 1 none .none (some (1 / 10)) none
    (by decide) (by decide) (by decide) (by decide) (by decide) (by decide) rfl trivial
  obtain ⟨res₁, hres₁⟩ := C25_no_error svd₁ !![1] !![1] 1 1 none .none (some (1 / 10)) none
    (by decide) (by decide) (by decide) (by decide) (by decide) (by decide) rfl trivial
  obtain ⟨res₂, hres₂⟩ := C25_no_error svd₁ !![2] !![1] 1 1 none .none (some (1 / 10)) none
    (by decide) (by decide) (by decide) (by decide) (by decide) (by decide) rfl trivial
  have e := (C25_arrays svd !![1, 2] !![1] 2 1 none none none .none _ _ (by decide) (by decide) rfl trivial 1 1 !![1, 2] !![1] (by simp)
    (fun i j => by fin_cases i; fin_cases j <;> simp) (fun i j => by fin_cases i; fin_cases j; simp) res hres).1
  have e₁ := (C25_arrays svd₁ !![1] !![1] 1 1 none none none .none _ _ (by decide) (by decide) rfl trivial 1 1 !![1] !![1] (by simp)
    (fun i j => by fin_cases i; fin_cases j; simp) (fun i j => by fin_cases i; fin_cases j; simp) res₁ hres₁).1
  have e₂ := (C25_arrays svd₁ !![2] !![1] 1 1 none none none .none _ _ (by decide) (by decide) rfl trivial 1 1 !![2] !![1] (by simp)
    (fun i j => by fin_cases i; fin_cases j; simp) (fun i j => by fin_cases i; fin_cases j; simp) res₂ hres₂).1
  refine ⟨svd, svd₁, res, res₁, res₂, hres, hres₁, hres₂, C123_bpod_arrays (finSumFinEquiv (m := 1) (n := 1)) svd svd₁ svd₁ _ _ _ _ _ _ _ _
    _ _ _ _ _ _ _ .none _ _ _ (by norm_num) (by norm_num) (by norm_num) rfl trivial hsvd hsvd₁ hsvd₁ res res₁ res₂ hres hres₁ hres₂ ?_ ?_⟩
  · intro i j
    fin_cases j
    rw [e, e₁]
    simp [Matrix.mul_apply, finSumFinEquiv]
  · intro i j
    fin_cases j
    rw [e, e₂]
    simp [Matrix.mul_apply, finSumFinEquiv]


/-- Three vectors, of which the first two and the last are the parts, with both methods for arrays. -/
example : ∃ (lib : PodLib ℝ 2 3) (lib₁ : PodLib ℝ 2 2) (lib₂ : PodLib ℝ 2 1) (res : PodResult ℝ 2 3) (res₁ : PodResult ℝ 2 2)
    (res₂ : PodResult ℝ 2 1), podDirect lib exampleData none .none (some (1 / 10)) none = .ok res ∧
    podDirect lib₁ (exampleData.submatrix id ![0, 1]) none .none (some (1 / 10)) none = .ok res₁ ∧
    podDirect lib₂ (exampleData.submatrix id ![2]) none .none (some (1 / 10)) none = .ok res₂ ∧
    JointValues res.eigvals res₁.eigvals res₂.eigvals ((1 / 10) ^ 2) ((1 / 10) ^ 2) := by
  obtain ⟨lib, hsvd, -, -, -⟩ := exists_podLib (𝕜 := ℝ) 2 3
  obtain ⟨lib₁, hsvd₁, -, -, -⟩ := exists_podLib (𝕜 := ℝ) 2 2
  obtain ⟨lib₂, hsvd₂, -, -, -⟩ := exists_podLib (𝕜 := ℝ) 2 1
  have hfit : (DirectWeights.none : DirectWeights ℝ).Fits 2 := trivial
  obtain ⟨res, hres⟩ := C22_direct_no_error lib exampleData .none (some (1 / 10)) none hfit (by simp) (Or.inl rfl)
  obtain ⟨res₁, hres₁⟩ := C22_direct_no_error lib₁ (exampleData.submatrix id ![0, 1]) .none (some (1 / 10)) none hfit (by simp) (Or.inl rfl)
  obtain ⟨res₂, hres₂⟩ := C22_direct_no_error lib₂ (exampleData.submatrix id ![2]) .none (some (1 / 10)) none hfit (by simp) (Or.inl rfl)
  obtain ⟨G₁, G₂, -, -, h⟩ := C123_direct (finSumFinEquiv (m := 2) (n := 1)) lib lib₁ lib₂ exampleData _ _ none none none .none _ _ _ _ _ _ (by simp)
    (by simp) (by simp) hfit (by simp) (by simp) (by simp) hsvd hsvd₁ hsvd₂ (by
      intro i j
      fin_cases j <;> rfl) (by
      intro i j
      fin_cases j
      rfl) res res₁ res₂ hres hres₁ hres₂
  exact ⟨lib, lib₁, lib₂, res, res₁, res₂, hres, hres₁, hres₂, h _ _ ⟨by norm_num, by simp, by simp⟩ ⟨by norm_num, by simp, by simp⟩⟩

example : ∃ (lib : PodLib ℝ 2 3) (lib₁ : PodLib ℝ 2 2) (lib₂ : PodLib ℝ 2 1) (res : PodResult ℝ 2 3) (res₁ : PodResult ℝ 2 2)
    (res₂ : PodResult ℝ 2 1) (corr : Matrix (Fin 3) (Fin 3) ℝ) (corr₁ : Matrix (Fin 2) (Fin 2) ℝ) (corr₂ : Matrix (Fin 1) (Fin 1) ℝ),
    podSnaps lib exampleData none none (some (1 / 10)) none = .ok (res, corr) ∧
    podSnaps lib₁ (exampleData.submatrix id ![0, 1]) none none (some (1 / 10)) none = .ok (res₁, corr₁) ∧
    podSnaps lib₂ (exampleData.submatrix id ![2]) none none (some (1 / 10)) none = .ok (res₂, corr₂) ∧
    JointValues res.eigvals res₁.eigvals res₂.eigvals (1 / 10) (1 / 10) := by
  obtain ⟨lib, -, heigh, hs, -⟩ := exists_podLib (𝕜 := ℝ) 2 3
  obtain ⟨lib₁, -, heigh₁, hs₁, -⟩ := exists_podLib (𝕜 := ℝ) 2 2
  obtain ⟨lib₂, -, heigh₂, hs₂, -⟩ := exists_podLib (𝕜 := ℝ) 2 1
  obtain ⟨res, corr, hres⟩ := snaps_runs lib exampleData (1 / 10) (by norm_num)
  obtain ⟨res₁, corr₁, hres₁⟩ := snaps_runs lib₁ (exampleData.submatrix id ![0, 1]) (1 / 10) (by norm_num)
  obtain ⟨res₂, corr₂, hres₂⟩ := snaps_runs lib₂ (exampleData.submatrix id ![2]) (1 / 10) (by norm_num)
  have hW : (Weights.matrix 2 (Weights.none : Weights ℝ)).PosSemidef := by
    rw [show Weights.matrix 2 (Weights.none : Weights ℝ) = 1 from rfl]
    exact Matrix.PosSemidef.one
  exact ⟨lib, lib₁, lib₂, res, res₁, res₂, corr, corr₁, corr₂, hres, hres₁, hres₂, C123_snaps (finSumFinEquiv (m := 2) (n := 1)) lib lib₁ lib₂
    exampleData _ _ none none none none .none none none none _ _ _ (by norm_num) (by norm_num) (by norm_num) (by simp) (by simp) (by simp) hs hs₁
    hs₂ rfl trivial hW (heigh _ (hW.conjTranspose_mul_mul_same _).isHermitian) (heigh₁ _ (hW.conjTranspose_mul_mul_same _).isHermitian)
    (heigh₂ _ (hW.conjTranspose_mul_mul_same _).isHermitian) (by
      intro i j
      fin_cases j <;> rfl) (by
      intro i j
      fin_cases j
      rfl) res res₁ res₂ corr corr₁ corr₂ hres hres₁ hres₂ ⟨by norm_num, by simp, by simp⟩ ⟨by norm_num, by simp, by simp⟩⟩

/-- Handles of the numbers 3 and 4, of which each is a part. -/
example : ∃ (eigh : Matrix (Fin 2) (Fin 2) ℝ → EighOut ℝ 2) (eigh₁ : Matrix (Fin 1) (Fin 1) ℝ → EighOut ℝ 1) (pod : PodHandles ℝ ℝ 2)
    (pod₁ pod₂ : PodHandles ℝ ℝ 1),
    podHandlesDecomp eigh (fun x => Tuple.sort x) (fun x y => LinearMap.mul ℝ ℝ x y) ![3, 4] (some (1 / 10)) none = .ok pod ∧
    podHandlesDecomp eigh₁ (fun x => Tuple.sort x) (fun x y => LinearMap.mul ℝ ℝ x y) ![3] (some (1 / 10)) none = .ok pod₁ ∧
    podHandlesDecomp eigh₁ (fun x => Tuple.sort x) (fun x y => LinearMap.mul ℝ ℝ x y) ![4] (some (1 / 10)) none = .ok pod₂ ∧
    JointValues pod.eigvals pod₁.eigvals pod₂.eigvals (1 / 10) (1 / 10) := by
  obtain ⟨lib, -, heigh, -, -⟩ := exists_podLib (𝕜 := ℝ) 1 2
  obtain ⟨lib₁, -, heigh₁, -, -⟩ := exists_podLib (𝕜 := ℝ) 1 1
  let ip : ℝ →ₗ⋆[ℝ] ℝ →ₗ[ℝ] ℝ := LinearMap.mul ℝ ℝ
  have hrun : ∀ (m : Nat) (eigh : Matrix (Fin (m + 1)) (Fin (m + 1)) ℝ → EighOut ℝ (m + 1)) (v : Fin (m + 1) → ℝ), ∃ pod,
      podHandlesDecomp eigh (fun x => Tuple.sort x) (fun x y => ip x y) v (some (1 / 10)) none = .ok pod := by
    intro m eigh v
    obtain ⟨e, he⟩ := C20_no_error eigh (fun x => Tuple.sort x) (handlesSymmIp (fun x y => ip x y) v) none true (1 / 10) (by omega)
    refine ⟨⟨v, handlesSymmIp (fun x y => ip x y) v, e.r, e.w, e.V⟩, ?_⟩
    unfold podHandlesDecomp
    rw [if_neg (by omega)]
    dsimp only
    rw [he]
  obtain ⟨pod, hpod⟩ := hrun 1 lib.eigh ![3, 4]
  obtain ⟨pod₁, hpod₁⟩ := hrun 0 lib₁.eigh ![3]
  obtain ⟨pod₂, hpod₂⟩ := hrun 0 lib₁.eigh ![4]
  have hsymm : ∀ x y : ℝ, ip y x = star (ip x y) := fun x y => mul_comm y x
  have hnn : ∀ x : ℝ, 0 ≤ RCLike.re (ip x x) := fun x => mul_self_nonneg (x : ℝ)
  exact ⟨lib.eigh, lib₁.eigh, pod, pod₁, pod₂, hpod, hpod₁, hpod₂, C123_handles (finSumFinEquiv (m := 1) (n := 1)) lib.eigh lib₁.eigh lib₁.eigh _ _ _
    ip ![3, 4] none none none _ _ _ (by norm_num) (by norm_num) (by norm_num) (by simp) (by simp) (by simp) (sort_isArgsort 2) (sort_isArgsort 1)
    (sort_isArgsort 1) hsymm hnn ![3] ![4] (by
      intro j
      fin_cases j
      rfl) (by
      intro j
      fin_cases j
      rfl) (heigh _ (handlesIp_posSemidef ip hsymm hnn _).isHermitian) (heigh₁ _ (handlesIp_posSemidef ip hsymm hnn _).isHermitian)
    (heigh₁ _ (handlesIp_posSemidef ip hsymm hnn _).isHermitian) pod pod₁ pod₂ hpod hpod₁ hpod₂ ⟨by norm_num, by simp, by simp⟩
    ⟨by norm_num, by simp, by simp⟩⟩

end Modred
