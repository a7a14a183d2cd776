import Verif.Model.Systems
import Verif.Spec.Systems
import Verif.Props.EraModel
import Verif.Props.TlsqrLimits

/-!
# Balanced truncation (C42)
-/

namespace Modred

open Matrix
open scoped ComplexOrder

/-! ### Lemmas -/

/-- The left and right singular vectors of a positive semidefinite array that belong to positive singular values are
equal. -/
theorem singular_vectors_eq {n r : Nat} {P : Matrix (Fin n) (Fin n) ℝ} (hP : P.PosSemidef)
    {U V : Matrix (Fin n) (Fin r) ℝ} {S : Fin r → ℝ} (hS : ∀ i, 0 < S i)
    (h1 : P * V = U * diagonal S) (h2 : P * U = V * diagonal S) : U = V := by
  have key : ∀ i, (fun k => U k i - V k i) = 0 := by
    intro i
    set w : Fin n → ℝ := fun k => U k i - V k i with hw
    have h3 : P *ᵥ w = (-S i) • w := by
      ext k
      have e1 := congrFun (congrFun h1 k) i
      have e2 := congrFun (congrFun h2 k) i
      rw [mul_diagonal, mul_apply] at e1 e2
      simp only [mulVec, dotProduct, hw, mul_sub, Finset.sum_sub_distrib, e1, e2, Pi.smul_apply, smul_eq_mul]
      ring
    have h4 := hP.dotProduct_mulVec_nonneg w
    rw [h3, dotProduct_smul, smul_eq_mul] at h4
    have h5 : 0 ≤ star w ⬝ᵥ w := dotProduct_star_self_nonneg w
    have h6 : star w ⬝ᵥ w = 0 := by
      have := hS i
      nlinarith
    exact dotProduct_star_self_eq_zero.mp h6
  ext k i
  have := congrFun (key i) k
  simpa [sub_eq_zero] using this

theorem svdAtol_pos : (0 : ℝ) < svdAtol := by unfold svdAtol; norm_num

/-- The squares of the singular values add up to the sum of the squares of the entries. -/
theorem IsSvd.frobSq {m n : Nat} {a : Matrix (Fin m) (Fin n) ℝ} {o : SvdOut ℝ m n} (h : IsSvd a o) :
    (aᴴ * a).trace = ∑ i, o.S i ^ 2 := by
  have hp := h.product
  have hD : (diagonal fun i => ((o.S i : ℝ) : ℝ))ᴴ * (diagonal fun i => ((o.S i : ℝ) : ℝ)) = diagonal fun i => o.S i ^ 2 := by
    rw [diagonal_conjTranspose, diagonal_mul_diagonal]
    congr 1
    ext i
    simp [sq]
  change a = o.U * diagonal (fun i => ((o.S i : ℝ) : ℝ)) * o.Vh at hp
  generalize (diagonal fun i => ((o.S i : ℝ) : ℝ)) = D at hp hD
  rw [hp, conjTranspose_mul, conjTranspose_mul]
  rw [show o.Vhᴴ * (Dᴴ * o.Uᴴ) * (o.U * D * o.Vh) = o.Vhᴴ * (Dᴴ * (o.Uᴴ * o.U) * D * o.Vh) by simp only [Matrix.mul_assoc]]
  rw [trace_mul_comm, h.left, Matrix.mul_one, hD, Matrix.mul_assoc, h.right, Matrix.mul_one, trace_diagonal]

/-- A positive semidefinite array is the product of the factor that `balanced_truncation` computes with its transpose, if
no nonzero singular value is dropped. -/
theorem gramian_factor {n : Nat} (svd : Matrix (Fin n) (Fin n) ℝ → SvdOut ℝ n n) (P : Matrix (Fin n) (Fin n) ℝ)
    (hP : P.PosSemidef) (hlib : IsSvd P (svd P)) (hz : ∀ i, (svd P).S i ≠ 0 → svdAtol < (svd P).S i) (s : Svd ℝ n n)
    (hs : utilSvd svd P (some svdAtol) none = .ok s) :
    s.U * diagPow (𝕜 := ℝ) s.S 0.5 * (s.U * diagPow (𝕜 := ℝ) s.S 0.5)ᵀ = P := by
  obtain ⟨-, -, h1, h2⟩ := utilSvd_triples svd P _ _ hlib s hs
  have hpos : ∀ i, 0 < s.S i := fun i => svdAtol_pos.trans (utilSvd_positive svd P none svdAtol (by simp) hlib s hs i)
  have hex := C19_exact svd P _ _ hlib s hs fun i hi => by
    by_contra hne
    have := ((C19_kept_iff svd P _ _ hlib (by simp) s hs).2.1 i).mpr
      ⟨fun t ht => by cases ht; rw [abs_of_nonneg (hlib.nonneg i)]; exact hz i hne, by simp⟩
    omega
  have hUV : s.U = s.V := by
    rw [hP.1.eq] at h2
    refine singular_vectors_eq hP hpos ?_ ?_
    · rw [h1, diagPow_one]; rfl
    · rw [h2, diagPow_one]; rfl
  have hd : (diagPow (𝕜 := ℝ) s.S 0.5)ᵀ = diagPow (𝕜 := ℝ) s.S 0.5 := by
    rw [← conjTranspose_eq_transpose_of_trivial, diagPow_conjTranspose]
  rw [transpose_mul, hd, Matrix.mul_assoc s.U, ← Matrix.mul_assoc (diagPow (𝕜 := ℝ) s.S 0.5), diagPow_mul _ hpos]
  rw [show (0.5 + 0.5 : ℝ) = 1 by norm_num, diagPow_one, ← Matrix.mul_assoc]
  conv_rhs => rw [hex]
  rw [conjTranspose_eq_transpose_of_trivial, hUV]

/-- What balancing with a singular value decomposition of `Loᵀ Lc` gives. -/
theorem balance_core {n ro rc re : Nat} (Lo : Matrix (Fin n) (Fin ro) ℝ) (Lc : Matrix (Fin n) (Fin rc) ℝ)
    (U : Matrix (Fin ro) (Fin re) ℝ) (V : Matrix (Fin rc) (Fin re) ℝ) (E : Fin re → ℝ) (hE : ∀ i, 0 < E i)
    (hU : Uᵀ * U = 1) (hV : Vᵀ * V = 1) (h1 : Loᵀ * Lc * V = U * diagPow (𝕜 := ℝ) E 1)
    (h2 : (Loᵀ * Lc)ᵀ * U = V * diagPow (𝕜 := ℝ) E 1) (SL SR : Matrix (Fin n) (Fin re) ℝ)
    (hSL : SL = Lo * U * diagPow (𝕜 := ℝ) E (-0.5)) (hSR : SR = Lc * V * diagPow (𝕜 := ℝ) E (-0.5)) :
    SLᵀ * SR = 1 ∧ SLᵀ * (Lc * Lcᵀ) * SL = diagonal E ∧ SRᵀ * (Lo * Loᵀ) * SR = diagonal E ∧
    Lc * Lcᵀ * (Lo * Loᵀ) * SR = SR * diagonal (fun i => E i ^ 2) := by
  have ht : ∀ e, (diagPow (𝕜 := ℝ) E e)ᵀ = diagPow (𝕜 := ℝ) E e := fun e => by
    rw [← conjTranspose_eq_transpose_of_trivial, diagPow_conjTranspose]
  have e1 : Loᵀ * SR = U * diagPow (𝕜 := ℝ) E 0.5 := by
    rw [hSR, ← Matrix.mul_assoc, ← Matrix.mul_assoc, h1, Matrix.mul_assoc, diagPow_mul _ hE]
    norm_num
  have e2 : Lcᵀ * SL = V * diagPow (𝕜 := ℝ) E 0.5 := by
    rw [transpose_mul, transpose_transpose] at h2
    rw [hSL, ← Matrix.mul_assoc, ← Matrix.mul_assoc, h2, Matrix.mul_assoc, diagPow_mul _ hE]
    norm_num
  have half : ∀ {k : Nat} (W : Matrix (Fin k) (Fin re) ℝ), Wᵀ * W = 1 →
      (W * diagPow (𝕜 := ℝ) E 0.5)ᵀ * (W * diagPow (𝕜 := ℝ) E 0.5) = diagonal E := by
    intro k W hW
    rw [transpose_mul, ht, Matrix.mul_assoc, ← Matrix.mul_assoc Wᵀ, hW, Matrix.one_mul, diagPow_mul _ hE,
      show (0.5 + 0.5 : ℝ) = 1 by norm_num, diagPow_one]
    rfl
  refine ⟨?_, ?_, ?_, ?_⟩
  · rw [hSL, transpose_mul, transpose_mul, ht, Matrix.mul_assoc, Matrix.mul_assoc, e1, ← Matrix.mul_assoc Uᵀ, hU, Matrix.one_mul,
      diagPow_mul _ hE, show (-0.5 + 0.5 : ℝ) = 0 by norm_num, diagPow_zero]
  · rw [← half V hV, ← e2]
    simp only [transpose_mul, transpose_transpose, Matrix.mul_assoc]
  · rw [← half U hU, ← e1]
    simp only [transpose_mul, transpose_transpose, Matrix.mul_assoc]
  · rw [Matrix.mul_assoc, Matrix.mul_assoc Lo, e1, Matrix.mul_assoc, ← Matrix.mul_assoc Lo, ← Matrix.mul_assoc Lcᵀ,
      ← Matrix.mul_assoc Lcᵀ]
    rw [transpose_mul, transpose_transpose] at h2
    rw [h2, Matrix.mul_assoc, diagPow_mul _ hE, hSR, Matrix.mul_assoc, Matrix.mul_assoc]
    rw [show (diagonal fun i => E i ^ 2) = diagPow (𝕜 := ℝ) E 2 by
      unfold diagPow; congr 1; ext i; simp, diagPow_mul _ hE]
    norm_num

section C42

variable (lyapunov : ∀ {n : Nat}, Matrix (Fin n) (Fin n) ℝ → Matrix (Fin n) (Fin n) ℝ → Matrix (Fin n) (Fin n) ℝ)
  (svd : ∀ {m n : Nat}, Matrix (Fin m) (Fin n) ℝ → SvdOut ℝ m n) {n p q : Nat}
  (A : Matrix (Fin n) (Fin n) ℝ) (B : Matrix (Fin n) (Fin p) ℝ) (C : Matrix (Fin q) (Fin n) ℝ) (order : Option Nat)

/-- What the computation consists of. -/
theorem balancedTruncation_ok (res : Balanced ℝ) (h : balancedTruncation lyapunov svd A B C order = .ok res) :
    ∃ sc so, utilSvd svd (lyapunov A (B * Bᴴ)) (some svdAtol) none = .ok sc ∧
      utilSvd svd (lyapunov Aᴴ (Cᴴ * C)) (some svdAtol) none = .ok so ∧
      ∃ s, utilSvd svd ((so.U * diagPow (𝕜 := ℝ) so.S 0.5)ᵀ * (sc.U * diagPow (𝕜 := ℝ) sc.S 0.5)) (some svdAtol) none = .ok s ∧
      ∃ SL SR : Matrix (Fin n) (Fin (min (order.getD s.r) s.r)) ℝ,
        SL = so.U * diagPow (𝕜 := ℝ) so.S 0.5 * firstCols s.U (order.getD s.r) *
          diagPow (𝕜 := ℝ) (firstEntries s.S (order.getD s.r)) (-0.5) ∧
        SR = sc.U * diagPow (𝕜 := ℝ) sc.S 0.5 * firstCols s.V (order.getD s.r) *
          diagPow (𝕜 := ℝ) (firstEntries s.S (order.getD s.r)) (-0.5) ∧
        res = ⟨⟨min (order.getD s.r) s.r, p, q, SLᵀ * A * SR, SLᵀ * B, C * SR⟩, s.r, s.S⟩ := by
  unfold balancedTruncation at h
  dsimp only at h
  split at h
  · cases h
  rename_i sc hsc
  split at h
  · cases h
  rename_i so hso
  split at h
  · cases h
  rename_i s hs
  cases h
  exact ⟨sc, so, hsc, hso, s, hs, _, _, rfl, rfl, rfl⟩

variable (hlib : ∀ {m n : Nat} (a : Matrix (Fin m) (Fin n) ℝ), IsSvd a (svd a))
include hlib

/-- The common core of the theorems below. -/
theorem balancedTruncation_spec (res : Balanced ℝ) (h : balancedTruncation lyapunov svd A B C order = .ok res) :
    ∃ (r : Nat) (hr : r = min (order.getD res.numSingVals) res.numSingVals) (T : Matrix (Fin r) (Fin n) ℝ)
      (T' : Matrix (Fin n) (Fin r) ℝ), T * T' = 1 ∧ res.model = ⟨r, p, q, T * A * T', T * B, C * T'⟩ ∧
      (∀ i, svdAtol < res.singVals i) ∧ Antitone res.singVals ∧
      ((lyapunov A (B * Bᴴ)).PosSemidef → (lyapunov Aᴴ (Cᴴ * C)).PosSemidef →
        (∀ i, (svd (lyapunov A (B * Bᴴ))).S i ≠ 0 → svdAtol < (svd (lyapunov A (B * Bᴴ))).S i) →
        (∀ i, (svd (lyapunov Aᴴ (Cᴴ * C))).S i ≠ 0 → svdAtol < (svd (lyapunov Aᴴ (Cᴴ * C))).S i) →
        T * lyapunov A (B * Bᴴ) * Tᵀ = diagonal (fun i => res.singVals (Fin.castLE (hr.le.trans (min_le_right _ _)) i)) ∧
        T'ᵀ * lyapunov Aᴴ (Cᴴ * C) * T' = diagonal (fun i => res.singVals (Fin.castLE (hr.le.trans (min_le_right _ _)) i)) ∧
        lyapunov A (B * Bᴴ) * lyapunov Aᴴ (Cᴴ * C) * T' =
          T' * diagonal (fun i => res.singVals (Fin.castLE (hr.le.trans (min_le_right _ _)) i) ^ 2)) := by
  obtain ⟨sc, so, hsc, hso, s, hs, SL, SR, hSL, hSR, rfl⟩ := balancedTruncation_ok lyapunov svd A B C order res h
  obtain ⟨h1, h2, h3, h4⟩ := utilSvd_triples svd _ _ _ (hlib _) s hs
  have hpos := utilSvd_positive svd _ none svdAtol (by simp) (hlib _) s hs
  obtain ⟨k1, k2, k3⟩ := firstCols_triples _ s.U s.S s.V (order.getD s.r) h2 h3 h4
  obtain ⟨k4, -, -⟩ := firstCols_triples _ s.V s.S s.U (order.getD s.r) h1 h4 (by rw [conjTranspose_conjTranspose]; exact h3)
  rw [conjTranspose_eq_transpose_of_trivial] at k1 k3 k4
  obtain ⟨c1, c2, c3, c4⟩ := balance_core _ _ _ _ _ (fun i => svdAtol_pos.trans (hpos _)) k4 k1 k2 k3 SL SR hSL hSR
  refine ⟨_, rfl, SLᵀ, SR, c1, rfl, hpos, (C19_singular_triples svd _ _ _ (hlib _) s hs).2.2.2.2.2, ?_⟩
  intro p1 p2 p3 p4
  rw [gramian_factor svd _ p1 (hlib _) p3 sc hsc] at c2 c4
  rw [gramian_factor svd _ p2 (hlib _) p4 so hso] at c3 c4
  rw [transpose_transpose]
  exact ⟨c2, c3, c4⟩

/-- **C42, structure.** For real systems and whatever the Lyapunov solver returns, the result is a projection of the
system: `T A T'`, `T B`, `C T'` with `T T' = 1`.  It has as many states as asked for, at most as many as there are
singular values; these are returned all, in order, and are larger than 1e-13. -/
theorem C42_projection (res : Balanced ℝ) (h : balancedTruncation lyapunov svd A B C order = .ok res) :
    (∃ (r : Nat) (T : Matrix (Fin r) (Fin n) ℝ) (T' : Matrix (Fin n) (Fin r) ℝ), T * T' = 1 ∧
      r = min (order.getD res.numSingVals) res.numSingVals ∧ res.model = ⟨r, p, q, T * A * T', T * B, C * T'⟩) ∧
    (∀ i, 1e-13 < res.singVals i) ∧ Antitone res.singVals := by
  obtain ⟨r, hr, T, T', h1, h2, h3, h4, -⟩ := balancedTruncation_spec lyapunov svd A B C order hlib res h
  exact ⟨⟨r, T, T', h1, hr, h2⟩, h3, h4⟩

/-- **C42, full order.** If the result has as many states as the system, the impulse response is unchanged, whatever the
Lyapunov solver returns. -/
theorem C42_full_order (Ar : Matrix (Fin n) (Fin n) ℝ) (Br : Matrix (Fin n) (Fin p) ℝ) (Cr : Matrix (Fin q) (Fin n) ℝ)
    (num : Nat) (singVals : Fin num → ℝ)
    (h : balancedTruncation lyapunov svd A B C order = .ok ⟨⟨n, p, q, Ar, Br, Cr⟩, num, singVals⟩) (k : Nat) :
    Cr * Ar ^ k * Br = C * A ^ k * B := by
  obtain ⟨r, hr, T, T', h1, h2, -⟩ := balancedTruncation_spec lyapunov svd A B C order hlib _ h
  cases h2
  exact markov_similar rfl T T' h1 A B C k

/-- **C42, balancing.** The solutions `Pc`, `Po` of the Lyapunov equations that the code sets up become diagonal and equal,
with the returned singular values, if they are positive semidefinite and their nonzero singular values are larger than
1e-13.  The squares of the singular values are eigenvalues of `Pc Po`, with eigenvectors `T'`.  The solutions are not
the Gramians of the discrete-time system, see `C42_violation`. -/
theorem C42_balances_partial (res : Balanced ℝ) (h : balancedTruncation lyapunov svd A B C order = .ok res)
    (Pc Po : Matrix (Fin n) (Fin n) ℝ) (hPc : Pc = lyapunov A (B * Bᴴ)) (hPo : Po = lyapunov Aᴴ (Cᴴ * C))
    (pc : Pc.PosSemidef) (po : Po.PosSemidef) (hc : ∀ i, (svd Pc).S i ≠ 0 → 1e-13 < (svd Pc).S i)
    (ho : ∀ i, (svd Po).S i ≠ 0 → 1e-13 < (svd Po).S i) :
    ∃ (r : Nat) (T : Matrix (Fin r) (Fin n) ℝ) (T' : Matrix (Fin n) (Fin r) ℝ) (σ : Fin r → ℝ), T * T' = 1 ∧
      res.model = ⟨r, p, q, T * A * T', T * B, C * T'⟩ ∧ (∀ i j, i.val = j.val → σ i = res.singVals j) ∧
      T * Pc * Tᵀ = diagonal σ ∧ T'ᵀ * Po * T' = diagonal σ ∧ Pc * Po * T' = T' * diagonal (fun i => σ i ^ 2) := by
  obtain ⟨r, hr, T, T', h1, h2, -, -, h3⟩ := balancedTruncation_spec lyapunov svd A B C order hlib res h
  subst hPc hPo
  obtain ⟨a1, a2, a3⟩ := h3 pc po hc ho
  refine ⟨r, T, T', _, h1, h2, fun i j hij => ?_, a1, a2, a3⟩
  congr 1
  ext
  exact hij

/-- The largest singular value is not small compared to the trace of the product of the solutions. -/
theorem balanced_trace (res : Balanced ℝ) (h : balancedTruncation lyapunov svd A B C order = .ok res)
    (pc : (lyapunov A (B * Bᴴ)).PosSemidef) (po : (lyapunov Aᴴ (Cᴴ * C)).PosSemidef)
    (hc : ∀ i, (svd (lyapunov A (B * Bᴴ))).S i ≠ 0 → svdAtol < (svd (lyapunov A (B * Bᴴ))).S i)
    (ho : ∀ i, (svd (lyapunov Aᴴ (Cᴴ * C))).S i ≠ 0 → svdAtol < (svd (lyapunov Aᴴ (Cᴴ * C))).S i) (t : ℝ)
    (ht : svdAtol ≤ t) (h0 : ∀ i : Fin res.numSingVals, i.val = 0 → res.singVals i ≤ t) :
    (lyapunov A (B * Bᴴ) * lyapunov Aᴴ (Cᴴ * C)).trace ≤ n * t ^ 2 := by
  obtain ⟨sc, so, hsc, hso, s, hs, SL, SR, hSL, hSR, rfl⟩ := balancedTruncation_ok lyapunov svd A B C order res h
  have f1 := gramian_factor svd _ pc (hlib _) hc sc hsc
  have f2 := gramian_factor svd _ po (hlib _) ho so hso
  have hle : sc.r ≤ n := (C19_kept_iff svd _ _ _ (hlib _) (by simp) sc hsc).1.trans (min_le_right _ _)
  obtain ⟨k1, k2, k3⟩ := C19_kept_iff svd _ _ _ (hlib _) (by simp) s hs
  generalize hLc : sc.U * diagPow (𝕜 := ℝ) sc.S 0.5 = Lc at *
  generalize hLo : so.U * diagPow (𝕜 := ℝ) so.S 0.5 = Lo at *
  rw [← f1, ← f2]
  rw [show (Lc * Lcᵀ * (Lo * Loᵀ)).trace = ((Loᵀ * Lc)ᴴ * (Loᵀ * Lc)).trace by
    rw [conjTranspose_eq_transpose_of_trivial, transpose_mul, transpose_transpose, Matrix.mul_assoc, trace_mul_comm]
    simp only [Matrix.mul_assoc]]
  rw [(hlib (Loᵀ * Lc)).frobSq]
  have hS : ∀ i, (svd (Loᵀ * Lc)).S i ≤ t := by
    intro i
    by_cases hr : 0 < s.r
    · have hi := i.isLt
      refine ((hlib (Loᵀ * Lc)).sorted (show ⟨0, by omega⟩ ≤ i from Nat.zero_le _)).trans ?_
      rw [← (k3 ⟨0, hr⟩ ⟨0, by omega⟩ rfl).1]
      exact h0 ⟨0, hr⟩ rfl
    · refine le_trans ?_ ht
      by_contra hlt
      push Not at hlt
      have := (k2 i).mpr ⟨fun t ht => by cases ht; rw [abs_of_nonneg ((hlib _).nonneg i)]; exact hlt, by simp⟩
      omega
  calc ∑ i, (svd (Loᵀ * Lc)).S i ^ 2 ≤ ∑ _i : Fin (min so.r sc.r), t ^ 2 :=
        Finset.sum_le_sum fun i _ => pow_le_pow_left₀ ((hlib _).nonneg i) (hS i) 2
    _ = (min so.r sc.r : ℕ) * t ^ 2 := by simp
    _ ≤ n * t ^ 2 := by
        refine mul_le_mul_of_nonneg_right ?_ (sq_nonneg t)
        exact_mod_cast (min_le_right _ _).trans hle

omit hlib in
/-- No exception is raised. -/
theorem C42_no_error : ∃ res, balancedTruncation lyapunov svd A B C order = .ok res := by
  have hok : ∀ {m n : Nat} (a : Matrix (Fin m) (Fin n) ℝ), ∃ s, utilSvd svd a (some svdAtol) none = .ok s := by
    intro m n a
    cases h : utilSvd svd a (some svdAtol) none with
    | ok s => exact ⟨s, rfl⟩
    | error e => exact absurd rfl ((C19_error_iff svd a _ _ e).mp h).2.1
  unfold balancedTruncation
  obtain ⟨sc, hsc⟩ := hok (lyapunov A (B * Bᴴ))
  obtain ⟨so, hso⟩ := hok (lyapunov Aᴴ (Cᴴ * C))
  dsimp only
  rw [hsc]
  dsimp only
  rw [hso]
  dsimp only
  obtain ⟨s, hs⟩ := hok ((so.U * diagPow (𝕜 := ℝ) so.S 0.5)ᵀ * (sc.U * diagPow (𝕜 := ℝ) sc.S 0.5))
  rw [hs]
  exact ⟨_, rfl⟩

end C42

/-- There are solvers and decompositions as assumed. -/
theorem exists_lyapunovSolver {𝕜 : Type*} [RCLike 𝕜] :
    ∃ solve : ∀ {n : Nat}, Matrix (Fin n) (Fin n) 𝕜 → Matrix (Fin n) (Fin n) 𝕜 → Matrix (Fin n) (Fin n) 𝕜,
      IsLyapunovSolver solve := by
  classical
  refine ⟨fun a q => if h : ∃ X, IsLyapunov a q X then h.choose else 0, ?_⟩
  intro n a q h
  dsimp only
  rw [dif_pos h]
  exact h.choose_spec

/-- Two states that do not interact, a fast and a slow one. -/
noncomputable def twoStates : Matrix (Fin 2) (Fin 2) ℝ := diagonal ![1 / 10, 9 / 10]

/-- The solution of the Lyapunov equation the code sets up for it. -/
theorem twoStates_lyapunov (X : Matrix (Fin 2) (Fin 2) ℝ) :
    IsLyapunov twoStates 1 X ↔ X = diagonal ![5, 5 / 9] := by
  unfold IsLyapunov twoStates
  rw [conjTranspose_eq_transpose_of_trivial, diagonal_transpose]
  constructor
  · intro h
    ext i j
    have := congrFun (congrFun h i) j
    rw [Matrix.add_apply, diagonal_mul, mul_diagonal] at this
    fin_cases i <;> fin_cases j <;> simp at this ⊢ <;> linarith
  · rintro rfl
    rw [diagonal_mul_diagonal, diagonal_mul_diagonal, diagonal_add, ← diagonal_one]
    congr 1
    ext i
    fin_cases i <;> norm_num

/-- **C42, violation.** For two states that do not interact, of which the slow one (eigenvalue 9/10) has the Hankel
singular value 100/19 and the fast one (1/10) 100/99, truncation to one state keeps the fast one and returns 5 as the
largest singular value, for all libraries. -/
theorem C42_violation
    (lyapunov : ∀ {n : Nat}, Matrix (Fin n) (Fin n) ℝ → Matrix (Fin n) (Fin n) ℝ → Matrix (Fin n) (Fin n) ℝ)
    (svd : ∀ {m n : Nat}, Matrix (Fin m) (Fin n) ℝ → SvdOut ℝ m n) (hly : IsLyapunovSolver lyapunov)
    (hlib : ∀ {m n : Nat} (a : Matrix (Fin m) (Fin n) ℝ), IsSvd a (svd a)) :
    IsDiscreteGramian twoStates (1 : Matrix (Fin 2) (Fin 2) ℝ) (diagonal ![100 / 99, 100 / 19]) ∧
    IsDiscreteGramian twoStatesᴴ (1 : Matrix (Fin 2) (Fin 2) ℝ)ᴴ (diagonal ![100 / 99, 100 / 19]) ∧
    ∃ (Br : Matrix (Fin 1) (Fin 2) ℝ) (Cr : Matrix (Fin 2) (Fin 1) ℝ) (num : Nat) (singVals : Fin num → ℝ) (h : 0 < num),
      balancedTruncation lyapunov svd twoStates (1 : Matrix (Fin 2) (Fin 2) ℝ) (1 : Matrix (Fin 2) (Fin 2) ℝ) (some 1) =
        .ok ⟨⟨1, 2, 2, !![1 / 10], Br, Cr⟩, num, singVals⟩ ∧ singVals ⟨0, h⟩ = 5 := by
  have ht : twoStatesᴴ = twoStates := by
    unfold twoStates
    rw [conjTranspose_eq_transpose_of_trivial, diagonal_transpose]
  have hg : IsDiscreteGramian twoStates (1 : Matrix (Fin 2) (Fin 2) ℝ) (diagonal ![100 / 99, 100 / 19]) := by
    unfold IsDiscreteGramian
    rw [ht]
    unfold twoStates
    rw [diagonal_mul_diagonal, diagonal_mul_diagonal, conjTranspose_one, Matrix.mul_one, ← diagonal_one, diagonal_add]
    congr 1
    ext i
    fin_cases i <;> norm_num
  refine ⟨hg, by rw [ht, conjTranspose_one]; exact hg, ?_⟩
  have hP : lyapunov twoStates (1 * (1 : Matrix (Fin 2) (Fin 2) ℝ)ᴴ) = diagonal ![5, 5 / 9] := by
    rw [conjTranspose_one, Matrix.mul_one]
    exact (twoStates_lyapunov _).mp (hly _ _ ⟨_, (twoStates_lyapunov _).mpr rfl⟩)
  have hQ : lyapunov twoStatesᴴ ((1 : Matrix (Fin 2) (Fin 2) ℝ)ᴴ * 1) = diagonal ![5, 5 / 9] := by
    rw [conjTranspose_one, Matrix.mul_one, ht]
    exact (twoStates_lyapunov _).mp (hly _ _ ⟨_, (twoStates_lyapunov _).mpr rfl⟩)
  have hpos : (diagonal ![5, 5 / 9] : Matrix (Fin 2) (Fin 2) ℝ).PosSemidef := by
    refine posSemidef_diagonal_iff.mpr fun i => ?_
    fin_cases i <;> norm_num
  have hbig : ∀ i, (svd (diagonal ![5, 5 / 9] : Matrix (Fin 2) (Fin 2) ℝ)).S i ≠ 0 →
      svdAtol < (svd (diagonal ![5, 5 / 9] : Matrix (Fin 2) (Fin 2) ℝ)).S i := by
    intro i _
    obtain ⟨s, hs⟩ : ∃ s, utilSvd svd (diagonal ![5, 5 / 9] : Matrix (Fin 2) (Fin 2) ℝ) (some svdAtol) none = .ok s := by
      cases h : utilSvd svd (diagonal ![5, 5 / 9] : Matrix (Fin 2) (Fin 2) ℝ) (some svdAtol) none with
      | ok s => exact ⟨s, rfl⟩
      | error e => exact absurd rfl ((C19_error_iff svd _ _ _ e).mp h).2.1
    have hr := (svd_posDef svd _ svdAtol svdAtol_pos.le le_rfl (by
      rw [conjTranspose_eq_transpose_of_trivial, diagonal_transpose, diagonal_mul_diagonal, ← diagonal_one, ← diagonal_smul,
        diagonal_sub]
      refine posDef_diagonal_iff.mpr fun i => ?_
      fin_cases i <;> norm_num [svdAtol]) (hlib _) s hs).1
    have := (((C19_kept_iff svd _ _ _ (hlib _) (by simp) s hs).2.1 i).mp (by have := i.isLt; omega)).1 _ rfl
    rwa [abs_of_nonneg ((hlib _).nonneg i)] at this
  obtain ⟨res, hres⟩ := C42_no_error lyapunov svd twoStates (1 : Matrix (Fin 2) (Fin 2) ℝ) (1 : Matrix (Fin 2) (Fin 2) ℝ)
    (some 1)
  have htr := balanced_trace lyapunov svd _ _ _ _ hlib res hres
  obtain ⟨r, hr, T, T', h1, h2, h3, h4, h5⟩ := balancedTruncation_spec lyapunov svd _ _ _ _ hlib res hres
  rw [hP, hQ] at htr h5
  obtain ⟨-, -, h6⟩ := h5 hpos hpos hbig hbig
  replace htr := htr hpos hpos hbig hbig
  have hsum : (diagonal ![5, 5 / 9] * diagonal ![5, 5 / 9] : Matrix (Fin 2) (Fin 2) ℝ).trace = 25 + 25 / 81 := by
    rw [diagonal_mul_diagonal, trace_diagonal, Fin.sum_univ_two]
    norm_num
  rw [hsum] at htr
  obtain ⟨model, num, σ⟩ := res
  dsimp only at hr h2 h3 h4 h6 htr
  have hnum : 0 < num := by
    by_contra h0
    have := htr svdAtol le_rfl fun i hi => absurd i.isLt (by omega)
    norm_num [svdAtol] at this
  have hr1 : r = 1 := by
    rw [hr, Option.getD_some]
    omega
  subst hr1
  have hx : T 0 0 * T' 0 0 + T 0 1 * T' 1 0 = 1 := by
    have := congrFun (congrFun h1 0) 0
    simpa [Matrix.mul_apply, Fin.sum_univ_two] using this
  have e0 : 25 * T' 0 0 = T' 0 0 * σ ⟨0, hnum⟩ ^ 2 := by
    have := congrFun (congrFun h6 0) 0
    rw [diagonal_mul_diagonal, diagonal_mul, mul_diagonal] at this
    norm_num at this
    exact this
  have e1 : 25 / 81 * T' 1 0 = T' 1 0 * σ ⟨0, hnum⟩ ^ 2 := by
    have := congrFun (congrFun h6 1) 0
    rw [diagonal_mul_diagonal, diagonal_mul, mul_diagonal] at this
    norm_num at this
    exact this
  have hσ : 0 < σ ⟨0, hnum⟩ := svdAtol_pos.trans (h3 _)
  have hle := htr (σ ⟨0, hnum⟩) (h3 _).le fun i hi => le_of_eq (congrArg σ (Fin.ext hi))
  have hy : T' 1 0 = 0 := by
    by_contra hne
    have := mul_right_cancel₀ hne (e1.trans (mul_comm _ _))
    norm_num at hle
    linarith
  have hne : T' 0 0 ≠ 0 := by
    rintro h0
    rw [h0, hy] at hx
    norm_num at hx
  have hsq : σ ⟨0, hnum⟩ ^ 2 = 25 := by
    have := mul_right_cancel₀ hne (e0.trans (mul_comm _ _))
    exact this.symm
  refine ⟨T * (1 : Matrix (Fin 2) (Fin 2) ℝ), (1 : Matrix (Fin 2) (Fin 2) ℝ) * T', num, σ, hnum, ?_, ?_⟩
  · rw [hres, h2]
    congr 3
    ext i j
    fin_cases i
    fin_cases j
    rw [hy] at hx
    unfold twoStates
    rw [Matrix.mul_apply]
    simp [Matrix.mul_apply, Fin.sum_univ_two, hy, mul_diagonal]
    linarith
  · nlinarith

/-- **C42, violation.** There are stable discrete-time systems, even those with the state matrix zero, for which the
equation the code sets up has no solution at all. -/
theorem C42_unsolvable_violation :
    IsDiscreteGramian (0 : Matrix (Fin 1) (Fin 1) ℝ) (1 : Matrix (Fin 1) (Fin 1) ℝ) 1 ∧
    ¬∃ X, IsLyapunov (0 : Matrix (Fin 1) (Fin 1) ℝ) (1 * (1 : Matrix (Fin 1) (Fin 1) ℝ)ᴴ) X := by
  refine ⟨by simp [IsDiscreteGramian], ?_⟩
  rintro ⟨X, hX⟩
  have := congrFun (congrFun hX 0) 0
  simp at this

/-- The hypotheses of the theorems can be met: for the system with one state, the state matrix 1/2, one input and one
output, the solutions are 1, and a model with one state is computed. -/
example : ∃ (lyapunov : ∀ {n : Nat}, Matrix (Fin n) (Fin n) ℝ → Matrix (Fin n) (Fin n) ℝ → Matrix (Fin n) (Fin n) ℝ)
    (svd : ∀ {m n : Nat}, Matrix (Fin m) (Fin n) ℝ → SvdOut ℝ m n), IsLyapunovSolver lyapunov ∧
    (∀ {m n : Nat} (a : Matrix (Fin m) (Fin n) ℝ), IsSvd a (svd a)) ∧
    lyapunov !![1 / 2] (!![1] * (!![1] : Matrix (Fin 1) (Fin 1) ℝ)ᴴ) = 1 ∧
    lyapunov (!![1 / 2] : Matrix (Fin 1) (Fin 1) ℝ)ᴴ ((!![1] : Matrix (Fin 1) (Fin 1) ℝ)ᴴ * !![1]) = 1 ∧
    (∀ i, (svd (1 : Matrix (Fin 1) (Fin 1) ℝ)).S i ≠ 0 → 1e-13 < (svd (1 : Matrix (Fin 1) (Fin 1) ℝ)).S i) ∧
    ∃ (Ar Br Cr : Matrix (Fin 1) (Fin 1) ℝ) (num : Nat) (singVals : Fin num → ℝ),
      balancedTruncation lyapunov svd !![1 / 2] !![1] !![1] none = .ok ⟨⟨1, 1, 1, Ar, Br, Cr⟩, num, singVals⟩ := by
  obtain ⟨l, hl⟩ := exists_lyapunovSolver (𝕜 := ℝ)
  obtain ⟨svd, hlib⟩ : ∃ svd : ∀ {m n : Nat}, Matrix (Fin m) (Fin n) ℝ → SvdOut ℝ m n,
      ∀ {m n : Nat} (a : Matrix (Fin m) (Fin n) ℝ), IsSvd a (svd a) :=
    ⟨fun a => (exists_isSvd a).choose, fun a => (exists_isSvd a).choose_spec⟩
  have h11 : (!![1] : Matrix (Fin 1) (Fin 1) ℝ) = 1 := by ext i j; fin_cases i; fin_cases j; rfl
  have ht : (!![1 / 2] : Matrix (Fin 1) (Fin 1) ℝ)ᴴ = !![1 / 2] := by ext i j; fin_cases i; fin_cases j; simp
  have hX : ∀ X, IsLyapunov (!![1 / 2] : Matrix (Fin 1) (Fin 1) ℝ) 1 X ↔ X = 1 := by
    intro X
    unfold IsLyapunov
    rw [ht]
    constructor
    · intro h
      ext i j
      have := congrFun (congrFun h i) j
      fin_cases i
      fin_cases j
      rw [Matrix.add_apply, Matrix.mul_apply, Matrix.mul_apply] at this
      norm_num at this ⊢
      linarith
    · rintro rfl
      ext i j
      fin_cases i
      fin_cases j
      simp
      norm_num
  have hP : l (!![1 / 2] : Matrix (Fin 1) (Fin 1) ℝ) 1 = 1 := (hX _).mp (hl _ _ ⟨1, (hX 1).mpr rfl⟩)
  have hbig : ∀ i, (svd (1 : Matrix (Fin 1) (Fin 1) ℝ)).S i ≠ 0 → 1e-13 < (svd (1 : Matrix (Fin 1) (Fin 1) ℝ)).S i := by
    intro i _
    have h1 := (hlib (1 : Matrix (Fin 1) (Fin 1) ℝ)).frobSq
    rw [conjTranspose_one, Matrix.mul_one] at h1
    have h2 : (svd (1 : Matrix (Fin 1) (Fin 1) ℝ)).S i ^ 2 = 1 := by
      have h3 : (Finset.univ : Finset (Fin (min 1 1))) = {i} := by
        ext j
        have := i.isLt
        have := j.isLt
        simp [Fin.ext_iff]
      rw [h3, Finset.sum_singleton] at h1
      rw [← h1]
      simp
    have := (hlib (1 : Matrix (Fin 1) (Fin 1) ℝ)).nonneg i
    have h4 : (svd (1 : Matrix (Fin 1) (Fin 1) ℝ)).S i = 1 := by nlinarith
    rw [h4]
    norm_num
  rw [h11]
  refine ⟨l, svd, hl, hlib, by rw [conjTranspose_one, Matrix.mul_one]; exact hP,
    by rw [conjTranspose_one, Matrix.mul_one, ht]; exact hP,
    hbig, ?_⟩
  obtain ⟨res, hres⟩ := C42_no_error l svd (!![1 / 2] : Matrix (Fin 1) (Fin 1) ℝ) (1 : Matrix (Fin 1) (Fin 1) ℝ)
    (1 : Matrix (Fin 1) (Fin 1) ℝ) none
  have htr := balanced_trace l svd _ _ _ _ hlib res hres
  rw [conjTranspose_one, Matrix.mul_one, ht, hP, Matrix.mul_one] at htr
  replace htr := htr PosSemidef.one PosSemidef.one hbig hbig svdAtol le_rfl
  obtain ⟨r, hr, T, T', h1, h2, -⟩ := balancedTruncation_spec l svd _ _ _ _ hlib res hres
  obtain ⟨model, num, σ⟩ := res
  dsimp only at hr h2 htr
  have hnum : 0 < num := by
    by_contra h0
    have := htr fun i hi => absurd i.isLt (by omega)
    norm_num [svdAtol] at this
  have hle : r ≤ 1 := by
    by_contra hlt
    have hrank := rank_mul_le_left T T'
    rw [h1, rank_one, Fintype.card_fin] at hrank
    have := rank_le_width T
    omega
  have hr1 : r = 1 := by
    rw [Option.getD_none, min_self] at hr
    omega
  subst hr1
  exact ⟨_, _, _, num, σ, by rw [hres, h2]⟩

end Modred
