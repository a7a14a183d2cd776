import Verif.Spec.BalancedCoordinates
import Verif.Props.BalancedDual
import Mathlib.Data.Real.StarOrdered

/-!
# C131: balanced truncation does not depend on coordinates
-/

namespace Modred

open Matrix

section Determined

variable {n m n' m' : Nat} {H : Matrix (Fin n) (Fin m) ℝ} {H' : Matrix (Fin n') (Fin m') ℝ}
  {lib : Matrix (Fin n) (Fin m) ℝ → SvdOut ℝ n m} {lib' : Matrix (Fin n') (Fin m') ℝ → SvdOut ℝ n' m'} {t : ℝ}
  {R : Matrix (Fin n) (Fin n') ℝ} {Q : Matrix (Fin m) (Fin m') ℝ}

/-- What the inverse of the first singular triples is in other coordinates. -/
theorem firstInverse_coordinates (h : IsSvd H (lib H)) (h' : IsSvd H' (lib' H')) (hR : R * Rᴴ = 1) (hQ : Q * Qᴴ = 1)
    (hH : H' = Rᴴ * H * Q) (ht : 0 ≤ t) (e : Svd ℝ n m) (e' : Svd ℝ n' m')
    (he : utilSvd lib H (some t) none = .ok e) (he' : utilSvd lib' H' (some t) none = .ok e') :
    e'.r = e.r ∧ (∀ (i' : Fin e'.r) (i : Fin e.r), i'.val = i.val → e'.S i' = e.S i) ∧
    ∀ ns, (∀ i j : Fin e.r, i.val < ns → ns ≤ j.val → e.S j < e.S i) →
      firstCols e'.V ns * diagonal (fun i => 1 / firstEntries e'.S ns i) * (firstCols e'.U ns)ᴴ =
        Qᴴ * (firstCols e.V ns * diagonal (fun i => 1 / firstEntries e.S ns i) * (firstCols e.U ns)ᴴ) * R := by
  classical
  have hr : ∀ t ∈ (none : Option ℝ), 0 ≤ t := by simp
  obtain ⟨k1, k2, k3⟩ := balance_determined (𝕜 := ℝ) (a := 1) (b := 1) (R := R) (Q := Q) h h' hR hQ (by simpa using hH)
    one_ne_zero one_ne_zero ht hr e e' he (by simpa using he')
  have hS : ∀ i, 0 < e.S i := fun i => lt_of_le_of_lt ht (utilSvd_positive lib H none t hr h e he i)
  have hS' : ∀ i, 0 < e'.S i := fun i => lt_of_le_of_lt ht (utilSvd_positive lib' H' none t hr h' e' he' i)
  have k2' : ∀ (i' : Fin e'.r) (i : Fin e.r), i'.val = i.val → e'.S i' = e.S i := by
    intro i' i hi
    have := k2 i' i hi
    rwa [norm_one, one_mul, one_mul] at this
  refine ⟨k1, k2', fun ns gap => ?_⟩
  let P : ℝ → Prop := fun x => ∃ i : Fin e.r, i.val < ns ∧ e.S i = x
  have hP : ∀ i : Fin e.r, i.val < ns ↔ P (e.S i) := by
    intro i
    constructor
    · intro hi
      exact ⟨i, hi, rfl⟩
    · rintro ⟨j, hj, hij⟩
      by_contra hc
      exact (gap j i hj (not_lt.mp hc)).ne hij.symm
  have hP' : ∀ i : Fin e'.r, i.val < ns ↔ P (e'.S i) := by
    intro i
    rw [k2' i ⟨i, k1 ▸ i.isLt⟩ rfl]
    exact hP ⟨i, k1 ▸ i.isLt⟩
  rw [firstCols_functions e.V e.U e.S ns P hP fun x => 1 / x, firstCols_functions e'.V e'.U e'.S ns P hP' fun x => 1 / x]
  have h1 := (k3 (fun x => if P x then 1 else 0) (fun x => if P x then 1 else 0) fun x _ => by simp).1
  rw [build_two hS _ _ fun x => if P x then 1 else 0, build_two hS' _ _ fun x => if P x then 1 else 0] at h1
  simp only [star_one, mul_one, one_smul] at h1
  have e1 : ∀ {r : Nat} (S : Fin r → ℝ), (fun i => (if P (S i) then (1 : ℝ) else 0) / ((S i : ℝ) : ℝ)) =
      fun i => if P (S i) then 1 / S i else 0 := by
    intro r S
    funext i
    split
    · rfl
    · rw [zero_div]
  have e2 := e1 e.S
  have e3 := e1 e'.S
  simp only [RCLike.ofReal_real_eq_id, id_eq] at h1
  rw [e2, e3] at h1
  exact h1

end Determined

section Factors

variable {n a a' p p' : Nat} {T Ti : Matrix (Fin n) (Fin n) ℝ}

/-- Factors of a positive array in other coordinates. -/
theorem factor_coordinates (hT : Ti * T = 1) {L : Matrix (Fin n) (Fin a) ℝ} {G : Matrix (Fin a) (Fin n) ℝ} (hG : G * L = 1)
    {L' : Matrix (Fin n) (Fin a') ℝ} (h : L' * L'ᵀ = T * (L * Lᵀ) * Tᵀ) :
    ∃ Q : Matrix (Fin a) (Fin a') ℝ, Q * Qᴴ = 1 ∧ L' = T * L * Q := by
  have hT' : T * Ti = 1 := mul_eq_one_comm.mp hT
  have hz : Ti * L' * (Ti * L')ᵀ = L * Lᵀ := by
    have hTt : Tᵀ * Tiᵀ = 1 := by rw [← transpose_mul, hT, transpose_one]
    calc Ti * L' * (Ti * L')ᵀ = Ti * (L' * L'ᵀ) * Tiᵀ := by rw [transpose_mul]; simp only [Matrix.mul_assoc]
      _ = (Ti * T) * (L * Lᵀ) * (Tᵀ * Tiᵀ) := by rw [h]; simp only [Matrix.mul_assoc]
      _ = L * Lᵀ := by rw [hT, hTt, Matrix.one_mul, Matrix.mul_one]
  refine ⟨G * (Ti * L'), ?_, ?_⟩
  · calc G * (Ti * L') * (G * (Ti * L'))ᴴ = G * (Ti * L' * (Ti * L')ᵀ) * Gᵀ := by
          rw [conjTranspose_eq_transpose_of_trivial, transpose_mul G]; simp only [Matrix.mul_assoc]
      _ = (G * L) * (G * L)ᵀ := by rw [hz, transpose_mul]; simp only [Matrix.mul_assoc]
      _ = 1 := by rw [hG, transpose_one, Matrix.one_mul]
  · have h0 : Ti * L' - L * G * (Ti * L') = 0 := by
      have e : Ti * L' - L * G * (Ti * L') = (1 - L * G) * (Ti * L') := by rw [Matrix.sub_mul, Matrix.one_mul]
      have : (1 - L * G) * (Ti * L') * ((1 - L * G) * (Ti * L'))ᴴ = 0 := by
        have hL : (1 - L * G) * L = 0 := by rw [Matrix.sub_mul, Matrix.one_mul, Matrix.mul_assoc, hG, Matrix.mul_one, sub_self]
        calc (1 - L * G) * (Ti * L') * ((1 - L * G) * (Ti * L'))ᴴ = (1 - L * G) * (Ti * L' * (Ti * L')ᵀ) * (1 - L * G)ᵀ := by
              rw [conjTranspose_eq_transpose_of_trivial, transpose_mul (1 - L * G)]; simp only [Matrix.mul_assoc]
          _ = ((1 - L * G) * L) * (Lᵀ * (1 - L * G)ᵀ) := by rw [hz]; simp only [Matrix.mul_assoc]
          _ = 0 := by rw [hL, Matrix.zero_mul]
      rw [e]
      exact self_mul_conjTranspose_eq_zero.mp this
    calc L' = T * Ti * L' := by rw [hT', Matrix.one_mul]
      _ = T * (L * G * (Ti * L')) := by rw [← sub_eq_zero.mp h0, Matrix.mul_assoc]
      _ = T * L * (G * (Ti * L')) := by simp only [Matrix.mul_assoc]

/-- Solutions of Lyapunov equations in other coordinates. -/
theorem lyapunov_coordinates {lyapunov : ∀ {n : Nat}, Matrix (Fin n) (Fin n) ℝ → Matrix (Fin n) (Fin n) ℝ → Matrix (Fin n) (Fin n) ℝ}
    (hl : IsLyapunovSolver lyapunov) (hT : Ti * T = 1) {A A' q q' : Matrix (Fin n) (Fin n) ℝ} (hA : A' * T = T * A)
    (hq : q' = T * q * Tᵀ) (hu : ∃! X, IsLyapunov A q X) : lyapunov A' q' = T * lyapunov A q * Tᵀ := by
  have hT' : T * Ti = 1 := mul_eq_one_comm.mp hT
  have hTt : Tᵀ * Tiᵀ = 1 := by rw [← transpose_mul, hT, transpose_one]
  have hTt' : Tiᵀ * Tᵀ = 1 := by rw [← transpose_mul, hT', transpose_one]
  have hA' : Ti * A' = A * Ti := by
    calc Ti * A' = Ti * (A' * T) * Ti := by rw [Matrix.mul_assoc Ti, Matrix.mul_assoc A', hT', Matrix.mul_one]
      _ = A * Ti := by rw [hA, ← Matrix.mul_assoc, hT, Matrix.one_mul]
  have hAt : Tᵀ * A'ᵀ = Aᵀ * Tᵀ := by rw [← transpose_mul, hA, transpose_mul]
  have hAt' : A'ᵀ * Tiᵀ = Tiᵀ * Aᵀ := by rw [← transpose_mul, hA', transpose_mul]
  obtain ⟨X, hX, huX⟩ := hu
  have h1 : lyapunov A q = X := huX _ (hl A q ⟨X, hX⟩)
  have h2 : IsLyapunov A' q' (T * X * Tᵀ) := by
    unfold IsLyapunov at hX ⊢
    rw [hq, ← hX, conjTranspose_eq_transpose_of_trivial, conjTranspose_eq_transpose_of_trivial, Matrix.mul_add, Matrix.add_mul]
    congr 1
    · rw [← Matrix.mul_assoc, ← Matrix.mul_assoc, hA]
      simp only [Matrix.mul_assoc]
    · rw [Matrix.mul_assoc (T * X), hAt]
      simp only [Matrix.mul_assoc]
  have h3 : IsLyapunov A' q' (lyapunov A' q') := hl A' q' ⟨_, h2⟩
  generalize lyapunov A' q' = Y at *
  have h4 : IsLyapunov A q (Ti * Y * Tiᵀ) := by
    unfold IsLyapunov at h3 ⊢
    rw [conjTranspose_eq_transpose_of_trivial] at h3 ⊢
    have : q = Ti * q' * Tiᵀ := by
      calc q = (Ti * T) * q * (Tᵀ * Tiᵀ) := by rw [hT, hTt, Matrix.one_mul, Matrix.mul_one]
        _ = Ti * q' * Tiᵀ := by rw [hq]; simp only [Matrix.mul_assoc]
    rw [this, ← h3, Matrix.mul_add, Matrix.add_mul]
    congr 1
    · rw [← Matrix.mul_assoc, ← Matrix.mul_assoc, ← hA']
      simp only [Matrix.mul_assoc]
    · rw [Matrix.mul_assoc (Ti * Y), ← hAt']
      simp only [Matrix.mul_assoc]
  rw [h1, ← huX _ h4]
  calc Y = (T * Ti) * Y * (Tiᵀ * Tᵀ) := by rw [hT', hTt', Matrix.one_mul, Matrix.mul_one]
    _ = T * (Ti * Y * Tiᵀ) * Tᵀ := by simp only [Matrix.mul_assoc]

end Factors

section Coordinates

variable {n p q p' q' : Nat} {T : Matrix (Fin n) (Fin n) ℝ} {V : Matrix (Fin p) (Fin p') ℝ} {W : Matrix (Fin q') (Fin q) ℝ}
  {A : Matrix (Fin n) (Fin n) ℝ} {B : Matrix (Fin n) (Fin p) ℝ} {C : Matrix (Fin q) (Fin n) ℝ}
  {A' : Matrix (Fin n) (Fin n) ℝ} {B' : Matrix (Fin n) (Fin p') ℝ} {C' : Matrix (Fin q') (Fin n) ℝ}
  (lyapunov : ∀ {n : Nat}, Matrix (Fin n) (Fin n) ℝ → Matrix (Fin n) (Fin n) ℝ → Matrix (Fin n) (Fin n) ℝ)
  (svd : ∀ {m n : Nat}, Matrix (Fin m) (Fin n) ℝ → SvdOut ℝ m n) (order : Option Nat)

/-- **C131.** `balanced_truncation` returns the same singular values in other coordinates of states, inputs and outputs, if the
Lyapunov equations have unique, positive solutions, of which no part is below the tolerance in either coordinates.  If equal
singular values are not separated, the response of its model is the same in these coordinates, at all times. -/
theorem C131_balanced_truncation (hl : IsLyapunovSolver lyapunov) (hlib : ∀ {m n : Nat} (a : Matrix (Fin m) (Fin n) ℝ), IsSvd a (svd a))
    (hsys : OtherCoordinates T V W A B C A' B' C')
    (uc : ∃! X, IsLyapunov A (B * Bᴴ) X) (uo : ∃! X, IsLyapunov Aᴴ (Cᴴ * C) X)
    (pc : (lyapunov A (B * Bᴴ)).PosSemidef) (po : (lyapunov Aᴴ (Cᴴ * C)).PosSemidef)
    (hc : Resolved svd (lyapunov A (B * Bᴴ))) (ho : Resolved svd (lyapunov Aᴴ (Cᴴ * C)))
    (hc' : Resolved svd (lyapunov A' (B' * B'ᴴ))) (ho' : Resolved svd (lyapunov A'ᴴ (C'ᴴ * C'))) (res res' : Balanced ℝ)
    (h : balancedTruncation lyapunov svd A B C order = .ok res)
    (h' : balancedTruncation lyapunov svd A' B' C' order = .ok res') :
    SameSingVals res res' ∧ (res.Separated order → OtherResponse V W res.model res'.model) := by
  obtain ⟨hT, hV, hW, hA, hB, hC⟩ := hsys
  obtain ⟨Ti, hT2, hT1⟩ : ∃ Ti, T * Ti = 1 ∧ Ti * T = 1 := ⟨_, hT.unit.mul_inv, hT.unit.inv_mul⟩
  obtain ⟨sc, so, hsc, hso, s, hs, SL, SR, hSL, hSR, rfl⟩ := balancedTruncation_ok lyapunov svd A B C order res h
  obtain ⟨sc', so', hsc', hso', s', hs', SL', SR', hSL', hSR', rfl⟩ := balancedTruncation_ok lyapunov svd A' B' C' order res' h'
  have hA' : Ti * A' = A * Ti := by
    calc Ti * A' = Ti * (A' * T) * Ti := by rw [Matrix.mul_assoc Ti, Matrix.mul_assoc A', hT2, Matrix.mul_one]
      _ = A * Ti := by rw [hA, ← Matrix.mul_assoc, hT1, Matrix.one_mul]
  have hC' : C' = W * C * Ti := by rw [← hC, Matrix.mul_assoc, hT2, Matrix.mul_one]
  have gc : lyapunov A' (B' * B'ᴴ) = T * lyapunov A (B * Bᴴ) * Tᵀ := by
    refine lyapunov_coordinates hl hT1 hA ?_ uc
    calc B' * B'ᴴ = T * (B * (V * Vᴴ) * Bᴴ) * Tᵀ := by
          rw [hB, conjTranspose_mul, conjTranspose_mul, conjTranspose_eq_transpose_of_trivial T]; simp only [Matrix.mul_assoc]
      _ = T * (B * Bᴴ) * Tᵀ := by rw [hV, Matrix.mul_one]
  have go : lyapunov A'ᴴ (C'ᴴ * C') = Tiᵀ * lyapunov Aᴴ (Cᴴ * C) * Tiᵀᵀ := by
    refine lyapunov_coordinates (Ti := Tᵀ) hl (by rw [← transpose_mul, hT1, transpose_one]) ?_ ?_ uo
    · simp only [conjTranspose_eq_transpose_of_trivial]
      rw [← transpose_mul, hA', transpose_mul]
    · calc C'ᴴ * C' = Tiᵀ * (Cᴴ * (Wᴴ * W) * C) * Ti := by
            rw [hC', conjTranspose_mul, conjTranspose_mul, conjTranspose_eq_transpose_of_trivial Ti]; simp only [Matrix.mul_assoc]
        _ = Tiᵀ * (Cᴴ * C) * Tiᵀᵀ := by rw [hW, Matrix.mul_one, transpose_transpose]
  have left : ∀ {P : Matrix (Fin n) (Fin n) ℝ} {s : Svd ℝ n n}, utilSvd svd P (some svdAtol) none = .ok s →
      diagPow (𝕜 := ℝ) s.S (-0.5) * s.Uᴴ * (s.U * diagPow (𝕜 := ℝ) s.S 0.5) = 1 := by
    intro P s hs
    obtain ⟨hU, -⟩ := utilSvd_triples svd P _ _ (hlib _) s hs
    have hpos : ∀ i, 0 < s.S i := fun i => svdAtol_pos.trans (utilSvd_positive svd P none svdAtol (by simp) (hlib _) s hs i)
    rw [Matrix.mul_assoc, ← Matrix.mul_assoc s.Uᴴ, hU, Matrix.one_mul, diagPow_mul _ hpos, show (-0.5 + 0.5 : ℝ) = 0 by norm_num]
    unfold diagPow
    simp
  have fc := gramian_factor svd _ pc (hlib _) hc sc hsc
  have fo := gramian_factor svd _ po (hlib _) ho so hso
  have pc' : (lyapunov A' (B' * B'ᴴ)).PosSemidef := by
    rw [gc, ← conjTranspose_eq_transpose_of_trivial]
    exact pc.mul_mul_conjTranspose_same T
  have po' : (lyapunov A'ᴴ (C'ᴴ * C')).PosSemidef := by
    rw [go, ← conjTranspose_eq_transpose_of_trivial Tiᵀ]
    exact po.mul_mul_conjTranspose_same Tiᵀ
  have fc' := gramian_factor svd _ pc' (hlib _) hc' sc' hsc'
  have fo' := gramian_factor svd _ po' (hlib _) ho' so' hso'
  rw [gc, ← fc] at fc'
  rw [go, ← fo] at fo'
  obtain ⟨Q, hQ, hLc⟩ := factor_coordinates hT1 (left hsc) fc'
  obtain ⟨R, hR, hLo⟩ := factor_coordinates (Ti := Tᵀ) (by rw [← transpose_mul, hT1, transpose_one]) (left hso) fo'
  clear fc fo fc' fo' left
  generalize so.U * diagPow (𝕜 := ℝ) so.S 0.5 = Lo at *
  generalize sc.U * diagPow (𝕜 := ℝ) sc.S 0.5 = Lc at *
  generalize so'.U * diagPow (𝕜 := ℝ) so'.S 0.5 = Lo' at *
  generalize sc'.U * diagPow (𝕜 := ℝ) sc'.S 0.5 = Lc' at *
  have hM : Lo'ᵀ * Lc' = Rᴴ * (Loᵀ * Lc) * Q := by
    calc Lo'ᵀ * Lc' = Rᴴ * (Loᵀ * (Ti * T) * Lc) * Q := by
          rw [hLo, hLc, transpose_mul, transpose_mul, transpose_transpose, conjTranspose_eq_transpose_of_trivial]
          simp only [Matrix.mul_assoc]
      _ = _ := by rw [hT1, Matrix.mul_one]
  obtain ⟨k1, k2, k3⟩ := firstInverse_coordinates (hlib (Loᵀ * Lc)) (hlib (Lo'ᵀ * Lc')) hR hQ hM svdAtol_pos.le s s' hs hs'
  refine ⟨⟨k1, fun i i' hi => k2 i' i hi⟩, fun hsep => ?_⟩
  have hnum : order.getD s'.r = order.getD s.r := by rw [k1]
  have hk := k3 (order.getD s.r) hsep
  have hpos := utilSvd_positive svd _ none svdAtol (by simp) (hlib _) s hs
  have hpos' := utilSvd_positive svd _ none svdAtol (by simp) (hlib _) s' hs'
  have root : ∀ {r : Nat} (E : Fin r → ℝ), (∀ i, 0 < E i) →
      diagPow (𝕜 := ℝ) E (-0.5) * diagPow (𝕜 := ℝ) E (-0.5) = diagonal fun i => 1 / E i := by
    intro r E hE
    rw [diagPow_mul _ hE, show (-0.5 + -0.5 : ℝ) = -1 by norm_num]
    unfold diagPow
    congr 1
    ext i
    simp [Real.rpow_neg_one]
  have ht : ∀ {r : Nat} (E : Fin r → ℝ) e, (diagPow (𝕜 := ℝ) E e)ᵀ = diagPow (𝕜 := ℝ) E e := fun E e => by
    rw [← conjTranspose_eq_transpose_of_trivial, diagPow_conjTranspose]
  have hN : SR * SLᵀ = Lc * (firstCols s.V (order.getD s.r) * diagonal (fun i => 1 / firstEntries s.S (order.getD s.r) i) *
      (firstCols s.U (order.getD s.r))ᴴ) * Loᵀ := by
    rw [← root (firstEntries s.S (order.getD s.r)) fun i => svdAtol_pos.trans (hpos _), hSR, hSL, conjTranspose_eq_transpose_of_trivial]
    simp only [transpose_mul, ht, Matrix.mul_assoc]
  have hN' : SR' * SL'ᵀ = Lc' * (firstCols s'.V (order.getD s'.r) * diagonal (fun i => 1 / firstEntries s'.S (order.getD s'.r) i) *
      (firstCols s'.U (order.getD s'.r))ᴴ) * Lo'ᵀ := by
    rw [← root (firstEntries s'.S (order.getD s'.r)) fun i => svdAtol_pos.trans (hpos' _), hSR', hSL', conjTranspose_eq_transpose_of_trivial]
    simp only [transpose_mul, ht, Matrix.mul_assoc]
  rw [← hnum] at hk
  have hNN : SR' * SL'ᵀ = T * (SR * SLᵀ) * Ti := by
    rw [hN', hk, hnum, hN, hLc, hLo]
    generalize firstCols s.V (order.getD s.r) * diagonal (fun i => 1 / firstEntries s.S (order.getD s.r) i) *
      (firstCols s.U (order.getD s.r))ᴴ = K
    calc T * Lc * Q * (Qᴴ * K * R) * (Tiᵀ * Lo * R)ᵀ = T * Lc * (Q * Qᴴ) * K * (R * Rᴴ) * Loᵀ * Ti := by
          simp only [transpose_mul, transpose_transpose, conjTranspose_eq_transpose_of_trivial, Matrix.mul_assoc]
      _ = T * (Lc * K * Loᵀ) * Ti := by
          rw [hQ, hR]; simp only [Matrix.mul_one, Matrix.mul_assoc]
  refine ⟨?_, rfl, rfl, rfl, rfl, fun k => ?_⟩
  · dsimp only
    rw [k1]
  · dsimp only
    rw [projection_response, projection_response, hNN]
    generalize SR * SLᵀ = N
    have hpow : ∀ k, (T * N * Ti * A') ^ k * T = T * (N * A) ^ k := by
      intro k
      induction k with
      | zero => simp
      | succ k ih =>
        rw [pow_succ, pow_succ, Matrix.mul_assoc _ (T * N * Ti * A')]
        have : T * N * Ti * A' * T = T * (N * A) := by
          rw [Matrix.mul_assoc _ Ti, hA', Matrix.mul_assoc, Matrix.mul_assoc A, hT1, Matrix.mul_one, Matrix.mul_assoc]
        rw [this, ← Matrix.mul_assoc, ih, Matrix.mul_assoc]
    have : C' * ((T * N * Ti * A') ^ k * (T * N * Ti)) * B' = W * (C * ((N * A) ^ k * N) * B) * V := by
      calc C' * ((T * N * Ti * A') ^ k * (T * N * Ti)) * B' = C' * ((T * N * Ti * A') ^ k * T) * (N * (Ti * T)) * B * V := by
            rw [hB]; simp only [Matrix.mul_assoc]
        _ = (C' * T) * (N * A) ^ k * N * B * V := by rw [hpow, hT1, Matrix.mul_one]; simp only [Matrix.mul_assoc]
        _ = _ := by rw [hC]; simp only [Matrix.mul_assoc]
    rw [this]
    rfl

end Coordinates

/-- Arrays of one entry above the tolerance. -/
theorem resolved_entry {svd : ∀ {m n : Nat}, Matrix (Fin m) (Fin n) ℝ → SvdOut ℝ m n}
    (hlib : ∀ {m n : Nat} (a : Matrix (Fin m) (Fin n) ℝ), IsSvd a (svd a)) {P : Matrix (Fin 1) (Fin 1) ℝ} {x : ℝ} (hP : P = !![x])
    (hx : 1e-13 < x) : Resolved svd P := by
  intro i _
  have h1 := (hlib P).frobSq
  have h3 : (Finset.univ : Finset (Fin (min 1 1))) = {i} := by
    ext j
    have := i.isLt
    have := j.isLt
    simp [Fin.ext_iff]
  rw [h3, Finset.sum_singleton] at h1
  have h2 : (Pᴴ * P).trace = x ^ 2 := by
    rw [hP]
    simp [Matrix.trace, Matrix.mul_apply, sq]
  rw [h2] at h1
  have h4 := (hlib P).nonneg i
  have h5 : (svd P).S i = x := by
    have h0 : (0 : ℝ) ≤ x := by norm_num at hx; linarith
    exact ((pow_left_inj₀ h0 h4 two_ne_zero).mp h1).symm
  rw [h5]
  exact hx

/-- One state in units half as large, and a second input that does nothing beside the first with its sign changed: all hypotheses
hold, so that models have the same singular values and responses. -/
example : ∃ (lyapunov : ∀ {n : Nat}, Matrix (Fin n) (Fin n) ℝ → Matrix (Fin n) (Fin n) ℝ → Matrix (Fin n) (Fin n) ℝ)
    (svd : ∀ {m n : Nat}, Matrix (Fin m) (Fin n) ℝ → SvdOut ℝ m n) (res res' : Balanced ℝ),
    IsLyapunovSolver lyapunov ∧ (∀ {m n : Nat} (a : Matrix (Fin m) (Fin n) ℝ), IsSvd a (svd a)) ∧
    balancedTruncation lyapunov svd (!![1 / 2] : Matrix (Fin 1) (Fin 1) ℝ) (!![1] : Matrix (Fin 1) (Fin 1) ℝ)
      (!![1] : Matrix (Fin 1) (Fin 1) ℝ) none = .ok res ∧
    balancedTruncation lyapunov svd (!![1 / 2] : Matrix (Fin 1) (Fin 1) ℝ) (!![0, -2] : Matrix (Fin 1) (Fin 2) ℝ)
      (!![1 / 2] : Matrix (Fin 1) (Fin 1) ℝ) none = .ok res' ∧
    SameSingVals res res' ∧
    OtherResponse (!![0, -1] : Matrix (Fin 1) (Fin 2) ℝ) (!![1] : Matrix (Fin 1) (Fin 1) ℝ) res.model res'.model := by
  obtain ⟨l, hl⟩ := exists_lyapunovSolver (𝕜 := ℝ)
  obtain ⟨svd, hlib⟩ : ∃ svd : ∀ {m n : Nat}, Matrix (Fin m) (Fin n) ℝ → SvdOut ℝ m n,
      ∀ {m n : Nat} (a : Matrix (Fin m) (Fin n) ℝ), IsSvd a (svd a) :=
    ⟨fun a => (exists_isSvd a).choose, fun a => (exists_isSvd a).choose_spec⟩
  have hX : ∀ (x : ℝ) X, IsLyapunov (!![1 / 2] : Matrix (Fin 1) (Fin 1) ℝ) !![x] X ↔ X = !![x] := by
    intro x X
    unfold IsLyapunov
    constructor
    · intro h
      ext i j
      have := congrFun (congrFun h i) j
      fin_cases i
      fin_cases j
      rw [Matrix.add_apply, Matrix.mul_apply, Matrix.mul_apply] at this
      simp at this ⊢
      linarith
    · rintro rfl
      ext i j
      fin_cases i
      fin_cases j
      rw [Matrix.add_apply, Matrix.mul_apply, Matrix.mul_apply]
      simp
      ring
  have hP : ∀ x : ℝ, l (!![1 / 2] : Matrix (Fin 1) (Fin 1) ℝ) !![x] = !![x] := fun x => (hX x _).mp (hl _ _ ⟨_, (hX x _).mpr rfl⟩)
  have hA : (!![1 / 2] : Matrix (Fin 1) (Fin 1) ℝ)ᴴ = !![1 / 2] := by ext i j; fin_cases i; fin_cases j; simp
  have h1 : (!![1] : Matrix (Fin 1) (Fin 1) ℝ) * (!![1] : Matrix (Fin 1) (Fin 1) ℝ)ᴴ = !![1] := by
    ext i j; fin_cases i; fin_cases j; simp [Matrix.mul_apply]
  have h2 : (!![1] : Matrix (Fin 1) (Fin 1) ℝ)ᴴ * (!![1] : Matrix (Fin 1) (Fin 1) ℝ) = !![1] := by
    ext i j; fin_cases i; fin_cases j; simp [Matrix.mul_apply]
  have h3 : (!![0, -2] : Matrix (Fin 1) (Fin 2) ℝ) * (!![0, -2] : Matrix (Fin 1) (Fin 2) ℝ)ᴴ = !![4] := by
    ext i j; fin_cases i; fin_cases j; simp [Matrix.mul_apply, Fin.sum_univ_two]; norm_num
  have h4 : (!![1 / 2] : Matrix (Fin 1) (Fin 1) ℝ)ᴴ * (!![1 / 2] : Matrix (Fin 1) (Fin 1) ℝ) = !![1 / 4] := by
    ext i j; fin_cases i; fin_cases j; simp [Matrix.mul_apply]; norm_num
  have hone : (!![1] : Matrix (Fin 1) (Fin 1) ℝ) = 1 := by ext i j; fin_cases i; fin_cases j; rfl
  have hsys : OtherCoordinates (!![2] : Matrix (Fin 1) (Fin 1) ℝ) (!![0, -1] : Matrix (Fin 1) (Fin 2) ℝ)
      (!![1] : Matrix (Fin 1) (Fin 1) ℝ) (!![1 / 2] : Matrix (Fin 1) (Fin 1) ℝ) (!![1] : Matrix (Fin 1) (Fin 1) ℝ)
      (!![1] : Matrix (Fin 1) (Fin 1) ℝ) (!![1 / 2] : Matrix (Fin 1) (Fin 1) ℝ) (!![0, -2] : Matrix (Fin 1) (Fin 2) ℝ)
      (!![1 / 2] : Matrix (Fin 1) (Fin 1) ℝ) := by
    refine ⟨?_, ?_, ?_, ?_, ?_, ?_⟩
    · rw [Matrix.isUnit_iff_isUnit_det]
      simp
    · ext i j; fin_cases i; fin_cases j; simp [Matrix.mul_apply, Fin.sum_univ_two]
    · ext i j; fin_cases i; fin_cases j; simp [Matrix.mul_apply]
    · ext i j; fin_cases i; fin_cases j; simp
    · ext i j; fin_cases i; fin_cases j <;> simp
    · ext i j; fin_cases i; fin_cases j; simp
  obtain ⟨res, hres⟩ := C42_no_error l svd (!![1 / 2] : Matrix (Fin 1) (Fin 1) ℝ) (!![1] : Matrix (Fin 1) (Fin 1) ℝ)
    (!![1] : Matrix (Fin 1) (Fin 1) ℝ) none
  obtain ⟨res', hres'⟩ := C42_no_error l svd (!![1 / 2] : Matrix (Fin 1) (Fin 1) ℝ) (!![0, -2] : Matrix (Fin 1) (Fin 2) ℝ)
    (!![1 / 2] : Matrix (Fin 1) (Fin 1) ℝ) none
  have unique : ∀ x : ℝ, ∃! X, IsLyapunov (!![1 / 2] : Matrix (Fin 1) (Fin 1) ℝ) !![x] X :=
    fun x => ⟨_, (hX x _).mpr rfl, fun Y hY => (hX x Y).mp hY⟩
  obtain ⟨k1, k2⟩ := C131_balanced_truncation l svd none hl hlib hsys (by rw [h1]; exact unique 1)
    (by rw [h2, hA]; exact unique 1) (by rw [h1, hP, hone]; exact PosSemidef.one) (by rw [h2, hA, hP, hone]; exact PosSemidef.one)
    (resolved_entry hlib (by rw [h1, hP]) (by norm_num)) (resolved_entry hlib (by rw [h2, hA, hP]) (by norm_num))
    (resolved_entry hlib (by rw [h3, hP]) (by norm_num)) (resolved_entry hlib (by rw [h4, hA, hP]) (by norm_num)) res res' hres hres'
  exact ⟨l, svd, res, res', hl, hlib, hres, hres', k1, k2 fun i j _ hj => absurd j.isLt (not_lt.mpr hj)⟩

end Modred
