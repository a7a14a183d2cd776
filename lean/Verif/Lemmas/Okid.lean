import Verif.Spec.Okid
import Verif.Model.Okid
import Mathlib.LinearAlgebra.Matrix.Charpoly.Coeff
import Mathlib.LinearAlgebra.Matrix.DotProduct
import Mathlib.Algebra.BigOperators.Intervals
import Mathlib.Logic.Equiv.Fin.Basic
import Mathlib.Algebra.Order.Star.Real

/-!
# Lemmas for OKID
-/

namespace Modred

open Matrix Finset

section Systems

variable {K : Type*} [Field K] {n m q : Nat} (A : Matrix (Fin n) (Fin n) K) (B : Matrix (Fin n) (Fin m) K)
  (C : Matrix (Fin q) (Fin n) K) (D : Matrix (Fin q) (Fin m) K) (u : Nat → Fin m → K)

theorem delay_state (i k : Nat) : delay i (restState A B u) k =
    A *ᵥ delay (i + 1) (restState A B u) k + B *ᵥ delay (i + 1) u k := by
  unfold delay
  by_cases h : i + 1 ≤ k
  · rw [if_pos h, if_pos h, if_pos (by omega), show k - i = (k - (i + 1)) + 1 by omega]
    rfl
  · rw [if_neg h, if_neg h]
    simp only [Matrix.mulVec_zero, add_zero]
    by_cases h' : i ≤ k
    · rw [if_pos h', show k - i = 0 by omega]
      rfl
    · rw [if_neg h']

theorem delay_output (i k : Nat) : delay i (restOutput A B C D u) k =
    C *ᵥ delay i (restState A B u) k + D *ᵥ delay i u k := by
  unfold delay
  split
  · rfl
  · simp

theorem delay_zero {X : Type*} [Zero X] (f : Nat → X) (k : Nat) : delay 0 f k = f k := by
  simp [delay]

theorem delay_output_expand (i l k : Nat) : delay i (restOutput A B C D u) k =
    ∑ j ∈ range (l + 1), markov A B C D j *ᵥ delay (i + j) u k + (C * A ^ l) *ᵥ delay (i + l) (restState A B u) k := by
  induction l with
  | zero =>
    rw [delay_output]
    simp [markov, add_comm]
  | succ l ih =>
    rw [ih, sum_range_succ _ (l + 1), delay_state A B u (i + l)]
    simp only [Matrix.mulVec_add, Matrix.mulVec_mulVec, markov, pow_succ, Matrix.mul_assoc, add_assoc]
    abel

theorem delay_output_Ico (i p k : Nat) (h : i ≤ p) : delay i (restOutput A B C D u) k =
    ∑ j ∈ Ico i (p + 1), markov A B C D (j - i) *ᵥ delay j u k +
      (C * A ^ (p - i)) *ᵥ delay p (restState A B u) k := by
  rw [delay_output_expand A B C D u i (p - i) k, sum_Ico_eq_sum_range, show p + 1 - i = p - i + 1 by omega,
    show i + (p - i) = p by omega]
  congr 1
  refine sum_congr rfl fun j _ => ?_
  rw [show i + j - i = j by omega]

/-- What is left over when outputs are explained by inputs and earlier outputs. -/
theorem residual (p k : Nat) (P : Nat → Matrix (Fin q) (Fin q) K) (Q : Nat → Matrix (Fin q) (Fin m) K) :
    restOutput A B C D u k - (Q 0 *ᵥ u k + ∑ i ∈ Ico 1 (p + 1), (Q i *ᵥ delay i u k +
      P i *ᵥ delay i (restOutput A B C D u) k)) =
    ∑ j ∈ range (p + 1), (markov A B C D j - Q j - ∑ i ∈ Ico 1 (j + 1), P i * markov A B C D (j - i)) *ᵥ delay j u k +
      (C * A ^ p - ∑ i ∈ Ico 1 (p + 1), P i * C * A ^ (p - i)) *ᵥ delay p (restState A B u) k := by
  have h0 := delay_output_Ico A B C D u 0 p k (Nat.zero_le _)
  rw [delay_zero, Nat.sub_zero] at h0
  have h1 : ∑ i ∈ Ico 1 (p + 1), P i *ᵥ delay i (restOutput A B C D u) k =
      ∑ j ∈ Ico 1 (p + 1), (∑ i ∈ Ico 1 (j + 1), P i * markov A B C D (j - i)) *ᵥ delay j u k +
        (∑ i ∈ Ico 1 (p + 1), P i * C * A ^ (p - i)) *ᵥ delay p (restState A B u) k := by
    simp only [Matrix.sum_mulVec]
    rw [← sum_Ico_Ico_comm, ← sum_add_distrib]
    refine sum_congr rfl fun i hi => ?_
    rw [delay_output_Ico A B C D u i p k (by rw [mem_Ico] at hi; omega), Matrix.mulVec_add, Matrix.mulVec_sum,
      Matrix.mulVec_mulVec, Matrix.mul_assoc]
    simp only [Matrix.mulVec_mulVec]
  have h2 : ∀ f : Nat → Fin q → K, ∑ j ∈ range (p + 1), f j = f 0 + ∑ j ∈ Ico 1 (p + 1), f j := by
    intro f
    rw [range_eq_Ico, sum_eq_sum_Ico_succ_bot (Nat.succ_pos p)]
  rw [h0, sum_add_distrib, h1, ← range_eq_Ico, h2, h2]
  simp only [Nat.sub_zero, Matrix.sub_mulVec, sum_sub_distrib, delay_zero, Ico_self, sum_empty, Matrix.zero_mulVec,
    zero_add, sub_zero]
  abel

/-- With a dead-beat observer the last power is a combination of the lower ones. -/
theorem explained_of_deadbeat (M : Matrix (Fin n) (Fin q) K) (p : Nat) (h : C * (A + M * C) ^ p = 0) :
    ∃ P : Nat → Matrix (Fin q) (Fin q) K, C * A ^ p = ∑ i ∈ Ico 1 (p + 1), P i * C * A ^ (p - i) := by
  have key : ∀ l, A ^ l = (A + M * C) ^ l - ∑ i ∈ Ico 1 (l + 1), (A + M * C) ^ (i - 1) * M * C * A ^ (l - i) := by
    intro l
    induction l with
    | zero => simp
    | succ l ih =>
      rw [sum_Ico_succ_top (by omega), pow_succ A l, Nat.add_sub_cancel, Nat.sub_self, pow_zero, Matrix.mul_one]
      have e : ∑ i ∈ Ico 1 (l + 1), (A + M * C) ^ (i - 1) * M * C * A ^ (l + 1 - i) =
          (∑ i ∈ Ico 1 (l + 1), (A + M * C) ^ (i - 1) * M * C * A ^ (l - i)) * A := by
        rw [Matrix.sum_mul]
        refine sum_congr rfl fun i hi => ?_
        rw [mem_Ico] at hi
        rw [show l + 1 - i = l - i + 1 by omega, pow_succ]
        simp only [Matrix.mul_assoc]
      rw [e]
      conv_lhs => rw [ih]
      rw [Matrix.sub_mul, pow_succ, Matrix.mul_add]
      simp only [Matrix.mul_assoc]
      abel
  refine ⟨fun i => -(C * (A + M * C) ^ (i - 1) * M), ?_⟩
  rw [key p, Matrix.mul_sub, h, zero_sub, Matrix.mul_sum, ← sum_neg_distrib]
  refine sum_congr rfl fun i _ => ?_
  simp only [Matrix.neg_mul, Matrix.mul_assoc]

/-- Every power from the order of the system on is a combination of the lower ones. -/
theorem explained_of_order (p : Nat) (h : n ≤ p) :
    ∃ P : Nat → Matrix (Fin q) (Fin q) K, C * A ^ p = ∑ i ∈ Ico 1 (p + 1), P i * C * A ^ (p - i) := by
  have hch := Matrix.aeval_self_charpoly A
  have hmon : (A.charpoly * Polynomial.X ^ (p - n)).Monic := (Matrix.charpoly_monic A).mul (Polynomial.monic_X_pow _)
  have hdeg : (A.charpoly * Polynomial.X ^ (p - n)).natDegree = p := by
    rw [(Matrix.charpoly_monic A).natDegree_mul (Polynomial.monic_X_pow _), Matrix.charpoly_natDegree_eq_dim,
      Polynomial.natDegree_X_pow, Fintype.card_fin]
    omega
  have h0 : Polynomial.aeval A (A.charpoly * Polynomial.X ^ (p - n)) = 0 := by
    rw [map_mul, hch, zero_mul]
  rw [Polynomial.aeval_eq_sum_range, hdeg, sum_range_succ] at h0
  have hlead : (A.charpoly * Polynomial.X ^ (p - n)).coeff p = 1 := by
    have := hmon.coeff_natDegree
    rwa [hdeg] at this
  rw [hlead, one_smul] at h0
  generalize (A.charpoly * Polynomial.X ^ (p - n)).coeff = c at h0
  refine ⟨fun i => -(c (p - i)) • (1 : Matrix (Fin q) (Fin q) K), ?_⟩
  rw [eq_neg_of_add_eq_zero_right h0, Matrix.mul_neg, Matrix.mul_sum, ← sum_neg_distrib, sum_Ico_eq_sum_range,
    Nat.add_sub_cancel, ← sum_range_reflect]
  refine sum_congr rfl fun i hi => ?_
  rw [mem_range] at hi
  have e : p - (1 + i) = p - 1 - i := by omega
  simp [e]

end Systems

/-! ### The data matrix -/

section Data

variable {𝕜 : Type*} [RCLike 𝕜] (cast : 𝕜 → 𝕜)

theorem sliceCols_le {n i : Nat} (h : i ≤ n) : sliceCols n i = n - i := by
  unfold sliceCols
  rw [if_pos h]

theorem okidData_ok (inputs outputs : Signals 𝕜) (num : Nat) (h : num ≤ inputs.samples) :
    ∃ V, okidData cast inputs outputs num = .ok V ∧
      (∀ r k, r < inputs.rows → V r k = cast (inputs.at_ r k)) ∧
      (∀ i j k, i < num → j < inputs.rows → V (inputs.rows + i * (inputs.rows + outputs.rows) + j) k =
        if i + 1 ≤ k then cast (inputs.at_ j (k - (i + 1))) else 0) ∧
      (∀ i j k, i < num → j < outputs.rows →
        V (inputs.rows + i * (inputs.rows + outputs.rows) + (inputs.rows + j)) k =
        if i + 1 ≤ k then cast (outputs.at_ j (k - (i + 1))) else 0) ∧
      ∀ r k, inputs.rows + num * (inputs.rows + outputs.rows) ≤ r → V r k = 0 := by
  induction num with
  | zero =>
    refine ⟨_, rfl, fun r k hr => if_pos hr, fun i j k hi => by omega, fun i j k hi => by omega, fun r k hr => if_neg (by omega)⟩
  | succ num ih =>
    obtain ⟨V, hV, h1, h2, h3, h4⟩ := ih (by omega)
    unfold okidData at hV ⊢
    rw [List.range'_1_concat, List.foldlM_append]
    dsimp only at hV ⊢
    rw [hV]
    have hs := sliceCols_le (show 1 + num ≤ inputs.samples by omega)
    refine ⟨_, show okidWrite _ _ _ _ _ _ _ >>= pure = _ by
      unfold okidWrite
      rw [if_pos (Or.inl hs), bind_pure], ?_⟩
    have e : inputs.rows + (num + 1) * (inputs.rows + outputs.rows) =
      inputs.rows + num * (inputs.rows + outputs.rows) + (inputs.rows + outputs.rows) := by ring
    have e1 : inputs.rows + (1 + num - 1) * (inputs.rows + outputs.rows) =
      inputs.rows + num * (inputs.rows + outputs.rows) := by rw [Nat.add_sub_cancel_left]
    have e2 : inputs.rows + (1 + num) * (inputs.rows + outputs.rows) =
      inputs.rows + num * (inputs.rows + outputs.rows) + (inputs.rows + outputs.rows) := by ring
    simp only [e1, e2, hs, if_true]
    have hmono : ∀ i, i < num → i * (inputs.rows + outputs.rows) + (inputs.rows + outputs.rows) ≤
        num * (inputs.rows + outputs.rows) := by
      intro i hi
      calc i * (inputs.rows + outputs.rows) + (inputs.rows + outputs.rows) = (i + 1) * (inputs.rows + outputs.rows) := by ring
        _ ≤ _ := Nat.mul_le_mul_right _ hi
    refine ⟨fun r k hr => ?_, fun i j k hi hj => ?_, fun i j k hi hj => ?_, fun r k hr => ?_⟩
    · rw [if_neg (by omega)]
      exact h1 r k hr
    · by_cases hin : i < num
      · have := hmono i hin
        rw [if_neg (by omega)]
        exact h2 i j k hin hj
      · obtain rfl : i = num := by omega
        rw [Nat.add_sub_cancel_left, if_pos hj, h4 _ _ (by omega), Nat.add_comm 1 i]
        by_cases hk : i + 1 ≤ k
        · rw [if_pos ⟨by omega, by omega, hk⟩, if_pos hk]
        · rw [if_neg (by omega), if_neg hk]
    · by_cases hin : i < num
      · have := hmono i hin
        rw [if_neg (by omega)]
        exact h3 i j k hin hj
      · obtain rfl : i = num := by omega
        rw [Nat.add_sub_cancel_left, if_neg (show ¬inputs.rows + j < inputs.rows by omega), h4 _ _ (by omega), Nat.add_comm 1 i,
          Nat.add_sub_cancel_left]
        by_cases hk : i + 1 ≤ k
        · rw [if_pos ⟨by omega, by omega, hk⟩, if_pos hk]
        · rw [if_neg (by omega), if_neg hk]
    · rw [e] at hr
      rw [if_neg (by omega)]
      exact h4 r k (by omega)

/-- The rows of the data matrix, by what they hold. -/
def rowEquiv (m q p : Nat) : Fin m ⊕ Fin p × (Fin m ⊕ Fin q) ≃ Fin (m + (m + q) * p) :=
  (((Equiv.refl _).sumCongr (((Equiv.refl _).prodCongr finSumFinEquiv).trans finProdFinEquiv)).trans finSumFinEquiv).trans
    (finCongr (by rw [Nat.mul_comm]))

theorem rowEquiv_inl (m q p : Nat) (j : Fin m) : (rowEquiv m q p (.inl j)).val = j.val := rfl

theorem rowEquiv_input (m q p : Nat) (i : Fin p) (j : Fin m) :
    (rowEquiv m q p (.inr (i, .inl j))).val = m + i.val * (m + q) + j.val := by
  change m + (j.val + (m + q) * i.val) = _
  ring

theorem rowEquiv_output (m q p : Nat) (i : Fin p) (j : Fin q) :
    (rowEquiv m q p (.inr (i, .inr j))).val = m + i.val * (m + q) + (m + j.val) := by
  change m + ((m + j.val) + (m + q) * i.val) = _
  ring

end Data

/-! ### The loop -/

section Loop

variable {𝕜 : Type*} [RCLike 𝕜] {q u : Nat}

theorem okidEstimates_eq (D : Matrix (Fin q) (Fin u) 𝕜) (input : Nat → Matrix (Fin q) (Fin u) 𝕜)
    (output : Nat → Matrix (Fin q) (Fin q) 𝕜) (num : Nat) (hnum : 0 < num) (G : Nat → Matrix (Fin q) (Fin u) 𝕜)
    (h0 : G 0 = D) (hG : ∀ k, 0 < k → k < num → G k = input k - ∑ i ∈ Ico 1 (k + 1), output i * G (k - i)) :
    okidEstimates id D input output num = (List.range num).map G := by
  unfold okidEstimates
  obtain ⟨l, rfl⟩ : ∃ l, num = l + 1 := ⟨num - 1, by omega⟩
  rw [Nat.add_sub_cancel]
  have key : ∀ l', l' ≤ l → (List.range' 1 l').foldl (fun est k => est ++ [(input k -
      (List.range' 1 k).foldl (fun sum i => sum + output i * est.getD (k - i) 0) 0).map id]) [D.map id] =
      (List.range (l' + 1)).map G := by
    intro l' hl'
    induction l' with
    | zero => simp [h0]
    | succ l' ih =>
      rw [List.range'_1_concat, List.foldl_append, ih (by omega), List.range_succ (n := l' + 1), List.map_append]
      simp only [List.foldl_cons, List.foldl_nil, List.map_cons, List.map_nil, Nat.add_comm 1 l']
      rw [hG (l' + 1) (by omega) (by omega), Matrix.map_id]
      congr 3
      have hsum : ∀ (c : Nat) (f g : Nat → Matrix (Fin q) (Fin u) 𝕜), (∀ i, 1 ≤ i → i ≤ c → f i = g i) →
          (List.range' 1 c).foldl (fun sum i => sum + f i) 0 = ∑ i ∈ Ico 1 (c + 1), g i := by
        intro c f g hfg
        induction c with
        | zero => simp
        | succ c ih =>
          rw [List.range'_1_concat, List.foldl_append, ih fun i h1 h2 => hfg i h1 (by omega),
            sum_Ico_succ_top (show 1 ≤ c + 1 by omega), ← hfg (c + 1) (by omega) (by omega)]
          simp [Nat.add_comm]
      refine hsum _ _ _ fun i h1 h2 => ?_
      rw [List.getD_eq_getElem?_getD, List.getElem?_map, List.getElem?_range (by omega)]
      rfl
  exact key l le_rfl

end Loop

/-! ### Coefficients of the regressors -/

section Coefficients

variable {K : Type*} [Field K] {m q p : Nat}

/-- Coefficients of the inputs. -/
def augInput (M : Matrix (Fin q) (Fin m ⊕ Fin p × (Fin m ⊕ Fin q)) K) : Nat → Matrix (Fin q) (Fin m) K
  | 0 => Matrix.of fun a j => M a (.inl j)
  | i + 1 => Matrix.of fun a j => if h : i < p then M a (.inr (⟨i, h⟩, .inl j)) else 0

/-- Coefficients of the outputs. -/
def augOutput (M : Matrix (Fin q) (Fin m ⊕ Fin p × (Fin m ⊕ Fin q)) K) : Nat → Matrix (Fin q) (Fin q) K
  | 0 => 0
  | i + 1 => Matrix.of fun a j => if h : i < p then M a (.inr (⟨i, h⟩, .inr j)) else 0

theorem fit_iff (M : Matrix (Fin q) (Fin m ⊕ Fin p × (Fin m ⊕ Fin q)) K) (u : Nat → Fin m → K) (y : Nat → Fin q → K)
    (N : Nat) : M * regressors u y p N = Matrix.of (fun a (k : Fin N) => y k a) ↔
    ∀ k < N, augInput M 0 *ᵥ u k + ∑ i ∈ Ico 1 (p + 1), (augInput M i *ᵥ delay i u k + augOutput M i *ᵥ delay i y k) =
      y k := by
  have key : ∀ (k : Fin N) a, (M * regressors u y p N) a k = (augInput M 0 *ᵥ u k +
      ∑ i ∈ Ico 1 (p + 1), (augInput M i *ᵥ delay i u k + augOutput M i *ᵥ delay i y k)) a := by
    intro k a
    rw [Matrix.mul_apply, Fintype.sum_sum_type, Fintype.sum_prod_type, Pi.add_apply, Finset.sum_apply,
      sum_Ico_eq_sum_range, Nat.add_sub_cancel, Finset.sum_range]
    congr 1
    refine sum_congr rfl fun i _ => ?_
    rw [Fintype.sum_sum_type, Pi.add_apply, Nat.add_comm 1 i.val]
    have h1 : ∀ j, augInput M (i.val + 1) a j = M a (.inr (i, .inl j)) := fun j => dif_pos i.isLt
    have h2 : ∀ j, augOutput M (i.val + 1) a j = M a (.inr (i, .inr j)) := fun j => dif_pos i.isLt
    unfold Matrix.mulVec dotProduct
    simp only [h1, h2]
    rfl
  constructor
  · intro h k hk
    funext a
    rw [← key ⟨k, hk⟩ a, h]
    rfl
  · intro h
    ext a k
    rw [key, h k k.isLt]
    rfl

/-- Coefficients given by matrices. -/
def augOf (p : Nat) (Q : Nat → Matrix (Fin q) (Fin m) K) (P : Nat → Matrix (Fin q) (Fin q) K) :
    Matrix (Fin q) (Fin m ⊕ Fin p × (Fin m ⊕ Fin q)) K :=
  Matrix.of fun a r => match r with
    | .inl j => Q 0 a j
    | .inr (i, .inl j) => Q (i + 1) a j
    | .inr (i, .inr j) => P (i + 1) a j

theorem augInput_augOf (Q : Nat → Matrix (Fin q) (Fin m) K) (P : Nat → Matrix (Fin q) (Fin q) K) (i : Nat) (h : i ≤ p) :
    augInput (augOf p Q P) i = Q i := by
  cases i with
  | zero => rfl
  | succ i =>
    ext a j
    exact dif_pos h

theorem augOutput_augOf (Q : Nat → Matrix (Fin q) (Fin m) K) (P : Nat → Matrix (Fin q) (Fin q) K) (i : Nat) (h : i + 1 ≤ p) :
    augOutput (augOf p Q P) (i + 1) = P (i + 1) := by
  ext a j
  exact dif_pos h

variable {n : Nat} (A : Matrix (Fin n) (Fin n) K) (B : Matrix (Fin n) (Fin m) K) (C : Matrix (Fin q) (Fin n) K)
  (D : Matrix (Fin q) (Fin m) K) (u : Nat → Fin m → K)

/-- If the last power is a combination of the lower ones, the regressors explain the outputs. -/
theorem fit_exists (p N : Nat) (P : Nat → Matrix (Fin q) (Fin q) K)
    (hP : C * A ^ p = ∑ i ∈ Ico 1 (p + 1), P i * C * A ^ (p - i)) :
    ∃ M, M * regressors u (restOutput A B C D u) p N = Matrix.of (fun a (k : Fin N) => restOutput A B C D u k a) ∧
      ∀ j ≤ p, markov A B C D j = augInput M j + ∑ i ∈ Ico 1 (j + 1), augOutput M i * markov A B C D (j - i) := by
  obtain ⟨Q, hQ⟩ : ∃ Q : Nat → Matrix (Fin q) (Fin m) K,
      ∀ j, Q j = markov A B C D j - ∑ i ∈ Ico 1 (j + 1), P i * markov A B C D (j - i) := ⟨_, fun _ => rfl⟩
  have h1 : ∀ i ≤ p, augInput (augOf p Q P) i = Q i := augInput_augOf Q P
  have h2 : ∀ j ≤ p, ∀ i ∈ Ico 1 (j + 1), augOutput (augOf p Q P) i = P i := by
    intro j hj i hi
    rw [mem_Ico] at hi
    obtain ⟨i, rfl⟩ : ∃ l, i = l + 1 := ⟨i - 1, by omega⟩
    exact augOutput_augOf Q P i (by omega)
  refine ⟨augOf p Q P, (fit_iff _ _ _ _).mpr fun k _ => ?_, fun j hj => ?_⟩
  · have := residual A B C D u p k P Q
    rw [hP, sub_self, Matrix.zero_mulVec, add_zero, sum_eq_zero (s := range (p + 1)), sub_eq_zero] at this
    · rw [this, h1 0 (Nat.zero_le _)]
      congr 1
      refine sum_congr rfl fun i hi => ?_
      rw [h2 p le_rfl i hi, h1 i (by rw [mem_Ico] at hi; omega)]
    · intro j _
      rw [hQ, sub_sub_cancel, sub_self, Matrix.zero_mulVec]
  · have e : ∑ i ∈ Ico 1 (j + 1), augOutput (augOf p Q P) i * markov A B C D (j - i) =
        ∑ i ∈ Ico 1 (j + 1), P i * markov A B C D (j - i) := sum_congr rfl fun i hi => by rw [h2 j hj i hi]
    rw [h1 j hj, hQ, e, sub_add_cancel]

/-- If inputs and states are rich enough, coefficients that explain the outputs determine the Markov parameters. -/
theorem markov_of_fit (p N : Nat) (M : Matrix (Fin q) (Fin m ⊕ Fin p × (Fin m ⊕ Fin q)) K)
    (hM : M * regressors u (restOutput A B C D u) p N = Matrix.of (fun a (k : Fin N) => restOutput A B C D u k a))
    (hrich : ∀ (E : Nat → Matrix (Fin q) (Fin m) K) (F : Matrix (Fin q) (Fin n) K),
      (∀ k < N, ∑ j ∈ range (p + 1), E j *ᵥ delay j u k + F *ᵥ delay p (restState A B u) k = 0) → ∀ j < p, E j = 0) :
    ∀ j < p, markov A B C D j = augInput M j + ∑ i ∈ Ico 1 (j + 1), augOutput M i * markov A B C D (j - i) := by
  rw [fit_iff] at hM
  intro j hj
  have := hrich _ _ (fun k hk => by
    rw [← residual A B C D u p k (augOutput M) (augInput M), hM k hk, sub_self]) j hj
  rw [sub_sub, sub_eq_zero] at this
  exact this

end Coefficients

theorem IsLstsq.fit {a b c : Nat} {V : Matrix (Fin b) (Fin a) ℝ} {Y : Matrix (Fin c) (Fin a) ℝ}
    {X : Matrix (Fin b) (Fin c) ℝ} (h : IsLstsq Vᴴ Yᵀ X) (M : Matrix (Fin c) (Fin b) ℝ) (hM : M * V = Y) : Xᴴ * V = Y := by
  have e : Yᵀ = Vᴴ * Mᴴ := by
    rw [← hM, ← conjTranspose_mul, Matrix.conjTranspose_eq_transpose_of_trivial]
  have h1 := h.normal
  rw [e, ← sub_eq_zero, ← Matrix.mul_sub, ← Matrix.mul_sub, ← Matrix.mul_assoc, conjTranspose_mul_self_mul_eq_zero,
    Matrix.mul_sub, sub_eq_zero, ← conjTranspose_mul] at h1
  have := congrArg conjTranspose h1
  rwa [conjTranspose_mul, conjTranspose_conjTranspose, conjTranspose_conjTranspose, hM] at this

end Modred
