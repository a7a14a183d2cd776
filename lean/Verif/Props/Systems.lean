import Verif.Model.Systems
import Verif.Spec.Okid
import Mathlib.LinearAlgebra.Matrix.Charpoly.Coeff
import Mathlib.Analysis.SpecificLimits.Basic
import Mathlib.Topology.Instances.Matrix

/-!
# Random systems (C48) and simulation (C41)
-/

namespace Modred

open Matrix Polynomial

/-! ### C48 -/

/-- The roots of the characteristic polynomial of `a`, counted with multiplicity, are the numbers `w`; `a` is similar to a
diagonal array. -/
def HasEigenvalues {n : Nat} (a : Matrix (Fin n) (Fin n) ℝ) (w : Fin n → ℝ) : Prop :=
  a.charpoly = ∏ i, (X - C (w i)) ∧ ∃ T T' : Matrix (Fin n) (Fin n) ℝ, T' * T = 1 ∧ a = T' * diagonal w * T

theorem hasEigenvalues_similar {n : Nat} (T : Matrix (Fin n) (Fin n) ℝ) (hT : IsUnit T.det) (w : Fin n → ℝ) :
    HasEigenvalues (T⁻¹ * diagonal w * T) w := by
  have h1 : T⁻¹ * T = 1 := nonsing_inv_mul T hT
  have h2 : T * T⁻¹ = 1 := mul_nonsing_inv T hT
  refine ⟨?_, T, T⁻¹, h1, rfl⟩
  rw [Matrix.mul_assoc, charpoly_mul_comm, Matrix.mul_assoc, h2, Matrix.mul_one, charpoly_diagonal]

/-- What the eigenvalues say: all complex eigenvalues are among them, and all of them are eigenvalues. -/
theorem HasEigenvalues.complex {n : Nat} {a : Matrix (Fin n) (Fin n) ℝ} {w : Fin n → ℝ} (h : HasEigenvalues a w) (z : ℂ) :
    (∃ x : Fin n → ℂ, x ≠ 0 ∧ a.map (algebraMap ℝ ℂ) *ᵥ x = z • x) ↔ ∃ i, z = w i := by
  obtain ⟨-, T, T', h1, rfl⟩ := h
  have h2 : T * T' = 1 := mul_eq_one_comm.mp h1
  set M := T.map (algebraMap ℝ ℂ) with hM
  set M' := T'.map (algebraMap ℝ ℂ) with hM'
  have g1 : M' * M = 1 := by rw [hM, hM', ← Matrix.map_mul, h1, Matrix.map_one _ (map_zero _) (map_one _)]
  have g2 : M * M' = 1 := by rw [hM, hM', ← Matrix.map_mul, h2, Matrix.map_one _ (map_zero _) (map_one _)]
  have g3 : (T' * diagonal w * T).map (algebraMap ℝ ℂ) = M' * diagonal (fun i => (w i : ℂ)) * M := by
    rw [Matrix.map_mul, Matrix.map_mul, diagonal_map (map_zero _)]
    rfl
  rw [g3]
  constructor
  · rintro ⟨x, hx, hz⟩
    have hy : M *ᵥ x ≠ 0 := by
      intro h0
      apply hx
      have := congrArg (M' *ᵥ ·) h0
      simpa [mulVec_mulVec, g1] using this
    obtain ⟨i, hi⟩ : ∃ i, (M *ᵥ x) i ≠ 0 := by
      by_contra hall
      push Not at hall
      exact hy (funext hall)
    refine ⟨i, ?_⟩
    have : (M *ᵥ ((M' * diagonal (fun i => (w i : ℂ)) * M) *ᵥ x)) i = (M *ᵥ (z • x)) i := by rw [hz]
    rw [mulVec_mulVec, ← Matrix.mul_assoc, ← Matrix.mul_assoc, g2, Matrix.one_mul, ← mulVec_mulVec, mulVec_diagonal,
      mulVec_smul, Pi.smul_apply, smul_eq_mul] at this
    exact (mul_right_cancel₀ hi this).symm
  · rintro ⟨i, rfl⟩
    refine ⟨M' *ᵥ Pi.single i 1, ?_, ?_⟩
    · intro h0
      have : (M *ᵥ (M' *ᵥ Pi.single i 1)) i = (M *ᵥ (0 : Fin n → ℂ)) i := by rw [h0]
      rw [mulVec_mulVec, g2, one_mulVec, mulVec_zero, Pi.single_eq_same] at this
      exact one_ne_zero this
    · rw [mulVec_mulVec, Matrix.mul_assoc, g2, Matrix.mul_one, ← mulVec_mulVec, ← mulVec_smul]
      congr 1
      ext j
      rw [mulVec_diagonal, Pi.smul_apply, smul_eq_mul]
      by_cases hj : j = i
      · subst hj; rfl
      · simp [Pi.single_eq_of_ne hj]

theorem linspace_mem {n : Nat} (a b : ℝ) (hab : a ≤ b) (i : Fin n) : a ≤ linspace a b n i ∧ linspace a b n i ≤ b := by
  unfold linspace
  split
  · exact ⟨le_rfl, hab⟩
  rename_i h
  have hi := i.isLt
  have h1 : (0 : ℝ) < ((n - 1 : Nat) : ℝ) := by exact_mod_cast (by omega : 0 < n - 1)
  have h2 : (i.val : ℝ) ≤ ((n - 1 : Nat) : ℝ) := by exact_mod_cast (by omega : i.val ≤ n - 1)
  have h3 : 0 ≤ (i.val : ℝ) / ((n - 1 : Nat) : ℝ) := by positivity
  have h4 : (i.val : ℝ) / ((n - 1 : Nat) : ℝ) ≤ 1 := by rw [div_le_one h1]; exact h2
  constructor <;> nlinarith

section C48

variable {n p q : Nat}

/-- **C48, discrete time.** Whatever the random generator returns, if the array of eigenvectors is invertible, `drss` returns
a system with the given numbers of states, inputs and outputs, the random `B` and `C`, and a state matrix with eigenvalues
equally spaced from 0.2 to 0.95 (0.2 if there is one state). -/
theorem C48_drss (V : Matrix (Fin n) (Fin n) ℝ) (B : Matrix (Fin n) (Fin p) ℝ) (C : Matrix (Fin q) (Fin n) ℝ)
    (hV : IsUnit V.det) : ∃ (A : Matrix (Fin n) (Fin n) ℝ) (w : Fin n → ℝ), drss V B C = .ok ⟨n, p, q, A, B, C⟩ ∧
      HasEigenvalues A w ∧ (∀ i, 0.2 ≤ w i ∧ w i ≤ 0.95) ∧
      (∀ i, i.val = 0 → w i = 0.2) ∧ (∀ i, 2 ≤ n → i.val + 1 = n → w i = 0.95) ∧
      ∀ i j k l : Fin n, i.val + 1 = j.val → k.val + 1 = l.val → w j - w i = w l - w k := by
  refine ⟨V⁻¹ * (diagonal (linspace 0.2 0.95 n) * V), linspace 0.2 0.95 n, ?_, ?_, ?_, ?_, ?_, ?_⟩
  · unfold drss inv
    rw [if_pos hV]
  · rw [← Matrix.mul_assoc]
    exact hasEigenvalues_similar V hV _
  · exact fun i => linspace_mem _ _ (by norm_num) i
  · intro i hi
    unfold linspace
    split
    · rfl
    · simp [hi]
  · intro i hn hi
    unfold linspace
    rw [if_neg (by omega), show i.val = n - 1 by omega, div_self]
    · norm_num
    · exact_mod_cast (by omega : n - 1 ≠ 0)
  · intro i j k l hij hkl
    have := j.isLt
    unfold linspace
    rw [if_neg (by omega), if_neg (by omega), if_neg (by omega), if_neg (by omega), ← hij, ← hkl]
    push_cast
    ring

/-- **C48, discrete time.** The system is stable: the powers of its state matrix tend to zero, and all complex
eigenvalues are real and in [0.2, 0.95]. -/
theorem C48_drss_stable (V : Matrix (Fin n) (Fin n) ℝ) (B : Matrix (Fin n) (Fin p) ℝ) (C : Matrix (Fin q) (Fin n) ℝ)
    (m : LtiModel ℝ) (h : drss V B C = .ok m) :
    Filter.Tendsto (fun k => m.A ^ k) Filter.atTop (nhds 0) ∧
    ∀ (z : ℂ) (x : Fin m.r → ℂ), x ≠ 0 → m.A.map (algebraMap ℝ ℂ) *ᵥ x = z • x → ∃ w : ℝ, z = w ∧ 0.2 ≤ w ∧ w ≤ 0.95 := by
  have hV : IsUnit V.det := by
    by_contra hV
    unfold drss inv at h
    rw [if_neg hV] at h
    cases h
  obtain ⟨A, w, hok, hA, hw, -⟩ := C48_drss V B C hV
  rw [hok] at h
  cases h
  dsimp only
  refine ⟨?_, fun z x hx hz => ?_⟩
  · obtain ⟨-, T, T', h1, rfl⟩ := hA
    have h2 : T * T' = 1 := mul_eq_one_comm.mp h1
    have hk : ∀ k : Nat, (T' * diagonal w * T) ^ k = T' * diagonal (fun i => w i ^ k) * T := by
      intro k
      induction k with
      | zero => simp [h1]
      | succ k ih =>
        rw [pow_succ, ih]
        rw [show T' * diagonal (fun i => w i ^ k) * T * (T' * diagonal w * T) =
          T' * diagonal (fun i => w i ^ k) * (T * T') * diagonal w * T by simp only [Matrix.mul_assoc]]
        rw [h2, Matrix.mul_one, Matrix.mul_assoc T', diagonal_mul_diagonal]
        rfl
    simp only [hk]
    have hd : Filter.Tendsto (fun k : Nat => diagonal (fun i => w i ^ k)) Filter.atTop
        (nhds (0 : Matrix (Fin n) (Fin n) ℝ)) := by
      refine tendsto_pi_nhds.mpr fun i => tendsto_pi_nhds.mpr fun j => ?_
      by_cases hij : i = j
      · subst hij
        simp only [diagonal_apply_eq]
        refine tendsto_pow_atTop_nhds_zero_of_lt_one (le_trans (by norm_num) (hw i).1) (lt_of_le_of_lt (hw i).2 (by norm_num))
      · simp only [diagonal_apply_ne _ hij]
        exact tendsto_const_nhds
    have := (hd.const_mul T').mul_const T
    simpa using this
  · obtain ⟨i, hi⟩ := (hA.complex z).mp ⟨x, hx, hz⟩
    exact ⟨w i, hi, hw i⟩

/-- **C48, continuous time.** Whatever numbers in [0, 1) the random generator returns, if the transformation is invertible,
`rss` returns a system with eigenvalues in (-1, 0], all complex ones included. -/
theorem C48_rss (random : Fin n → ℝ) (hrand : ∀ i, 0 ≤ random i ∧ random i < 1) (T : Matrix (Fin n) (Fin n) ℝ)
    (B : Matrix (Fin n) (Fin p) ℝ) (C : Matrix (Fin q) (Fin n) ℝ) (hT : IsUnit T.det) :
    ∃ (A : Matrix (Fin n) (Fin n) ℝ) (w : Fin n → ℝ), rss random T B C = .ok ⟨n, p, q, A, B, C⟩ ∧
      HasEigenvalues A w ∧ (∀ i, -1 < w i ∧ w i ≤ 0) ∧ (∀ i, w i = 0 ↔ random i = 0) ∧
      ∀ (z : ℂ) (x : Fin n → ℂ), x ≠ 0 → A.map (algebraMap ℝ ℂ) *ᵥ x = z • x → ∃ i, z = w i := by
  have h := hasEigenvalues_similar T hT (fun j => -random j)
  refine ⟨T⁻¹ * diagonal (fun j => -random j) * T, fun j => -random j, ?_, h, fun i => ?_, by simp, fun z x hx hz => ?_⟩
  · unfold rss inv
    rw [if_pos hT]
  · obtain ⟨h1, h2⟩ := hrand i
    constructor <;> linarith
  · exact (h.complex z).mp ⟨x, hx, hz⟩

/-- **C48, errors.** The only exception is LinAlgError, and it is raised exactly if the random array is not invertible. -/
theorem C48_errors (random : Fin n → ℝ) (V : Matrix (Fin n) (Fin n) ℝ) (B : Matrix (Fin n) (Fin p) ℝ)
    (C : Matrix (Fin q) (Fin n) ℝ) (e : Err) :
    (drss V B C = .error e ↔ e = .linAlgError ∧ ¬IsUnit V.det) ∧
    (rss random V B C = .error e ↔ e = .linAlgError ∧ ¬IsUnit V.det) := by
  unfold drss rss inv
  by_cases h : IsUnit V.det
  · rw [if_pos h]
    exact ⟨⟨fun h' => (by cases h'), fun h' => absurd h h'.2⟩, ⟨fun h' => (by cases h'), fun h' => absurd h h'.2⟩⟩
  · rw [if_neg h]
    exact ⟨⟨fun h' => (by cases h'; exact ⟨rfl, h⟩), fun h' => by rw [h'.1]⟩,
      ⟨fun h' => (by cases h'; exact ⟨rfl, h⟩), fun h' => by rw [h'.1]⟩⟩

end C48

/-- The hypotheses can be met: two states, an invertible array that is not diagonal. -/
example : IsUnit (!![1, 2; 3, 4] : Matrix (Fin 2) (Fin 2) ℝ).det ∧
    ∀ i, 0 ≤ (![0, 1 / 2] : Fin 2 → ℝ) i ∧ (![0, 1 / 2] : Fin 2 → ℝ) i < 1 := by
  refine ⟨?_, fun i => ?_⟩
  · rw [det_fin_two_of]
    norm_num
  · fin_cases i <;> norm_num

/-! ### C41 -/

section C41

variable {K : Type*} [Field K] {n p q : Nat} (A : Matrix (Fin n) (Fin n) K) (B : Matrix (Fin n) (Fin p) K)
  (C : Matrix (Fin q) (Fin n) K)

theorem dlsimLoop_length (s : StateSpace K n p q) (x : Fin n → K) (us : List (Fin p → K)) :
    (dlsimLoop s x us).length = us.length := by
  induction us generalizing x with
  | nil => rfl
  | cons u us ih => simp [dlsimLoop, ih]

theorem dlsimLoop_getElem (s : StateSpace K n p q) (us : List (Fin p → K)) (x : Nat → Fin n → K)
    (hx : ∀ k, k < us.length → x (k + 1) = s.A *ᵥ x k + s.B *ᵥ us.getD k 0) (k : Nat) (hk : k < us.length) :
    (dlsimLoop s (x 0) us).getD k 0 = s.C *ᵥ x k + s.D *ᵥ us.getD k 0 := by
  induction us generalizing x k with
  | nil => simp at hk
  | cons u us ih =>
    cases k with
    | zero => simp [dlsimLoop]
    | succ k =>
      have h1 := hx 0 (by simp)
      rw [List.getD_cons_zero] at h1
      rw [dlsimLoop, ← h1, List.getD_cons_succ, List.getD_cons_succ]
      exact ih (fun k => x (k + 1)) (fun k hk => by
        have := hx (k + 1) (by simpa using hk)
        rwa [List.getD_cons_succ] at this) k (by simpa using hk)

/-- The states, written out. -/
theorem states_closed_form (x : Nat → Fin n → K) (u : Nat → Fin p → K) (N : Nat)
    (hx : ∀ k, k < N → x (k + 1) = A *ᵥ x k + B *ᵥ u k) (k : Nat) (hk : k ≤ N) :
    x k = A ^ k *ᵥ x 0 + ∑ j ∈ Finset.range k, (A ^ (k - 1 - j) * B) *ᵥ u j := by
  induction k with
  | zero => simp
  | succ k ih =>
    rw [hx k (by omega), ih (by omega), mulVec_add, mulVec_mulVec, ← pow_succ', Finset.sum_range_succ, add_assoc]
    congr 1
    rw [mulVec_sum]
    congr 1
    · refine Finset.sum_congr rfl fun j hj => ?_
      rw [Finset.mem_range] at hj
      rw [mulVec_mulVec, ← Matrix.mul_assoc, ← pow_succ', show k + 1 - 1 - j = k - 1 - j + 1 by omega]
    · simp

theorem exists_states (x0 : Fin n → K) (u : Nat → Fin p → K) :
    ∃ x : Nat → Fin n → K, x 0 = x0 ∧ ∀ k, x (k + 1) = A *ᵥ x k + B *ᵥ u k :=
  ⟨fun k => Nat.rec x0 (fun k xk => A *ᵥ xk + B *ᵥ u k) k, rfl, fun _ => rfl⟩

/-- **C41, simulation.** For at least one time step, `lsim` returns one output for each time step, and these are `C x k` for
all states with `x 0` the initial condition (zero if none is given) and `x (k+1) = A x k + B u k`. -/
theorem C41_lsim (us : List (Fin p → K)) (hus : us ≠ []) (x0 : Option (Fin n → K)) :
    ∃ ys, lsim A B C (.d2 p us) x0 = .ok ys ∧ ys.length = us.length ∧
      ∀ x : Nat → Fin n → K, x 0 = x0.getD 0 → (∀ k, k + 1 < us.length → x (k + 1) = A *ᵥ x k + B *ᵥ us.getD k 0) →
        ∀ k, k < us.length → ys.getD k 0 = C *ᵥ x k := by
  have hlen : us.length ≠ 0 := by simpa using hus
  refine ⟨dlsimLoop ⟨A, B, C, 0⟩ (x0.getD 0) us, ?_, dlsimLoop_length _ _ _, ?_⟩
  · unfold lsim dlsim
    dsimp only
    rw [if_neg hlen, dif_pos rfl]
    congr 2
    simp
  · intro x h0 hx k hk
    have := dlsimLoop_getElem ⟨A, B, C, 0⟩ us
      (fun k => if k < us.length then x k else A *ᵥ x (k - 1) + B *ᵥ us.getD (k - 1) 0) (fun k hk => by
        dsimp only
        rw [if_pos hk]
        split
        · exact hx k (by assumption)
        · rfl) k hk
    dsimp only at this
    rw [if_pos (by omega), if_pos hk, h0, zero_mulVec, add_zero] at this
    exact this

/-- **C41, simulation.** The outputs, written out: the response to the initial condition and the sum of the responses to the
inputs. -/
theorem C41_superposition (us : List (Fin p → K)) (x0 : Option (Fin n → K)) (ys : List (Fin q → K))
    (h : lsim A B C (.d2 p us) x0 = .ok ys) (k : Nat) (hk : k < us.length) :
    ys.getD k 0 = (C * A ^ k) *ᵥ x0.getD 0 + ∑ j ∈ Finset.range k, (C * A ^ (k - 1 - j) * B) *ᵥ us.getD j 0 := by
  have hus : us ≠ [] := by rintro rfl; simp at hk
  obtain ⟨ys', h1, -, h2⟩ := C41_lsim A B C us hus x0
  rw [h] at h1
  cases h1
  obtain ⟨x, hx0, hx⟩ := exists_states A B (x0.getD 0) (fun k => us.getD k 0)
  rw [h2 x hx0 (fun k _ => hx k) k hk, states_closed_form A B x _ k (fun k _ => hx k) k le_rfl, hx0, mulVec_add, mulVec_mulVec,
    mulVec_sum]
  congr 1
  refine Finset.sum_congr rfl fun j _ => ?_
  rw [mulVec_mulVec, Matrix.mul_assoc]

/-- **C41, simulation.** A signal of one dimension is one input. -/
theorem C41_one_dimension (B : Matrix (Fin n) (Fin 1) K) (us : List K) (x0 : Option (Fin n → K)) :
    lsim A B C (.d1 us) x0 = lsim A B C (.d2 1 (us.map fun v _ => v)) x0 := by
  unfold lsim dlsim
  simp only [List.length_map, List.map_map]
  rfl

/-- **C41, errors.** The only exceptions are IndexError if there is no time step, and otherwise ValueError if the number of
inputs does not fit. -/
theorem C41_errors (num : Nat) (us : List (Fin num → K)) (us1 : List K) (x0 : Option (Fin n → K)) (e : Err) :
    (lsim A B C (.d2 num us) x0 = .error e ↔
      us = [] ∧ e = .indexError ∨ us ≠ [] ∧ num ≠ p ∧ e = .valueError) ∧
    (lsim A B C (.d1 us1) x0 = .error e ↔
      us1 = [] ∧ e = .indexError ∨ us1 ≠ [] ∧ p ≠ 1 ∧ e = .valueError) := by
  unfold lsim dlsim
  dsimp only
  constructor
  · by_cases h1 : us = []
    · simp [h1, eq_comm]
    · by_cases h2 : p = num
      · simp [h1, h2]
      · have h3 : us.length ≠ 0 := by simpa using h1
        rw [if_neg h3, dif_neg h2]
        simp [h1, Ne.symm h2, eq_comm]
  · by_cases h1 : us1 = []
    · simp [h1, eq_comm]
    · by_cases h2 : p = 1
      · simp [h1, h2]
      · have h3 : us1.length ≠ 0 := by simpa using h1
        rw [if_neg h3, if_neg h2]
        simp [h1, h2, eq_comm]

/-- **C41, impulse response.** `impulse` returns as many arrays as time steps asked for, 99 if no number is given, and the array
at position `k` is `C A^k B`. -/
theorem C41_impulse (num : Option Nat) :
    (impulse A B C num).length = num.getD 99 ∧
    ∀ k, k < num.getD 99 → (impulse A B C num).getD k 0 = C * A ^ k * B := by
  have key : ∀ N : Nat, ∀ k, k < N →
      (((List.range (N + 1)).map fun t => Matrix.of fun i (j : Fin p) =>
        ((dimpulse ⟨A, B, C, 0⟩ (N + 1)).getD j []).getD t 0 i).drop 1).getD k 0 = C * A ^ k * B := by
    intro N k hk
    rw [List.getD_eq_getElem?_getD, List.getElem?_drop, List.getElem?_map, List.getElem?_range (by omega), Option.map_some,
      Option.getD_some]
    ext i j
    rw [Matrix.of_apply]
    unfold dimpulse
    rw [List.getD_eq_getElem?_getD (l := List.map _ _), List.getElem?_map,
      List.getElem?_eq_getElem (by simp : j.val < (List.finRange p).length), List.getElem_finRange, Option.map_some,
      Option.getD_some, show Fin.cast (List.length_finRange (n := p)) ⟨j.val, by simp⟩ = j from rfl]
    set us : List (Fin p → K) := (List.range (N + 1)).map fun t i => if t = 0 ∧ i = j then 1 else 0 with hus
    have hlen : us.length = N + 1 := by simp [hus]
    have hu : ∀ t, t < N + 1 → us.getD t 0 = if t = 0 then Pi.single j 1 else 0 := by
      intro t ht
      rw [hus, List.getD_eq_getElem?_getD, List.getElem?_map, List.getElem?_range ht, Option.map_some, Option.getD_some]
      ext i
      by_cases h0 : t = 0
      · subst h0
        by_cases hi : i = j
        · subst hi; simp
        · simp [hi]
      · simp [h0]
    obtain ⟨x, hx0, hx⟩ := exists_states A B 0 (fun k => us.getD k 0)
    have h1 := dlsimLoop_getElem ⟨A, B, C, 0⟩ us x (fun k _ => hx k) (1 + k) (by omega)
    rw [hx0] at h1
    rw [h1]
    dsimp only
    rw [zero_mulVec, add_zero, states_closed_form A B x _ (1 + k) (fun k _ => hx k) (1 + k) le_rfl, hx0, mulVec_zero, zero_add,
      Finset.sum_eq_single_of_mem 0 (Finset.mem_range.mpr (by omega)) (fun t ht h0 => by
        rw [hu t (by have := Finset.mem_range.mp ht; omega), if_neg h0, mulVec_zero])]
    rw [hu 0 (by omega), if_pos rfl, show 1 + k - 1 - 0 = k by omega, mulVec_mulVec, ← Matrix.mul_assoc, mulVec_single_one]
    rfl
  cases num with
  | none =>
    refine ⟨by simp [impulse], fun k hk => ?_⟩
    exact key 99 k hk
  | some m =>
    refine ⟨by simp [impulse], fun k hk => ?_⟩
    exact key m k hk

/-- **C41, impulse response.** It consists of the outputs that `lsim` returns without input from the columns of `B`. -/
theorem C41_impulse_lsim (num N : Nat) (hN : num < N) (j : Fin p) (i : Fin q) (ys : List (Fin q → K))
    (h : lsim A B C (.d2 p (List.replicate N 0)) (some fun l => B l j) = .ok ys) (k : Nat) (hk : k < num) :
    ((impulse A B C (some num)).getD k 0) i j = ys.getD k 0 i := by
  rw [(C41_impulse A B C (some num)).2 k hk, C41_superposition A B C _ _ ys h k (by simp; omega)]
  rw [Finset.sum_eq_zero (fun t ht => by
    rw [List.getD_eq_getElem?_getD, List.getElem?_replicate]
    split <;> simp), add_zero]
  rfl

end C41

/-- Time steps of a system with two states, one input and one output. -/
example : lsim (!![1, 1; 0, 1] : Matrix (Fin 2) (Fin 2) ℚ) !![0; 1] !![1, 0] (.d1 [1, 2, 3]) none =
    .ok [![0], ![0], ![1]] := by
  simp [lsim, dlsim, dlsimLoop]
  refine ⟨?_, ?_, ?_⟩ <;> ext i <;> fin_cases i <;> simp [vecHead, vecTail]

example : lsim (!![1, 1; 0, 1] : Matrix (Fin 2) (Fin 2) ℚ) !![0; 1] !![1, 0] (.d2 1 [![1], ![2]]) (some ![5, 7]) =
    .ok [![5], ![12]] := by
  simp [lsim, dlsim, dlsimLoop]
  constructor <;> ext i <;> fin_cases i <;> norm_num [vecHead, vecTail]

example : (impulse (!![1, 1; 0, 1] : Matrix (Fin 2) (Fin 2) ℚ) !![0; 1] !![1, 0] (some 3)).getD 2 0 = !![2] := by
  rw [(C41_impulse _ _ _ _).2 2 (by simp)]
  ext i j
  fin_cases i
  fin_cases j
  simp [sq]
  norm_num

end Modred
