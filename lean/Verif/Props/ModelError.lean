import Verif.Lemmas.TruncatedModel
import Verif.Props.EraBpod

/-!
# Errors and stability of models of the eigensystem realization algorithm (C105)
-/

namespace Modred

open Matrix

variable {𝕜 : Type*} [RCLike 𝕜]

/-! ### Shifts -/

/-- The entry with number `a`, zero beyond the end. -/
def entryAt {m : Nat} (y : Fin m → 𝕜) (a : Nat) : 𝕜 := if h : a < m then y ⟨a, h⟩ else 0

theorem entryAt_val {m : Nat} (y : Fin m → 𝕜) (i : Fin m) : entryAt y i = y i := dif_pos i.isLt

theorem sum_entryAt {m : Nat} (y : Fin m → 𝕜) (a : Nat) :
    ∑ j : Fin m, (if j.val = a then (1 : 𝕜) else 0) * y j = entryAt y a := by
  unfold entryAt
  split
  · rename_i h
    rw [Finset.sum_eq_single ⟨a, h⟩]
    · simp
    · intro j _ hj
      rw [if_neg fun e => hj (Fin.ext e), zero_mul]
    · intro hj; exact absurd (Finset.mem_univ _) hj
  · rename_i h
    refine Finset.sum_eq_zero fun j _ => ?_
    have := j.isLt
    rw [if_neg (by omega), zero_mul]

theorem sum_entryAt' {m : Nat} (y : Fin m → 𝕜) (a : Nat) :
    ∑ j : Fin m, y j * (if j.val = a then (1 : 𝕜) else 0) = entryAt y a := by
  rw [← sum_entryAt]
  exact Finset.sum_congr rfl fun _ _ => mul_comm _ _

/-- Moves entries `d` places forward. -/
def shiftUp (𝕜 : Type*) [RCLike 𝕜] (m d : Nat) : Matrix (Fin m) (Fin m) 𝕜 :=
  Matrix.of fun i j => if j.val = i.val + d then 1 else 0

/-- Moves entries `d` places back. -/
def shiftDown (𝕜 : Type*) [RCLike 𝕜] (m d : Nat) : Matrix (Fin m) (Fin m) 𝕜 :=
  Matrix.of fun i j => if i.val = j.val + d then 1 else 0

/-- Selects the first entries. -/
def headRows (𝕜 : Type*) [RCLike 𝕜] (q m : Nat) : Matrix (Fin q) (Fin m) 𝕜 :=
  Matrix.of fun i j => if j.val = i.val then 1 else 0

def headCols (𝕜 : Type*) [RCLike 𝕜] (m p : Nat) : Matrix (Fin m) (Fin p) 𝕜 :=
  Matrix.of fun i j => if i.val = j.val then 1 else 0

theorem shiftUp_mulVec {m d : Nat} (y : Fin m → 𝕜) (i : Fin m) : (shiftUp 𝕜 m d *ᵥ y) i = entryAt y (i + d) :=
  sum_entryAt y _

theorem headRows_mulVec {q m : Nat} (y : Fin m → 𝕜) (i : Fin q) : (headRows 𝕜 q m *ᵥ y) i = entryAt y i :=
  sum_entryAt y _

theorem shiftUp_pow {m d : Nat} (k : Nat) (y : Fin m → 𝕜) (i : Fin m) :
    (shiftUp 𝕜 m d ^ k *ᵥ y) i = entryAt y (i + k * d) := by
  induction k generalizing i with
  | zero => rw [pow_zero, one_mulVec, Nat.zero_mul, Nat.add_zero, entryAt_val]
  | succ k ih =>
    have e' : (k + 1) * d = d + k * d := by ring
    rw [pow_succ', ← mulVec_mulVec, shiftUp_mulVec, e', ← Nat.add_assoc, entryAt]
    split
    · rw [ih]
    · rw [entryAt, dif_neg (by omega)]

theorem shiftUp_nilpotent {m d n : Nat} (h : m ≤ d * n) : shiftUp 𝕜 m d ^ n = 0 := by
  refine Matrix.ext_of_mulVec_single fun j => ?_
  funext i
  rw [shiftUp_pow, zero_mulVec]
  unfold entryAt
  rw [dif_neg]
  · rfl
  · rw [Nat.mul_comm n d]; omega

/-- Sums over a range. -/
theorem sumSquares_range {m : Nat} (y : Fin m → 𝕜) (b : Nat) (hb : m ≤ b) :
    sumSquares y = ∑ a ∈ Finset.range b, ‖entryAt y a‖ ^ 2 := by
  obtain ⟨d, rfl⟩ := Nat.exists_eq_add_of_le hb
  rw [Finset.sum_range_add]
  have h0 : ∑ x ∈ Finset.range d, ‖entryAt y (m + x)‖ ^ 2 = 0 := Finset.sum_eq_zero fun x _ => by
    unfold entryAt
    rw [dif_neg (by omega)]
    simp
  rw [h0, add_zero, Finset.sum_range]
  exact Finset.sum_congr rfl fun i _ => by rw [entryAt_val]

theorem shift_obs {m d : Nat} (y : Fin m → 𝕜) :
    sumSquares (shiftUp 𝕜 m d *ᵥ y) + sumSquares (headRows 𝕜 (min d m) m *ᵥ y) ≤ sumSquares y := by
  rw [sumSquares_range y (d + m) (by omega), Finset.sum_range_add, add_comm]
  refine add_le_add ?_ ?_
  · rw [sumSquares_range (headRows 𝕜 (min d m) m *ᵥ y) d (Nat.min_le_left _ _)]
    refine Finset.sum_le_sum fun a _ => ?_
    by_cases h : a < min d m
    · have : entryAt (headRows 𝕜 (min d m) m *ᵥ y) a = entryAt y a := by
        rw [entryAt, dif_pos h, headRows_mulVec]
      rw [this]
    · rw [entryAt, dif_neg h]
      simp only [norm_zero, ne_eq, OfNat.ofNat_ne_zero, not_false_eq_true, zero_pow]
      positivity
  · unfold sumSquares
    rw [Finset.sum_range]
    refine le_of_eq (Finset.sum_congr rfl fun i _ => ?_)
    rw [shiftUp_mulVec, Nat.add_comm]

theorem shift_ctrl {m d : Nat} (z : Fin m → 𝕜) (u : Fin (min d m) → 𝕜) :
    sumSquares (shiftDown 𝕜 m d *ᵥ z + headCols 𝕜 m (min d m) *ᵥ u) ≤ sumSquares z + sumSquares u := by
  have h1 : ∀ i : Fin m, (shiftDown 𝕜 m d *ᵥ z + headCols 𝕜 m (min d m) *ᵥ u) i =
      if i.val < d then entryAt u i else entryAt z (i - d) := by
    intro i
    have e2 : (headCols 𝕜 m (min d m) *ᵥ u) i = entryAt u i := by
      rw [← sum_entryAt]
      change ∑ j : Fin (min d m), (if i.val = j.val then (1 : 𝕜) else 0) * u j = _
      refine Finset.sum_congr rfl fun j _ => ?_
      congr 1
      exact if_congr eq_comm rfl rfl
    have e1 : (shiftDown 𝕜 m d *ᵥ z) i = if i.val < d then 0 else entryAt z (i - d) := by
      split
      · change ∑ j : Fin m, (if i.val = j.val + d then (1 : 𝕜) else 0) * z j = _
        refine Finset.sum_eq_zero fun j _ => ?_
        rw [if_neg (by omega), zero_mul]
      · rw [← sum_entryAt]
        change ∑ j : Fin m, (if i.val = j.val + d then (1 : 𝕜) else 0) * z j = _
        refine Finset.sum_congr rfl fun j _ => ?_
        congr 1
        refine if_congr ?_ rfl rfl
        omega
    rw [Pi.add_apply, e1, e2]
    split
    · rw [zero_add]
    · rename_i h
      rw [entryAt, entryAt, dif_neg (c := i.val < min d m) (by omega), add_zero]
  have h2 : sumSquares (shiftDown 𝕜 m d *ᵥ z + headCols 𝕜 m (min d m) *ᵥ u) =
      ∑ a ∈ Finset.range m, ‖if a < d then entryAt u a else entryAt z (a - d)‖ ^ 2 := by
    rw [Finset.sum_range]
    exact Finset.sum_congr rfl fun i _ => by rw [h1]
  rw [h2]
  have h3 : ∑ a ∈ Finset.range m, ‖if a < d then entryAt u a else entryAt z (a - d)‖ ^ 2 ≤
      ∑ a ∈ Finset.range (d + m), ‖if a < d then entryAt u a else entryAt z (a - d)‖ ^ 2 :=
    Finset.sum_le_sum_of_subset_of_nonneg (Finset.range_mono (by omega)) fun _ _ _ => by positivity
  refine h3.trans (le_of_eq ?_)
  rw [Finset.sum_range_add, add_comm, sumSquares_range u d (Nat.min_le_left _ _), sumSquares_range z m le_rfl]
  congr 1
  · refine Finset.sum_congr rfl fun a _ => ?_
    rw [if_neg (by omega), Nat.add_sub_cancel_left]
  · refine Finset.sum_congr rfl fun a ha => ?_
    rw [if_pos (Finset.mem_range.mp ha)]

/-! ### Hankel arrays -/

/-- Arrays of impulse responses that have died out. -/
theorem hankel_isShift {rows cols no ni : Nat} (M : Nat → Nat → Nat → 𝕜) (H H' : Matrix (Fin rows) (Fin cols) 𝕜)
    (hH : ∀ i j, H i j = M (i / no + j / ni) (i % no) (j % ni))
    (hH' : ∀ i j, H' i j = M (i / no + j / ni + 1) (i % no) (j % ni))
    (hM : ∀ k i j, rows ≤ no * k ∨ cols ≤ ni * k → i < no → j < ni → M k i j = 0)
    (hrows : no ∣ rows) (hcols : ni ∣ cols) :
    IsShift H H' (shiftDown 𝕜 cols ni) (shiftUp 𝕜 rows no) (headCols 𝕜 cols (min ni cols))
      (headRows 𝕜 (min no rows) rows) := by
  obtain ⟨mo, rfl⟩ := hrows
  obtain ⟨mc, rfl⟩ := hcols
  have hpos : ∀ {a b x : Nat}, x < a * b → x % a < a ∧ x / a < b := by
    intro a b x hx
    have ha : 0 < a := by
      rcases Nat.eq_zero_or_pos a with rfl | ha
      · rw [Nat.zero_mul] at hx; omega
      · exact ha
    exact ⟨Nat.mod_lt _ ha, Nat.div_lt_of_lt_mul hx⟩
  refine ⟨?_, ?_, shift_ctrl, shift_obs⟩
  · ext i j
    obtain ⟨hi1, hi2⟩ := hpos i.isLt
    obtain ⟨hj1, hj2⟩ := hpos j.isLt
    have e : (H * shiftDown 𝕜 (ni * mc) ni) i j = entryAt (H i) (j + ni) := by
      rw [← sum_entryAt']
      rfl
    have hdiv : (j.val + ni) / ni = j.val / ni + 1 := Nat.add_div_right _ (by omega)
    rw [e, hH']
    unfold entryAt
    split
    · rw [hH]
      dsimp only
      rw [hdiv, Nat.add_mod_right, ← Nat.add_assoc]
    · rename_i h
      refine hM _ _ _ (Or.inr ?_) hi1 hj1
      have h1 : mc ≤ j.val / ni + 1 := by
        rw [← hdiv]
        rw [Nat.le_div_iff_mul_le (by omega), Nat.mul_comm]
        omega
      exact Nat.mul_le_mul_left _ (h1.trans (Nat.add_le_add_right (Nat.le_add_left _ _) 1))
  · ext i j
    obtain ⟨hi1, hi2⟩ := hpos i.isLt
    obtain ⟨hj1, hj2⟩ := hpos j.isLt
    have e : (shiftUp 𝕜 (no * mo) no * H) i j = entryAt (fun a => H a j) (i + no) := by
      rw [← sum_entryAt]
      rfl
    have hdiv : (i.val + no) / no = i.val / no + 1 := Nat.add_div_right _ (by omega)
    rw [e, hH']
    unfold entryAt
    split
    · refine Eq.trans ?_ (hH _ _).symm
      dsimp only
      rw [hdiv, Nat.add_mod_right, Nat.add_right_comm]
    · rename_i h
      refine hM _ _ _ (Or.inl ?_) hi1 hj1
      have h1 : mo ≤ i.val / no + 1 := by
        rw [← hdiv]
        rw [Nat.le_div_iff_mul_le (by omega), Nat.mul_comm]
        omega
      exact Nat.mul_le_mul_left _ (h1.trans (Nat.add_le_add_right (Nat.le_add_right _ _) 1))

theorem mul_shiftDown_pow {m n d : Nat} (H : Matrix (Fin m) (Fin n) 𝕜) (k : Nat) (i : Fin m) (j : Fin n) :
    (H * shiftDown 𝕜 n d ^ k) i j = entryAt (H i) (j + k * d) := by
  induction k generalizing j with
  | zero => rw [pow_zero, Matrix.mul_one, Nat.zero_mul, Nat.add_zero, entryAt_val]
  | succ k ih =>
    have e : (H * shiftDown 𝕜 n d ^ (k + 1)) i j = entryAt ((H * shiftDown 𝕜 n d ^ k) i) (j + d) := by
      rw [← sum_entryAt', pow_succ, ← Matrix.mul_assoc]
      rfl
    have e' : (k + 1) * d = d + k * d := by ring
    rw [e, e', ← Nat.add_assoc, entryAt]
    split
    · rw [ih]
    · rw [entryAt, dif_neg (by omega)]

/-- Markov parameters from the arrays. -/
theorem hankel_markov {rows cols no ni : Nat} (M : Nat → Nat → Nat → 𝕜) (H : Matrix (Fin rows) (Fin cols) 𝕜)
    (hH : ∀ i j, H i j = M (i / no + j / ni) (i % no) (j % ni))
    (hM : ∀ k i j, rows ≤ no * k ∨ cols ≤ ni * k → i < no → j < ni → M k i j = 0) (hcols : ni ∣ cols)
    (k : Nat) (i : Fin (min no rows)) (j : Fin (min ni cols)) :
    (headRows 𝕜 (min no rows) rows * (H * (shiftDown 𝕜 cols ni ^ k * headCols 𝕜 cols (min ni cols)))) i j = M k i j := by
  have hi := i.isLt
  have hj := j.isLt
  have e : (headRows 𝕜 (min no rows) rows * (H * (shiftDown 𝕜 cols ni ^ k * headCols 𝕜 cols (min ni cols)))) i j =
      entryAt (fun a => (H * (shiftDown 𝕜 cols ni ^ k * headCols 𝕜 cols (min ni cols))) a j) i := by
    rw [← sum_entryAt]
    rfl
  have e2 : ∀ a, (H * (shiftDown 𝕜 cols ni ^ k * headCols 𝕜 cols (min ni cols))) a j =
      entryAt ((H * shiftDown 𝕜 cols ni ^ k) a) j := by
    intro a
    rw [← sum_entryAt', ← Matrix.mul_assoc]
    rfl
  rw [e, entryAt, dif_pos (by omega), e2, entryAt, dif_pos (by omega), mul_shiftDown_pow, entryAt]
  dsimp only
  split
  · rw [hH]
    dsimp only
    rw [Nat.div_eq_of_lt (by omega), Nat.mod_eq_of_lt (by omega), Nat.add_mul_mod_self_right, Nat.mod_eq_of_lt (by omega),
      Nat.add_mul_div_right _ _ (by omega), Nat.div_eq_of_lt (by omega), Nat.zero_add, Nat.zero_add]
  · rename_i h
    obtain ⟨mc, rfl⟩ := hcols
    refine (hM _ _ _ (Or.inr ?_) (by omega) (by omega)).symm
    have h1 : mc ≤ k := by
      by_contra hc
      have h2 : ni * (k + 1) ≤ ni * mc := Nat.mul_le_mul_left _ (by omega)
      have h3 : ni * (k + 1) = k * ni + ni := by ring
      omega
    exact Nat.mul_le_mul_left _ h1

/-! ### The model -/

/-- The arrays of the model are parts of those with all singular values. -/
theorem eraReduce_parts (svd : ∀ {m n : Nat}, Matrix (Fin m) (Fin n) 𝕜 → SvdOut 𝕜 m n) (h : HankelPair 𝕜)
    (no ni numStates : Nat) (hlib : IsSvd h.array (svd h.array)) (model : LtiModel 𝕜)
    (hred : eraReduce svd h no ni numStates = .ok model) :
    ∃ (r : Nat) (hr : r ≤ min h.rows h.cols), (∀ i : Fin (min h.rows h.cols), i.val < r → 0 < (svd h.array).S i) ∧
      model = ⟨r, min ni h.cols, min no h.rows,
        (fullA h.array2 (svd h.array).U (svd h.array).Vhᴴ (svd h.array).S).submatrix (Fin.castLE hr) (Fin.castLE hr),
        (fullB (headCols 𝕜 h.cols (min ni h.cols)) (svd h.array).Vhᴴ (svd h.array).S).submatrix (Fin.castLE hr) id,
        (fullC (headRows 𝕜 (min no h.rows) h.rows) (svd h.array).U (svd h.array).S).submatrix id (Fin.castLE hr)⟩ := by
  unfold eraReduce at hred
  split at hred
  · cases hred
  rename_i s hs
  have hpos := utilSvd_positive svd h.array none svdAtol (by simp) hlib s hs
  obtain ⟨num, -, rfl⟩ := utilSvd_cases svd h.array _ _ s hs
  cases hred
  dsimp only at hpos ⊢
  refine ⟨min numStates (min num (min h.rows h.cols)), by omega, ?_, ?_⟩
  · intro i hi
    have h1 := hpos ⟨i, by omega⟩
    have h2 : firstEntries (svd h.array).S num ⟨i, by omega⟩ = (svd h.array).S i := rfl
    rw [h2] at h1
    exact lt_trans (by norm_num [svdAtol]) h1
  · have hA : diagPow (𝕜 := 𝕜) (firstEntries (firstEntries (svd h.array).S num) numStates) (-0.5) *
        ((firstCols (firstCols (svd h.array).U num) numStates)ᴴ * (h.array2 *
          (firstCols (firstCols (svd h.array).Vhᴴ num) numStates *
            diagPow (𝕜 := 𝕜) (firstEntries (firstEntries (svd h.array).S num) numStates) (-0.5)))) =
        (fullA h.array2 (svd h.array).U (svd h.array).Vhᴴ (svd h.array).S).submatrix
          (Fin.castLE (by omega)) (Fin.castLE (by omega)) := by
      ext i j
      unfold fullA diagPow
      rw [Matrix.diagonal_mul, Matrix.submatrix_apply, Matrix.diagonal_mul, ← Matrix.mul_assoc, ← Matrix.mul_assoc,
        ← Matrix.mul_assoc, ← Matrix.mul_assoc, Matrix.mul_diagonal, Matrix.mul_diagonal]
      rfl
    have hB : diagPow (𝕜 := 𝕜) (firstEntries (firstEntries (svd h.array).S num) numStates) 0.5 *
        firstCols (firstCols (firstCols (svd h.array).Vhᴴ num) numStates)ᴴ ni =
        (fullB (headCols 𝕜 h.cols (min ni h.cols)) (svd h.array).Vhᴴ (svd h.array).S).submatrix
          (Fin.castLE (by omega)) id := by
      ext i j
      unfold fullB diagPow
      rw [Matrix.diagonal_mul, Matrix.submatrix_apply, Matrix.diagonal_mul]
      congr 1
      have e : ((svd h.array).Vhᴴᴴ * headCols 𝕜 h.cols (min ni h.cols)) (Fin.castLE (by omega) i) (id j) =
          entryAt ((svd h.array).Vhᴴᴴ (Fin.castLE (by omega) i)) j := by
        rw [← sum_entryAt']
        rfl
      rw [e, entryAt, dif_pos (lt_of_lt_of_le j.isLt (Nat.min_le_right _ _))]
      rfl
    have hC : firstRows (firstCols (firstCols (svd h.array).U num) numStates) no *
        diagPow (𝕜 := 𝕜) (firstEntries (firstEntries (svd h.array).S num) numStates) 0.5 =
        (fullC (headRows 𝕜 (min no h.rows) h.rows) (svd h.array).U (svd h.array).S).submatrix id
          (Fin.castLE (by omega)) := by
      ext i j
      unfold fullC diagPow
      rw [Matrix.mul_diagonal, Matrix.submatrix_apply, Matrix.mul_diagonal]
      congr 1
      have e : (headRows 𝕜 (min no h.rows) h.rows * (svd h.array).U) (id i) (Fin.castLE (by omega) j) =
          entryAt (fun a => (svd h.array).U a (Fin.castLE (by omega) j)) i := by
        rw [← sum_entryAt]
        rfl
      rw [e, entryAt, dif_pos (lt_of_lt_of_le i.isLt (Nat.min_le_right _ _))]
      rfl
    rw [hA, hB, hC]

section C105
variable (svd : ∀ {m n : Nat}, Matrix (Fin m) (Fin n) 𝕜 → SvdOut 𝕜 m n) (cast : 𝕜 → 𝕜) (self o o' : EraObj)
  (markovs : MarkovsIn 𝕜) (m : Markovs 𝕜) (mc mo : Option Int)

/-- **C105.** Models by the eigensystem realization algorithm of impulse responses `M` that have died out, so that
Markov parameters beyond the blocks of the Hankel array are zero: for all inputs and at all times the error of the
outputs has at most the energy of the inputs times the square of twice the sum of the singular values that were not
kept, whether for the number of states or for the tolerance of `util.svd`.  The model is stable, in every `n` time
steps its states lose a fixed part of their energy (`n` is the number of blocks in a column), and energy in outputs and
states comes from states and inputs.  Data are given at consecutive pairs of times, and numbers must not change when
they are stored in real arrays. -/
theorem C105_error_bound (hcast : ∀ x, cast x = x) (hm : setMarkovs markovs = .ok m) (M : Nat → Nat → Nat → 𝕜)
    (hM : ∀ k, 2 * k + 1 < m.nt → ∀ i j, i < m.no → j < m.ni →
      m.at_ (2 * k) i j = M k i j ∧ m.at_ (2 * k + 1) i j = M (k + 1) i j)
    (h : HankelPair 𝕜) (hh : eraHankel cast self markovs mc mo = .ok (o', h))
    (hdecay : ∀ k i j, h.rows ≤ m.no * k ∨ h.cols ≤ m.ni * k → i < m.no → j < m.ni → M k i j = 0)
    (hlib : IsSvd h.array (svd h.array)) (numStates : Nat) (model : LtiModel 𝕜)
    (hres : eraModel svd cast self markovs numStates mc mo = .ok (o, model)) (n : Nat) (hn : h.rows ≤ m.no * n) :
    ∃ hr : model.r ≤ min h.rows h.cols,
      IsAccurateModel M (fun i => (svd h.array).S (Fin.castLE hr i))
        (2 * ∑ i : Fin (min h.rows h.cols), if model.r ≤ i.val then (svd h.array).S i else 0) n
        model.A model.B model.C := by
  obtain ⟨h', hh', hasm, hred⟩ := eraModel_cases svd cast self o markovs m mc mo numStates model hm hres
  rw [hh] at hh'
  obtain ⟨-, rfl⟩ := Prod.mk.inj (Except.ok.inj hh')
  obtain ⟨mo', mc', hrows, hcols, hblk⟩ := assembleHankel_blocks cast m mc mo h hasm
  obtain ⟨r, hr, hpos, rfl⟩ := eraReduce_parts svd h m.no m.ni numStates hlib model hred
  have hmod : ∀ {a b x : Nat}, x < a * b → x % a < a ∧ x / a < b := by
    intro a b x hx
    have ha : 0 < a := by
      rcases Nat.eq_zero_or_pos a with rfl | ha
      · rw [Nat.zero_mul] at hx; omega
      · exact ha
    exact ⟨Nat.mod_lt _ ha, Nat.div_lt_of_lt_mul hx⟩
  have hent : ∀ (i : Fin h.rows) (j : Fin h.cols),
      h.array i j = M (i / m.no + j / m.ni) (i % m.no) (j % m.ni) ∧
      h.array2 i j = M (i / m.no + j / m.ni + 1) (i % m.no) (j % m.ni) := by
    intro i j
    obtain ⟨hi1, hi2⟩ := hmod (i.isLt.trans_eq hrows)
    obtain ⟨hj1, hj2⟩ := hmod (j.isLt.trans_eq hcols)
    obtain ⟨hb1, hb2⟩ := hblk _ _ hi2 hj2
    obtain ⟨e1, e2⟩ := hb2 _ _ hi1 hj1
    obtain ⟨f1, f2⟩ := hM _ hb1 _ _ hi1 hj1
    rw [Nat.div_add_mod', Nat.div_add_mod', hcast] at e1 e2
    exact ⟨e1.trans f1, e2.trans f2⟩
  have hsh := hankel_isShift M h.array h.array2 (fun i j => (hent i j).1) (fun i j => (hent i j).2) hdecay
    ⟨mo', hrows⟩ ⟨mc', hcols⟩
  refine ⟨hr, truncated_accurate hlib.nonneg hlib.left ?_ ?_ hsh hr hpos n (shiftUp_nilpotent hn) M
    (hankel_markov M h.array (fun i j => (hent i j).1) hdecay ⟨mc', hcols⟩)⟩
  · rw [conjTranspose_conjTranspose]; exact hlib.right
  · rw [conjTranspose_conjTranspose, diagPow_one]; exact hlib.product

/-- **C105.** The same for `compute_ERA_model`. -/
theorem C105_compute_ERA_model (hcast : ∀ x, cast x = x) (hm : setMarkovs markovs = .ok m) (M : Nat → Nat → Nat → 𝕜)
    (hM : ∀ k, 2 * k + 1 < m.nt → ∀ i j, i < m.no → j < m.ni →
      m.at_ (2 * k) i j = M k i j ∧ m.at_ (2 * k + 1) i j = M (k + 1) i j)
    (h : HankelPair 𝕜) (hh : eraHankel cast (eraInit none none) markovs none none = .ok (o', h))
    (hdecay : ∀ k i j, h.rows ≤ m.no * k ∨ h.cols ≤ m.ni * k → i < m.no → j < m.ni → M k i j = 0)
    (hlib : IsSvd h.array (svd h.array)) (numStates : Nat) (n : Nat) (hn : h.rows ≤ m.no * n) :
    ∃ model, computeEraModel svd cast markovs numStates = .ok model ∧ ∃ hr : model.r ≤ min h.rows h.cols,
      IsAccurateModel M (fun i => (svd h.array).S (Fin.castLE hr i))
        (2 * ∑ i : Fin (min h.rows h.cols), if model.r ≤ i.val then (svd h.array).S i else 0) n
        model.A model.B model.C := by
  obtain ⟨model, hmodel⟩ := C36_no_error svd cast (eraInit none none) o' markovs none none numStates h hh
  refine ⟨model, ?_, C105_error_bound svd cast (eraInit none none) o' o' markovs m none none hcast hm M hM h hh
    hdecay hlib numStates model hmodel n hn⟩
  unfold computeEraModel
  rw [hmodel]

/-- **C105.** The same for Markov parameters at equally spaced times, put into the sampled format by
`make_sampled_format`. -/
theorem C105_from_samples {T : Type*} [Field T] [LinearOrder T] [IsStrictOrderedRing T] [FloorRing T]
    (hcast : ∀ x, cast x = x) (t0 dt tol : T) (hdt : dt ≠ 0) (htol : 0 ≤ tol) (hn : 2 ≤ m.nt)
    (M : Nat → Nat → Nat → 𝕜) (hM : ∀ k, k < m.nt → ∀ i j, i < m.no → j < m.ni → m.at_ k i j = M k i j) :
    ∃ steps s, makeSampledFormat cast ((List.range m.nt).map fun k : Nat => t0 + (k : T) * dt) m tol =
        .ok (steps, s) ∧
      ∀ (h : HankelPair 𝕜), eraHankel cast self (.d3 s) mc mo = .ok (o', h) →
        (∀ k i j, h.rows ≤ m.no * k ∨ h.cols ≤ m.ni * k → i < m.no → j < m.ni → M k i j = 0) →
        IsSvd h.array (svd h.array) → ∀ numStates model, eraModel svd cast self (.d3 s) numStates mc mo = .ok (o, model) →
        ∀ n, h.rows ≤ m.no * n → ∃ hr : model.r ≤ min h.rows h.cols,
          IsAccurateModel M (fun i => (svd h.array).S (Fin.castLE hr i))
            (2 * ∑ i : Fin (min h.rows h.cols), if model.r ≤ i.val then (svd h.array).S i else 0) n
            model.A model.B model.C := by
  obtain ⟨steps, s, hs, -, hnt, hno, hni, -, hat⟩ := C32_interleaved cast t0 dt tol m hn hdt htol
  refine ⟨steps, s, hs, fun h hh hdecay hlib numStates model hres n hn => ?_⟩
  obtain ⟨nt, no, ni, at_⟩ := s
  dsimp only at hnt hno hni hat
  subst hnt hno hni
  have hset : setMarkovs (.d3 (⟨2 * (m.nt - 1), m.no, m.ni, at_⟩ : Markovs 𝕜)) =
      .ok ⟨2 * (m.nt - 1), m.no, m.ni, at_⟩ := by
    simp only [setMarkovs]
    rw [if_neg (by omega)]
  refine C105_error_bound svd cast self o o' _ ⟨2 * (m.nt - 1), m.no, m.ni, at_⟩ mc mo hcast hset M ?_ h hh hdecay hlib
    numStates model hres n hn
  intro k hk i j hi hj
  dsimp only at hk hi hj
  obtain ⟨h1, h2⟩ := hat k i j (by omega)
  dsimp only
  rw [h1, h2, hcast, hcast, hM k (by omega) i j hi hj, hM (k + 1) (by omega) i j hi hj]
  exact ⟨rfl, rfl⟩

/-- **C105.** What `lsim` computes with such a model. -/
theorem C105_lsim {r p q n : Nat} {M : Nat → Nat → Nat → 𝕜} {σ : Fin r → ℝ} {bound : ℝ} {A : Matrix (Fin r) (Fin r) 𝕜}
    {B : Matrix (Fin r) (Fin p) 𝕜} {C : Matrix (Fin q) (Fin r) 𝕜} (h : IsAccurateModel M σ bound n A B C)
    (us : List (Fin p → 𝕜)) (hus : us ≠ []) :
    ∃ ys, lsim A B C (.d2 p us) none = .ok ys ∧ ys.length = us.length ∧ ∀ T, T ≤ us.length →
      signalEnergy T (fun t => impulseOutput M (fun t => us.getD t 0) t - ys.getD t 0) ≤
        bound ^ 2 * signalEnergy T fun t => us.getD t 0 := by
  obtain ⟨ys, h1, h2, h3⟩ := C41_lsim A B C us hus none
  obtain ⟨x, hx0, hx⟩ := exists_states A B 0 (fun k => us.getD k 0)
  refine ⟨ys, h1, h2, fun T hT => ?_⟩
  refine le_trans (le_of_eq ?_) (h.error (fun k => us.getD k 0) x hx0 hx T)
  refine Finset.sum_congr rfl fun t ht => ?_
  rw [Finset.mem_range] at ht
  dsimp only
  rw [h3 x hx0 (fun k _ => hx k) t (by omega)]

/-- Entries of arrays, zero beyond their ends. -/
def entries {p q : Nat} (M : Nat → Matrix (Fin q) (Fin p) 𝕜) (k i j : Nat) : 𝕜 :=
  if h : i < q ∧ j < p then M k ⟨i, h.1⟩ ⟨j, h.2⟩ else 0

/-- **C105.** Galerkin projections onto the modes of balanced proper orthogonal decomposition, for impulse responses
that have died out: the same bounds with the singular values of the Hankel array. -/
theorem C105_bpod (hlib : ∀ {m n : Nat} (a : Matrix (Fin m) (Fin n) 𝕜), IsSvd a (svd a)) {n md ma p q r : Nat}
    (X : Matrix (Fin n) (Fin md) 𝕜) (Y : Matrix (Fin n) (Fin ma) 𝕜) (hp : 1 ≤ p) (hq : 1 ≤ q)
    (weights : Option (NdArray 𝕜)) (ws : Weights 𝕜) (hws : arraysInit weights = .ok ws) (hfit : ws.Fits n)
    (A Aadj : Matrix (Fin n) (Fin n) 𝕜) (B : Matrix (Fin n) (Fin p) 𝕜) (C : Matrix (Fin n) (Fin q) 𝕜)
    (hadj : Aadjᴴ * ws.matrix n = ws.matrix n * A)
    (hX : ∀ i j, X i j = (A ^ (j.val / p) * B) i ⟨j % p, Nat.mod_lt _ hp⟩)
    (hY : ∀ i j, Y i j = (Aadj ^ (j.val / q) * C) i ⟨j % q, Nat.mod_lt _ hq⟩) (res : BpodResult 𝕜 n md ma)
    (hres : bpodArrays svd X Y p q (some ((List.range r).map Int.ofNat)) (some ((List.range r).map Int.ofNat)) weights
      (some svdAtol) none = .ok res)
    (hdecay : ∀ k, ma ≤ q * k ∨ md ≤ p * k → Cᴴ * ws.matrix n * A ^ k * B = 0) (N : Nat) (hN : ma ≤ q * N) :
    ∃ (Φ Ψ : Matrix (Fin n) (Fin r) 𝕜) (a : Matrix (Fin r) (Fin r) 𝕜) (b : Matrix (Fin r) (Fin p) 𝕜)
      (c : Matrix (Fin q) (Fin r) 𝕜),
      res.directModes = ⟨r, Φ⟩ ∧ res.adjointModes = ⟨r, Ψ⟩ ∧
      (∀ flag, ∃ g, galerkinArraysInit false Φ (some ⟨n, r, Ψ⟩) flag weights = .ok g ∧
        (galerkinModelArrays g (A * Φ) B (.rows q r fun i j => (Cᴴ * ws.matrix n * Φ) i j)).1 =
          .ok (some ⟨r, a⟩, some ⟨p, b⟩, some ⟨q, r, c⟩)) ∧
      ∃ hr : r ≤ min ma md,
        IsAccurateModel (entries fun k => Cᴴ * ws.matrix n * A ^ k * B)
          (fun i => (svd res.hankel).S (Fin.castLE hr i))
          (2 * ∑ i : Fin (min ma md), if r ≤ i.val then (svd res.hankel).S i else 0) N a b c := by
  obtain ⟨-, -, hmd, hma, hpd, hqa⟩ := C25_complete_chunks svd X Y p q _ _ weights ws _ _ hws hfit res hres
  obtain ⟨-, hHent⟩ := C25_arrays svd X Y p q _ _ weights ws _ _ hp hq hws hfit A Aadj B C hadj hX hY res hres
  have h0 : ∀ k (i : Fin q) (j : Fin p), entries (fun k => Cᴴ * ws.matrix n * A ^ k * B) k i j =
      (Cᴴ * ws.matrix n * A ^ k * B) i j := fun k i j => dif_pos ⟨i.isLt, j.isLt⟩
  obtain ⟨nt, heven, hg, hd⟩ : ∃ nt : Nat, nt % 2 = 0 ∧ ma / q + md / p + 2 ≤ nt ∧ 2 * (ma / q + md / p) ≤ nt + 2 :=
    ⟨2 * (ma / q + md / p + 2), by omega, by omega, by omega⟩
  obtain ⟨Φ, Ψ, a, b, c, hΦ, hΨ, ⟨o, hera⟩, hgal⟩ := C61_era_is_bpod_projection svd hlib X Y hp hq weights ws hws hfit
    A Aadj B C hadj hX hY res hres (eraInit none none) id nt
    (fun k i j => entries (fun k => Cᴴ * ws.matrix n * A ^ k * B) (k / 2 + k % 2) i j) heven
    (fun k i j => by
      rw [show 2 * k / 2 + 2 * k % 2 = k by omega, h0])
    (fun k i j => by
      rw [show (2 * k + 1) / 2 + (2 * k + 1) % 2 = k + 1 by omega, h0]) (fun _ _ _ => rfl) hg hd
  refine ⟨Φ, Ψ, a, b, c, hΦ, hΨ, hgal, ?_⟩
  have hset : setMarkovs (.d3 ⟨nt, q, p, fun k i j =>
      entries (fun k => Cᴴ * ws.matrix n * A ^ k * B) (k / 2 + k % 2) i j⟩) = .ok (⟨nt, q, p, fun k i j =>
      entries (fun k => Cᴴ * ws.matrix n * A ^ k * B) (k / 2 + k % 2) i j⟩ : Markovs 𝕜) := by
    simp only [setMarkovs]
    rw [if_neg (by omega)]
  obtain ⟨h, hh, hasm, -⟩ := eraModel_cases svd id (eraInit none none) o _ _ _ _ r _ hset hera
  obtain ⟨h', hh', hrows, hcols, hblk⟩ := C33_blocks id (⟨nt, q, p, fun k i j =>
      entries (fun k => Cᴴ * ws.matrix n * A ^ k * B) (k / 2 + k % 2) i j⟩ : Markovs 𝕜) (md / p) (ma / q) hg hd
  rw [hasm] at hh'
  cases hh'
  dsimp only at hrows hcols hblk
  rw [Nat.mul_div_cancel' hma] at hrows
  rw [Nat.mul_div_cancel' hmd] at hcols
  have harr : ∀ (i : Fin ma) (j : Fin md), h.h i j = res.hankel i j := by
    intro i j
    have := (hblk (i.val / q) (j.val / p) (i.val % q) (j.val % p)
      (Nat.div_lt_div_of_lt_of_dvd hma i.isLt) (Nat.div_lt_div_of_lt_of_dvd hmd j.isLt) (Nat.mod_lt _ hq) (Nat.mod_lt _ hp)).1
    rw [Nat.div_add_mod', Nat.div_add_mod'] at this
    rw [this, hHent, show 2 * (i.val / q + j.val / p) / 2 + 2 * (i.val / q + j.val / p) % 2 = i.val / q + j.val / p by omega]
    exact h0 _ ⟨_, _⟩ ⟨_, _⟩
  obtain ⟨rows, cols, f, f2⟩ := h
  dsimp only at hrows hcols harr
  subst hrows hcols
  have ha : HankelPair.array (⟨rows, cols, f, f2⟩ : HankelPair 𝕜) = res.hankel := by
    ext i j
    exact harr i j
  obtain ⟨hr, key⟩ := C105_error_bound svd id (eraInit none none) o o _ _ _ _ (fun _ => rfl) hset
    (entries fun k => Cᴴ * ws.matrix n * A ^ k * B) (fun k _ i j _ _ => by
      dsimp only
      rw [show 2 * k / 2 + 2 * k % 2 = k by omega, show (2 * k + 1) / 2 + (2 * k + 1) % 2 = k + 1 by omega]
      exact ⟨rfl, rfl⟩) ⟨rows, cols, f, f2⟩ hh (fun k i j hk hi hj => by
      dsimp only at hk hi hj
      unfold entries
      rw [dif_pos ⟨hi, hj⟩]
      exact congrFun (congrFun (hdecay k hk) _) _) (hlib _) r _ hera N hN
  rw [ha] at key
  exact ⟨hr, key⟩

end C105

/-- The impulse response 2, 1, at consecutive pairs of times. -/
noncomputable def twoSteps : Markovs ℝ := ⟨6, 1, 1, fun k _ _ => if k = 0 then 2 else if k ≤ 2 then 1 else 0⟩

/-- Models with one state for the impulse response 2, 1: the error is at most twice the second singular value, and the
model is stable. -/
example (svd : ∀ {m n : Nat}, Matrix (Fin m) (Fin n) ℝ → SvdOut ℝ m n)
    (hsvd : ∀ {m n : Nat} (a : Matrix (Fin m) (Fin n) ℝ), IsSvd a (svd a)) :
    ∃ (o : EraObj) (h : HankelPair ℝ) (model : LtiModel ℝ), eraModel svd id (eraInit none none) (.d3 twoSteps) 1 (some 2) (some 2) = .ok (o, model) ∧
      h.rows = 2 ∧ h.cols = 2 ∧ h.h 0 0 = 2 ∧ h.h 0 1 = 1 ∧ h.h2 0 0 = 1 ∧
      ∃ hr : model.r ≤ min h.rows h.cols,
        IsAccurateModel (fun k _ _ => if k = 0 then 2 else if k = 1 then 1 else 0)
          (fun i => (svd h.array).S (Fin.castLE hr i))
          (2 * ∑ i : Fin (min h.rows h.cols), if model.r ≤ i.val then (svd h.array).S i else 0) 2
          model.A model.B model.C := by
  have hset : setMarkovs (.d3 twoSteps) = .ok twoSteps := by simp [setMarkovs, twoSteps]
  obtain ⟨h, hh, h1, h2, h3⟩ := C33_blocks id twoSteps 2 2 (by simp [twoSteps]) (by simp [twoSteps])
  have hh' : eraHankel id (eraInit none none) (.d3 twoSteps) (some 2) (some 2) = .ok (⟨some 2, some 2⟩, h) := by
    unfold eraHankel
    rw [hset]
    dsimp only
    rw [show (some 2 : Option Int) = some ((2 : Nat) : Int) from rfl, hh]
    rfl
  obtain ⟨model, hmodel⟩ := C36_no_error svd id (eraInit none none) _ (.d3 twoSteps) (some 2) (some 2) 1 h hh'
  have g1 := h3 0 0 0 0 (by decide) (by decide) (by simp [twoSteps]) (by simp [twoSteps])
  have g2 := h3 0 1 0 0 (by decide) (by decide) (by simp [twoSteps]) (by simp [twoSteps])
  have hrows : h.rows = 2 := by rw [h1]; simp [twoSteps]
  have hcols : h.cols = 2 := by rw [h2]; simp [twoSteps]
  refine ⟨_, h, model, hmodel, hrows, hcols, ?_, ?_, ?_, C105_error_bound svd id (eraInit none none) _ _ _ twoSteps
    (some 2) (some 2) (fun _ => rfl) hset _ ?_ h hh' ?_ (hsvd _) 1 model hmodel 2 ?_⟩
  · simpa [twoSteps] using g1.1
  · simpa [twoSteps] using g2.1
  · simpa [twoSteps] using g1.2
  · intro k hk i j _ _
    simp only [twoSteps] at hk ⊢
    have hk' : k < 3 := by omega
    interval_cases k <;> simp
  · intro k i j hk _ _
    rw [hrows, hcols] at hk
    simp only [twoSteps, one_mul, or_self] at hk
    rw [if_neg (by omega), if_neg (by omega)]
  · rw [hrows]; simp [twoSteps]

/-- The impulse response 1, 2, 4, 8 of a system that comes to rest after four steps, at consecutive pairs of times. -/
noncomputable def fourSteps : Markovs ℝ := ⟨6, 1, 1, fun k _ _ => 2 ^ (k / 2 + k % 2)⟩

theorem two_pow_entry (k : Nat) :
    ((!![1] : Matrix (Fin 1) (Fin 1) ℝ) * (!![2] : Matrix (Fin 1) (Fin 1) ℝ) ^ k *
      (!![1] : Matrix (Fin 1) (Fin 1) ℝ)) 0 0 = 2 ^ k := by
  have h1 : (!![1] : Matrix (Fin 1) (Fin 1) ℝ) = 1 := by
    ext i j
    rw [Subsingleton.elim i 0, Subsingleton.elim j 0]
    simp
  have h2 : (!![2] : Matrix (Fin 1) (Fin 1) ℝ) = diagonal fun _ => 2 := by
    ext i j
    rw [Subsingleton.elim i 0, Subsingleton.elim j 0]
    simp
  rw [h1, h2, diagonal_pow, Matrix.one_mul, Matrix.mul_one, diagonal_apply_eq]
  rfl

/-- **C105, the impulse response must have died out.** The data are those of the impulse response 1, 2, 4, 8, and zero
from then on, of a stable system.  But `compute_ERA_model` uses arrays with one block, so that the model has the
eigenvalue 2 and its impulse response doubles in every step. -/
theorem C105_short_arrays_violation (svd : ∀ {m n : Nat}, Matrix (Fin m) (Fin n) ℝ → SvdOut ℝ m n)
    (hsvd : ∀ {m n : Nat} (a : Matrix (Fin m) (Fin n) ℝ), IsSvd a (svd a)) :
    ∃ (M : Nat → ℝ) (model : LtiModel ℝ), (∀ k, 4 ≤ k → M k = 0) ∧
      (∀ k, 2 * k + 1 < fourSteps.nt → fourSteps.at_ (2 * k) 0 0 = M k ∧ fourSteps.at_ (2 * k + 1) 0 0 = M (k + 1)) ∧
      computeEraModel svd id (.d3 fourSteps) 1 = .ok model ∧ model.r = 1 ∧ IsEigenvalue model.A 2 ∧
      ∀ k i j, (model.C * model.A ^ k * model.B) i j = (2 : ℝ) ^ k := by
  have hset : setMarkovs (.d3 fourSteps) = .ok fourSteps := by simp [setMarkovs, fourSteps]
  have hnt : fourSteps.nt = 6 := rfl
  obtain ⟨h, hh, h1, h2, h3⟩ := C33_blocks id fourSteps 1 1 (by rw [hnt]; decide) (by rw [hnt]; decide)
  obtain ⟨o, hh'⟩ : ∃ o, eraHankel id (eraInit none none) (.d3 fourSteps) none none = .ok (o, h) := by
    unfold eraHankel
    rw [hset]
    dsimp only [eraInit]
    rw [assembleHankel_none id fourSteps (by rw [hnt]; decide) none none (Or.inl rfl)]
    have e : ((fourSteps.nt - 2) / 4 : Nat) = 1 := by rw [hnt]
    rw [e, hh]
    exact ⟨_, rfl⟩
  have h4 := (h3 0 0 0 0 (by decide) (by decide) (by decide) (by decide)).1
  obtain ⟨model, hmodel⟩ := C36_no_error svd id (eraInit none none) o (.d3 fourSteps) none none 1 h hh'
  obtain ⟨rows, cols, f, f2⟩ := h
  have h1' : rows = 1 := h1
  have h2' : cols = 1 := h2
  subst h1' h2'
  have ha : HankelPair.array (⟨1, 1, f, f2⟩ : HankelPair ℝ) = !![1] := by
    ext i j
    rw [Subsingleton.elim i 0, Subsingleton.elim j 0]
    simpa [HankelPair.array, fourSteps] using h4
  have hS := fun i => svd_one 1 (svd !![1]) (hsvd _) i
  have key := C36_recovers svd id (eraInit none none) o o (.d3 fourSteps) fourSteps none none
    (fun _ => rfl) 1 !![2] !![1] !![1] hset ?_ ⟨1, 1, f, f2⟩ hh' ?_ (hsvd _) ?_ model hmodel
  · obtain ⟨hr, hpq, hk⟩ := key
    obtain ⟨hp, hq⟩ := hpq le_rfl
    have hk' : ∀ k i j, (model.C * model.A ^ k * model.B) i j = (2 : ℝ) ^ k := by
      intro k i j
      have hi : i.val = 0 := by have := i.isLt; have : fourSteps.no = 1 := rfl; omega
      have hj : j.val = 0 := by have := j.isLt; have : fourSteps.ni = 1 := rfl; omega
      rw [hk k i j (0 : Fin 1) (0 : Fin 1) (by rw [hi]; rfl) (by rw [hj]; rfl)]
      exact two_pow_entry k
    refine ⟨fun k => if k < 4 then 2 ^ k else 0, model, fun k hk => if_neg (by omega), ?_, ?_, hr, ?_, hk'⟩
    · intro k hk
      rw [hnt] at hk
      have : k < 3 := by omega
      interval_cases k <;> simp [fourSteps]
    · unfold computeEraModel
      rw [hmodel]
    · obtain ⟨r, p, q, A, B, C⟩ := model
      dsimp only at hr hp hq hk' ⊢
      subst hr
      have hp' : p = 1 := hp
      have hq' : q = 1 := hq
      subst hp' hq'
      have e0 := hk' 0 0 0
      have e1 := hk' 1 0 0
      simp only [pow_zero, pow_one, Matrix.mul_one, Matrix.mul_apply, Finset.univ_unique, Fin.default_eq_zero,
        Finset.sum_singleton] at e0 e1
      refine ⟨fun _ => 1, fun h => by simpa using congrFun h 0, ?_⟩
      funext i
      rw [Subsingleton.elim i 0]
      have e2 : A 0 0 = 2 := by
        have : C 0 0 * A 0 0 * B 0 0 = A 0 0 * (C 0 0 * B 0 0) := by ring
        rw [this, e0, mul_one] at e1
        exact e1
      simp [mulVec, dotProduct, e2]
  · intro k _ i j
    change Fin 1 at i j
    rw [Subsingleton.elim i 0, Subsingleton.elim j 0]
    refine ⟨Eq.trans ?_ (two_pow_entry (1 * k)).symm, Eq.trans ?_ (two_pow_entry (1 * k + 1)).symm⟩
    · simp [fourSteps]
    · simp only [fourSteps]
      congr 1
      omega
  · rw [ha]
    have := (hsvd (!![1] : Matrix (Fin 1) (Fin 1) ℝ)).rank
    rw [this, Fintype.card_eq_one_iff]
    refine ⟨⟨⟨0, by decide⟩, fun h0 => ?_⟩, fun y => Subtype.ext (Fin.ext ?_)⟩
    · have := hS ⟨0, by decide⟩
      rw [h0] at this
      norm_num at this
    · have := y.1.isLt
      omega
  · rw [ha]
    intro i _
    have h1 := hS i
    have h2 := (hsvd (!![1] : Matrix (Fin 1) (Fin 1) ℝ)).nonneg i
    have h3 : (svd (!![1] : Matrix (Fin 1) (Fin 1) ℝ)).S i = 1 := by nlinarith
    show 1e-13 < (svd _).S i
    rw [h3]
    norm_num

/-- The system `x' = 0`, which comes to rest in one step: the projection has no error. -/
example : ∃ (svd : ∀ {m n : Nat}, Matrix (Fin m) (Fin n) ℝ → SvdOut ℝ m n) (res : BpodResult ℝ 1 1 1)
    (Φ Ψ a b c : Matrix (Fin 1) (Fin 1) ℝ),
    bpodArrays svd !![1] !![1] 1 1 (some [0]) (some [0]) none (some svdAtol) none = .ok res ∧
    res.directModes = ⟨1, Φ⟩ ∧ res.adjointModes = ⟨1, Ψ⟩ ∧ ∃ σ,
      IsAccurateModel (fun k i j => if k = 0 ∧ i = 0 ∧ j = 0 then 1 else 0) σ 0 1 a b c := by
  choose svd hsvd using fun (m n : Nat) (a : Matrix (Fin m) (Fin n) ℝ) => exists_isSvd a
  obtain ⟨res0, h0⟩ := C25_no_error (svd 1 1) !![1] !![1] 1 1 none .none (some svdAtol) none le_rfl le_rfl (dvd_refl _)
    (dvd_refl _) le_rfl le_rfl rfl trivial
  have hr : 1 ≤ res0.r := by
    obtain ⟨rows, s, dm, am, hrows, -, hs, -, -, rfl⟩ := bpodArrays_cases (svd 1 1) _ _ 1 1 _ _ none .none _ _ rfl trivial res0 h0
    have hH := (C25_arrays (svd 1 1) _ _ 1 1 none none none .none _ _ le_rfl le_rfl rfl trivial 0 0 !![1] !![1]
      (by simp [Weights.matrix]) (by intro i j; fin_cases i; fin_cases j; simp) (by intro i j; fin_cases i; fin_cases j; simp)
      _ h0).1
    dsimp only at hH ⊢
    rw [hH] at hs
    have hone : (!![1]ᴴ * Weights.none.matrix 1 * !![1] : Matrix (Fin 1) (Fin 1) ℝ) = !![1] := by
      ext i j; fin_cases i; fin_cases j; rw [conjTranspose_one_one]; simp [Weights.matrix]
    rw [hone] at hs
    have hS := fun i => svd_one 1 (svd 1 1 !![1]) (hsvd 1 1 _) i
    rw [utilSvd_rank (svd 1 1) _ svdAtol (by norm_num [svdAtol]) (hsvd 1 1 _) (fun i _ => by
      have h1 := hS i
      have h2 := (hsvd 1 1 !![1]).nonneg i
      have h3 : (svd 1 1 !![1]).S i = 1 := by nlinarith
      rw [h3]
      norm_num [svdAtol]) s hs]
    have : (!![1] : Matrix (Fin 1) (Fin 1) ℝ) = 1 := by ext i j; fin_cases i; fin_cases j; simp
    rw [this, Matrix.rank_one]
    rfl
  obtain ⟨res, hres⟩ := (C61_number_of_modes (r := 1) (svd 1 1) _ _ none .none rfl trivial _ _ res0 h0).mpr hr
  obtain ⟨Φ, Ψ, a, b, c, h1, h2, -, h4, h5⟩ := C105_bpod (r := 1) (fun {m n} => svd m n) (fun a => hsvd _ _ a)
    !![1] !![1] le_rfl le_rfl none .none rfl trivial 0 0 !![1] !![1] (by simp [Weights.matrix])
    (by intro i j; fin_cases i; fin_cases j; simp) (by intro i j; fin_cases i; fin_cases j; simp)
    res hres (fun k hk => by rw [zero_pow (by omega)]; simp) 1 le_rfl
  refine ⟨fun {m n} => svd m n, res, Φ, Ψ, a, b, c, hres, h1, h2, fun i => (svd 1 1 res.hankel).S (Fin.castLE h4 i), ?_⟩
  have e1 : (entries fun k => (!![1]ᴴ * Weights.none.matrix 1 * 0 ^ k * !![1] : Matrix (Fin 1) (Fin 1) ℝ)) =
      fun k i j => if k = 0 ∧ i = 0 ∧ j = 0 then 1 else 0 := by
    funext k i j
    unfold entries
    by_cases h : i < 1 ∧ j < 1
    · obtain ⟨rfl, rfl⟩ : i = 0 ∧ j = 0 := by omega
      rw [dif_pos h]
      by_cases hk : k = 0
      · subst hk
        rw [conjTranspose_one_one]
        simp [Weights.matrix]
      · simp only [zero_pow hk]
        simp [hk]
    · rw [dif_neg h, if_neg (by omega)]
  have e2 : (2 * ∑ i : Fin (min 1 1), if 1 ≤ i.val then (svd 1 1 res.hankel).S i else 0) = 0 := by
    rw [Finset.sum_eq_zero fun i _ => if_neg (by have := i.isLt; omega), mul_zero]
  rw [e1, e2] at h5
  exact h5

end Modred
