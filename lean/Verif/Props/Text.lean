import Verif.Model.Text
import Mathlib.Tactic.NormNum
import Mathlib.Tactic.Linarith
import Mathlib.Tactic.Ring
import Mathlib.Tactic.IntervalCases

/-!
# Properties of text files (C14, C15, C52)
-/

namespace Modred

variable {R : Type*}

theorem pairUp_flatMap (row : List (R × R)) : pairUp (row.flatMap fun z => [z.1, z.2]) = row := by
  induction row with
  | nil => rfl
  | cons z row ih =>
    rw [List.flatMap_cons]
    simp only [List.cons_append, List.nil_append, pairUp, ih]

theorem length_flatMap_pair (row : List (R × R)) :
    (row.flatMap fun z => [z.1, z.2]).length = 2 * row.length := by
  induction row with
  | nil => rfl
  | cons z row ih =>
    rw [List.flatMap_cons, List.length_append, ih]
    simp only [List.length_cons, List.length_nil]
    omega

/-- **C14.** A two-dimensional array of floating point numbers comes back unchanged. -/
theorem C14_float_round_trip (bits : Int → R) (rows : List (List R)) (fortran : Bool) :
    ∃ file, saveArrayText bits (.float (.d2 rows fortran)) = .ok file ∧
      loadArrayText file false = .ok (.float rows) :=
  ⟨rows, rfl, by simp [loadArrayText]⟩

/-- **C14.** A one-dimensional array of floating point numbers comes back as one column. -/
theorem C14_float_vector_round_trip (bits : Int → R) (l : List R) :
    ∃ file, saveArrayText bits (.float (.d1 l)) = .ok file ∧
      loadArrayText file false = .ok (.float (l.map fun x => [x])) :=
  ⟨l.map fun x => [x], rfl, by simp [loadArrayText]⟩

/-- **C14.** A two-dimensional array of complex numbers in the usual memory order comes back
unchanged. -/
theorem C14_complex_round_trip (bits : Int → R) (rows : List (List (R × R))) :
    ∃ file, saveArrayText bits (.complex (.d2 rows false)) = .ok file ∧
      loadArrayText file true = .ok (.complex rows) := by
  refine ⟨rows.map fun row => row.flatMap fun z => [z.1, z.2], rfl, ?_⟩
  have h : ((rows.map fun row => row.flatMap fun z => [z.1, z.2]).headD []).length % 2 = 0 := by
    cases rows with
    | nil => rfl
    | cons row rows =>
      rw [List.map_cons, List.headD_cons, length_flatMap_pair]
      omega
  unfold loadArrayText
  simp only [h, List.map_map]
  have : (pairUp ∘ fun row : List (R × R) => row.flatMap fun z => [z.1, z.2]) = id := by
    funext row
    exact pairUp_flatMap row
  rw [this]
  simp

example : loadArrayText (R := ℚ) [[1, 2, 3, 4]] true = .ok (.complex [[(1, 2), (3, 4)]]) := rfl

/-- **C14.** A one-dimensional array of complex numbers comes back as one column. -/
theorem C14_complex_vector_round_trip (bits : Int → R) (l : List (R × R)) :
    ∃ file, saveArrayText bits (.complex (.d1 l)) = .ok file ∧
      loadArrayText file true = .ok (.complex (l.map fun x => [x])) :=
  C14_complex_round_trip bits (l.map fun x => [x])

/-- **C14.** The file of a complex array holds real and imaginary parts alternately. -/
theorem C14_complex_file_format (bits : Int → R) (rows : List (List (R × R))) (i j : Nat)
    (hi : i < rows.length) (hj : j < rows[i].length) :
    ∃ file, saveArrayText bits (.complex (.d2 rows false)) = .ok file ∧
      ∃ row, file[i]? = some row ∧ row[2 * j]? = some rows[i][j].1 ∧
        row[2 * j + 1]? = some rows[i][j].2 := by
  refine ⟨rows.map fun row => row.flatMap fun z => [z.1, z.2], rfl,
    rows[i].flatMap fun z => [z.1, z.2], by simp [hi], ?_⟩
  have main : ∀ (row : List (R × R)) (j : Nat) (hj : j < row.length),
      (row.flatMap fun z => [z.1, z.2])[2 * j]? = some row[j].1 ∧
        (row.flatMap fun z => [z.1, z.2])[2 * j + 1]? = some row[j].2 := by
    intro row
    induction row with
    | nil => intro j hj; simp at hj
    | cons z row ih =>
      intro j hj
      cases j with
      | zero => simp
      | succ j =>
        have := ih j (by simpa using hj)
        rw [List.flatMap_cons]
        have e1 : 2 * (j + 1) = 2 * j + 1 + 1 := by omega
        rw [e1]
        simpa using this
  exact main _ j hj

/-- **C14.** Arrays of more than two dimensions raise `RuntimeError`, and nothing is saved. -/
theorem C14_more_than_two_dimensions_raise (bits : Int → R) :
    saveArrayText bits (.float .higher) = .error .runtimeError ∧
      saveArrayText bits (.complex .higher) = .error .runtimeError ∧
      saveArrayText bits (.int .higher) = .error .runtimeError := ⟨rfl, rfl, rfl⟩

/-- **C14.** Loading complex numbers from a file with an odd number of columns raises `ValueError`;
in all other cases loading succeeds. -/
theorem C14_odd_columns_raise (file : List (List R)) (row : List R) (isComplex : Bool) :
    if isComplex = true ∧ row.length % 2 = 1
    then loadArrayText (row :: file) isComplex = .error .valueError
    else ∃ a, loadArrayText (row :: file) isComplex = .ok a := by
  unfold loadArrayText
  cases isComplex with
  | false => simp
  | true =>
    rcases Nat.mod_two_eq_zero_or_one row.length with h | h <;> simp [h]

/-- **C15, violation.** Every integer from 1 to 2^52 - 1 comes back as another number: it is divided
by 2^1074. -/
theorem C15_integers_not_restored_violation (n : Nat) (h1 : 1 ≤ n) (h2 : n < 2 ^ 52) :
    ∃ file, saveArrayText floatOfBits (.int (.d2 [[n]] false)) = .ok file ∧
      loadArrayText file false = .ok (.float [[(n : ℚ) / 2 ^ 1074]]) ∧
      (n : ℚ) / 2 ^ 1074 ≠ n := by
  have hbits : floatOfBits n = (n : ℚ) / 2 ^ 1074 := by
    have e0 : ((n : Int) % 2 ^ 64).toNat = n := by omega
    have e1 : n / 2 ^ 63 = 0 := Nat.div_eq_of_lt (by omega)
    have e2 : n / 2 ^ 52 = 0 := Nat.div_eq_of_lt (by omega)
    have e3 : n % 2 ^ 52 = n := Nat.mod_eq_of_lt h2
    unfold floatOfBits
    simp only [e0, e1, e2, e3]
    norm_num
  refine ⟨[[(n : ℚ) / 2 ^ 1074]], ?_, by simp [loadArrayText], ?_⟩
  · simp only [saveArrayText, toSave, List.map_cons, List.map_nil, hbits]
  · have hn : (0 : ℚ) < n := by exact_mod_cast h1
    have hp : (1 : ℚ) < 2 ^ 1074 := one_lt_pow₀ (by norm_num) (by norm_num)
    intro h
    rw [div_eq_iff (by positivity)] at h
    exact absurd h (ne_of_lt (lt_mul_of_one_lt_right hn hp))

/-- No 64-bit integer but zero is the number with its bits. -/
theorem floatOfBits_ne (n : Int) (h1 : -2 ^ 63 ≤ n) (h2 : n < 2 ^ 63) (h0 : n ≠ 0) :
    floatOfBits n ≠ (n : ℚ) := by
  unfold floatOfBits
  dsimp only
  generalize hb : (n % 2 ^ 64).toNat = bits
  generalize hs : bits / 2 ^ 63 = s
  generalize he : bits / 2 ^ 52 % 2 ^ 11 = e
  generalize hm : bits % 2 ^ 52 = m
  have hs' : s = 0 ∧ n = e * 2 ^ 52 + m ∨ s = 1 ∧ n = e * 2 ^ 52 + m - 2 ^ 63 := by omega
  have hm' : m < 2 ^ 52 := by omega
  have he' : e < 2 ^ 11 := by omega
  have key : ∀ t : Int, (t = 1 ∨ t = -1) → (t = 1 → n = e * 2 ^ 52 + m) →
      (t = -1 → n = e * 2 ^ 52 + m - 2 ^ 63) →
      (if e = 2 ^ 11 - 1 then 0 else if e = 0 then (t : ℚ) * (m : ℚ) / 2 ^ 1074
        else (t : ℚ) * (2 ^ 52 + (m : ℚ)) * 2 ^ e / 2 ^ 1075) ≠ (n : ℚ) := by
    intro t ht htp htn
    split
    · intro h
      exact h0 (by exact_mod_cast h.symm)
    · rename_i he1
      split
      · intro h
        rw [div_eq_iff (by positivity)] at h
        have h' : t * m = n * 2 ^ 1074 := by exact_mod_cast h
        have hp : (2 : Int) ^ 52 ≤ 2 ^ 1074 := pow_le_pow_right₀ (by norm_num) (by norm_num)
        generalize (2 : Int) ^ 1074 = P at h' hp
        rcases lt_or_gt_of_ne h0 with hn | hn
        · have : n * P ≤ -1 * P := mul_le_mul_of_nonneg_right (by omega) (by omega)
          rcases ht with rfl | rfl <;> omega
        · have : 1 * P ≤ n * P := mul_le_mul_of_nonneg_right (by omega) (by omega)
          rcases ht with rfl | rfl <;> omega
      · rename_i he0
        intro h
        rw [div_eq_iff (by positivity)] at h
        have h' : t * (2 ^ 52 + m) * 2 ^ e = n * 2 ^ 1075 := by exact_mod_cast h
        rcases Nat.lt_or_ge e 1075 with hlt | hge
        · obtain ⟨d, hd⟩ : ∃ d, 1075 = e + (d + 1) := ⟨1074 - e, by omega⟩
          rw [hd, pow_add, ← mul_assoc, mul_right_comm n] at h'
          have h3 := mul_right_cancel₀ (by positivity) h'
          rw [pow_succ (2 : Int) d] at h3
          have hd1 : (1 : Int) ≤ 2 ^ d := one_le_pow₀ (by norm_num)
          generalize (2 : Int) ^ d = D at h3 hd1
          rcases ht with rfl | rfl
          · have hn := htp rfl
            have : n * 1 ≤ n * D := mul_le_mul_of_nonneg_left hd1 (by omega)
            have e3 : n * (D * 2) = 2 * (n * D) := by ring
            omega
          · have hn := htn rfl
            have : n * D ≤ n * 1 := mul_le_mul_of_nonpos_left hd1 (by omega)
            have e3 : n * (D * 2) = 2 * (n * D) := by ring
            omega
        · obtain ⟨j, rfl⟩ : ∃ j, e = 1075 + j := ⟨e - 1075, by omega⟩
          rw [pow_add, ← mul_assoc, mul_right_comm] at h'
          have h3 := mul_right_cancel₀ (by positivity) h'
          have hj : j ≤ 11 := by
            by_contra hj
            have hp : (2 : Int) ^ 12 ≤ 2 ^ j := pow_le_pow_right₀ (by norm_num) (by omega)
            generalize (2 : Int) ^ j = J at h3 hp
            have : (2 ^ 52 + m : Int) * 2 ^ 12 ≤ (2 ^ 52 + m) * J :=
              mul_le_mul_of_nonneg_left hp (by omega)
            have e3 : (-1 : Int) * (2 ^ 52 + m) * J = -((2 ^ 52 + m) * J) := by ring
            have e4 : (1 : Int) * (2 ^ 52 + m) * J = ((2 ^ 52 + m) * J) := by ring
            rcases ht with rfl | rfl <;> omega
          rcases ht with rfl | rfl
          · have hn := htp rfl
            interval_cases j <;> omega
          · have hn := htn rfl
            interval_cases j <;> omega
  rcases hs' with ⟨rfl, hn⟩ | ⟨rfl, hn⟩
  · simpa using key 1 (by simp) (fun _ => hn) (by simp)
  · simpa using key (-1) (by simp) (by simp) (fun _ => hn)

/-- **C15, violation.** No 64-bit integer other than zero comes back with its value. -/
theorem C15_no_integer_restored_violation (n : Int) (h1 : -2 ^ 63 ≤ n) (h2 : n < 2 ^ 63)
    (h0 : n ≠ 0) :
    ∃ file x, saveArrayText floatOfBits (.int (.d2 [[n]] false)) = .ok file ∧
      loadArrayText file false = .ok (.float [[x]]) ∧ x ≠ n :=
  ⟨[[floatOfBits n]], floatOfBits n, rfl, by simp [loadArrayText], floatOfBits_ne n h1 h2 h0⟩

/-- **C15, violation.** Some integers and what they come back as: the bits of 1.0, -2.5 and of the
largest finite number. -/
theorem C15_some_integers_read_back_violation :
    ∃ file, saveArrayText floatOfBits
      (.int (.d2 [[0x3ff0000000000000, -0x3ffc000000000000, 0x7fefffffffffffff]] false)) = .ok file ∧
      loadArrayText file false = .ok (.float [[1, -5 / 2, (2 - 1 / 2 ^ 52) * 2 ^ 1023]]) := by
  have e1 : floatOfBits 0x3ff0000000000000 = 1 := by decide +kernel
  have e2 : floatOfBits (-0x3ffc000000000000) = -5 / 2 := by decide +kernel
  have e3 : floatOfBits 0x7fefffffffffffff = (2 - 1 / 2 ^ 52) * 2 ^ 1023 := by decide +kernel
  refine ⟨[[1, -5 / 2, (2 - 1 / 2 ^ 52) * 2 ^ 1023]], ?_, by simp [loadArrayText]⟩
  simp only [saveArrayText, toSave, List.map_cons, List.map_nil, e1, e2, e3]

/-- **C15, what holds.** Zeros come back. -/
theorem C15_zeros_restored_partial (rows : List (List Int)) (hzero : ∀ row ∈ rows, ∀ n ∈ row, n = 0) :
    ∃ file, saveArrayText floatOfBits (.int (.d2 rows false)) = .ok file ∧
      loadArrayText file false = .ok (.float (rows.map fun row => row.map fun n : Int => (n : ℚ))) := by
  have h0 : floatOfBits 0 = 0 := by decide +kernel
  refine ⟨rows.map fun row => row.map floatOfBits, rfl, ?_⟩
  have : (rows.map fun row => row.map floatOfBits) =
      rows.map fun row => row.map fun n : Int => (n : ℚ) := by
    refine List.map_congr_left fun row hrow => List.map_congr_left fun n hn => ?_
    rw [hzero row hrow n hn, h0]
    rfl
  rw [this]
  simp [loadArrayText]

/-- **C52, violation.** A complex array whose rows are not contiguous in memory cannot be saved,
while the same numbers in the usual order can. -/
theorem C52_memory_order_violation (bits : Int → R) (rows : List (List (R × R))) :
    saveArrayText bits (.complex (.d2 rows true)) = .error .valueError ∧
      ∃ file, saveArrayText bits (.complex (.d2 rows false)) = .ok file := ⟨rfl, _, rfl⟩

/-- **C52, what holds.** For real arrays the memory order makes no difference. -/
theorem C52_memory_order_of_real_arrays_partial (bits : Int → R) (rows : List (List R)) :
    saveArrayText bits (.float (.d2 rows true)) = saveArrayText bits (.float (.d2 rows false)) := rfl

end Modred
