import Mathlib.Data.Nat.Bitwise

/-! Bit operations with a power of two, in terms of quotients and remainders. -/

namespace Modred

theorem or_pow (k : Nat) : ∀ r : Nat, r / 2 ^ k % 2 = 0 → (r ||| 2 ^ k) = r + 2 ^ k := by
  induction k with
  | zero =>
    intro r h
    simp only [pow_zero, Nat.div_one] at h ⊢
    have h1 : (r ||| 1) / 2 = r / 2 := by rw [Nat.or_div_two]; simp
    have h2 : (r ||| 1) % 2 = 1 := by
      have := @Nat.or_mod_two_pow r 1 1
      simp only [pow_one, h] at this
      simp
    omega
  | succ k ih =>
    intro r h
    have h3 : 2 ^ (k + 1) = 2 * 2 ^ k := pow_succ' 2 k
    have h0 := ih (r / 2) (by rw [Nat.div_div_eq_div_mul, ← h3]; exact h)
    have h1 : (r ||| 2 ^ (k + 1)) / 2 = r / 2 + 2 ^ k := by
      rw [Nat.or_div_two, ← h0, h3]; simp
    have h2 : (r ||| 2 ^ (k + 1)) % 2 = r % 2 := by
      have := @Nat.or_mod_two_pow r (2 ^ (k + 1)) 1
      rw [h3] at this ⊢
      simpa using this
    omega

theorem xor_pow (k : Nat) : ∀ r : Nat,
    (r / 2 ^ k % 2 = 0 → (r ^^^ 2 ^ k) = r + 2 ^ k) ∧
    (r / 2 ^ k % 2 = 1 → (r ^^^ 2 ^ k) + 2 ^ k = r) := by
  induction k with
  | zero =>
    intro r
    have h1 : (r ^^^ 1) / 2 = r / 2 := by rw [Nat.xor_div_two]; simp
    have h2 : (r ^^^ 1) % 2 = (r + 1) % 2 := Nat.xor_mod_two_eq
    simp only [pow_zero, Nat.div_one]
    omega
  | succ k ih =>
    intro r
    have h3 : 2 ^ (k + 1) = 2 * 2 ^ k := pow_succ' 2 k
    have hd : r / 2 ^ (k + 1) = r / 2 / 2 ^ k := by rw [Nat.div_div_eq_div_mul, h3]
    have h0 := ih (r / 2)
    have h1 : (r ^^^ 2 ^ (k + 1)) / 2 = (r / 2 ^^^ 2 ^ k) := by
      rw [Nat.xor_div_two, h3]; simp
    have h2 : (r ^^^ 2 ^ (k + 1)) % 2 = r % 2 := by
      have := @Nat.xor_mod_two_eq r (2 ^ (k + 1))
      rw [this, h3]; omega
    rw [hd]
    omega

theorem and_pow (k r : Nat) : (2 ^ k &&& r) ≠ 0 ↔ r / 2 ^ k % 2 = 1 := by
  rw [Nat.and_comm, Nat.and_two_pow, Nat.testBit_eq_decide_div_mod_eq]
  by_cases h : r / 2 ^ k % 2 = 1 <;> simp [h]

theorem andNot_pow (k r : Nat) (h : r / 2 ^ k % 2 = 1) : (r ^^^ (r &&& 2 ^ k)) + 2 ^ k = r := by
  have := (xor_pow k r).2 h
  rw [Nat.and_two_pow, Nat.testBit_eq_decide_div_mod_eq]
  simpa [h] using this

end Modred
