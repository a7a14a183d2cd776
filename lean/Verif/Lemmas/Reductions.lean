import Verif.Model.Reductions
import Verif.Spec.Spmd
import Verif.Lemmas.Spmd
import Verif.Lemmas.Bits

/-! Helper lemmas about the reductions. -/

namespace Modred

variable {α σ μ : Type*}

theorem everyInterleaving_of_matched {p : Nat} {prog : Prog σ μ} {st : Nat → σ}
    {post : Nat → σ → Prop} (hm : AllMatched p prog)
    (hpost : ∀ r, r < p → post r (exec prog st r)) : EveryInterleaving p prog st post := by
  intro sync n s h
  obtain ⟨h1, h2, h3⟩ := interleaving_summary hm h
  refine ⟨h1, h2, fun hf => ?_⟩
  obtain ⟨h4, h5⟩ := h3 hf
  exact ⟨fun r hr => by rw [h4 r hr]; exact hpost r hr, h5⟩

theorem masksFrom_pow (size k : Nat) :
    masksFrom size (2 ^ k) = if 2 ^ k < size then 2 ^ k :: masksFrom size (2 ^ (k + 1)) else [] := by
  rw [masksFrom]
  have : 2 ^ k <<< 1 = 2 ^ (k + 1) := by rw [Nat.shiftLeft_eq, pow_succ 2 k, pow_one]
  have hp : 0 < 2 ^ k := Nat.two_pow_pos k
  simp [hp, this]

/-- Induction over the masks `2^k, 2^(k+1), ...`: an invariant indexed by `k` holds at the end for
some `K` with `size ≤ 2^K`. -/
theorem exec_masks {R : Nat → Round σ μ} {size : Nat} {inv : Nat → (Nat → σ) → Prop}
    (hstep : ∀ k st, 2 ^ k < size → inv k st → inv (k + 1) ((R (2 ^ k)).step st)) :
    ∀ (d k : Nat) (st : Nat → σ), size - 2 ^ k ≤ d → inv k st →
      ∃ K, size ≤ 2 ^ K ∧ inv K (exec ((masksFrom size (2 ^ k)).map R) st) := by
  intro d
  induction d with
  | zero =>
    intro k st hd hi
    rw [masksFrom_pow, if_neg (by omega)]
    exact ⟨k, by omega, hi⟩
  | succ d ih =>
    intro k st hd hi
    rw [masksFrom_pow]
    split
    · rename_i hlt
      rw [List.map_cons, exec_cons]
      refine ih (k + 1) _ ?_ (hstep k st hlt hi)
      have h1 : 2 ^ (k + 1) = 2 * 2 ^ k := pow_succ' 2 k
      have h2 : 0 < 2 ^ k := Nat.two_pow_pos k
      omega
    · exact ⟨k, by omega, hi⟩

theorem mem_masksFrom {size : Nat} : ∀ (d k m : Nat), size - 2 ^ k ≤ d →
    m ∈ masksFrom size (2 ^ k) → ∃ j, m = 2 ^ j ∧ m < size := by
  intro d
  induction d with
  | zero =>
    intro k m hd hm
    rw [masksFrom_pow, if_neg (by omega)] at hm
    simp at hm
  | succ d ih =>
    intro k m hd hm
    rw [masksFrom_pow] at hm
    split at hm
    · rename_i hlt
      rcases List.mem_cons.mp hm with rfl | hm
      · exact ⟨k, rfl, hlt⟩
      · refine ih (k + 1) m ?_ hm
        have h1 : 2 ^ (k + 1) = 2 * 2 ^ k := pow_succ' 2 k
        have h2 : 0 < 2 ^ k := Nat.two_pow_pos k
        omega
    · simp at hm

/-! ### Blocks of ranks -/

/-- Objects of ranks `lo .. lo + n` combined in rank order. -/
def blockFold (op : α → α → α) (x : Nat → α) (lo n : Nat) : α :=
  rankFold op (fun i => x (lo + i)) n

theorem blockFold_append {op : α → α → α} (hop : ∀ a b c, op (op a b) c = op a (op b c))
    (x : Nat → α) (lo a b : Nat) :
    blockFold op x lo (a + b + 1) = op (blockFold op x lo a) (blockFold op x (lo + a + 1) b) := by
  induction b with
  | zero => simp [blockFold, rankFold, Nat.add_assoc]
  | succ b ih =>
    have h1 : blockFold op x lo (a + (b + 1) + 1) =
        op (blockFold op x lo (a + b + 1)) (x (lo + (a + b + 1 + 1))) := rfl
    have h2 : blockFold op x (lo + a + 1) (b + 1) =
        op (blockFold op x (lo + a + 1) b) (x (lo + a + 1 + (b + 1))) := rfl
    rw [h1, ih, h2, hop]
    congr 3
    omega

/-- Neighbouring blocks of the ranks below `size` can be joined.  This holds for an associative `op`,
and for any `op` if the objects are such that it does not matter in which order they are combined. -/
def Joins (op : α → α → α) (x : Nat → α) (size : Nat) : Prop :=
  ∀ lo a b, lo + a + b + 1 < size →
    blockFold op x lo (a + b + 1) = op (blockFold op x lo a) (blockFold op x (lo + a + 1) b)

theorem Joins.of_assoc {op : α → α → α} (hop : ∀ a b c, op (op a b) c = op a (op b c)) (x : Nat → α)
    (size : Nat) : Joins op x size := fun lo a b _ => blockFold_append hop x lo a b

/-- Low and high halves of blocks. -/
theorem block_split (r k : Nat) :
    (r / 2 ^ k % 2 = 0 → r % 2 ^ (k + 1) = r % 2 ^ k) ∧
    (r / 2 ^ k % 2 = 1 → r % 2 ^ (k + 1) = r % 2 ^ k + 2 ^ k) := by
  have h := Nat.mod_mul (x := r) (a := 2 ^ k) (b := 2)
  rw [← pow_succ] at h
  constructor <;> intro h2 <;> rw [h, h2] <;> simp

/-! ### reduce -/

theorem reduceRound_matched {size tag : Nat} {op : α → α → α} (k : Nat) :
    (reduceRound size tag op (2 ^ k)).Matched size := by
  constructor
  · intro r hr so hso
    simp only [reduceRound] at hso
    split at hso
    · rename_i hb
      have hb := (and_pow k r).mp hb
      cases hso
      have ha := andNot_pow k r hb
      have hd : andNot r (2 ^ k) + 2 ^ k = r := ha
      have hpos : 0 < 2 ^ k := Nat.two_pow_pos k
      have hdl : andNot r (2 ^ k) < size := by omega
      dsimp only
      rw [Nat.mod_eq_of_lt hdl]
      refine ⟨hdl, ?_⟩
      set d := andNot r (2 ^ k)
      have hdb : d / 2 ^ k % 2 = 0 := by
        have h2 : r / 2 ^ k = d / 2 ^ k + 1 := by
          rw [← hd, Nat.add_div_right _ (Nat.two_pow_pos k)]
        omega
      have hnb : ¬ (2 ^ k &&& d) ≠ 0 := by rw [and_pow]; omega
      simp only [reduceRound]
      rw [if_neg hnb, or_pow k d hdb, hd, if_pos hr]
    · cases hso
  · intro r hr ro hro
    simp only [reduceRound] at hro
    split at hro
    · cases hro
    · rename_i hnb
      split at hro
      · rename_i hlt
        cases hro
        have hb0 : r / 2 ^ k % 2 = 0 := by
          rw [and_pow] at hnb; omega
        have hor := or_pow k r hb0
        refine ⟨hlt, ?_⟩
        dsimp only
        have hb1 : (r + 2 ^ k) / 2 ^ k % 2 = 1 := by
          rw [Nat.add_div_right _ (Nat.two_pow_pos k)]; omega
        have hb2 := (and_pow k (r + 2 ^ k)).mpr hb1
        have ha : andNot (r + 2 ^ k) (2 ^ k) + 2 ^ k = r + 2 ^ k := andNot_pow k _ hb1
        rw [hor]
        refine ⟨⟨andNot (r + 2 ^ k) (2 ^ k) % size, tag, id⟩, ?_, ?_, rfl⟩
        · simp only [reduceRound]; rw [if_pos hb2]
        · dsimp only
          have : andNot (r + 2 ^ k) (2 ^ k) = r := by omega
          rw [this, Nat.mod_eq_of_lt hr]
      · cases hro

theorem reduceMasks_matched (size tag : Nat) (op : α → α → α) :
    AllMatched size ((masksFrom size 1).map (reduceRound size tag op)) := by
  intro R hR
  obtain ⟨m, hm, rfl⟩ := List.mem_map.mp hR
  obtain ⟨k, rfl, -⟩ := mem_masksFrom (size := size) (size - 1) 0 m (by simp) (by simpa using hm)
  exact reduceRound_matched k

/-- After the rounds for masks `1 .. 2^(k-1)`, a rank divisible by `2^k` holds its block. -/
def reduceInv (op : α → α → α) (x : Nat → α) (size k : Nat) (st : Nat → α) : Prop :=
  ∀ r, r < size → r % 2 ^ k = 0 → st r = blockFold op x r (min (2 ^ k) (size - r) - 1)

theorem reduceInv_step {op : α → α → α} (x : Nat → α) (size tag k : Nat) (hop : Joins op x size)
    (st : Nat → α)
    (hi : reduceInv op x size k st) :
    reduceInv op x size (k + 1) ((reduceRound size tag op (2 ^ k)).step st) := by
  intro r hr hmod
  have h1 : 2 ^ (k + 1) = 2 * 2 ^ k := pow_succ' 2 k
  have hpos : 0 < 2 ^ k := Nat.two_pow_pos k
  have hmk : r % 2 ^ k = 0 := by
    obtain ⟨c, hc⟩ := Nat.dvd_of_mod_eq_zero hmod
    rw [hc, pow_succ, Nat.mul_assoc]; exact Nat.mul_mod_right _ _
  have hb0 : r / 2 ^ k % 2 = 0 := by
    rcases Nat.mod_two_eq_zero_or_one (r / 2 ^ k) with h | h
    · exact h
    · have := (block_split r k).2 h
      omega
  have hnb : ¬ (2 ^ k &&& r) ≠ 0 := by rw [and_pow]; omega
  have hor := or_pow k r hb0
  have hst := hi r hr hmk
  simp only [Round.step, Round.received]
  by_cases hlt : r + 2 ^ k < size
  · have hb1 : (r + 2 ^ k) / 2 ^ k % 2 = 1 := by
      rw [Nat.add_div_right _ hpos]; omega
    have hb2 := (and_pow k (r + 2 ^ k)).mpr hb1
    have hst2 := hi (r + 2 ^ k) hlt (by rw [Nat.add_mod_right]; exact hmk)
    have e1 : min (2 ^ k) (size - r) - 1 = 2 ^ k - 1 := by omega
    have e2 : min (2 ^ (k + 1)) (size - r) - 1 =
        (2 ^ k - 1) + (min (2 ^ k) (size - (r + 2 ^ k)) - 1) + 1 := by omega
    have e3 : r + (2 ^ k - 1) + 1 = r + 2 ^ k := by omega
    have hrecv : (reduceRound size tag op (2 ^ k)).recv r = some ⟨r + 2 ^ k, tag⟩ := by
      simp only [reduceRound]; rw [if_neg hnb, hor, if_pos hlt]
    have hsend : (reduceRound size tag op (2 ^ k)).send (r + 2 ^ k) =
        some ⟨andNot (r + 2 ^ k) (2 ^ k) % size, tag, id⟩ := by
      simp only [reduceRound]; rw [if_pos hb2]
    rw [hrecv]
    simp only [Option.bind_some, hsend, Option.map_some, id]
    rw [e2, hop _ _ _ (by omega), e3, ← hst2, ← e1, ← hst]
    rfl
  · have hrecv : (reduceRound size tag op (2 ^ k)).recv r = none := by
      simp only [reduceRound]; rw [if_neg hnb, hor, if_neg hlt]
    rw [hrecv]
    have e1 : min (2 ^ (k + 1)) (size - r) - 1 = min (2 ^ k) (size - r) - 1 := by omega
    rw [e1, ← hst]
    rfl

theorem reduceMasks_rank_zero' {op : α → α → α} (x : Nat → α) (size tag : Nat)
    (hop : Joins op x size) (hs : 0 < size) :
    exec ((masksFrom size 1).map (reduceRound size tag op)) x 0 = rankFold op x (size - 1) := by
  obtain ⟨K, hK, hinv⟩ := exec_masks (R := reduceRound size tag op) (size := size)
    (inv := reduceInv op x size)
    (fun k st _ hi => reduceInv_step x size tag k hop st hi) (size - 1) 0 x (by simp)
    (by
      intro r hr _
      have : min (2 ^ 0) (size - r) - 1 = 0 := by rw [pow_zero]; omega
      rw [this]; simp [blockFold, rankFold])
  have := hinv 0 hs (Nat.zero_mod _)
  rw [show (2 : Nat) ^ 0 = 1 from rfl] at this
  rw [this]
  have e : min (2 ^ K) (size - 0) - 1 = size - 1 := by omega
  rw [e]
  simp [blockFold]

theorem reduceMasks_rank_zero {op : α → α → α} (hop : ∀ a b c, op (op a b) c = op a (op b c))
    (x : Nat → α) (size tag : Nat) (hs : 0 < size) :
    exec ((masksFrom size 1).map (reduceRound size tag op)) x 0 = rankFold op x (size - 1) :=
  reduceMasks_rank_zero' x size tag (.of_assoc hop x size) hs

theorem forwardRound_matched {size tag root : Nat} (hroot : root < size) (h0 : root ≠ 0) :
    (forwardRound (α := α) tag root).Matched size := by
  constructor
  · intro r hr so hso
    simp only [forwardRound] at hso
    split at hso
    · rename_i h; cases hso; subst h
      exact ⟨hroot, by simp [forwardRound, h0]⟩
    · cases hso
  · intro r hr ro hro
    simp only [forwardRound] at hro
    split at hro
    · cases hro
    · split at hro
      · rename_i h h'; cases hro; subst h'
        exact ⟨by simp only; omega, ⟨r, tag, id⟩, by simp [forwardRound]⟩
      · cases hro

/-! ### bcast -/

theorem bcastRound_matched {size tag d : Nat} (hd : d < size) (h0 : 0 < d) :
    (bcastRound (α := α) tag d).Matched size := by
  constructor
  · intro r hr so hso
    simp only [bcastRound] at hso
    split at hso
    · rename_i h; cases hso; subst h
      exact ⟨hd, by simp [bcastRound]⟩
    · cases hso
  · intro r hr ro hro
    simp only [bcastRound] at hro
    split at hro
    · rename_i h; cases hro; subst h
      exact ⟨by simp only; omega, ⟨r, tag, id⟩, by simp [bcastRound]⟩
    · cases hro

theorem bcastProg_matched (size tag : Nat) : AllMatched size (bcastProg (α := α) size tag) := by
  intro R hR
  obtain ⟨d, hd, rfl⟩ := List.mem_map.mp hR
  rw [List.mem_range'_1] at hd
  exact bcastRound_matched (by omega) (by omega)

theorem bcastRound_step (tag d : Nat) (st : Nat → α) :
    (bcastRound tag d).step st = fun r => if r = d then st 0 else st r := by
  funext r
  simp only [Round.step, Round.received, bcastRound]
  split <;> simp_all

theorem bcastProg_exec (size tag : Nat) (st : Nat → α) (r : Nat) (hr : r < size) :
    exec (bcastProg size tag) st r = st 0 := by
  have key : ∀ n (st : Nat → α),
      exec ((List.range' 1 n).map (bcastRound tag)) st =
        fun r => if 1 ≤ r ∧ r ≤ n then st 0 else st r := by
    intro n
    induction n with
    | zero =>
      intro st; funext r
      rw [if_neg (by omega)]; rfl
    | succ n ih =>
      intro st
      rw [List.range'_concat, List.map_append, exec_append, ih]
      simp only [List.map_cons, List.map_nil, exec_cons, exec_nil, bcastRound_step]
      funext r
      by_cases h1 : r = 1 + 1 * n
      · rw [if_pos h1]
        rw [if_neg (by omega), if_pos (by omega)]
      · rw [if_neg h1]
        by_cases h2 : 1 ≤ r ∧ r ≤ n
        · rw [if_pos h2, if_pos (by omega)]
        · rw [if_neg h2, if_neg (by omega)]
  rw [bcastProg, key]
  by_cases h : 1 ≤ r ∧ r ≤ size - 1
  · simp only [if_pos h]
  · simp only [if_neg h]
    have : r = 0 := by omega
    rw [this]

theorem allreduceProg_matched (size tag : Nat) (op : α → α → α) :
    AllMatched size (allreduceProg size tag op) :=
  (reduceMasks_matched size tag op).append (bcastProg_matched size tag)

theorem allreduceProg_exec {op : α → α → α} (hop : ∀ a b c, op (op a b) c = op a (op b c))
    (x : Nat → α) (size tag r : Nat) (hr : r < size) :
    exec (allreduceProg size tag op) x r = rankFold op x (size - 1) := by
  rw [allreduceProg, exec_append, bcastProg_exec _ _ _ _ hr,
    reduceMasks_rank_zero hop x size tag (by omega)]

theorem allreduceProg_exec' {op : α → α → α} (x : Nat → α) (size tag r : Nat)
    (hop : Joins op x size) (hr : r < size) :
    exec (allreduceProg size tag op) x r = rankFold op x (size - 1) := by
  rw [allreduceProg, exec_append, bcastProg_exec _ _ _ _ hr,
    reduceMasks_rank_zero' x size tag hop (by omega)]

/-! ### scan and exscan -/

theorem xor_lt_facts (r k : Nat) :
    (r / 2 ^ k % 2 = 0 → (r ^^^ 2 ^ k) = r + 2 ^ k) ∧
    (r / 2 ^ k % 2 = 1 → (r ^^^ 2 ^ k) = r - 2 ^ k ∧ 2 ^ k ≤ r) := by
  have := xor_pow k r
  refine ⟨this.1, fun h => ?_⟩
  have := this.2 h
  omega

theorem xor_xor_pow (r m : Nat) : ((r ^^^ m) ^^^ m) = r := by
  rw [Nat.xor_assoc, Nat.xor_self, Nat.xor_zero]

theorem scanRound_matched {size tag : Nat} {op : α → α → α} (m : Nat) :
    (scanRound size tag op m).Matched size := by
  constructor
  · intro r hr so hso
    simp only [scanRound] at hso
    split at hso
    · rename_i h; cases hso
      exact ⟨h, by simp [scanRound, hr]⟩
    · cases hso
  · intro r hr ro hro
    simp only [scanRound] at hro
    split at hro
    · rename_i h; cases hro
      exact ⟨h, ⟨r, tag, ScanState.part⟩, by simp [scanRound, hr], rfl, rfl⟩
    · cases hro

theorem exscanRound_matched {size tag : Nat} {op : α → α → α} (m : Nat) :
    (exscanRound size tag op m).Matched size := by
  constructor
  · intro r hr so hso
    simp only [exscanRound] at hso
    split at hso
    · rename_i h; cases hso
      exact ⟨h, by simp [exscanRound, hr]⟩
    · cases hso
  · intro r hr ro hro
    simp only [exscanRound] at hro
    split at hro
    · rename_i h; cases hro
      exact ⟨h, ⟨r, tag, ExscanState.part⟩, by simp [exscanRound, hr], rfl, rfl⟩
    · cases hro

/-- First rank of the block of size `2^k` that holds `r`. -/
def blockStart (r k : Nat) : Nat := r - r % 2 ^ k

theorem blockStart_succ (r k : Nat) :
    (r / 2 ^ k % 2 = 0 → blockStart r (k + 1) = blockStart r k) ∧
    (r / 2 ^ k % 2 = 1 → blockStart r (k + 1) + 2 ^ k = blockStart r k) := by
  have h1 := block_split r k
  have h2 := Nat.mod_le r (2 ^ k)
  have h3 := Nat.mod_le r (2 ^ (k + 1))
  unfold blockStart
  refine ⟨fun h => by have := h1.1 h; omega, fun h => by have := h1.2 h; omega⟩

theorem blockStart_add (r k : Nat) : blockStart (r + 2 ^ k) k = blockStart r k + 2 ^ k := by
  unfold blockStart
  rw [Nat.add_mod_right]
  have := Nat.mod_le r (2 ^ k)
  omega

/-- What ranks hold after the rounds for masks `1 .. 2^(k-1)`: the prefix within the block, and the
whole block if all of it exists. -/
def scanInv (op : α → α → α) (x : Nat → α) (size k : Nat) (st : Nat → ScanState α) : Prop :=
  ∀ r, r < size → (st r).recvobj = blockFold op x (blockStart r k) (r % 2 ^ k) ∧
    (blockStart r k + 2 ^ k ≤ size → (st r).part = blockFold op x (blockStart r k) (2 ^ k - 1))

theorem scanInv_step {op : α → α → α} (hop : ∀ a b c, op (op a b) c = op a (op b c))
    (x : Nat → α) (size tag k : Nat) (st : Nat → ScanState α)
    (hi : scanInv op x size k st) :
    scanInv op x size (k + 1) ((scanRound size tag op (2 ^ k)).step st) := by
  intro r hr
  have hp : 2 ^ (k + 1) = 2 * 2 ^ k := pow_succ' 2 k
  have hpos : 0 < 2 ^ k := Nat.two_pow_pos k
  have hbs : blockStart r k + r % 2 ^ k = r := by
    unfold blockStart; have := Nat.mod_le r (2 ^ k); omega
  have hml : r % 2 ^ k < 2 ^ k := Nat.mod_lt _ hpos
  obtain ⟨hr1, hr2⟩ := hi r hr
  rcases Nat.mod_two_eq_zero_or_one (r / 2 ^ k) with hb | hb
  · have hx := (xor_lt_facts r k).1 hb
    have hs := (blockStart_succ r k).1 hb
    have hm := (block_split r k).1 hb
    by_cases hlt : r + 2 ^ k < size
    · have hrecv : (scanRound size tag op (2 ^ k)).recv r = some ⟨r + 2 ^ k, tag⟩ := by
        simp only [scanRound]; rw [hx, if_pos hlt]
      have hsend : (scanRound size tag op (2 ^ k)).send (r + 2 ^ k) =
          some ⟨r, tag, ScanState.part⟩ := by
        simp only [scanRound]
        rw [show ((r + 2 ^ k) ^^^ 2 ^ k) = r by rw [← hx]; exact xor_xor_pow _ _, if_pos hr]
      have hst : (scanRound size tag op (2 ^ k)).step st r =
          ⟨(st r).recvobj, op (st r).part (st (r + 2 ^ k)).part⟩ := by
        simp only [Round.step, Round.received, hrecv, Option.bind_some, hsend, Option.map_some]
        simp only [scanRound]
        rw [hx, if_neg (by omega)]
      rw [hst, hs, hm]
      refine ⟨hr1, fun hfull => ?_⟩
      obtain ⟨-, ht2⟩ := hi (r + 2 ^ k) hlt
      rw [blockStart_add] at ht2
      dsimp only
      rw [hr2 (by omega), ht2 (by omega)]
      have e1 : 2 ^ (k + 1) - 1 = (2 ^ k - 1) + (2 ^ k - 1) + 1 := by omega
      have e2 : blockStart r k + (2 ^ k - 1) + 1 = blockStart r k + 2 ^ k := by omega
      rw [e1, blockFold_append hop, e2]
    · have hrecv : (scanRound size tag op (2 ^ k)).recv r = none := by
        simp only [scanRound]; rw [hx, if_neg hlt]
      have hst : (scanRound size tag op (2 ^ k)).step st r = st r := by
        simp only [Round.step, Round.received, hrecv]; rfl
      rw [hst, hs, hm]
      exact ⟨hr1, fun hfull => by omega⟩
  · obtain ⟨hx, hle⟩ := (xor_lt_facts r k).2 hb
    have hs := (blockStart_succ r k).2 hb
    have hm := (block_split r k).2 hb
    have hrecv : (scanRound size tag op (2 ^ k)).recv r = some ⟨r - 2 ^ k, tag⟩ := by
      simp only [scanRound]; rw [hx, if_pos (by omega)]
    have hsend : (scanRound size tag op (2 ^ k)).send (r - 2 ^ k) =
        some ⟨r, tag, ScanState.part⟩ := by
      simp only [scanRound]
      rw [show ((r - 2 ^ k) ^^^ 2 ^ k) = r by rw [← hx]; exact xor_xor_pow _ _, if_pos hr]
    have hst : (scanRound size tag op (2 ^ k)).step st r =
        ⟨op (st (r - 2 ^ k)).part (st r).recvobj, op (st (r - 2 ^ k)).part (st r).part⟩ := by
      simp only [Round.step, Round.received, hrecv, Option.bind_some, hsend, Option.map_some]
      simp only [scanRound]
      rw [hx, if_pos (by omega)]
    obtain ⟨-, ht2⟩ := hi (r - 2 ^ k) (by omega)
    have hbt : blockStart (r - 2 ^ k) k + 2 ^ k = blockStart r k := by
      rw [← blockStart_add, Nat.sub_add_cancel hle]
    have hbt' : blockStart (r - 2 ^ k) k = blockStart r (k + 1) := by omega
    have ht := ht2 (by omega)
    rw [hbt'] at ht
    have e2 : blockStart r (k + 1) + (2 ^ k - 1) + 1 = blockStart r k := by omega
    rw [hst]
    refine ⟨?_, fun hfull => ?_⟩
    · dsimp only
      have e1 : r % 2 ^ (k + 1) = (2 ^ k - 1) + r % 2 ^ k + 1 := by omega
      rw [e1, blockFold_append hop, e2, ← hr1, ht]
    · dsimp only
      have e1 : 2 ^ (k + 1) - 1 = (2 ^ k - 1) + (2 ^ k - 1) + 1 := by omega
      rw [e1, blockFold_append hop, e2, ← hr2 (by omega), ht]

theorem scanProg_exec {op : α → α → α} (hop : ∀ a b c, op (op a b) c = op a (op b c))
    (x : Nat → α) (size tag r : Nat) (hr : r < size) :
    (exec (scanProg size tag op) (scanInit x) r).recvobj = rankFold op x r := by
  obtain ⟨K, hK, hinv⟩ := exec_masks (R := scanRound size tag op) (size := size)
    (inv := scanInv op x size)
    (fun k st _ hi => scanInv_step hop x size tag k st hi) (size - 1) 0 (scanInit x) (by simp)
    (by
      intro r hr
      simp [scanInit, blockFold, rankFold, blockStart, Nat.mod_one])
  have h := (hinv r hr).1
  rw [show (2 : Nat) ^ 0 = 1 from rfl] at h
  have e : r % 2 ^ K = r := Nat.mod_eq_of_lt (by omega)
  have e2 : blockStart r K = 0 := by unfold blockStart; omega
  rw [e, e2] at h
  rw [scanProg, h]
  simp [blockFold]

/-- What ranks hold in `exscan`: the combination of the block's ranks before `r`, once there is
one. -/
def exscanInv (op : α → α → α) (x : Nat → α) (size k : Nat) (st : Nat → ExscanState α) : Prop :=
  ∀ r, r < size → (st r).flag = decide (r % 2 ^ k ≠ 0) ∧
    (r % 2 ^ k ≠ 0 → (st r).recvobj = blockFold op x (blockStart r k) (r % 2 ^ k - 1)) ∧
    (blockStart r k + 2 ^ k ≤ size → (st r).part = blockFold op x (blockStart r k) (2 ^ k - 1))

theorem exscanInv_step {op : α → α → α} (hop : ∀ a b c, op (op a b) c = op a (op b c))
    (x : Nat → α) (size tag k : Nat) (st : Nat → ExscanState α)
    (hi : exscanInv op x size k st) :
    exscanInv op x size (k + 1) ((exscanRound size tag op (2 ^ k)).step st) := by
  intro r hr
  have hp : 2 ^ (k + 1) = 2 * 2 ^ k := pow_succ' 2 k
  have hpos : 0 < 2 ^ k := Nat.two_pow_pos k
  have hbs : blockStart r k + r % 2 ^ k = r := by
    unfold blockStart; have := Nat.mod_le r (2 ^ k); omega
  have hml : r % 2 ^ k < 2 ^ k := Nat.mod_lt _ hpos
  obtain ⟨hr0, hr1, hr2⟩ := hi r hr
  rcases Nat.mod_two_eq_zero_or_one (r / 2 ^ k) with hb | hb
  · have hx := (xor_lt_facts r k).1 hb
    have hs := (blockStart_succ r k).1 hb
    have hm := (block_split r k).1 hb
    by_cases hlt : r + 2 ^ k < size
    · have hrecv : (exscanRound size tag op (2 ^ k)).recv r = some ⟨r + 2 ^ k, tag⟩ := by
        simp only [exscanRound]; rw [hx, if_pos hlt]
      have hsend : (exscanRound size tag op (2 ^ k)).send (r + 2 ^ k) =
          some ⟨r, tag, ExscanState.part⟩ := by
        simp only [exscanRound]
        rw [show ((r + 2 ^ k) ^^^ 2 ^ k) = r by rw [← hx]; exact xor_xor_pow _ _, if_pos hr]
      have hst : (exscanRound size tag op (2 ^ k)).step st r =
          ⟨(st r).recvobj, op (st r).part (st (r + 2 ^ k)).part, (st r).flag⟩ := by
        simp only [Round.step, Round.received, hrecv, Option.bind_some, hsend, Option.map_some]
        simp only [exscanRound]
        rw [hx, if_neg (by omega)]
      rw [hst, hs, hm]
      refine ⟨hr0, hr1, fun hfull => ?_⟩
      obtain ⟨-, -, ht2⟩ := hi (r + 2 ^ k) hlt
      rw [blockStart_add] at ht2
      dsimp only
      rw [hr2 (by omega), ht2 (by omega)]
      have e1 : 2 ^ (k + 1) - 1 = (2 ^ k - 1) + (2 ^ k - 1) + 1 := by omega
      have e2 : blockStart r k + (2 ^ k - 1) + 1 = blockStart r k + 2 ^ k := by omega
      rw [e1, blockFold_append hop, e2]
    · have hrecv : (exscanRound size tag op (2 ^ k)).recv r = none := by
        simp only [exscanRound]; rw [hx, if_neg hlt]
      have hst : (exscanRound size tag op (2 ^ k)).step st r = st r := by
        simp only [Round.step, Round.received, hrecv]; rfl
      rw [hst, hs, hm]
      exact ⟨hr0, hr1, fun hfull => by omega⟩
  · obtain ⟨hx, hle⟩ := (xor_lt_facts r k).2 hb
    have hs := (blockStart_succ r k).2 hb
    have hm := (block_split r k).2 hb
    have hrecv : (exscanRound size tag op (2 ^ k)).recv r = some ⟨r - 2 ^ k, tag⟩ := by
      simp only [exscanRound]; rw [hx, if_pos (by omega)]
    have hsend : (exscanRound size tag op (2 ^ k)).send (r - 2 ^ k) =
        some ⟨r, tag, ExscanState.part⟩ := by
      simp only [exscanRound]
      rw [show ((r - 2 ^ k) ^^^ 2 ^ k) = r by rw [← hx]; exact xor_xor_pow _ _, if_pos hr]
    have hst : (exscanRound size tag op (2 ^ k)).step st r =
        if (st r).flag = false then
          ⟨(st (r - 2 ^ k)).part, op (st (r - 2 ^ k)).part (st r).part, true⟩
        else ⟨op (st (r - 2 ^ k)).part (st r).recvobj, op (st (r - 2 ^ k)).part (st r).part,
          (st r).flag⟩ := by
      simp only [Round.step, Round.received, hrecv, Option.bind_some, hsend, Option.map_some]
      simp only [exscanRound]
      rw [hx, if_pos (by omega), if_pos (by omega)]
    obtain ⟨-, -, ht2⟩ := hi (r - 2 ^ k) (by omega)
    have hbt : blockStart (r - 2 ^ k) k + 2 ^ k = blockStart r k := by
      rw [← blockStart_add, Nat.sub_add_cancel hle]
    have hbt' : blockStart (r - 2 ^ k) k = blockStart r (k + 1) := by omega
    have ht := ht2 (by omega)
    rw [hbt'] at ht
    have e2 : blockStart r (k + 1) + (2 ^ k - 1) + 1 = blockStart r k := by omega
    have hpart : blockStart r (k + 1) + 2 ^ (k + 1) ≤ size →
        op (st (r - 2 ^ k)).part (st r).part =
          blockFold op x (blockStart r (k + 1)) (2 ^ (k + 1) - 1) := by
      intro hfull
      have e1 : 2 ^ (k + 1) - 1 = (2 ^ k - 1) + (2 ^ k - 1) + 1 := by omega
      rw [e1, blockFold_append hop, e2, ← hr2 (by omega), ht]
    have hne : r % 2 ^ (k + 1) ≠ 0 := by omega
    rw [hst]
    by_cases h0 : r % 2 ^ k = 0
    · have hf : (st r).flag = false := by simp [hr0, h0]
      rw [if_pos hf]
      refine ⟨by simp [hne], fun _ => ?_, hpart⟩
      have e1 : r % 2 ^ (k + 1) - 1 = 2 ^ k - 1 := by omega
      dsimp only
      rw [e1, ht]
    · have hf : (st r).flag = true := by simp [hr0, h0]
      rw [if_neg (by simp [hf])]
      refine ⟨by simp [hne, hf], fun _ => ?_, hpart⟩
      have e1 : r % 2 ^ (k + 1) - 1 = (2 ^ k - 1) + (r % 2 ^ k - 1) + 1 := by omega
      dsimp only
      rw [e1, blockFold_append hop, e2, ← hr1 h0, ht]

theorem exscanProg_exec {op : α → α → α} (hop : ∀ a b c, op (op a b) c = op a (op b c))
    (x : Nat → α) (size tag r : Nat) (hr : r < size) (h0 : r ≠ 0) :
    (exec (exscanProg size tag op) (exscanInit x) r).recvobj = rankFold op x (r - 1) := by
  obtain ⟨K, hK, hinv⟩ := exec_masks (R := exscanRound size tag op) (size := size)
    (inv := exscanInv op x size)
    (fun k st _ hi => exscanInv_step hop x size tag k st hi) (size - 1) 0 (exscanInit x) (by simp)
    (by
      intro r hr
      simp [exscanInit, blockFold, rankFold, blockStart, Nat.mod_one])
  have e : r % 2 ^ K = r := Nat.mod_eq_of_lt (by omega)
  have h := (hinv r hr).2.1 (by omega)
  rw [show (2 : Nat) ^ 0 = 1 from rfl] at h
  have e2 : blockStart r K = 0 := by unfold blockStart; omega
  rw [e, e2] at h
  rw [exscanProg, h]
  simp [blockFold]

theorem mapMasks_matched {R : Nat → Round σ μ} {size : Nat}
    (h : ∀ m, (R m).Matched size) : AllMatched size ((masksFrom size 1).map R) := by
  intro R' hR
  obtain ⟨m, _, rfl⟩ := List.mem_map.mp hR
  exact h m

end Modred
