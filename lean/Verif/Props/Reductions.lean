import Verif.Props.Spmd

/-!
# Properties of `modred/reductions.py` (C04, C05)
-/

namespace Modred

variable {α : Type*}

/-- **C04.** For every size, root and associative `op`: `reduce` does not raise, no interleaving gets
stuck, the root gets the rank-ordered combination and the others get `None`. -/
theorem C04_reduce_is_rank_ordered_fold {op : α → α → α}
    (hop : ∀ a b c, op (op a b) c = op a (op b c)) (size tag root : Nat) (hroot : root < size)
    (x : Nat → α) :
    ∃ prog, reduceProg size tag op root = .ok prog ∧
      EveryInterleaving size prog x fun r s =>
        reduceReturn root r s = if r = root then some (rankFold op x (size - 1)) else none := by
  have hok : reduceProg size tag op root = .ok ((masksFrom size 1).map (reduceRound size tag op) ++
      (if root ≠ 0 then [forwardRound tag root] else [])) := by
    rw [reduceProg, if_pos hroot]
  refine ⟨_, hok, everyInterleaving_of_matched (C06_reduce_rounds_matched hok) fun r hr => ?_⟩
  by_cases h : r = root
  · subst h
    simp only [reduceReturn, ne_eq, not_true_eq_false, if_false, if_true]
    congr 1
    rw [exec_append]
    have h0 := reduceMasks_rank_zero hop x size tag (by omega)
    by_cases hr0 : r = 0
    · subst hr0
      rw [if_neg (by simp)]
      exact h0
    · rw [if_pos hr0, exec_cons, exec_nil, ← h0]
      simp [Round.step, Round.received, forwardRound, hr0]
  · simp [reduceReturn, h]

/-- **C04.** A root that is no rank is refused. -/
theorem C04_reduce_bad_root_raises (op : α → α → α) (size tag root : Nat) (h : size ≤ root) :
    reduceProg size tag op root = .error .assertionError := by
  rw [reduceProg, if_neg (by omega)]

/-- **C04.** `allreduce` gives every rank the rank-ordered combination. -/
theorem C04_allreduce_gives_all_ranks_the_fold {op : α → α → α}
    (hop : ∀ a b c, op (op a b) c = op a (op b c)) (size tag : Nat) (x : Nat → α) :
    EveryInterleaving size (allreduceProg size tag op) x fun _ s =>
      s = rankFold op x (size - 1) :=
  everyInterleaving_of_matched (C06_allreduce_rounds_matched size tag op)
    fun r hr => allreduceProg_exec hop x size tag r hr

/-- **C04.** For `MAXLOC` with a linear order the result is the largest value, with the lowest rank
that holds it: the pairing with ranks and the rank-ordered fold together. -/
theorem C04_maxloc_finds_first_maximum [LinearOrder α] (size : Nat) (x : Nat → α) :
    let op : α × Nat → α × Nat → α × Nat := fun a b =>
      if a.1 < b.1 then b else if b.1 < a.1 then a else (a.1, min a.2 b.2)
    let res := rankFold op (locInput x) (size - 1)
    res.1 = x res.2 ∧ res.2 ≤ size - 1 ∧ (∀ r, r ≤ size - 1 → x r ≤ res.1) ∧
      ∀ r, r < res.2 → x r < res.1 := by
  intro op
  generalize size - 1 = n
  induction n with
  | zero => simp [rankFold, locInput]
  | succ n ih =>
    obtain ⟨h1, h2, h3, h4⟩ := ih
    simp only [rankFold]
    generalize rankFold op (locInput x) n = a at *
    rcases lt_trichotomy a.1 (x (n + 1)) with h | h | h
    · have : op a (locInput x (n + 1)) = (x (n + 1), n + 1) := by simp [op, locInput, h]
      simp only [this]
      refine ⟨trivial, le_refl _, fun r hr => ?_, fun r hr => (h3 r (by omega)).trans_lt h⟩
      rcases Nat.lt_or_ge r (n + 1) with h5 | h5
      · exact ((h3 r (by omega)).trans_lt h).le
      · have : r = n + 1 := by omega
        rw [this]
    · have : op a (locInput x (n + 1)) = a := by
        have h6 : min a.2 (n + 1) = a.2 := by omega
        simp [op, locInput, h]
        rw [h6, ← h]
      simp only [this]
      refine ⟨h1, by omega, fun r hr => ?_, h4⟩
      rcases Nat.lt_or_ge r (n + 1) with h5 | h5
      · exact h3 r (by omega)
      · have : r = n + 1 := by omega
        rw [this, h]
    · have : op a (locInput x (n + 1)) = a := by
        simp [op, locInput, h, h.not_gt]
      simp only [this]
      refine ⟨h1, by omega, fun r hr => ?_, h4⟩
      rcases Nat.lt_or_ge r (n + 1) with h5 | h5
      · exact h3 r (by omega)
      · have : r = n + 1 := by omega
        rw [this]; exact h.le

/-- Appending lists is associative but not commutative; six ranks are not a power of two. -/
example : ∀ a b c : List Nat, (a ++ b) ++ c = a ++ (b ++ c) := List.append_assoc
example : ((reduceProg 6 7 (· ++ · : List Nat → List Nat → List Nat) 4).toOption.map
    fun prog => (exec prog (fun r => [r, r * r]) 4)) =
      some [0, 0, 1, 1, 2, 4, 3, 9, 4, 16, 5, 25] := by
  simp [reduceProg, masksFrom, Except.toOption, exec, Round.step, Round.received, reduceRound,
    forwardRound, andNot]
example : rankFold (· ++ · : List Nat → List Nat → List Nat) (fun r => [r, r * r]) 5 =
    [0, 0, 1, 1, 2, 4, 3, 9, 4, 16, 5, 25] := rfl

/-- **C05.** `scan` gives rank `r` the combination of ranks `0 .. r`. -/
theorem C05_scan_is_prefix_fold {op : α → α → α}
    (hop : ∀ a b c, op (op a b) c = op a (op b c)) (size tag : Nat) (x : Nat → α) :
    EveryInterleaving size (scanProg size tag op) (scanInit x) fun r s =>
      s.recvobj = rankFold op x r :=
  everyInterleaving_of_matched (C06_scan_rounds_matched size tag op)
    fun r hr => scanProg_exec hop x size tag r hr

/-- **C05.** `exscan` gives rank `r > 0` the combination of ranks `0 .. r-1`, and rank 0 `None`. -/
theorem C05_exscan_is_strict_prefix_fold {op : α → α → α}
    (hop : ∀ a b c, op (op a b) c = op a (op b c)) (size tag : Nat) (x : Nat → α) :
    EveryInterleaving size (exscanProg size tag op) (exscanInit x) fun r s =>
      exscanReturn r s = if r = 0 then none else some (rankFold op x (r - 1)) :=
  everyInterleaving_of_matched (C06_exscan_rounds_matched size tag op)
    fun r hr => by
      by_cases h : r = 0
      · simp [exscanReturn, h]
      · simp [exscanReturn, h, exscanProg_exec hop x size tag r hr h]

/-- Five ranks with list append. -/
example : (exec (scanProg 5 7 (· ++ · : List Nat → List Nat → List Nat)) (scanInit fun r => [r])
    4).recvobj = [0, 1, 2, 3, 4] := by
  simp [scanProg, masksFrom, exec, Round.step, Round.received, scanRound, scanInit]
example : exscanReturn 4 (exec (exscanProg 5 7 (· ++ · : List Nat → List Nat → List Nat))
    (exscanInit fun r => [r]) 4) = some [0, 1, 2, 3] := by
  simp [exscanProg, masksFrom, exec, Round.step, Round.received, exscanRound, exscanInit,
    exscanReturn]

end Modred
