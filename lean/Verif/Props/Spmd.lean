import Verif.Lemmas.Reductions

/-!
# Message exchanges cannot deadlock (C06)

`Round.Matched p` says, for one round on `p` ranks: whoever sends has a destination below `p` which
in that round receives from it with that tag, and whoever receives has a source which in that round
sends to it with that tag.  The theorems say what follows for every interleaving, and that each
exchange pattern of the library is made of such rounds.  The ring and the pairwise exchange of the
inner-product and linear-combination loops are in `Verif/Props/VectorSpace.lean`.
-/

namespace Modred

variable {σ μ α : Type*}

/-- **C06.** Any program of matched rounds: no interleaving is infinite or stuck, with buffered or
synchronous sends, and all end like lock-step execution. -/
theorem C06_matched_rounds_cannot_deadlock {p : Nat} {prog : Prog σ μ}
    (hm : ∀ R ∈ prog, R.Matched p) (st : Nat → σ) :
    EveryInterleaving p prog st (fun r s => s = exec prog st r) :=
  everyInterleaving_of_matched hm (fun _ _ => rfl)

/-- **C06.** Such a program does have a run in which all ranks finish. -/
theorem C06_matched_rounds_can_finish {p : Nat} {prog : Prog σ μ}
    (hm : ∀ R ∈ prog, R.Matched p) (st : Nat → σ) (sync : Nat → Nat → Prop) :
    ∃ n s, SysRun p sync prog n (Sys.start st) s ∧ s.Finished p prog := by
  by_contra hcon
  push Not at hcon
  have h : ∀ n, ∃ s, SysRun p sync prog n (Sys.start st) s := by
    intro n
    induction n with
    | zero => exact ⟨_, .refl _⟩
    | succ n ih =>
      obtain ⟨s, hs⟩ := ih
      rcases (C06_matched_rounds_cannot_deadlock hm st sync n s hs).2.1 with hf | ⟨s', hs'⟩
      · exact absurd hf (hcon n s hs)
      · exact ⟨s', .tail hs hs'⟩
  obtain ⟨s, hs⟩ := h (p * (4 * prog.length) + 1)
  have := (C06_matched_rounds_cannot_deadlock hm st sync _ s hs).1
  omega

/-- **C06**, tree reduction: the rounds of `reduce` are matched for every size and root. -/
theorem C06_reduce_rounds_matched {size tag root : Nat} {op : α → α → α} {prog : Prog α α}
    (h : reduceProg size tag op root = .ok prog) : ∀ R ∈ prog, R.Matched size := by
  unfold reduceProg at h
  split at h
  · rename_i hroot
    cases h
    refine (reduceMasks_matched size tag op).append ?_
    split
    · rename_i h0
      intro R hR
      obtain rfl := List.mem_singleton.mp hR
      exact forwardRound_matched hroot h0
    · intro R hR; simp at hR
  · cases h

/-- **C06**, `allreduce`. -/
theorem C06_allreduce_rounds_matched (size tag : Nat) (op : α → α → α) :
    ∀ R ∈ allreduceProg size tag op, R.Matched size := allreduceProg_matched size tag op

/-- **C06**, `scan`. -/
theorem C06_scan_rounds_matched (size tag : Nat) (op : α → α → α) :
    ∀ R ∈ scanProg size tag op, R.Matched size := mapMasks_matched fun m => scanRound_matched m

/-- **C06**, `exscan`. -/
theorem C06_exscan_rounds_matched (size tag : Nat) (op : α → α → α) :
    ∀ R ∈ exscanProg size tag op, R.Matched size := mapMasks_matched fun m => exscanRound_matched m

/-- Seven ranks: `reduce` to rank 5 has four rounds (masks 1, 2, 4 and the hand-over), so the
theorems above speak of runs of up to 7 * 16 steps. -/
example : (reduceProg 7 99 (· + · : Nat → Nat → Nat) 5).toOption.map List.length = some 4 := by
  simp [reduceProg, masksFrom, Except.toOption]

/-- Not every program is matched: a ring in which all ranks receive and only rank 0 sends is not,
for two or more ranks. -/
example : ¬ (⟨fun r => if r = 0 then some ⟨1, 0, id⟩ else none, fun _ => some ⟨0, 0⟩,
    fun _ s _ => s, false⟩ : Round Nat Nat).Matched 2 := by
  intro h
  obtain ⟨-, so, h1, h2, -⟩ := h.recv_ok 0 (by omega) ⟨0, 0⟩ rfl
  simp at h1
  subst h1
  simp at h2

end Modred
