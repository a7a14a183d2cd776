import Verif.Model.Messages
import Verif.Props.Startup

/-!
# C103: messages are printed once and where they belong
-/

namespace Modred

variable {τ : Type*}

/-- `name`, with each letter in upper or lower case. -/
def SameLetters (name word : String) : Prop :=
  List.Forall₂ (fun c d => c = d ∨ c = d.toUpper) name.toList word.toList

theorem toUpper_eq_iff {c : Char} (d : Char) (h : d ∈ "stdoutstderr".toList) :
    c.toUpper = d.toUpper ↔ c = d ∨ c = d.toUpper := by
  have key : ∀ v : UInt32, 97 ≤ v.toNat → v.toNat ≤ 122 →
      (c.toUpper.val.toNat = v.toNat - 32 ↔ c.val.toNat = v.toNat ∨ c.val.toNat = v.toNat - 32) := by
    intro v h1 h2
    unfold Char.toUpper
    split
    · rename_i h
      have h1' := UInt32.le_iff_toNat_le.mp h.1
      have h2' := UInt32.le_iff_toNat_le.mp h.2
      simp at h1' h2'
      change (c.val + _).toNat = _ ↔ _
      rw [UInt32.toNat_add]
      simp
      omega
    · rename_i h
      constructor
      · omega
      · rintro (h3 | h3)
        · exfalso
          apply h
          constructor <;> rw [UInt32.le_iff_toNat_le]<;> (try change 97 ≤ _) <;> (try change _ ≤ 122) <;> omega
        · exact h3
  have ex : ∀ a b : Char, a = b ↔ a.val.toNat = b.val.toNat := fun a b => by
    rw [Char.ext_iff, UInt32.toNat_inj]
  rw [ex, ex, ex]
  have hd : 97 ≤ d.val.toNat ∧ d.val.toNat ≤ 122 ∧ d.toUpper.val.toNat = d.val.toNat - 32 := by
    revert d
    decide
  rw [hd.2.2]
  exact key d.val hd.1 hd.2.1

theorem map_toUpper_iff (l w : List Char) (hw : ∀ d ∈ w, d ∈ "stdoutstderr".toList) :
    l.map Char.toUpper = w.map Char.toUpper ↔ List.Forall₂ (fun c d => c = d ∨ c = d.toUpper) l w := by
  induction l generalizing w with
  | nil => cases w <;> simp
  | cons c l ih =>
    cases w with
    | nil => simp
    | cons d w =>
      rw [List.map_cons, List.map_cons, List.cons.injEq, List.forall₂_cons,
        toUpper_eq_iff d (hw d (by simp)), ih w fun x hx => hw x (by simp [hx])]

theorem upper_stdout (name : String) :
    name.toList.map Char.toUpper = "STDOUT".toList ↔ SameLetters name "stdout" :=
  map_toUpper_iff name.toList "stdout".toList (by decide)

theorem upper_stderr (name : String) :
    name.toList.map Char.toUpper = "STDERR".toList ↔ SameLetters name "stderr" :=
  map_toUpper_iff name.toList "stderr".toList (by decide)

/-- **C103.** `print_msg` writes to standard output, to standard error or raises `ValueError`,
according to the name of the channel; upper and lower case do not matter. -/
theorem C103_print_msg (msg : τ) (channel : String) (w : Written τ) :
    (SameLetters channel "stdout" → printMsg msg channel w = .ok ⟨w.stdout ++ [msg], w.stderr⟩) ∧
    (SameLetters channel "stderr" → printMsg msg channel w = .ok ⟨w.stdout, w.stderr ++ [msg]⟩) ∧
    (¬ SameLetters channel "stdout" → ¬ SameLetters channel "stderr" →
      printMsg msg channel w = .error .valueError) := by
  unfold printMsg
  refine ⟨fun h => by rw [if_pos ((upper_stdout channel).mpr h)]; rfl, fun h => ?_, fun h h' => ?_⟩
  · rw [if_neg, if_pos ((upper_stderr channel).mpr h)]
    · rfl
    · rw [(upper_stderr channel).mpr h]
      decide
  · rw [if_neg fun h1 => h ((upper_stdout channel).mp h1), if_neg fun h1 => h' ((upper_stderr channel).mp h1)]

example : SameLetters "StdErr" "stderr" := by
  rw [← upper_stderr]
  decide

/-- **C103.** `VectorSpaceHandles.print_msg` writes nothing if verbosity is zero or less, and nothing
on processes other than the first; otherwise it is `print_msg`. -/
theorem C103_vector_space (verbosity : Int) (s : ParallelState) (msg : τ) (channel : String) (w : Written τ) :
    (verbosity ≤ 0 ∨ s.rank ≠ 0 → vsPrintMsg verbosity s msg channel w = .ok w) ∧
    (0 < verbosity → s.rank = 0 → vsPrintMsg verbosity s msg channel w = printMsg msg channel w) := by
  unfold vsPrintMsg ParallelState.isRankZero
  refine ⟨fun h => if_neg ?_, fun h1 h2 => if_pos ⟨h1, by simp [h2]⟩⟩
  rintro ⟨h1, h2⟩
  rw [beq_iff_eq] at h2
  rcases h with h | h
  · omega
  · exact h h2

/-! ### All processes -/

/-- Where messages with the names "stdout" and "stderr" go. -/
theorem vsPrintAll_ok (verbosity : Int) (s : ParallelState) (msgs : List (VsMessage × String))
    (h : ∀ m ∈ msgs, m.2 = "stdout" ∨ m.2 = "stderr") (w : Written VsMessage) :
    vsPrintAll verbosity s msgs w = .ok (if 0 < verbosity ∧ s.rank = 0 then
      ⟨w.stdout ++ (msgs.filter fun m => m.2 = "stdout").map Prod.fst,
        w.stderr ++ (msgs.filter fun m => m.2 = "stderr").map Prod.fst⟩ else w) := by
  unfold vsPrintAll
  induction msgs generalizing w with
  | nil =>
    simp only [List.foldlM_nil, List.filter_nil, List.map_nil, List.append_nil, ite_self]
    rfl
  | cons m msgs ih =>
    obtain ⟨msg, ch⟩ := m
    have ih' := ih fun x hx => h x (List.mem_cons_of_mem _ hx)
    rw [List.foldlM_cons]
    by_cases hv : 0 < verbosity ∧ s.rank = 0
    · rw [(C103_vector_space verbosity s msg ch w).2 hv.1 hv.2]
      rcases h (msg, ch) (by simp) with h1 | h1
      · dsimp only at h1
        subst h1
        rw [(C103_print_msg msg "stdout" w).1 ((upper_stdout _).mp (by decide))]
        simp only [bind, Except.bind]
        rw [ih', if_pos hv, if_pos hv]
        simp
      · dsimp only at h1
        subst h1
        rw [(C103_print_msg msg "stderr" w).2.1 ((upper_stderr _).mp (by decide))]
        simp only [bind, Except.bind]
        rw [ih', if_pos hv, if_pos hv]
        simp
    · rw [(C103_vector_space verbosity s msg ch w).1 (by omega)]
      simp only [bind, Except.bind]
      rw [ih', if_neg hv, if_neg hv]

/-- **C103.** The constructor warns once, from the first process and on standard output, that no
limit was given, exactly if none was; and that the limit is too small, exactly if it is less than
three vectors for each process. -/
theorem C103_constructor (verbosity : Int) (hv : 0 < verbosity) (s : ParallelState) (hn : 0 < s.getNumNodes)
    (limit : Option Nat) :
    vsPrintAll verbosity s (constructorMessages limit s.getNumProcs s.getNumNodes) .nothing = .ok
      (if s.rank = 0 then
        ⟨(if limit = none then [.assumed 10000] else []) ++
          (if limit.getD 10000 * s.getNumNodes < 3 * s.getNumProcs then [.tooSmall] else []), []⟩
      else ⟨[], []⟩) := by
  have hlim : (((limit.getD 10000 : Nat) : ℚ) < 3 * s.getNumProcs / s.getNumNodes) ↔
      limit.getD 10000 * s.getNumNodes < 3 * s.getNumProcs := by
    rw [lt_div_iff₀ (by exact_mod_cast hn)]
    norm_cast
  rw [vsPrintAll_ok]
  · simp only [hv, true_and]
    by_cases h0 : s.rank = 0
    · rw [if_pos h0, if_pos h0]
      simp only [← hlim]
      unfold constructorMessages
      cases limit <;> dsimp only [Written.nothing] <;> split <;> simp
    · rw [if_neg h0, if_neg h0]
      rfl
  · intro m hm
    unfold constructorMessages at hm
    rw [List.mem_append] at hm
    rcases hm with hm | hm
    · cases limit
      · simp at hm
        simp [hm]
      · simp at hm
    · split at hm
      · simp at hm
        simp [hm]
      · simp at hm

/-- **C103.** The functions of the vector space class write the warning, if there is one, and the
estimate of time to standard output and the progress to standard error, all from the first process. -/
theorem C103_loops (verbosity : Int) (s : ParallelState) (warning : Option (Nat × Nat)) (minutes : ℚ) (warnFirst : Bool)
    (interval prev : ℚ) (clock : Nat → ClockReading) (reports : List ℚ) :
    ∃ w, vsPrintAll verbosity s (loopMessages warning minutes warnFirst interval prev clock reports) .nothing = .ok w ∧
      w.stdout.Perm (if 0 < verbosity ∧ s.rank = 0 then .atLeast minutes :: warning.toList.map fun x => .again x.1 x.2 else []) ∧
      w.stderr = (progressMessages verbosity interval prev clock s.rank reports).map .completed := by
  have hch : ∀ m ∈ loopMessages warning minutes warnFirst interval prev clock reports, m.2 = "stdout" ∨ m.2 = "stderr" := by
    intro m hm
    unfold loopMessages at hm
    simp only [List.mem_append, List.mem_map, List.mem_singleton] at hm
    rcases hm with (hm | ⟨x, -, rfl⟩) | rfl
    · left
      split at hm <;> simp only [List.mem_append, List.mem_map, List.mem_singleton] at hm
      · rcases hm with ⟨x, -, rfl⟩ | rfl <;> rfl
      · rcases hm with rfl | ⟨x, -, rfl⟩ <;> rfl
    · right; rfl
    · right; rfl
  refine ⟨_, vsPrintAll_ok verbosity s _ hch _, ?_⟩
  have hne : ¬ ("stderr" = "stdout") := by decide
  have hne' : ¬ ("stdout" = "stderr") := by decide
  by_cases hv : 0 < verbosity ∧ s.rank = 0
  · rw [if_pos hv, if_pos hv]
    unfold progressMessages printMsgs loopMessages
    rw [if_pos hv]
    constructor
    · cases warnFirst <;>
        simp [Written.nothing, List.filter_append, List.filter_map, Function.comp_def, hne]
    · cases warnFirst <;>
        simp [Written.nothing, List.filter_append, List.filter_map, Function.comp_def, hne']
  · rw [if_neg hv, if_neg hv]
    unfold progressMessages printMsgs
    rw [if_neg hv]
    exact ⟨List.Perm.refl _, rfl⟩

/-- One of three processes on two hosts, with the default limits. -/
example : ∃ s, startup true [[97], [97], [98]] 0 = .ok s ∧ constructorMessages none 3 2 = [(.assumed 10000, "stdout")] :=
  ⟨⟨2, 3, 0, true⟩, rfl, by decide +kernel⟩

/-! ### `print_from_rank_zero` -/

/-- **C103, partial.** `print_from_rank_zero` prints to standard output on the first process only. -/
theorem C103_from_rank_zero_partial (s : ParallelState) (msg : τ) (channel : String) (w : Written τ)
    (h : SameLetters channel "stdout") :
    printFromRankZero s msg channel w = if s.rank = 0 then printMsg msg channel w else .ok w := by
  rw [(C103_print_msg msg channel w).1 h]
  unfold printFromRankZero ParallelState.isRankZero
  by_cases h0 : s.rank = 0 <;> simp [h0, printStdout]

/-- **C103, violated.** `print_from_rank_zero` writes messages for standard error to standard output,
and accepts any channel. -/
theorem C103_from_rank_zero_violation (msg : τ) (w : Written τ) :
    printFromRankZero ⟨1, 1, 0, false⟩ msg "stderr" w = .ok ⟨w.stdout ++ [msg], w.stderr⟩ ∧
    printFromRankZero ⟨1, 1, 0, false⟩ msg "nowhere" w = .ok ⟨w.stdout ++ [msg], w.stderr⟩ ∧
    printMsg msg "stderr" w = .ok ⟨w.stdout, w.stderr ++ [msg]⟩ ∧ printMsg msg "nowhere" w = .error .valueError := by
  refine ⟨rfl, rfl, (C103_print_msg msg _ w).2.1 ((upper_stderr _).mp (by decide)), (C103_print_msg msg _ w).2.2 ?_ ?_⟩
  · rw [← upper_stdout]
    decide
  · rw [← upper_stderr]
    decide

end Modred
