import Verif.Lemmas.Assign
import Mathlib.Tactic.NormNum

/-!
# Properties of `find_assignments` (C01, C02, C03)
-/

namespace Modred

variable {α K : Type*} [Field K] [LinearOrder K] [IsStrictOrderedRing K]

/-- **C01.** Positive weights: one list per worker, and in worker order they give back the tasks. -/
theorem C01_assignment_partitions_tasks (p : Nat) (hp : 1 ≤ p) (tasks : List α) (weights : List K)
    (hlen : weights.length = tasks.length) (hpos : ∀ w ∈ weights, 0 < w) :
    (findAssignments p tasks (some weights)).length = p ∧
      (findAssignments p tasks (some weights)).flatten = tasks := by
  obtain ⟨k, rfl⟩ : ∃ k, p = k + 1 := ⟨p - 1, by omega⟩
  exact ⟨assignLoop_length _ _ _ _,
    assignLoop_complete _ _ hlen.symm (fun w h => (hpos w h).le)
      (fun h => hpos _ (List.getLast_mem h)) k⟩

/-- **C01**, omitted weights. -/
theorem C01_default_assignment_partitions_tasks (p : Nat) (hp : 1 ≤ p) (tasks : List α) :
    (findAssignments (K := K) p tasks none).length = p ∧
      (findAssignments (K := K) p tasks none).flatten = tasks := by
  have h := C01_assignment_partitions_tasks p hp tasks (List.replicate tasks.length (1 : K))
    (by simp) (fun w hw => by rw [List.eq_of_mem_replicate hw]; exact one_pos)
  exact h

/-- The hypotheses of `C01_assignment_partitions_tasks` are met by the weights of
`modred/tests/testparallel.py`, and the model computes the assignment listed there. -/
example : findAssignments 3 ["a", "4", "(2, 1)", "4.3"] (some [(1 : ℚ)/10, 1/10, 1/10, 7/10]) =
    [["a", "4", "(2, 1)"], ["4.3"], []] := by decide +kernel
example : findAssignments 4 [3, 4, 2, 6, 1] (some [(5 : ℚ), 1/4, 7/4, 1/2, 1/2]) =
    [[3], [4], [2], [6, 1]] := by decide +kernel
example : findAssignments 5 ["1", "2", "4", "3", "6", "7", "5"]
    (some [(1 : ℚ), 3, 2, 3, 3, 2, 1]) = [["1", "2"], ["4"], ["3"], ["6"], ["7", "5"]] := by
  decide +kernel
example : ∀ w ∈ [(5 : ℚ), 1/4, 7/4, 1/2, 1/2], 0 < w := by decide +kernel

/-- **C02.** Omitted weights: every worker gets `⌊n/p⌋` or `⌈n/p⌉` tasks. -/
theorem C02_default_assignment_balanced (p : Nat) (hp : 1 ≤ p) (tasks : List α) :
    ∀ a ∈ findAssignments (K := K) p tasks none,
      tasks.length / p ≤ a.length ∧ a.length ≤ (tasks.length + (p - 1)) / p := by
  have h1 := Nat.div_add_mod tasks.length p
  have h2 := Nat.mod_lt tasks.length hp
  have hc1 : (tasks.length + (p - 1)) / p ≤ tasks.length / p + 1 := by
    calc (tasks.length + (p - 1)) / p ≤ (tasks.length + p) / p := Nat.div_le_div_right (by omega)
      _ = tasks.length / p + 1 := Nat.add_div_right _ hp
  have hc2 : tasks.length ≤ (tasks.length + (p - 1)) / p * p := by
    have h3 := Nat.div_add_mod (tasks.length + (p - 1)) p
    have h4 := Nat.mod_lt (tasks.length + (p - 1)) hp
    rw [Nat.mul_comm] at h3
    omega
  exact assignLoop_ones_balanced tasks _ _ hc1 p 0 (by simpa using Nat.div_mul_le_self _ _)
    (by simpa using hc2)

/-- **C02.** With at most as many tasks as workers, task `i` goes alone to worker `i`
and exactly the last `p - n` workers are idle. -/
theorem C02_few_tasks_idle_workers_last (p : Nat) (tasks : List α) (h : tasks.length ≤ p) :
    findAssignments (K := K) p tasks none =
      tasks.map (fun t => [t]) ++ List.replicate (p - tasks.length) [] := by
  have := assignLoop_ones_few (K := K) tasks p 0 (by simpa using h)
  simpa [findAssignments] using this

/-- **C02.** `check_for_empty_tasks` reports an idle worker exactly if tasks are fewer
than workers. -/
theorem C02_check_for_empty_tasks_iff (p : Nat) (tasks : List α) :
    checkForEmptyTasks (findAssignments (K := K) p tasks none) = true ↔ tasks.length < p := by
  rw [checkForEmptyTasks_eq, List.any_eq_true]
  constructor
  · rintro ⟨a, ha, hae⟩
    by_contra hn
    have hp : 1 ≤ p := by
      rcases Nat.eq_zero_or_pos p with h | h
      · subst h; simp [findAssignments, assignLoop] at ha
      · exact h
    have := (C02_default_assignment_balanced (K := K) p hp tasks a ha).1
    have h1 : 1 ≤ tasks.length / p := (Nat.one_le_div_iff hp).mpr (by omega)
    simp at hae
    subst hae
    simp at this
    omega
  · intro h
    rw [C02_few_tasks_idle_workers_last (K := K) p tasks h.le]
    exact ⟨[], by simp; omega, rfl⟩

/-- Seven tasks on five workers, as in `modred/tests/testparallel.py`. -/
example : findAssignments (K := ℚ) 5 ["1", "2", "4", "3", "6", "7", "5"] none =
    [["1"], ["2"], ["4", "3"], ["6"], ["7", "5"]] := by decide +kernel
example : findAssignments (K := ℚ) 4 [10, 11] none = [[10], [11], [], []] := by decide +kernel

/-- **C03** (what does hold for any weights, even negative ones).  Nothing is duplicated or
reordered: the assignments in worker order are an initial part of the task list.
Full statement: the assignments in worker order *are* the task list; see the violation below. -/
theorem C03_assignment_is_prefix_partial (p : Nat) (tasks : List α) (weights : List K) :
    (findAssignments p tasks (some weights)).flatten <+: tasks := by
  simpa [findAssignments] using assignLoop_prefix tasks weights p 0

/-- **C03** (non-negative weights).  Only tasks of weight zero, at the end of the list, can
be lost.  Missing for the full claim: those tasks are indeed lost by the code. -/
theorem C03_only_zero_weight_tasks_lost_partial (p : Nat) (hp : 1 ≤ p) (tasks : List α)
    (weights : List K) (hlen : weights.length = tasks.length) (hw : ∀ w ∈ weights, 0 ≤ w) :
    ∀ i (hi : i < weights.length),
      (findAssignments p tasks (some weights)).flatten.length ≤ i → weights[i] = 0 := by
  obtain ⟨k, rfl⟩ : ∃ k, p = k + 1 := ⟨p - 1, by omega⟩
  intro i hi h
  exact assignLoop_dropped tasks weights hlen.symm hw k 0 (Nat.zero_le _) i hi
    (by simpa [findAssignments] using h)

/-- **C03** (non-negative weights, last one positive).  Then nothing is lost. -/
theorem C03_positive_last_weight_complete_partial (p : Nat) (hp : 1 ≤ p) (tasks : List α)
    (weights : List K) (hlen : weights.length = tasks.length) (hw : ∀ w ∈ weights, 0 ≤ w)
    (hlast : ∀ h : weights ≠ [], 0 < weights.getLast h) :
    (findAssignments p tasks (some weights)).flatten = tasks := by
  obtain ⟨k, rfl⟩ : ∃ k, p = k + 1 := ⟨p - 1, by omega⟩
  exact assignLoop_complete _ _ hlen.symm hw hlast k

/-- Weights with zeros inside but a positive last weight. -/
example : findAssignments 2 ["a", "b", "c", "d"] (some [(0 : ℚ), 2, 0, 1]) =
    [["a", "b"], ["c", "d"]] := by decide +kernel

/-- **C03, violated by the code.**  One worker, weights `[1, 0]`: the second task is assigned
to nobody. -/
theorem C03_zero_weight_task_lost_violation :
    findAssignments 1 ["a", "b"] (some [(1 : ℚ), 0]) = [["a"]] := by decide +kernel

/-- **C03, violated by the code** for a negative weight, with one worker and all other weights
positive. -/
theorem C03_negative_weight_task_lost_violation :
    (findAssignments 1 ["a", "b", "c"] (some [(1 : ℚ), -1, 1])).flatten ≠ ["a", "b", "c"] := by
  decide +kernel

end Modred
