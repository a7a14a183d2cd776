import Verif.Model.Derivs
import Verif.Lemmas.Blocks
import Verif.Props.Spmd
import Mathlib.Tactic.Ring

/-!
# Properties of finite-difference derivatives (C39)
-/

namespace Modred

variable {V : Type*}

/-- **C39.** Lists of different lengths raise `RuntimeError`; nothing is put then. -/
theorem C39_different_lengths_raise (p : Nat) (deriv : V → V → V) (vecs advVecs : List V)
    (numDerivs : Nat) (h : ¬ (vecs.length = advVecs.length ∧ vecs.length = numDerivs)) :
    computeDerivsHandles p deriv vecs advVecs numDerivs = .error .runtimeError := by
  unfold computeDerivsHandles
  rw [if_pos (by tauto)]

/-- **C39.** Otherwise, over every interleaving of the processes, derivative handle `i` gets the
difference quotient of pair `i`, and each derivative handle is put exactly once: the processes' shares
are a partition of all handles. -/
theorem C39_derivs_handles (p : Nat) (hp : 1 ≤ p) (deriv : V → V → V) (vecs advVecs : List V)
    (numDerivs : Nat) (h1 : vecs.length = advVecs.length) (h2 : vecs.length = numDerivs) :
    ∃ prog, computeDerivsHandles p deriv vecs advVecs numDerivs = .ok prog ∧
      ∃ share : Nat → List Nat, (List.range p).flatMap share = List.range numDerivs ∧
        EveryInterleaving p prog (fun _ => []) fun r puts =>
          puts.map Prod.fst = share r ∧ ∀ i v, (i, v) ∈ puts →
            ∃ (hi : i < vecs.length) (hi' : i < advVecs.length), v = deriv vecs[i] advVecs[i] := by
  refine ⟨[derivsRound p deriv vecs advVecs], ?_,
    fun r => (findAssignments (K := ℚ) p (List.range vecs.length) none).getD r [], ?_, ?_⟩
  · unfold computeDerivsHandles
    rw [if_neg (by tauto)]
  · obtain ⟨h3, h4⟩ := C01_default_assignment_partitions_tasks (K := ℚ) p hp (List.range vecs.length)
    rw [← h2]
    refine Eq.trans ?_ h4
    rw [List.flatMap_def]
    congr 1
    apply List.ext_getElem
    · simp [h3]
    · intro i h5 h6
      simp [List.getD, h6, -List.length_range]
  · refine everyInterleaving_of_matched ?_ fun r hr => ?_
    · intro R hR
      rw [List.mem_singleton] at hR
      subst hR
      constructor <;> intros <;> simp_all [derivsRound]
    · obtain ⟨h3, h4⟩ := C01_default_assignment_partitions_tasks (K := ℚ) p hp
        (List.range vecs.length)
      have hmem : ∀ i ∈ (findAssignments (K := ℚ) p (List.range vecs.length) none).getD r [],
          i < vecs.length := by
        intro i hi
        have : i ∈ (findAssignments (K := ℚ) p (List.range vecs.length) none).flatten := by
          rw [List.mem_flatten]
          refine ⟨_, ?_, hi⟩
          rw [List.getD, List.getElem?_eq_getElem (by omega), Option.getD_some]
          exact List.getElem_mem _
        rw [h4] at this
        exact List.mem_range.mp this
      show _ ∧ _
      rw [exec_cons, exec_nil]
      unfold Round.step derivsRound
      dsimp only
      generalize (findAssignments (K := ℚ) p (List.range vecs.length) none).getD r [] = l at hmem
      have main : ∀ (l : List Nat) (s : DerivState V), (∀ i ∈ l, i < vecs.length) →
          (∀ i v, (i, v) ∈ s → ∃ (hi : i < vecs.length) (hi' : i < advVecs.length),
            v = deriv vecs[i] advVecs[i]) →
          let s' := l.foldl (derivStep deriv vecs advVecs) s
          s'.map Prod.fst = s.map Prod.fst ++ l ∧ ∀ i v, (i, v) ∈ s' →
            ∃ (hi : i < vecs.length) (hi' : i < advVecs.length), v = deriv vecs[i] advVecs[i] := by
        intro l
        induction l with
        | nil => intro s _ hs; simpa using hs
        | cons j l ih =>
          intro s hl hs
          have hj := hl j (by simp)
          have hj' : j < advVecs.length := by omega
          rw [List.foldl_cons, derivStep, List.getElem?_eq_getElem hj, List.getElem?_eq_getElem hj']
          dsimp only
          have := ih (s ++ [(j, deriv vecs[j] advVecs[j])]) (fun i hi => hl i (by simp [hi])) ?_
          · refine ⟨?_, this.2⟩
            rw [this.1]
            simp
          · intro i v hiv
            rcases List.mem_append.mp hiv with h | h
            · exact hs i v h
            · simp only [List.mem_singleton, Prod.mk.injEq] at h
              obtain ⟨rfl, rfl⟩ := h
              exact ⟨hj, hj', rfl⟩
      have := main l [] hmem (by simp)
      simpa using this

example : ∃ prog, computeDerivsHandles 3 (fun v w : ℚ => 2 * (w - v)) [1, 2] [3, 5] 2 = .ok prog ∧
    ∃ share : Nat → List Nat, (List.range 3).flatMap share = List.range 2 ∧
      EveryInterleaving 3 prog (fun _ => []) fun r puts =>
        puts.map Prod.fst = share r ∧ ∀ i v, (i, v) ∈ puts →
          ∃ (hi : i < [1, 2].length) (hi' : i < [3, 5].length),
            v = 2 * ([3, 5][i] - [1, 2][i]) :=
  C39_derivs_handles 3 (by decide) (fun v w : ℚ => 2 * (w - v)) [1, 2] [3, 5] 2 rfl rfl

/-- **C39.** With arrays, each entry is the difference quotient; this agrees with
`(1. / dt) * (advanced - current)` as computed with handles. -/
theorem C39_derivs_arrays {m n K : Type*} [Field K] (vecs advVecs : Matrix m n K) (dt : K) (i : m)
    (j : n) : computeDerivsArrays vecs advVecs dt i j = (advVecs i j - vecs i j) / dt ∧
      computeDerivsArrays vecs advVecs dt i j = (1 / dt) * (advVecs i j - vecs i j) := by
  unfold computeDerivsArrays
  constructor <;> ring

end Modred
