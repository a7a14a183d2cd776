import Verif.Lemmas.Memory
import Verif.Props.VectorSpace

/-!
# Properties of memory use (C53)
-/

namespace Modred

variable {V K : Type*}

/-- **C53, what holds.** In every interleaving and at every moment, a process in
`compute_inner_product_array` has at most `max_vecs_per_proc` vectors in its variables `row_vecs` and
`col_vecs`, and no message has more than one vector. -/
theorem C53_inner_products_within_limit_partial [Add K] [Zero K] [Star K] (p tag mx : Nat)
    (hmx : 1 ≤ mx) (ip : Option (V → V → K)) (cast : K → K → K) (rows cols : List V)
    (job : Job (IPState V K) (IPMsg V K) (Nat → Nat → K))
    (h : computeInnerProductArray p tag mx ip cast rows cols = .ok job) :
    Always p job.prog ipInit (fun s => s.rowVecs.length + s.colVecs.length ≤ mx) fun m =>
      ∀ vecs indices, m = .cols vecs indices → vecs.length ≤ 1 := by
  unfold computeInnerProductArray at h
  cases ip with
  | none => cases h
  | some ip =>
    dsimp only at h
    split at h
    · cases h
      intro sync n s hrun
      obtain ⟨h1, h2⟩ := always_of_keeps (ipProg_keeps _ _ _ _ _ _) (fun _ => ⟨Nat.zero_le _,
        Nat.zero_le _⟩) sync n s hrun
      refine ⟨fun r => ?_, ?_⟩
      · have := h1 r
        unfold IPHeld at this
        omega
      · rintro a b t m hm vecs indices rfl
        exact h2 a b t _ hm
    · cases h

/-- **C53, what holds.** The same for `compute_symm_inner_product_array`. -/
theorem C53_symmetric_inner_products_within_limit_partial [Add K] [Mul K] [Zero K] [One K] [Star K]
    [DecidableEq K] (p tag mx : Nat) (hp : 1 ≤ p) (hmx : 1 ≤ mx) (ip : Option (V → V → K))
    (cast : K → K → K) (vecs : List V) (job : Job (IPState V K) (IPMsg V K) (Nat → Nat → K))
    (h : computeSymmInnerProductArray p tag mx ip cast vecs = .ok job) :
    Always p job.prog ipInit (fun s => s.rowVecs.length + s.colVecs.length ≤ mx) fun m =>
      ∀ vecs indices, m = .cols vecs indices → vecs.length ≤ 1 := by
  unfold computeSymmInnerProductArray at h
  cases ip with
  | none => cases h
  | some ip =>
    dsimp only at h
    split at h
    · cases h
      intro sync n s hrun
      obtain ⟨h1, h2⟩ := always_of_keeps (symmProg_keeps _ _ _ hp _ _) (fun _ => ⟨Nat.zero_le _,
        Nat.zero_le _⟩) sync n s hrun
      refine ⟨fun r => ?_, ?_⟩
      · have := h1 r
        unfold IPHeld at this
        omega
      · rintro a b t m hm vecs indices rfl
        exact h2 a b t _ hm
    · cases h

/-- **C53, what holds.** In `lin_combine`, a process has at most `max_vecs_per_proc` vectors in its
variables `sum_layers` and `basis_vecs`, and no message has more than one vector. -/
theorem C53_lin_combine_within_limit_partial [Add V] [Zero K] (p mx : Nat) (hmx : 1 ≤ mx)
    (mul : V → K → V) (numSums : Nat) (basis : List V) (coeff : CoeffArray K)
    (colIndices : Option (List Int)) (prog : Prog (LCState V) (List V × List Nat))
    (h : linCombine p mx mul numSums basis coeff colIndices = .ok prog) :
    Always p prog lcInit (fun s => s.sumLayers.length + s.basisVecs.length ≤ mx) fun m =>
      m.1.length ≤ 1 := by
  unfold linCombine at h
  split at h
  · cases h
  · split at h
    · cases h
    · split at h
      · cases h
      · split at h
        · cases h
        · cases h
          intro sync n s hrun
          obtain ⟨h1, h2⟩ := always_of_keeps (lcProg_keeps _ _ _ _ _ _) (fun _ => ⟨Nat.zero_le _,
            Nat.zero_le _⟩) sync n s hrun
          refine ⟨fun r => ?_, h2⟩
          have := h1 r
          unfold LCHeld at this
          omega

example : ∃ job, computeInnerProductArray 2 0 3 (some fun v w : Int => v * w) (fun _ x => x)
    [1, 2, 3, 4] [5, 6, 7, 8] = .ok job ∧
    Always 2 job.prog ipInit (fun s => s.rowVecs.length + s.colVecs.length ≤ 3) fun m =>
      ∀ vecs indices, m = .cols vecs indices → vecs.length ≤ 1 :=
  ⟨_, rfl, C53_inner_products_within_limit_partial 2 0 3 (by decide) (some fun v w : Int => v * w)
    (fun _ x => x) [1, 2, 3, 4] [5, 6, 7, 8] _ rfl⟩

example : ∃ job, computeSymmInnerProductArray 2 0 3 (some fun v w : Int => v * w) (fun _ x => x)
    [1, 2, 3, 4, 5] = .ok job ∧
    Always 2 job.prog ipInit (fun s => s.rowVecs.length + s.colVecs.length ≤ 3) fun m =>
      ∀ vecs indices, m = .cols vecs indices → vecs.length ≤ 1 :=
  ⟨_, rfl, C53_symmetric_inner_products_within_limit_partial 2 0 3 (by decide) (by decide)
    (some fun v w : Int => v * w) (fun _ x => x) [1, 2, 3, 4, 5] _ rfl⟩

example : ∃ prog, linCombine 2 3 (fun v c : Int => v * c) 1 [1, 2] (.vec [3, 4]) none = .ok prog ∧
    Always 2 prog lcInit (fun s => s.sumLayers.length + s.basisVecs.length ≤ 3) fun m =>
      m.1.length ≤ 1 :=
  ⟨_, rfl, C53_lin_combine_within_limit_partial 2 3 (by decide) (fun v c : Int => v * c) 1 [1, 2]
    (.vec [3, 4]) none _ rfl⟩

/-- **C53, violation.** While vectors are passed around, a process holds the column vectors that it
sends and those that it receives.  With two processes, a limit of three and four rows and columns,
rank 0 then has four vectors. -/
theorem C53_limit_exceeded_in_exchange_violation :
    ∃ job, computeInnerProductArray 2 0 3 (some fun v w : Int => v * w) (fun _ x => x) [1, 2, 3, 4]
        [5, 6, 7, 8] = .ok job ∧
      ∃ before R after, job.prog = before ++ R :: after ∧
        let st := exec before ipInit
        ∃ vecs indices, R.received st 0 = some (.cols vecs indices) ∧
          (st 0).rowVecs.length + (st 0).colVecs.length + vecs.length = 4 := by
  have ht : rangeTasks 2 0 4 = [[0, 1], [2, 3]] := by decide +kernel
  have hprog : ipProg 2 0 3 (fun v w : Int => v * w) [1, 2, 3, 4] [5, 6, 7, 8] =
      localRound (getRows [1, 2, 3, 4] [[0, 1], [2, 3]] 0 2) ::
        ((List.range 2).flatMap fun colIndex => colPass 2 4 4 (fun v w : Int => v * w)
          (ownCols [5, 6, 7, 8] [[0, 1], [2, 3]] colIndex)) ++ allreduceArr 2 0 := by
    unfold ipProg
    simp only [List.length_cons, List.length_nil, Nat.zero_add, Nat.reduceAdd, ht]
    rfl
  refine ⟨_, rfl, ?_⟩
  show ∃ before R after, ipProg 2 0 3 (fun v w : Int => v * w) [1, 2, 3, 4] [5, 6, 7, 8] = _ ∧ _
  rw [hprog]
  refine ⟨[localRound (getRows [1, 2, 3, 4] [[0, 1], [2, 3]] 0 2),
    localRound fun rank s => takeCols 4 4 (fun v w : Int => v * w) s
      (ownCols [5, 6, 7, 8] [[0, 1], [2, 3]] 0 rank)],
    ringRound 2 packCols fun _ s m => takeCols 4 4 (fun v w : Int => v * w) s m, _, rfl,
    [7], [2], ?_, ?_⟩
  · rfl
  · rfl

end Modred
