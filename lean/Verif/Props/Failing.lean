import Verif.Spec.Failing
import Verif.Model.Derivs
import Verif.Lemmas.Shared
import Mathlib.Algebra.BigOperators.Fin
import Mathlib.Algebra.Order.BigOperators.Group.Finset

/-! C84: a function given by the user raises on one of several processes. -/

namespace Modred

variable {σ μ V X Y K : Type*} {p : Nat} {sync : Nat → Nat → Prop} {prog : List (SharedRound σ μ V)}
  {fails : Nat → Nat → Prop}

/-- One rank takes one step; to leave a round with a barrier all ranks must have come to its barrier. -/
theorem SharedStep.shape {s t : SharedSys σ μ V} (h : SharedStep p sync prog s t) :
    ∃ r < p, t.sys.pc = Function.update s.sys.pc r (s.sys.pc r + 1) ∧ s.sys.pc r < 4 * prog.length ∧
      ∀ k R, prog[k]? = some R → R.barrier = true → s.sys.pc r = 4 * k + 3 → ∀ q, q < p → 4 * k + 3 ≤ s.sys.pc q := by
  have len : ∀ {k : Nat} {R : SharedRound σ μ V}, prog[k]? = some R → k < prog.length := fun hk =>
    (List.getElem?_eq_some_iff.mp hk).1
  cases h with
  | sendNone s w r k R hr hk hpc _ =>
    exact ⟨r, hr, by simp [hpc], by have := len hk; simp only [hpc]; omega, fun k' R' _ _ h => by simp only [hpc] at h; omega⟩
  | sendSome s w r k R so hr hk hpc _ =>
    exact ⟨r, hr, by simp [hpc], by have := len hk; simp only [hpc]; omega, fun k' R' _ _ h => by simp only [hpc] at h; omega⟩
  | recvNone s w r k R hr hk hpc _ =>
    exact ⟨r, hr, by simp [hpc], by have := len hk; simp only [hpc]; omega, fun k' R' _ _ h => by simp only [hpc] at h; omega⟩
  | recvSome s w r k R ro m rest hr hk hpc _ _ =>
    exact ⟨r, hr, by simp [hpc], by have := len hk; simp only [hpc]; omega, fun k' R' _ _ h => by simp only [hpc] at h; omega⟩
  | wait s w r k R hr hk hpc _ =>
    exact ⟨r, hr, by simp [hpc], by have := len hk; simp only [hpc]; omega, fun k' R' _ _ h => by simp only [hpc] at h; omega⟩
  | barrier s w r k R hr hk hpc hb =>
    refine ⟨r, hr, by simp [hpc], by have := len hk; simp only [hpc]; omega, fun k' R' hk' hb' h => ?_⟩
    simp only [hpc] at h
    obtain rfl : k = k' := by omega
    rw [hk, Option.some.injEq] at hk'
    subst hk'
    exact hb hb'

/-- The rank whose work raises in round `k` stays there. -/
theorem FailRun.stays {n : Nat} {st : Nat → σ} {w : Nat → V} {s : SharedSys σ μ V}
    (h : FailRun p sync prog fails n ⟨Sys.start st, w⟩ s) {r k : Nat} (hf : fails r k) : s.sys.pc r ≤ 4 * k + 1 := by
  generalize hs0 : (⟨Sys.start st, w⟩ : SharedSys σ μ V) = s0 at h
  induction h with
  | refl => subst hs0; simp [Sys.start]
  | @tail n s t u _ hstep ih =>
    have ih := ih hs0
    obtain ⟨q, _, hpc, _⟩ := hstep.1.shape
    have := hstep.2 r k hf
    by_cases e : r = q
    · subst e
      rw [hpc, Function.update_self] at this ⊢
      by_cases e' : t.sys.pc r = 4 * k + 1
      · have := this e'; omega
      · omega
    · rw [hpc, Function.update_of_ne e]; exact ih

/-- Nobody passes a barrier after the failure. -/
theorem FailRun.blocked {n : Nat} {st : Nat → σ} {w : Nat → V} {s : SharedSys σ μ V}
    (h : FailRun p sync prog fails n ⟨Sys.start st, w⟩ s) {r0 k0 k1 : Nat} (hr0 : r0 < p) (hf : fails r0 k0)
    (hle : k0 ≤ k1) {R : SharedRound σ μ V} (hk1 : prog[k1]? = some R) (hb : R.barrier = true) :
    ∀ r, r < p → s.sys.pc r ≤ 4 * k1 + 3 := by
  generalize hs0 : (⟨Sys.start st, w⟩ : SharedSys σ μ V) = s0 at h
  induction h with
  | refl => subst hs0; intro r _; simp [Sys.start]
  | tail hrun hstep ih =>
    replace ih := ih hs0
    subst hs0
    have hst := hrun.stays hf
    obtain ⟨q, _, hpc, _, hbar⟩ := hstep.1.shape
    intro r hr
    by_cases e : r = q
    · subst e
      rw [hpc, Function.update_self]
      have h1 := ih r hr
      by_contra hcon
      have := hbar k1 R hk1 hb (by omega) r0 hr0
      omega
    · rw [hpc, Function.update_of_ne e]; exact ih r hr

theorem FailRun.count {n : Nat} {st : Nat → σ} {w : Nat → V} {s : SharedSys σ μ V}
    (h : FailRun p sync prog fails n ⟨Sys.start st, w⟩ s) :
    ∑ r ∈ Finset.range p, s.sys.pc r = n ∧ ∀ r, s.sys.pc r ≤ 4 * prog.length := by
  generalize hs0 : (⟨Sys.start st, w⟩ : SharedSys σ μ V) = s0 at h
  induction h with
  | refl => subst hs0; simp [Sys.start]
  | tail hrun hstep ih =>
    obtain ⟨ih, hle⟩ := ih hs0
    obtain ⟨q, hq, hpc, hlt, _⟩ := hstep.1.shape
    constructor
    · have hmem : q ∈ Finset.range p := by simpa using hq
      rw [hpc, Finset.sum_update_of_mem hmem, ← ih, ← Finset.add_sum_erase _ _ hmem, Finset.sdiff_singleton_eq_erase]
      omega
    · intro r
      rw [hpc, Function.update_apply]
      split
      · omega
      · exact hle r

theorem ends (prog : List (SharedRound σ μ V)) (st : Nat → σ) (w : Nat → V) : Ends p prog fails st w :=
  ⟨p * (4 * prog.length), fun _ _ _ h => by
    obtain ⟨h1, h2⟩ := h.count
    rw [← h1]
    calc _ ≤ ∑ _r ∈ Finset.range p, 4 * prog.length := Finset.sum_le_sum fun r _ => h2 r
      _ = p * (4 * prog.length) := by simp⟩

/-- A program with a barrier in the round before the end of a part: nobody finishes that part. -/
theorem nobodyFinishes {A B : List (SharedRound σ μ V)} {R : SharedRound σ μ V} (hb : R.barrier = true) {r0 k0 : Nat}
    (hr0 : r0 < p) (hf : fails r0 k0) (hk0 : k0 ≤ A.length) (st : Nat → σ) (w : Nat → V) :
    NobodyFinishes p (A ++ R :: B) fails st w (A.length + 1) := by
  intro sync n s h r hr
  have := h.blocked hr0 hf hk0 (k1 := A.length) (R := R) (by simp) hb r hr
  omega

/-- Where something raised. -/
theorem FailRun.toShared {n : Nat} {s t : SharedSys σ μ V} (h : FailRun p sync prog fails n s t) :
    SharedRun p sync prog n s t := by
  induction h with
  | refl => exact .refl _
  | tail _ hs ih => exact ih.tail hs.1

/-- A run at whose end no rank is past the point where its work raises is a run with these failures. -/
theorem SharedRun.toFail {n : Nat} {s t : SharedSys σ μ V} (h : SharedRun p sync prog n s t)
    (hf : ∀ r k, fails r k → t.sys.pc r ≤ 4 * k + 1) : FailRun p sync prog fails n s t := by
  induction h with
  | refl => exact .refl _
  | @tail n s t u _ hs ih =>
    obtain ⟨q, _, hpc, _⟩ := hs.shape
    have mono : ∀ r, t.sys.pc r ≤ u.sys.pc r := fun r => by
      rw [hpc, Function.update_apply]; split
      · rename_i e; subst e; omega
      · exact le_refl _
    refine (ih fun r k h => (mono r).trans (hf r k h)).tail ⟨hs, fun r k h he => ?_⟩
    have := hf r k h
    have := mono r
    omega

/-! ### The stages of methods -/

/-- The stages that wait for all processes. -/
def Stage.Meets : Stage X Y V K → Prop
  | .innerProducts .. => True
  | .symmInnerProducts .. => True
  | .linCombine .. => True
  | .callAndBcast .. => False
  | .compute .. => False

/-- A part of a larger program that ends with a barrier. -/
theorem inStage_barrier {τ ν : Type*} (get : σ → τ) (set : σ → τ → σ) (inj : ν → μ) (proj : μ → Option ν)
    (shape : List (SharedRound τ ν V)) (P : σ → List (SharedRound τ ν V)) :
    ∃ A R, R.barrier = true ∧ inStage get set inj proj (shape ++ [barrierRound]) P = A ++ [R] := by
  unfold inStage
  rw [List.mapIdx_append]
  exact ⟨_, _, rfl, rfl⟩

theorem cons_append_pair {α : Type*} (x : α) (A : List α) (R S : α) : x :: (A ++ [R]) ++ [S] = (x :: A) ++ [R, S] := by simp

section
variable [AddCommMonoid V] [Semiring K] [StarRing K] [DecidableEq K]

/-- The rounds of a stage that waits: some rounds, a round with a barrier, a round in which the result is stored. -/
theorem Stage.Meets.prog_eq {stage : Stage X Y V K} (h : stage.Meets) (p tag mx : Nat) (ip : V → V → K) (cast : K → K → K)
    (mul : V → K → V) : ∃ A R S, R.barrier = true ∧ stage.prog p tag mx ip cast mul = A ++ [R, S] := by
  cases stage with
  | innerProducts rows cols set =>
    simp only [Stage.prog, ipStage]
    obtain ⟨A, R, hR, e⟩ := inStage_barrier (σ := RankState X Y V K) (μ := StageMsg Y V K) RankState.ip RankState.setIp
      StageMsg.ip StageMsg.toIp
      (readsStore fun w => jobProg (computeInnerProductArray p tag mx (some ip) cast (rows.map w) (cols.map w))) fun _ =>
        readsStore (fun w => jobProg (computeInnerProductArray p tag mx (some ip) cast (rows.map w) (cols.map w))) ++
          [barrierRound]
    rw [e]
    exact ⟨_, R, _, hR, cons_append_pair _ _ _ _⟩
  | symmInnerProducts vecs set =>
    simp only [Stage.prog, ipStage]
    obtain ⟨A, R, hR, e⟩ := inStage_barrier (σ := RankState X Y V K) (μ := StageMsg Y V K) RankState.ip RankState.setIp
      StageMsg.ip StageMsg.toIp
      (readsStore fun w => jobProg (computeSymmInnerProductArray p tag mx (some ip) cast (vecs.map w))) fun _ =>
        readsStore (fun w => jobProg (computeSymmInnerProductArray p tag mx (some ip) cast (vecs.map w))) ++ [barrierRound]
    rw [e]
    exact ⟨_, R, _, hR, cons_append_pair _ _ _ _⟩
  | linCombine sums basis coeff indices =>
    simp only [Stage.prog, lcStage]
    have hl : ∀ c : Nat → Nat → K, ∃ A, lcShared p mx mul basis sums c = A ++ [barrierRound] := fun c => ⟨_, rfl⟩
    obtain ⟨A0, hA0⟩ := hl fun _ _ => 0
    rw [hA0]
    obtain ⟨A, R, hR, e⟩ := inStage_barrier (σ := RankState X Y V K) (μ := StageMsg Y V K) RankState.lc RankState.setLc
      StageMsg.basis StageMsg.toBasis A0 fun s => lcShared p mx mul basis sums s.coeff
    rw [e]
    exact ⟨_, R, _, hR, cons_append_pair _ _ _ _⟩
  | callAndBcast f set => exact h.elim
  | compute f => exact h.elim

/-- **C84.** A method made of stages, with one that waits for all processes (an array of inner products or `lin_combine`) in
the middle.  If on some rank a function of the user raises in a stage before it or in it, then in every interleaving no
rank finishes it: no rank begins a later stage (for instance the decomposition on rank 0, or putting of modes) with a result
that is not complete, and no rank returns from the method.

Missing (and false, see `C84_others_wait_violation`): that the other ranks raise or return at all. -/
theorem C84_nobody_goes_on_partial (p tag mx : Nat) (ip : V → V → K) (cast : K → K → K) (mul : V → K → V)
    (before after : List (Stage X Y V K)) (stage : Stage X Y V K) (hm : stage.Meets) (fails : Nat → Nat → Prop) (r0 k0 : Nat)
    (hr0 : r0 < p) (hf : fails r0 k0)
    (hk0 : k0 + 1 < (stagesProg p tag mx ip cast mul (before ++ [stage])).length)
    (st : Nat → RankState X Y V K) (w : Nat → V) :
    NobodyFinishes p (stagesProg p tag mx ip cast mul (before ++ stage :: after)) fails st w
      ((stagesProg p tag mx ip cast mul (before ++ [stage])).length - 1) := by
  obtain ⟨A, R, S, hb, e⟩ := hm.prog_eq p tag mx ip cast mul
  have e1 : stagesProg p tag mx ip cast mul (before ++ [stage]) = (stagesProg p tag mx ip cast mul before ++ A) ++ [R, S] := by
    simp [stagesProg, e]
  have e2 : stagesProg p tag mx ip cast mul (before ++ stage :: after) =
      (stagesProg p tag mx ip cast mul before ++ A) ++ R :: (S :: stagesProg p tag mx ip cast mul after) := by
    simp [stagesProg, e]
  rw [e1, List.length_append, List.length_cons, List.length_cons, List.length_nil] at hk0 ⊢
  rw [e2]
  exact nobodyFinishes hb hr0 hf (by omega) st w

/-- `PODHandles.compute_decomp` on three processes: `get` raises on rank 2 when it reads its vector.  Neither does rank 0
begin the decomposition. -/
example (eigh : ℤ → Except Err ℤ) (w : Nat → ℤ) :
    NobodyFinishes 3 (stagesProg 3 7 4 (fun a b : ℤ => a * b) (fun _ k : ℤ => k) (fun a b => a * b)
      ([] ++ .symmInnerProducts [0, 1, 2, 3] (fun _ a => a 0 1) :: [.callAndBcast eigh fun x _ => x]))
      (fun r k => r = 2 ∧ k = 1) (fun _ => RankState.start 0) w
      ((stagesProg 3 7 4 (fun a b : ℤ => a * b) (fun _ k : ℤ => k) (fun a b => a * b)
        ([] ++ [(.symmInnerProducts [0, 1, 2, 3] (fun _ a => a 0 1) : Stage ℤ ℤ ℤ ℤ)])).length - 1) :=
  C84_nobody_goes_on_partial 3 7 4 _ _ _ [] _ (.symmInnerProducts [0, 1, 2, 3] fun _ a => a 0 1) trivial _ 2 1 (by decide) ⟨rfl, rfl⟩ (by decide +kernel) _ w

/-- **C84, violated: the other processes do not learn of it.**  If a function of the user raises on one rank only, then the
other ranks neither raise nor return: there is a bound on what they can do, and in every interleaving they stay in the
method. -/
theorem C84_others_wait_violation (p tag mx : Nat) (ip : V → V → K) (cast : K → K → K) (mul : V → K → V)
    (before after : List (Stage X Y V K)) (stage : Stage X Y V K) (hm : stage.Meets) (r0 k0 r : Nat) (hr0 : r0 < p) (hr : r < p)
    (hne : r ≠ r0) (hk0 : k0 + 1 < (stagesProg p tag mx ip cast mul (before ++ [stage])).length)
    (st : Nat → RankState X Y V K) (w : Nat → V) :
    let prog := stagesProg p tag mx ip cast mul (before ++ stage :: after)
    let fails := fun q k => q = r0 ∧ k = k0
    (∀ k, ¬ fails r k) ∧ Ends p prog fails st w ∧
      ∀ (sync : Nat → Nat → Prop) (n : Nat) (s : SharedSys (RankState X Y V K) (StageMsg Y V K) V),
        FailRun p sync prog fails n ⟨Sys.start st, w⟩ s → s.sys.pc r < 4 * prog.length := by
  refine ⟨fun k h => hne h.1, ends _ _ _, fun sync n s h => ?_⟩
  refine (C84_nobody_goes_on_partial p tag mx ip cast mul before after stage hm _ r0 k0 hr0 ⟨rfl, rfl⟩ hk0 st w sync n s h r hr).trans_le ?_
  have : stagesProg p tag mx ip cast mul (before ++ stage :: after) =
      stagesProg p tag mx ip cast mul (before ++ [stage]) ++ stagesProg p tag mx ip cast mul after := by
    simp [stagesProg]
  rw [this, List.length_append]
  omega

end

/-! ### Linear combinations, derivatives, saving of arrays -/

/-- **C84.** Calls of `lin_combine` one after another: if `get`, `put` or arithmetic of vectors raises on some rank in an
earlier call or in the last call of the first ones, no rank returns from it, so that no rank reads or writes anything for
later ones.

Missing (and false, see `C84_some_sums_written_violation`): that nothing has been written. -/
theorem C84_lin_combine_partial [AddCommMonoid V] (p : Nat) (mul : V → K → V) (before after : List (LcCall K)) (c : LcCall K)
    (fails : Nat → Nat → Prop) (r0 k0 : Nat) (hr0 : r0 < p) (hf : fails r0 k0)
    (hk0 : k0 < (lcCalls p mul (before ++ [c])).length) (st : Nat → LCState V) (w : Nat → V) :
    NobodyFinishes p (lcCalls p mul (before ++ c :: after)) fails st w (lcCalls p mul (before ++ [c])).length := by
  have hl : ∃ A, lcShared p c.maxVecsPerProc mul c.basisPlaces c.sumPlaces c.coeff = A ++ [barrierRound] := ⟨_, rfl⟩
  obtain ⟨A, hA⟩ := hl
  have e1 : lcCalls p mul (before ++ [c]) =
      (lcCalls p mul before ++ ((localRound fun rank _ => lcInit rank).share :: A)) ++ [barrierRound] := by
    simp [lcCalls, hA]
  have e2 : lcCalls p mul (before ++ c :: after) =
      (lcCalls p mul before ++ ((localRound fun rank _ => lcInit rank).share :: A)) ++ barrierRound :: lcCalls p mul after := by
    simp [lcCalls, hA]
  rw [e1, List.length_append (bs := [barrierRound]), List.length_singleton] at hk0 ⊢
  rw [e2]
  exact nobodyFinishes rfl hr0 hf (by omega) st w

/-- Two calls on two processes; `put` raises on rank 1 in the first. -/
example (w : Nat → ℤ) : NobodyFinishes 2
    (lcCalls 2 (fun (v c : ℤ) => v * c) ([] ++ ⟨2, [0, 1], [2, 3], fun _ _ => 1⟩ :: [⟨2, [2, 3], [4, 5], fun _ _ => 1⟩]))
    (fun r k => r = 1 ∧ k = 4) lcInit w (lcCalls 2 (fun (v c : ℤ) => v * c) ([] ++ [⟨2, [0, 1], [2, 3], fun _ _ => 1⟩])).length :=
  C84_lin_combine_partial 2 _ [] _ _ _ 1 4 (by decide) ⟨rfl, rfl⟩ (by decide +kernel) _ w

/-- **C84, violated: not all or nothing.**  `lin_combine` with one basis vector, two sums and two vectors in memory, on one
process: `get` of the basis vector raises when it is read for the second sum.  The first sum is in its place already. -/
theorem C84_some_sums_written_violation :
    let prog := lcShared 1 2 (fun (v c : ℤ) => v * c) [0] [1, 2] fun _ _ => 5
    let fails := fun r k => r = 0 ∧ k = 4
    ∃ n s, FailRun 1 (fun _ _ => False) prog fails n ⟨Sys.start lcInit, fun _ => 1⟩ s ∧ s.sys.pc 0 = 4 * 4 + 1 ∧
      s.store 1 = 5 ∧ s.store 2 = 1 := by
  intro prog fails
  let start : SharedSys (LCState ℤ) (List ℤ × List Nat) ℤ := ⟨Sys.start lcInit, fun _ => 1⟩
  have h : (shareRun 1 prog (List.replicate 17 0) start).map (fun s =>
      decide (s.sys.pc 0 = 4 * 4 + 1 ∧ s.store 1 = 5 ∧ s.store 2 = 1)) = some true := by decide +kernel
  rw [Option.map_eq_some_iff] at h
  obtain ⟨s, hs, h⟩ := h
  have h := of_decide_eq_true h
  refine ⟨_, s, (shareRun_run (by decide) hs).toFail ?_, h⟩
  rintro r k ⟨rfl, rfl⟩
  exact h.1.le

/-- **C84.** `compute_derivs_handles`: if `get`, `put` or arithmetic of vectors raises on some rank, no rank returns.
Missing: as for `C84_nobody_goes_on_partial`. -/
theorem C84_derivs_partial (p : Nat) (deriv : V → V → V) (vecs advVecs : List V) (numDerivs : Nat) (prog : Prog (DerivState V) Unit)
    (hprog : computeDerivsHandles p deriv vecs advVecs numDerivs = .ok prog) (fails : Nat → Nat → Prop) (r0 : Nat)
    (hr0 : r0 < p) (hf : fails r0 0) (st : Nat → DerivState V) (w : Nat → V) :
    NobodyFinishes p (prog.map Round.share) fails st w prog.length := by
  unfold computeDerivsHandles at hprog
  split at hprog
  · cases hprog
  · cases hprog
    exact nobodyFinishes (A := []) (B := []) (R := (derivsRound p deriv vecs advVecs).share) rfl hr0 hf (le_refl _) st w

/-- Five vectors on three processes; `get` raises on rank 1. -/
example (st : Nat → DerivState ℤ) (w : Nat → ℤ) : ∃ prog,
    computeDerivsHandles 3 (fun v v' => v' - v) [1, 2, 3, 4, 5] [2, 3, 4, 5, 6] 5 = .ok prog ∧
    NobodyFinishes 3 (prog.map Round.share) (fun r k => r = 1 ∧ k = 0) st w prog.length :=
  ⟨_, rfl, C84_derivs_partial 3 (fun v v' => v' - v) [1, 2, 3, 4, 5] [2, 3, 4, 5, 6] 5 _ rfl _ 1 (by decide) ⟨rfl, rfl⟩ st w⟩

/-- **C84.** Methods that save arrays, one after another: if `put_array` raises on rank 0 for the array number `k0`, then no
rank returns from that method, and in every interleaving, at every moment, the destinations of this array and of the ones
after it, and all places that are no destinations, hold what they held.  Missing: as for `C84_nobody_goes_on_partial`. -/
theorem C84_saving_partial (p : Nat) (hp : 1 ≤ p) (items : List (Nat × (σ → V))) (fails : Nat → Nat → Prop) (k0 : Nat)
    (hk0 : k0 < items.length) (hf : fails 0 k0) (st : Nat → σ) (w : Nat → V) :
    NobodyFinishes p (saveEach (μ := μ) items) fails st w (k0 + 1) ∧
    ∀ (sync : Nat → Nat → Prop) (n : Nat) (s : SharedSys σ μ V),
      FailRun p sync (saveEach items) fails n ⟨Sys.start st, w⟩ s →
        ∀ q, q ∉ (items.take k0).map Prod.fst → s.store q = w q := by
  constructor
  · intro sync n s h r hr
    have := h.blocked hp hf (le_refl k0) (R := zeroPut items[k0].1 items[k0].2 true) (by simp [saveEach, hk0]) rfl r hr
    omega
  · intro sync n s h q hq
    generalize hs0 : (⟨Sys.start st, w⟩ : SharedSys σ μ V) = s0 at h
    induction h with
    | refl => subst hs0; rfl
    | @tail n s t u hrun hstep ih =>
      replace ih := ih hs0
      subst hs0
      have hst := (hrun.tail hstep).stays hf
      rw [← ih]
      have key : ∀ k R, (saveEach (μ := μ) items)[k]? = some R → ∃ hk : k < items.length, R = zeroPut items[k].1 items[k].2 true := by
        intro k R hk
        simp only [saveEach, List.getElem?_map, Option.map_eq_some_iff] at hk
        obtain ⟨item, hi, rfl⟩ := hk
        obtain ⟨hk, rfl⟩ := List.getElem?_eq_some_iff.mp hi
        exact ⟨hk, rfl⟩
      cases hstep.1 with
      | sendNone | sendSome | wait | barrier => rfl
      | recvSome s w r k R ro m rest hr hk hpc hs =>
        obtain ⟨hk, rfl⟩ := key k R hk
        cases hs
      | recvNone s w r k R hr hk hpc hs =>
        obtain ⟨hk, rfl⟩ := key k R hk
        simp only [overlay, zeroPut]
        split
        · rename_i he
          obtain ⟨rfl, rfl⟩ := he
          simp only [Function.update_self] at hst
          exact absurd (List.mem_map.mpr ⟨items[k], List.mem_take_iff_getElem.mpr ⟨k, by omega, rfl⟩, rfl⟩) hq
        · rfl

/-- Eigenvalues, eigenvectors and the correlation array are saved by two processes; the second cannot be saved. -/
example (sync : Nat → Nat → Prop) (n : Nat) (s : SharedSys (ℤ × ℤ × ℤ) Unit ℤ)
    (h : FailRun 2 sync (saveEach [(0, fun x => x.1), (1, fun x => x.2.1), (2, fun x => x.2.2)]) (fun r k => r = 0 ∧ k = 1) n
      ⟨Sys.start fun _ => (4, 5, 6), fun _ => 0⟩ s) : s.store 1 = 0 ∧ s.store 2 = 0 := by
  have := (C84_saving_partial (μ := Unit) 2 (by decide) [(0, fun x : ℤ × ℤ × ℤ => x.1), (1, fun x => x.2.1), (2, fun x => x.2.2)]
    (fun r k => r = 0 ∧ k = 1) 1 (by decide) ⟨rfl, rfl⟩ (fun _ => (4, 5, 6)) fun _ => (0 : ℤ)).2 sync n s h
  exact ⟨this 1 (by simp), this 2 (by simp)⟩

end Modred
