import Verif.Model.Spmd
import Mathlib.Algebra.BigOperators.Group.Finset.Basic
import Mathlib.Algebra.BigOperators.Fin
import Mathlib.Algebra.Order.BigOperators.Group.Finset
import Mathlib.Data.Finset.Max

/-! Helper lemmas: interleaved execution of rounds agrees with lock-step execution. -/

namespace Modred

variable {σ μ : Type*}

/-- Sends and receives of a round fit together. -/
structure Round.Matched (p : Nat) (R : Round σ μ) : Prop where
  send_ok : ∀ r, r < p → ∀ so, R.send r = some so →
    so.dest < p ∧ R.recv so.dest = some ⟨r, so.tag⟩
  recv_ok : ∀ r, r < p → ∀ ro, R.recv r = some ro →
    ro.src < p ∧ ∃ so, R.send ro.src = some so ∧ so.dest = r ∧ so.tag = ro.tag

/-- Sends and receives of all rounds fit together. -/
def AllMatched (p : Nat) (prog : Prog σ μ) : Prop := ∀ R ∈ prog, R.Matched p

theorem localRound_matched (p : Nat) (f : Nat → σ → σ) :
    (localRound f : Round σ μ).Matched p := by
  constructor <;> intro r _ _ h <;> simp [localRound] at h

theorem localRound_step (f : Nat → σ → σ) (st : Nat → σ) :
    (localRound f : Round σ μ).step st = fun r => f r (st r) := by
  funext r; simp [Round.step, localRound]

theorem AllMatched.append {p : Nat} {a b : Prog σ μ} (ha : AllMatched p a)
    (hb : AllMatched p b) : AllMatched p (a ++ b) := by
  intro R hR
  rcases List.mem_append.mp hR with h | h
  · exact ha R h
  · exact hb R h

theorem AllMatched.cons {p : Nat} {a : Round σ μ} {b : Prog σ μ} (ha : a.Matched p)
    (hb : AllMatched p b) : AllMatched p (a :: b) := by
  intro R hR
  rcases List.mem_cons.mp hR with rfl | h
  · exact ha
  · exact hb R h

theorem AllMatched.nil {p : Nat} : AllMatched p ([] : Prog σ μ) := by intro R hR; simp at hR

theorem AllMatched.flatMap {β : Type*} {p : Nat} {l : List β} {f : β → Prog σ μ}
    (h : ∀ b ∈ l, AllMatched p (f b)) : AllMatched p (l.flatMap f) := by
  intro R hR
  obtain ⟨b, hb, hR⟩ := List.mem_flatMap.mp hR
  exact h b hb R hR

theorem exec_append (a b : Prog σ μ) (st : Nat → σ) : exec (a ++ b) st = exec b (exec a st) := by
  simp [exec]

theorem exec_cons (a : Round σ μ) (b : Prog σ μ) (st : Nat → σ) :
    exec (a :: b) st = exec b (a.step st) := rfl

theorem exec_nil (st : Nat → σ) : exec ([] : Prog σ μ) st = st := rfl

section Invariant

variable (p : Nat) (prog : Prog σ μ) (st : Nat → σ)

/-- Lock-step state after `k` rounds. -/
def lock (k : Nat) : Nat → σ := exec (prog.take k) st

/-- Rounds whose receive is done. -/
def recvd (pc : Nat) : Nat := (pc + 2) / 4

/-- Rounds whose send is done. -/
def sent (pc : Nat) : Nat := (pc + 3) / 4

/-- The message that `a` sends to `b` with tag `t` in round `j`. -/
def roundMsg (a b t j : Nat) : Option μ :=
  (prog[j]?).bind fun R => (R.send a).bind fun so =>
    if so.dest = b ∧ so.tag = t then some (so.msg (lock prog st j a)) else none

/-- The messages of rounds `lo` to `hi - 1`. -/
def msgs (a b t lo hi : Nat) : List μ :=
  (List.range' lo (hi - lo)).filterMap (roundMsg prog st a b t)

structure Inv (s : Sys σ μ) : Prop where
  pc_le : ∀ r, r < p → s.pc r ≤ 4 * prog.length
  loc_eq : ∀ r, r < p → s.loc r = lock prog st (recvd (s.pc r)) r
  box_eq : ∀ a b t, a < p → b < p →
    s.box a b t = msgs prog st a b t (recvd (s.pc b)) (sent (s.pc a))
  causal : ∀ b j R ro, b < p → j < recvd (s.pc b) → prog[j]? = some R → R.recv b = some ro →
    j < sent (s.pc ro.src)

variable {p prog st}

theorem lock_succ {k : Nat} {R : Round σ μ} (hk : prog[k]? = some R) :
    lock prog st (k + 1) = R.step (lock prog st k) := by
  unfold lock
  have : prog.take (k + 1) = prog.take k ++ [R] := by
    rw [List.take_add_one, hk]; rfl
  rw [this, exec_append]
  rfl

theorem roundMsg_none_of {a b t k : Nat} {R : Round σ μ} (hk : prog[k]? = some R)
    (h : ∀ so, R.send a = some so → ¬ (so.dest = b ∧ so.tag = t)) :
    roundMsg prog st a b t k = none := by
  simp only [roundMsg, hk, Option.bind_some]
  cases hs : R.send a with
  | none => rfl
  | some so => simp [h so hs]

theorem roundMsg_some_of {a k : Nat} {R : Round σ μ} {so : SendOp σ μ} (hk : prog[k]? = some R)
    (h : R.send a = some so) :
    roundMsg prog st a so.dest so.tag k = some (so.msg (lock prog st k a)) := by
  simp [roundMsg, hk, h]

/-- Extending the range by a round that has no such message changes nothing. -/
theorem msgs_hi_none {a b t lo k : Nat} (h : roundMsg prog st a b t k = none) :
    msgs prog st a b t lo (k + 1) = msgs prog st a b t lo k := by
  unfold msgs
  rcases Nat.lt_or_ge k lo with hlt | hge
  · have h1 : k + 1 - lo = 0 := by omega
    have h2 : k - lo = 0 := by omega
    rw [h1, h2]
  · have h1 : k + 1 - lo = (k - lo) + 1 := by omega
    have h2 : lo + (k - lo) = k := by omega
    rw [h1, List.range'_concat, List.filterMap_append]
    simp [h2, h]

theorem msgs_hi_some {a b t lo k : Nat} {m : μ} (hlo : lo ≤ k)
    (h : roundMsg prog st a b t k = some m) :
    msgs prog st a b t lo (k + 1) = msgs prog st a b t lo k ++ [m] := by
  unfold msgs
  have h1 : k + 1 - lo = (k - lo) + 1 := by omega
  have h2 : lo + (k - lo) = k := by omega
  rw [h1, List.range'_concat, List.filterMap_append]
  simp [h2, h]

theorem msgs_lo_none {a b t k hi : Nat} (h : roundMsg prog st a b t k = none) :
    msgs prog st a b t (k + 1) hi = msgs prog st a b t k hi := by
  unfold msgs
  rcases Nat.lt_or_ge k hi with hlt | hge
  · have h1 : hi - k = (hi - (k + 1)) + 1 := by omega
    rw [h1, List.range'_succ, List.filterMap_cons, h]
  · have h1 : hi - (k + 1) = 0 := by omega
    have h2 : hi - k = 0 := by omega
    rw [h1, h2]; rfl

theorem msgs_lo_some {a b t k hi : Nat} {m : μ} (hlt : k < hi)
    (h : roundMsg prog st a b t k = some m) :
    msgs prog st a b t k hi = m :: msgs prog st a b t (k + 1) hi := by
  unfold msgs
  have h1 : hi - k = (hi - (k + 1)) + 1 := by omega
  rw [h1, List.range'_succ, List.filterMap_cons, h]

theorem lt_of_msgs_ne_nil {a b t lo hi : Nat} (h : msgs prog st a b t lo hi ≠ []) : lo < hi := by
  by_contra hn
  apply h
  have : hi - lo = 0 := by omega
  simp [msgs, this]

theorem Inv.start : Inv p prog st (Sys.start st) where
  pc_le r _ := Nat.zero_le _
  loc_eq r _ := by simp [Sys.start, recvd, lock, exec]
  box_eq a b t _ _ := by simp [Sys.start, recvd, sent, msgs]
  causal b j R ro _ h := by simp [Sys.start, recvd] at h

theorem lt_of_getElem? {k : Nat} {R : Round σ μ} (hk : prog[k]? = some R) : k < prog.length := by
  rw [List.getElem?_eq_some_iff] at hk; exact hk.1

theorem Inv.step {sync : Nat → Nat → Prop} (hm : AllMatched p prog) {s s' : Sys σ μ}
    (hi : Inv p prog st s) (hs : SysStep p sync prog s s') : Inv p prog st s' := by
  cases hs with
  | sendNone r k R hr hk hpc hsend =>
    have hkl := lt_of_getElem? hk
    have hrecvd : ∀ q, recvd (Function.update s.pc r (4 * k + 1) q) = recvd (s.pc q) := by
      intro q
      by_cases hq : q = r
      · subst hq; simp [recvd, hpc]; omega
      · simp [hq]
    refine ⟨?_, ?_, ?_, ?_⟩
    · intro q hq
      by_cases hqr : q = r
      · subst hqr; simp; omega
      · simpa [hqr] using hi.pc_le q hq
    · intro q hq; dsimp only; rw [hrecvd]; exact hi.loc_eq q hq
    · intro a b t ha hb
      dsimp only
      rw [hrecvd, hi.box_eq a b t ha hb]
      by_cases har : a = r
      · subst har
        have h1 : sent (s.pc a) = k := by rw [hpc]; simp [sent]; omega
        have h2 : sent (4 * k + 1) = k + 1 := by simp [sent]; omega
        rw [Function.update_self, h1, h2, msgs_hi_none]
        exact roundMsg_none_of hk (fun so h => by simp [hsend] at h)
      · rw [Function.update_of_ne har]
    · intro b j R' ro hb hj hj' hrecv
      dsimp only at hj ⊢
      rw [hrecvd] at hj
      have := hi.causal b j R' ro hb hj hj' hrecv
      by_cases har : ro.src = r
      · rw [har] at this ⊢
        rw [Function.update_self]
        rw [hpc] at this
        simp only [sent] at this ⊢
        omega
      · rw [Function.update_of_ne har]; exact this
  | sendSome r k R so hr hk hpc hsend =>
    have hkl := lt_of_getElem? hk
    have hMR : R.Matched p := hm R (List.mem_of_getElem? hk)
    obtain ⟨hd, hdr⟩ := hMR.send_ok r hr so hsend
    have hrecvd : ∀ q, recvd (Function.update s.pc r (4 * k + 1) q) = recvd (s.pc q) := by
      intro q
      by_cases hq : q = r
      · subst hq; simp [recvd, hpc]; omega
      · simp [hq]
    have h1 : sent (s.pc r) = k := by rw [hpc]; simp [sent]; omega
    have h2 : sent (4 * k + 1) = k + 1 := by simp [sent]; omega
    refine ⟨?_, ?_, ?_, ?_⟩
    · intro q hq
      by_cases hqr : q = r
      · subst hqr; simp; omega
      · simpa [hqr] using hi.pc_le q hq
    · intro q hq; dsimp only; rw [hrecvd]; exact hi.loc_eq q hq
    · intro a b t ha hb
      dsimp only [setBox]
      rw [hrecvd]
      by_cases har : a = r
      · subst har
        rw [Function.update_self, h2]
        by_cases hbt : b = so.dest ∧ t = so.tag
        · obtain ⟨rfl, rfl⟩ := hbt
          rw [if_pos ⟨rfl, rfl, rfl⟩]
          have hle : recvd (s.pc so.dest) ≤ k := by
            by_contra hn
            have := hi.causal so.dest k R _ hd (by omega) hk hdr
            simp only at this
            omega
          have hloc : s.loc a = lock prog st k a := by
            rw [hi.loc_eq a ha, hpc]
            have : recvd (4 * k) = k := by simp [recvd]; omega
            rw [this]
          rw [msgs_hi_some hle (roundMsg_some_of hk hsend), hi.box_eq a _ _ ha hb, h1, hloc]
        · rw [if_neg (by rintro ⟨-, h, h'⟩; exact hbt ⟨h, h'⟩), hi.box_eq a b t ha hb, h1,
            msgs_hi_none]
          apply roundMsg_none_of hk
          intro so' hso'
          rw [hsend] at hso'
          cases hso'
          rintro ⟨h, h'⟩
          exact hbt ⟨h.symm, h'.symm⟩
      · rw [if_neg (by rintro ⟨h, -⟩; exact har h), Function.update_of_ne har,
          hi.box_eq a b t ha hb]
    · intro b j R' ro hb hj hj' hrecv
      dsimp only at hj ⊢
      rw [hrecvd] at hj
      have := hi.causal b j R' ro hb hj hj' hrecv
      by_cases har : ro.src = r
      · rw [har] at this ⊢
        rw [Function.update_self, h2]
        omega
      · rw [Function.update_of_ne har]; exact this
  | recvNone r k R hr hk hpc hrecv =>
    have hkl := lt_of_getElem? hk
    have hMR : R.Matched p := hm R (List.mem_of_getElem? hk)
    have hsent : ∀ q, sent (Function.update s.pc r (4 * k + 2) q) = sent (s.pc q) := by
      intro q
      by_cases hq : q = r
      · subst hq; simp [sent, hpc]; omega
      · simp [hq]
    have h1 : recvd (s.pc r) = k := by rw [hpc]; simp [recvd]; omega
    have h2 : recvd (4 * k + 2) = k + 1 := by simp [recvd]; omega
    refine ⟨?_, ?_, ?_, ?_⟩
    · intro q hq
      by_cases hqr : q = r
      · subst hqr; simp; omega
      · simpa [hqr] using hi.pc_le q hq
    · intro q hq
      dsimp only
      by_cases hqr : q = r
      · subst hqr
        rw [Function.update_self, Function.update_self, h2, lock_succ hk, hi.loc_eq q hq, h1]
        simp [Round.step, Round.received, hrecv]
      · rw [Function.update_of_ne hqr, Function.update_of_ne hqr]; exact hi.loc_eq q hq
    · intro a b t ha hb
      dsimp only
      rw [hsent, hi.box_eq a b t ha hb]
      by_cases hbr : b = r
      · subst hbr
        rw [Function.update_self, h1, h2, msgs_lo_none]
        apply roundMsg_none_of hk
        rintro so hso ⟨hd, -⟩
        have := (hMR.send_ok a ha so hso).2
        rw [hd, hrecv] at this
        cases this
      · rw [Function.update_of_ne hbr]
    · intro b j R' ro hb hj hj' hrecv'
      dsimp only at hj ⊢
      rw [hsent]
      by_cases hbr : b = r
      · subst hbr
        rw [Function.update_self, h2] at hj
        rcases Nat.lt_or_ge j k with h | h
        · exact hi.causal b j R' ro hb (by omega) hj' hrecv'
        · have : j = k := by omega
          subst this
          rw [hk] at hj'; cases hj'
          rw [hrecv] at hrecv'; cases hrecv'
      · rw [Function.update_of_ne hbr] at hj
        exact hi.causal b j R' ro hb hj hj' hrecv'
  | recvSome r k R ro m rest hr hk hpc hrecv hbox =>
    have hkl := lt_of_getElem? hk
    have hMR : R.Matched p := hm R (List.mem_of_getElem? hk)
    obtain ⟨hsrc, so, hso, hsod, hsot⟩ := hMR.recv_ok r hr ro hrecv
    have hsent : ∀ q, sent (Function.update s.pc r (4 * k + 2) q) = sent (s.pc q) := by
      intro q
      by_cases hq : q = r
      · subst hq; simp [sent, hpc]; omega
      · simp [hq]
    have h1 : recvd (s.pc r) = k := by rw [hpc]; simp [recvd]; omega
    have h2 : recvd (4 * k + 2) = k + 1 := by simp [recvd]; omega
    have hb0 := hi.box_eq ro.src r ro.tag hsrc hr
    rw [h1] at hb0
    have hlt : k < sent (s.pc ro.src) := by
      apply lt_of_msgs_ne_nil (prog := prog) (st := st) (a := ro.src) (b := r) (t := ro.tag)
      rw [← hb0, hbox]; simp
    have hmsg := roundMsg_some_of (st := st) hk hso
    rw [hsod, hsot] at hmsg
    rw [hbox, msgs_lo_some hlt hmsg] at hb0
    obtain ⟨hm0, hrest⟩ := List.cons.inj hb0
    refine ⟨?_, ?_, ?_, ?_⟩
    · intro q hq
      by_cases hqr : q = r
      · subst hqr; simp; omega
      · simpa [hqr] using hi.pc_le q hq
    · intro q hq
      dsimp only
      by_cases hqr : q = r
      · subst hqr
        rw [Function.update_self, Function.update_self, h2, lock_succ hk, hi.loc_eq q hq, h1, hm0]
        simp [Round.step, Round.received, hrecv, hso]
      · rw [Function.update_of_ne hqr, Function.update_of_ne hqr]; exact hi.loc_eq q hq
    · intro a b t ha hb
      dsimp only [setBox]
      rw [hsent]
      by_cases hbr : b = r
      · subst hbr
        rw [Function.update_self, h2]
        by_cases hat : a = ro.src ∧ t = ro.tag
        · obtain ⟨rfl, rfl⟩ := hat
          rw [if_pos ⟨rfl, rfl, rfl⟩, hrest]
        · rw [if_neg (by rintro ⟨h, -, h'⟩; exact hat ⟨h, h'⟩), hi.box_eq a b t ha hb, h1,
            msgs_lo_none]
          apply roundMsg_none_of hk
          rintro so' hso' ⟨hd, ht⟩
          have := (hMR.send_ok a ha so' hso').2
          rw [hd, hrecv] at this
          cases this
          exact hat ⟨rfl, ht.symm⟩
      · rw [if_neg (by rintro ⟨-, h, -⟩; exact hbr h), Function.update_of_ne hbr,
          hi.box_eq a b t ha hb]
    · intro b j R' ro' hb hj hj' hrecv'
      dsimp only at hj ⊢
      rw [hsent]
      by_cases hbr : b = r
      · subst hbr
        rw [Function.update_self, h2] at hj
        rcases Nat.lt_or_ge j k with h | h
        · exact hi.causal b j R' ro' hb (by omega) hj' hrecv'
        · have : j = k := by omega
          subst this
          rw [hk] at hj'; cases hj'
          rw [hrecv] at hrecv'; cases hrecv'
          exact hlt
      · rw [Function.update_of_ne hbr] at hj
        exact hi.causal b j R' ro' hb hj hj' hrecv'
  | wait r k R hr hk hpc hw =>
    have hkl := lt_of_getElem? hk
    have hsent : ∀ q, sent (Function.update s.pc r (4 * k + 3) q) = sent (s.pc q) := by
      intro q
      by_cases hq : q = r
      · subst hq; simp [sent, hpc]; omega
      · simp [hq]
    have hrecvd : ∀ q, recvd (Function.update s.pc r (4 * k + 3) q) = recvd (s.pc q) := by
      intro q
      by_cases hq : q = r
      · subst hq; simp [recvd, hpc]; omega
      · simp [hq]
    refine ⟨?_, ?_, ?_, ?_⟩
    · intro q hq
      by_cases hqr : q = r
      · subst hqr; simp; omega
      · simpa [hqr] using hi.pc_le q hq
    · intro q hq; dsimp only; rw [hrecvd]; exact hi.loc_eq q hq
    · intro a b t ha hb; dsimp only; rw [hrecvd, hsent]; exact hi.box_eq a b t ha hb
    · intro b j R' ro hb hj hj' hrecv'
      dsimp only at hj ⊢
      rw [hrecvd] at hj
      rw [hsent]
      exact hi.causal b j R' ro hb hj hj' hrecv'
  | barrier r k R hr hk hpc hw =>
    have hkl := lt_of_getElem? hk
    have hsent : ∀ q, sent (Function.update s.pc r (4 * k + 4) q) = sent (s.pc q) := by
      intro q
      by_cases hq : q = r
      · subst hq; simp [sent, hpc]; omega
      · simp [hq]
    have hrecvd : ∀ q, recvd (Function.update s.pc r (4 * k + 4) q) = recvd (s.pc q) := by
      intro q
      by_cases hq : q = r
      · subst hq; simp [recvd, hpc]; omega
      · simp [hq]
    refine ⟨?_, ?_, ?_, ?_⟩
    · intro q hq
      by_cases hqr : q = r
      · subst hqr; simp; omega
      · simpa [hqr] using hi.pc_le q hq
    · intro q hq; dsimp only; rw [hrecvd]; exact hi.loc_eq q hq
    · intro a b t ha hb; dsimp only; rw [hrecvd, hsent]; exact hi.box_eq a b t ha hb
    · intro b j R' ro hb hj hj' hrecv'
      dsimp only at hj ⊢
      rw [hrecvd] at hj
      rw [hsent]
      exact hi.causal b j R' ro hb hj hj' hrecv'

/-- If not everybody is done, the least advanced rank can move. -/
theorem Inv.progress {sync : Nat → Nat → Prop} (hm : AllMatched p prog) {s : Sys σ μ}
    (hi : Inv p prog st s) (hnf : ¬ s.Finished p prog) : ∃ s', SysStep p sync prog s s' := by
  simp only [Sys.Finished, not_forall] at hnf
  obtain ⟨r0, hr0, hne⟩ := hnf
  obtain ⟨r, hr, hmin⟩ := Finset.exists_min_image (Finset.range p) s.pc ⟨r0, by simpa using hr0⟩
  simp only [Finset.mem_range] at hr hmin
  have hlt : s.pc r < 4 * prog.length := by
    have h1 := hmin r0 hr0
    have h2 := hi.pc_le r0 hr0
    omega
  have hkl : s.pc r / 4 < prog.length := by omega
  obtain ⟨k, hkdef⟩ : ∃ k, k = s.pc r / 4 := ⟨_, rfl⟩
  rw [← hkdef] at hkl
  obtain ⟨R, hk⟩ : ∃ R, prog[k]? = some R := ⟨prog[k], by simp [hkl]⟩
  have hMR : R.Matched p := hm R (List.mem_of_getElem? hk)
  have hcases : s.pc r = 4 * k ∨ s.pc r = 4 * k + 1 ∨ s.pc r = 4 * k + 2 ∨ s.pc r = 4 * k + 3 := by
    omega
  rcases hcases with hpc | hpc | hpc | hpc
  · cases hs : R.send r with
    | none => exact ⟨_, .sendNone s r k R hr hk hpc hs⟩
    | some so => exact ⟨_, .sendSome s r k R so hr hk hpc hs⟩
  · cases hs : R.recv r with
    | none => exact ⟨_, .recvNone s r k R hr hk hpc hs⟩
    | some ro =>
      obtain ⟨hsrc, so, hso, hsod, hsot⟩ := hMR.recv_ok r hr ro hs
      have hb := hi.box_eq ro.src r ro.tag hsrc hr
      have h1 : recvd (s.pc r) = k := by rw [hpc]; simp [recvd]; omega
      have hlt : k < sent (s.pc ro.src) := by
        have := hmin ro.src hsrc
        simp only [sent]; omega
      have hmsg := roundMsg_some_of (st := st) hk hso
      rw [hsod, hsot] at hmsg
      rw [h1, msgs_lo_some hlt hmsg] at hb
      exact ⟨_, .recvSome s r k R ro _ _ hr hk hpc hs hb⟩
  · refine ⟨_, .wait s r k R hr hk hpc ?_⟩
    intro so hso _
    obtain ⟨hd, -⟩ := hMR.send_ok r hr so hso
    rw [hi.box_eq r so.dest so.tag hr hd]
    have h1 : sent (s.pc r) = k + 1 := by rw [hpc]; simp [sent]; omega
    have h2 : k + 1 ≤ recvd (s.pc so.dest) := by
      have := hmin so.dest hd
      simp only [recvd]; omega
    have : sent (s.pc r) - recvd (s.pc so.dest) = 0 := by omega
    simp [msgs, this]
  · refine ⟨_, .barrier s r k R hr hk hpc ?_⟩
    intro _ q hq
    have := hmin q hq
    omega

/-- Every step advances the sum of the counters by one. -/
theorem SysStep.sum_pc {sync : Nat → Nat → Prop} {s s' : Sys σ μ}
    (hs : SysStep p sync prog s s') :
    ∑ r ∈ Finset.range p, s'.pc r = (∑ r ∈ Finset.range p, s.pc r) + 1 := by
  have key : ∀ (r v : Nat), r < p → v = s.pc r + 1 →
      ∑ q ∈ Finset.range p, Function.update s.pc r v q = (∑ q ∈ Finset.range p, s.pc q) + 1 := by
    intro r v hr hv
    have hmem : r ∈ Finset.range p := by simpa using hr
    rw [Finset.sum_update_of_mem hmem, ← Finset.add_sum_erase _ _ hmem, hv,
      Finset.sdiff_singleton_eq_erase]
    omega
  cases hs with
  | sendNone r k R hr hk hpc _ => exact key r _ hr (by omega)
  | sendSome r k R so hr hk hpc _ => exact key r _ hr (by omega)
  | recvNone r k R hr hk hpc _ => exact key r _ hr (by omega)
  | recvSome r k R ro m rest hr hk hpc _ _ => exact key r _ hr (by omega)
  | wait r k R hr hk hpc _ => exact key r _ hr (by omega)
  | barrier r k R hr hk hpc _ => exact key r _ hr (by omega)

theorem Inv.run {sync : Nat → Nat → Prop} (hm : AllMatched p prog) {n : Nat} {s : Sys σ μ}
    (h : SysRun p sync prog n (Sys.start st) s) :
    Inv p prog st s ∧ ∑ r ∈ Finset.range p, s.pc r = n := by
  generalize hs : (Sys.start st : Sys σ μ) = s0 at h
  induction h with
  | refl =>
    subst hs
    exact ⟨Inv.start, by simp [Sys.start]⟩
  | tail h hstep ih =>
    obtain ⟨hi, hn⟩ := ih hs
    exact ⟨hi.step hm hstep, by rw [hstep.sum_pc, hn]⟩

end Invariant

/-- Everything about interleavings of a matched program in one statement. -/
theorem interleaving_summary {p : Nat} {prog : Prog σ μ} {st : Nat → σ}
    {sync : Nat → Nat → Prop} (hm : AllMatched p prog) {n : Nat} {s : Sys σ μ}
    (h : SysRun p sync prog n (Sys.start st) s) :
    n ≤ p * (4 * prog.length) ∧
    (s.Finished p prog ∨ ∃ s', SysStep p sync prog s s') ∧
    (s.Finished p prog → (∀ r, r < p → s.loc r = exec prog st r) ∧
      ∀ a b t, a < p → b < p → s.box a b t = []) := by
  obtain ⟨hi, hn⟩ := Inv.run hm h
  refine ⟨?_, ?_, ?_⟩
  · rw [← hn]
    calc ∑ r ∈ Finset.range p, s.pc r ≤ ∑ r ∈ Finset.range p, 4 * prog.length :=
          Finset.sum_le_sum fun r hr => hi.pc_le r (by simpa using hr)
      _ = p * (4 * prog.length) := by simp
  · by_cases hf : s.Finished p prog
    · exact Or.inl hf
    · exact Or.inr (hi.progress hm hf)
  · intro hf
    refine ⟨?_, ?_⟩
    · intro r hr
      have h1 : recvd (4 * prog.length) = prog.length := by simp [recvd]; omega
      rw [hi.loc_eq r hr, hf r hr, h1]
      simp [lock]
    · intro a b t ha hb
      rw [hi.box_eq a b t ha hb, hf a ha, hf b hb]
      have h1 : sent (4 * prog.length) - recvd (4 * prog.length) = 0 := by
        simp only [sent, recvd]; omega
      simp [msgs, h1]

end Modred
