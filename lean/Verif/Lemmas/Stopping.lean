import Verif.Spec.Stopping
import Verif.Props.Failing

/-! Lemmas about processes that stop where they raise. -/

namespace Modred

variable {σ μ V : Type*}

section
variable {p : Nat} {sync : Nat → Nat → Prop} {prog A B : List (SharedRound σ μ V)} {raised : σ → Option Err} {st : Nat → σ}
  {w : Nat → V} {rd : Nat → Nat → Nat → Prop}

theorem StopRun.toShared {n : Nat} {s t : SharedSys σ μ V} (h : StopRun p sync prog raised n s t) :
    SharedRun p sync prog n s t := by
  induction h with
  | refl => exact .refl _
  | tail _ hs ih => exact ih.tail hs.1

/-- What a rank has at any moment. -/
theorem loc_sLock (hrace : RaceFree p prog st w rd) (hm : AllMatched p (fixed p prog st w)) {n : Nat} {s : SharedSys σ μ V}
    (h : SharedRun p sync prog n ⟨Sys.start st, w⟩ s) {r : Nat} (hr : r < p) :
    s.sys.loc r = (sLock p prog st w (recvd (s.sys.pc r))).1 r := by
  obtain ⟨h1, h2⟩ := SharedInv.run hrace hm h
  have hle := h2.inv.pc_le r hr
  rw [fixed_length] at hle
  rw [h2.inv.loc_eq r hr, lock_fixed (by simp only [recvd]; omega)]

/-- A rank stops where it raises. -/
theorem StopRun.stays (hrace : RaceFree p prog st w rd) (hm : AllMatched p (fixed p prog st w)) {r k : Nat} (hr : r < p)
    (hk : raised ((sLock p prog st w (k + 1)).1 r) ≠ none) {n : Nat} {s : SharedSys σ μ V}
    (h : StopRun p sync prog raised n ⟨Sys.start st, w⟩ s) : s.sys.pc r ≤ 4 * k + 2 := by
  generalize hs0 : (⟨Sys.start st, w⟩ : SharedSys σ μ V) = s0 at h
  induction h with
  | refl => subst hs0; simp [Sys.start]
  | @tail n s t u hrun hstep ih =>
    replace ih := ih hs0
    subst hs0
    obtain ⟨q, _, hpc, _⟩ := hstep.1.shape
    by_cases hq : r = q
    · subst hq
      rcases Nat.lt_or_ge (t.sys.pc r) (4 * k + 2) with hlt | hge
      · rw [hpc, Function.update_self]
        omega
      · have he : t.sys.pc r = 4 * k + 2 := by omega
        rw [hstep.2 r (by
          rw [loc_sLock hrace hm hrun.toShared hr, he, show recvd (4 * k + 2) = k + 1 by simp only [recvd]; omega]
          exact hk)]
        exact ih
    · rw [hpc, Function.update_of_ne hq]
      exact ih

/-- A rank waits for a message of a rank that stopped before sending it. -/
theorem StopRun.waits (hrace : RaceFree p prog st w rd) (hm : AllMatched p (fixed p prog st w)) {r r0 k k1 : Nat} (hr : r < p)
    (hr0 : r0 < p) (hk : raised ((sLock p prog st w (k + 1)).1 r0) ≠ none) (hk1 : k < k1) {R : SharedRound σ μ V}
    (hR : prog[k1]? = some R) {ro : RecvOp} (hro : R.recv r = some ro) (hsrc : ro.src = r0) {n : Nat} {s : SharedSys σ μ V}
    (h : StopRun p sync prog raised n ⟨Sys.start st, w⟩ s) : s.sys.pc r ≤ 4 * k1 + 1 := by
  by_contra hcon
  have h0 := h.stays hrace hm hr0 hk
  have h1 := (SharedInv.run hrace hm h.toShared).2.inv.causal r k1 _ ro hr (by simp only [recvd]; omega)
    (fixed_getElem? hR) hro
  rw [hsrc] at h1
  simp only [sent] at h1
  omega

/-- A rank waits at a barrier for a rank that stopped before it. -/
theorem StopRun.waits_barrier (hrace : RaceFree p prog st w rd) (hm : AllMatched p (fixed p prog st w)) {r r0 k k1 : Nat}
    (hr0 : r0 < p) (hk : raised ((sLock p prog st w (k + 1)).1 r0) ≠ none) (hk1 : k < k1) {R : SharedRound σ μ V}
    (hR : prog[k1]? = some R) (hb : R.barrier = true) {n : Nat} {s : SharedSys σ μ V}
    (h : StopRun p sync prog raised n ⟨Sys.start st, w⟩ s) : s.sys.pc r ≤ 4 * k1 + 3 := by
  generalize hs0 : (⟨Sys.start st, w⟩ : SharedSys σ μ V) = s0 at h
  induction h with
  | refl => subst hs0; simp [Sys.start]
  | @tail n s t u hrun hstep ih =>
    replace ih := ih hs0
    subst hs0
    have h0 := hrun.stays hrace hm hr0 hk
    obtain ⟨q, _, hpc, -, hbar⟩ := hstep.1.shape
    by_cases hq : r = q
    · subst hq
      rcases Nat.lt_or_ge (t.sys.pc r) (4 * k1 + 3) with hlt | hge
      · rw [hpc, Function.update_self]
        omega
      · have he : t.sys.pc r = 4 * k1 + 3 := by omega
        have := hbar k1 R hR hb he r0 hr0
        omega
    · rw [hpc, Function.update_of_ne hq]
      exact ih

/-- The least advanced rank can move. -/
theorem SharedInv.least (hm : AllMatched p (fixed p prog st w)) {s : SharedSys σ μ V} (hi : SharedInv p prog st w s)
    {r : Nat} (hr : r < p) (hmin : ∀ q, q < p → s.sys.pc r ≤ s.sys.pc q) (hlt : s.sys.pc r < 4 * prog.length) :
    ∃ t, SharedStep p sync prog s t ∧ t.sys.pc = Function.update s.sys.pc r (s.sys.pc r + 1) := by
  obtain ⟨s, v⟩ := s
  have hi := hi.inv
  dsimp only at hi hmin hlt ⊢
  obtain ⟨k, hkdef⟩ : ∃ k, k = s.pc r / 4 := ⟨_, rfl⟩
  have hkl : k < prog.length := by omega
  obtain ⟨R, hk⟩ : ∃ R, prog[k]? = some R := ⟨prog[k], by simp [hkl]⟩
  have hk' := fixed_getElem? (p := p) (st := st) (w0 := w) hk
  have hMR := hm _ (List.mem_of_getElem? hk')
  have hcases : s.pc r = 4 * k ∨ s.pc r = 4 * k + 1 ∨ s.pc r = 4 * k + 2 ∨ s.pc r = 4 * k + 3 := by omega
  rcases hcases with hpc | hpc | hpc | hpc
  · cases hs : R.send r with
    | none => exact ⟨_, .sendNone s v r k R hr hk hpc hs, by rw [hpc]⟩
    | some so => exact ⟨_, .sendSome s v r k R so hr hk hpc hs, by rw [hpc]⟩
  · cases hs : R.recv r with
    | none => exact ⟨_, .recvNone s v r k R hr hk hpc hs, by rw [hpc]⟩
    | some ro =>
      obtain ⟨hsrc, so, hso, hsod, hsot⟩ := hMR.recv_ok r hr ro hs
      have hb := hi.box_eq ro.src r ro.tag hsrc hr
      have h1 : recvd (s.pc r) = k := by rw [hpc]; simp only [recvd]; omega
      have hlt : k < sent (s.pc ro.src) := by
        have := hmin ro.src hsrc
        simp only [sent]; omega
      have hmsg := roundMsg_some_of (st := st) hk' hso
      rw [hsod, hsot] at hmsg
      rw [h1, msgs_lo_some hlt hmsg] at hb
      exact ⟨_, .recvSome s v r k R ro _ _ hr hk hpc hs hb, by rw [hpc]⟩
  · refine ⟨_, .wait s v r k R hr hk hpc ?_, by rw [hpc]⟩
    intro so hso _
    obtain ⟨hd, -⟩ := hMR.send_ok r hr so hso
    rw [hi.box_eq r so.dest so.tag hr hd]
    have h1 : sent (s.pc r) = k + 1 := by rw [hpc]; simp only [sent]; omega
    have h2 : k + 1 ≤ recvd (s.pc so.dest) := by
      have := hmin so.dest hd
      simp only [recvd]; omega
    have : sent (s.pc r) - recvd (s.pc so.dest) = 0 := by omega
    simp [msgs, this]
  · refine ⟨_, .barrier s v r k R hr hk hpc ?_, by rw [hpc]⟩
    intro _ q hq
    have := hmin q hq
    omega

theorem StopStep.append_right {s t : SharedSys σ μ V} (h : StopStep p sync A raised s t) :
    StopStep p sync (A ++ B) raised s t := by
  refine ⟨?_, h.2⟩
  have get : ∀ {k : Nat} {R : SharedRound σ μ V}, A[k]? = some R → (A ++ B)[k]? = some R := fun hk => by
    rw [List.getElem?_append_left (List.getElem?_eq_some_iff.mp hk).1]
    exact hk
  cases h.1 with
  | sendNone s w r k R hr hk hpc hs => exact .sendNone s w r k R hr (get hk) hpc hs
  | sendSome s w r k R so hr hk hpc hs => exact .sendSome s w r k R so hr (get hk) hpc hs
  | recvNone s w r k R hr hk hpc hs => exact .recvNone s w r k R hr (get hk) hpc hs
  | recvSome s w r k R ro m rest hr hk hpc hs hm => exact .recvSome s w r k R ro m rest hr (get hk) hpc hs hm
  | wait s w r k R hr hk hpc hw => exact .wait s w r k R hr (get hk) hpc hw
  | barrier s w r k R hr hk hpc hb => exact .barrier s w r k R hr (get hk) hpc hb

theorem StopStep.of_append {s t : SharedSys σ μ V} (hlt : ∀ r, r < p → s.sys.pc r < 4 * A.length)
    (h : StopStep p sync (A ++ B) raised s t) : StopStep p sync A raised s t := by
  refine ⟨?_, h.2⟩
  have get : ∀ {k : Nat} {R : SharedRound σ μ V}, k < A.length → (A ++ B)[k]? = some R → A[k]? = some R := fun hl hk => by
    rw [List.getElem?_append_left hl] at hk
    exact hk
  cases h.1 with
  | sendNone s w r k R hr hk hpc hs => have := hlt r hr; exact .sendNone s w r k R hr (get (by dsimp only at this; omega) hk) hpc hs
  | sendSome s w r k R so hr hk hpc hs =>
    have := hlt r hr; exact .sendSome s w r k R so hr (get (by dsimp only at this; omega) hk) hpc hs
  | recvNone s w r k R hr hk hpc hs => have := hlt r hr; exact .recvNone s w r k R hr (get (by dsimp only at this; omega) hk) hpc hs
  | recvSome s w r k R ro m rest hr hk hpc hs hm =>
    have := hlt r hr; exact .recvSome s w r k R ro m rest hr (get (by dsimp only at this; omega) hk) hpc hs hm
  | wait s w r k R hr hk hpc hw => have := hlt r hr; exact .wait s w r k R hr (get (by dsimp only at this; omega) hk) hpc hw
  | barrier s w r k R hr hk hpc hb => have := hlt r hr; exact .barrier s w r k R hr (get (by dsimp only at this; omega) hk) hpc hb

/-- What comes after a program in which ranks raise is not reached. -/
theorem EndsRaising.append {who : Nat → Option Err} (h : EndsRaising p A raised st w who) (B : List (SharedRound σ μ V)) :
    EndsRaising p (A ++ B) raised st w who := by
  intro sync n s hrun
  have key : StopRun p sync A raised n ⟨Sys.start st, w⟩ s := by
    generalize hs0 : (⟨Sys.start st, w⟩ : SharedSys σ μ V) = s0 at hrun
    induction hrun with
    | refl => subst hs0; exact .refl _
    | @tail n s t u _ hstep ih =>
      replace ih := ih hs0
      subst hs0
      exact ih.tail (hstep.of_append (h sync n t ih).2.1)
  obtain ⟨h1, h2, h3⟩ := h sync n s key
  rw [List.length_append]
  refine ⟨h1.trans (Nat.mul_le_mul_left _ (by omega)), fun r hr => (h2 r hr).trans_le (by omega), h3.imp ?_ id⟩
  rintro ⟨t, ht⟩
  exact ⟨t, ht.append_right⟩

theorem stopRun_count {n : Nat} {s : SharedSys σ μ V} (hrace : RaceFree p prog st w rd) (hm : AllMatched p (fixed p prog st w))
    (h : StopRun p sync prog raised n ⟨Sys.start st, w⟩ s) : n ≤ p * (4 * prog.length) := by
  have := (interleaving_summary hm (SharedInv.run hrace hm h.toShared).1).1
  rwa [fixed_length] at this

/-- All ranks raise in the round with number `k`. -/
theorem endsRaising_all (hrace : RaceFree p prog st w rd) (hm : AllMatched p (fixed p prog st w)) {k : Nat}
    (hk : k < prog.length) {e : Err} (hbefore : ∀ j r, j ≤ k → r < p → raised ((sLock p prog st w j).1 r) = none)
    (hraise : ∀ r, r < p → raised ((sLock p prog st w (k + 1)).1 r) = some e) :
    EndsRaising p prog raised st w fun _ => some e := by
  intro sync n s h
  have hstay : ∀ r, r < p → s.sys.pc r ≤ 4 * k + 2 := fun r hr => h.stays hrace hm hr (by rw [hraise r hr]; simp)
  refine ⟨stopRun_count hrace hm h, fun r hr => (hstay r hr).trans_lt (by omega), ?_⟩
  by_cases hall : ∀ r, r < p → s.sys.pc r = 4 * k + 2
  · right
    intro r hr
    rw [loc_sLock hrace hm h.toShared hr, hall r hr, show recvd (4 * k + 2) = k + 1 by simp only [recvd]; omega]
    exact hraise r hr
  · left
    push Not at hall
    obtain ⟨r0, hr0, hne⟩ := hall
    obtain ⟨r, hr, hmin⟩ := Finset.exists_min_image (Finset.range p) s.sys.pc ⟨r0, by simpa using hr0⟩
    simp only [Finset.mem_range] at hr hmin
    have hlt : s.sys.pc r < 4 * k + 2 := by
      have := hmin r0 hr0
      have := hstay r0 hr0
      omega
    obtain ⟨t, ht, hpc⟩ := (SharedInv.run hrace hm h.toShared).2.least (sync := sync) hm hr hmin (by omega)
    refine ⟨t, ht, fun q hq => ?_⟩
    rw [hpc]
    refine Function.update_of_ne ?_ _ _
    rintro rfl
    refine hq ?_
    rw [loc_sLock hrace hm h.toShared hr]
    exact hbefore _ _ (by simp only [recvd]; omega) hr

/-- Rank 0 raises in the round with number `k`, and each other rank waits for a message from it or at a barrier. -/
theorem endsRaising_zero (hp : 1 ≤ p) (hrace : RaceFree p prog st w rd) (hm : AllMatched p (fixed p prog st w)) {k : Nat}
    (hk : k < prog.length) {e : Err} (hbefore : ∀ j, j ≤ k → raised ((sLock p prog st w j).1 0) = none)
    (hraise : raised ((sLock p prog st w (k + 1)).1 0) = some e)
    (hothers : ∀ r, 0 < r → r < p → ∃ k1 R, k < k1 ∧ prog[k1]? = some R ∧
      ((∃ ro, R.recv r = some ro ∧ ro.src = 0) ∨ R.barrier = true) ∧
      ∀ j, j ≤ k1 + 1 → raised ((sLock p prog st w j).1 r) = none) :
    EndsRaising p prog raised st w fun r => if r = 0 then some e else none := by
  intro sync n s h
  have h0 : s.sys.pc 0 ≤ 4 * k + 2 := h.stays hrace hm (by omega) (by rw [hraise]; simp)
  have hnone : ∀ r, 0 < r → r < p → s.sys.pc r < 4 * prog.length ∧ raised (s.sys.loc r) = none := by
    intro r hr0 hr
    obtain ⟨k1, R, hk1, hR, hwhy, hq⟩ := hothers r hr0 hr
    have h1 : s.sys.pc r ≤ 4 * k1 + 3 := by
      rcases hwhy with ⟨ro, hro, hsrc⟩ | hb
      · exact (h.waits hrace hm hr hp (by rw [hraise]; simp) hk1 hR hro hsrc).trans (by omega)
      · exact h.waits_barrier hrace hm hp (by rw [hraise]; simp) hk1 hR hb
    have h2 := (List.getElem?_eq_some_iff.mp hR).1
    refine ⟨by omega, ?_⟩
    rw [loc_sLock hrace hm h.toShared hr]
    exact hq _ (by simp only [recvd]; omega)
  have hpc : ∀ r, r < p → s.sys.pc r < 4 * prog.length := by
    intro r hr
    rcases Nat.eq_zero_or_pos r with rfl | hr0
    · omega
    · exact (hnone r hr0 hr).1
  refine ⟨stopRun_count hrace hm h, hpc, ?_⟩
  rcases Nat.lt_or_ge (s.sys.pc 0) (4 * k + 2) with hlt | hge
  · left
    have hz : raised (s.sys.loc 0) = none := by
      rw [loc_sLock hrace hm h.toShared hp]
      exact hbefore _ (by simp only [recvd]; omega)
    obtain ⟨r, hr, hmin⟩ := Finset.exists_min_image (Finset.range p) s.sys.pc ⟨0, Finset.mem_range.mpr hp⟩
    simp only [Finset.mem_range] at hr hmin
    obtain ⟨t, ht, hpc'⟩ := (SharedInv.run hrace hm h.toShared).2.least (sync := sync) hm hr hmin (hpc r hr)
    refine ⟨t, ht, fun q hq => ?_⟩
    rw [hpc']
    refine Function.update_of_ne ?_ _ _
    rintro rfl
    rcases Nat.eq_zero_or_pos q with rfl | hr0
    · exact hq hz
    · exact hq (hnone q hr0 hr).2
  · right
    intro r hr
    dsimp only
    rcases Nat.eq_zero_or_pos r with rfl | hr0
    · rw [if_pos rfl, loc_sLock hrace hm h.toShared hr, show s.sys.pc 0 = 4 * k + 2 by omega,
        show recvd (4 * k + 2) = k + 1 by simp only [recvd]; omega]
      exact hraise
    · rw [if_neg (by omega)]
      exact (hnone r hr0 hr).2

/-- Exceptions stay noted. -/
def SharedRound.Keeps (raised : σ → Option Err) (T : SharedRound σ μ V) : Prop :=
  ∀ r s w m, raised s ≠ none → raised (T.upd r s w m) ≠ none

theorem sLock_keeps (hkeep : ∀ T ∈ prog, T.Keeps raised) {r : Nat} (h : raised ((sLock p prog st w prog.length).1 r) = none)
    {j : Nat} (hj : j ≤ prog.length) : raised ((sLock p prog st w j).1 r) = none := by
  induction hn : prog.length - j generalizing j with
  | zero =>
    rw [show j = prog.length by omega]
    exact h
  | succ n ih =>
    by_contra hne
    have hlt : j < prog.length := by omega
    have h1 := ih (j := j + 1) (by omega) (by omega)
    rw [sLock_succ (List.getElem?_eq_getElem hlt)] at h1
    exact hkeep _ (List.getElem_mem hlt) _ _ _ _ hne h1

end

end Modred
