import Verif.Model.Parallel
import Verif.Props.Spmd
import Mathlib.Data.Finset.Card
import Mathlib.Data.Finset.Image
import Mathlib.Tactic.Ring
import Mathlib.Data.Finset.Dedup

/-!
# Properties of the helpers in `modred/parallel.py` (C49, C50)
-/

namespace Modred

variable {α : Type*}

/-! ### Broadcast calls -/

theorem callBcastRound_matched {size tag d : Nat} (hd : d < size) (h0 : 0 < d) :
    (callBcastRound (α := α) false tag d).Matched size := by
  constructor
  · intro r hr so hso
    simp only [callBcastRound] at hso
    split at hso
    · rename_i h; cases hso; obtain ⟨rfl, -⟩ := h
      exact ⟨hd, by simp [callBcastRound]⟩
    · cases hso
  · intro r hr ro hro
    simp only [callBcastRound] at hro
    split at hro
    · rename_i h; cases hro; subst h
      exact ⟨by simp only; omega, ⟨r, tag, CallState.outputs⟩, by simp [callBcastRound]⟩
    · cases hro

theorem callBcastRound_step (tag d : Nat) (st : Nat → CallState α) :
    (callBcastRound false tag d).step st =
      fun r => if r = d then { st r with outputs := (st 0).outputs } else st r := by
  funext r
  simp only [Round.step, Round.received, callBcastRound]
  by_cases h : r = d <;> simp [h]

theorem callBcast_exec (tag : Nat) (st : Nat → CallState α) (n : Nat) :
    exec ((List.range' 1 n).map (callBcastRound false tag)) st =
      fun r => if 1 ≤ r ∧ r ≤ n then { st r with outputs := (st 0).outputs } else st r := by
  induction n with
  | zero => funext r; rw [if_neg (by omega)]; rfl
  | succ n ih =>
    rw [List.range'_concat, List.map_append, exec_append, ih]
    simp only [List.map_cons, List.map_nil, exec_cons, exec_nil, callBcastRound_step]
    funext r
    by_cases h1 : r = 1 + 1 * n
    · rw [if_pos h1, if_neg (by omega), if_neg (by omega), if_pos (by omega)]
    · rw [if_neg h1]
      by_cases h2 : 1 ≤ r ∧ r ≤ n
      · rw [if_pos h2, if_pos (by omega)]
      · rw [if_neg h2, if_neg (by omega)]

/-- **C49.** If `func` returns `v` on rank 0, then `call_and_bcast` returns `v` on every rank, and
`func` was called once, on rank 0. -/
theorem C49_call_and_bcast_agrees_everywhere (size tag : Nat) (func : Nat → Option α) (v : α)
    (hv : func 0 = some v) :
    EveryInterleaving size (callAndBcastProg size tag func) callInit fun r s =>
      s.outputs = some v ∧ s.calls = (if r = 0 then 1 else 0) ∧ s.raised = false := by
  refine everyInterleaving_of_matched ?_ ?_
  · intro R hR
    rcases List.mem_cons.mp hR with rfl | hR
    · exact localRound_matched _ _
    · obtain ⟨d, hd, rfl⟩ := List.mem_map.mp hR
      rw [List.mem_range'_1] at hd
      rw [hv]
      exact callBcastRound_matched (by omega) (by omega)
  · intro r hr
    rw [callAndBcastProg, exec_cons, hv]
    simp only [Option.isNone_some]
    rw [callBcast_exec, localRound_step]
    by_cases h : r = 0
    · subst h
      simp [callLocal, hv, callInit]
    · have h1 : 1 ≤ r ∧ r ≤ size - 1 := by omega
      simp [callLocal, hv, callInit, h, h1]

/-- **C49.** `call_from_rank_zero` calls `func` once, on rank 0; the others return `None`. -/
theorem C49_call_from_rank_zero_only (size : Nat) (func : Nat → Option α) :
    EveryInterleaving size (callFromRankZeroProg func) callInit fun r s =>
      s.outputs = (if r = 0 then func 0 else none) ∧ s.calls = (if r = 0 then 1 else 0) := by
  refine everyInterleaving_of_matched ?_ ?_
  · intro R hR
    obtain rfl := List.mem_singleton.mp hR
    exact localRound_matched _ _
  · intro r hr
    rw [callFromRankZeroProg, exec_cons, exec_nil, localRound_step]
    by_cases h : r = 0
    · subst h
      cases hf : func 0 <;> simp [callLocal, hf, callInit]
    · simp [callLocal, callInit, h]

/-- **C49.** `bcast` gives every rank the value of rank 0, whatever the others passed. -/
theorem C49_bcast_gives_value_of_rank_zero (size tag : Nat) (vals : Nat → Option α) :
    EveryInterleaving size (bcastValsProg size tag) vals fun _ s => s = vals 0 := by
  refine everyInterleaving_of_matched ?_ ?_
  · intro R hR
    rcases List.mem_cons.mp hR with rfl | hR
    · exact localRound_matched _ _
    · exact bcastProg_matched size tag R hR
  · intro r hr
    rw [bcastValsProg, exec_cons, bcastProg_exec _ _ _ _ hr, localRound_step]
    rfl

/-- Three processes and a function of the rank: all get what rank 0 computes. -/
example : (fun r : Nat => some (r + 1)) 0 = some 1 := rfl
example : (List.range 3).map (fun r => (exec (callAndBcastProg 3 0 fun r => some (r + 1))
    callInit r).outputs) = [some 1, some 1, some 1] := by
  simp [callAndBcastProg, exec, Round.step, Round.received, callBcastRound, localRound, callLocal,
    callInit, List.range, List.range.loop, List.range']

/-- **C49**, violated when `func` raises: with two or more processes, if `func` raises on rank 0 then
in no interleaving does rank 1 ever return from `call_and_bcast` (it waits in the broadcast's first
round for a message that is never sent). -/
theorem C49_raising_function_blocks_other_ranks_violation (size tag : Nat) (hsize : 2 ≤ size)
    (func : Nat → Option α) (hf : func 0 = none) (sync : Nat → Nat → Prop) (n : Nat)
    (s : Sys (CallState α) (Option α))
    (h : SysRun size sync (callAndBcastProg size tag func) n (Sys.start callInit) s) :
    s.pc 1 < 4 * 2 ∧ ¬ s.Finished size (callAndBcastProg size tag func) := by
  have hnosend : ∀ R ∈ callAndBcastProg size tag func, ∀ r, R.send r = none := by
    intro R hR r
    rcases List.mem_cons.mp hR with rfl | hR
    · rfl
    · obtain ⟨d, hd, rfl⟩ := List.mem_map.mp hR
      simp [callBcastRound, hf]
  have key : (∀ a b t, s.box a b t = []) ∧ s.pc 1 ≤ 5 := by
    generalize hst : Sys.start callInit = s0 at h
    induction h with
    | refl => subst hst; exact ⟨fun _ _ _ => rfl, by simp [Sys.start]⟩
    | tail h hs ih =>
      have ih := ih hst
      obtain ⟨hbox, hpc1⟩ := ih
      cases hs with
      | sendNone r k R hr hk hpc hs =>
        refine ⟨hbox, ?_⟩
        simp only [Function.update_apply]; split
        · rename_i h1; subst h1; omega
        · exact hpc1
      | sendSome r k R so hr hk hpc hs =>
        rw [hnosend R (List.mem_of_getElem? hk)] at hs; cases hs
      | recvNone r k R hr hk hpc hs =>
        refine ⟨hbox, ?_⟩
        simp only [Function.update_apply]; split
        · rename_i h1; subst h1
          have hk01 : k = 0 ∨ k = 1 := by omega
          rcases hk01 with rfl | rfl
          · omega
          · exfalso
            obtain ⟨m, rfl⟩ : ∃ m, size = m + 2 := ⟨size - 2, by omega⟩
            have : R = callBcastRound (func 0).isNone tag 1 := by
              simp [callAndBcastProg, List.range'] at hk
              rw [← hk]
            subst this
            simp [callBcastRound] at hs
        · exact hpc1
      | recvSome r k R ro m rest hr hk hpc hs hm =>
        rw [hbox] at hm; cases hm
      | wait r k R hr hk hpc hw =>
        refine ⟨hbox, ?_⟩
        simp only [Function.update_apply]; split
        · rename_i h1; subst h1; omega
        · exact hpc1
      | barrier r k R hr hk hpc hb =>
        refine ⟨hbox, ?_⟩
        simp only [Function.update_apply]; split
        · rename_i h1; subst h1; omega
        · exact hpc1
  refine ⟨by omega, fun hfin => ?_⟩
  have h1 := hfin 1 (by omega)
  have hlen : (callAndBcastProg size tag func).length = size := by
    simp [callAndBcastProg]; omega
  rw [hlen] at h1
  omega

/-! ### Node count -/

theorem hexFold_eq (bytes : List UInt8) (acc : Nat) :
    (hexDigits bytes).foldl (fun acc d => 16 * acc + d) acc =
      bytes.foldl (fun acc b => 256 * acc + b.toNat) acc := by
  induction bytes generalizing acc with
  | nil => rfl
  | cons b bs ih =>
    have h1 : hexDigits (b :: bs) = b.toNat / 16 :: b.toNat % 16 :: hexDigits bs := rfl
    rw [h1, List.foldl_cons, List.foldl_cons, List.foldl_cons, ih]
    congr 1
    omega

theorem byteFold_ge (bytes : List UInt8) (acc : Nat) :
    256 ^ bytes.length * acc ≤ bytes.foldl (fun acc b => 256 * acc + b.toNat) acc ∧
    bytes.foldl (fun acc b => 256 * acc + b.toNat) acc < 256 ^ bytes.length * (acc + 1) := by
  induction bytes generalizing acc with
  | nil => simp
  | cons b bs ih =>
    obtain ⟨h1, h2⟩ := ih (256 * acc + b.toNat)
    have hb := b.toNat_lt
    simp only [List.foldl_cons, List.length_cons, pow_succ]
    have hp : 0 < 256 ^ bs.length := Nat.pow_pos (by omega)
    constructor
    · refine le_trans ?_ h1
      rw [Nat.mul_assoc]
      exact Nat.mul_le_mul_left _ (by omega)
    · refine lt_of_lt_of_le h2 ?_
      rw [Nat.mul_assoc]
      exact Nat.mul_le_mul_left _ (by omega)

theorem byteFold_inj_same : ∀ (a b : List UInt8) (acc acc' : Nat), a.length = b.length →
    a.foldl (fun acc b => 256 * acc + b.toNat) acc =
      b.foldl (fun acc b => 256 * acc + b.toNat) acc' → a = b ∧ acc = acc' := by
  intro a
  induction a with
  | nil => intro b acc acc' hl h; cases b with
    | nil => exact ⟨rfl, h⟩
    | cons => simp at hl
  | cons x xs ih => intro b acc acc' hl h; cases b with
    | nil => simp at hl
    | cons y ys =>
      simp only [List.foldl_cons] at h
      obtain ⟨h1, h2⟩ := ih ys _ _ (by simpa using hl) h
      have hx := x.toNat_lt
      have hy := y.toNat_lt
      have h3 : x.toNat = y.toNat := by omega
      exact ⟨by rw [h1, UInt8.toNat_inj.mp h3], by omega⟩

theorem byteFold_length_le (a b : List UInt8) (ha : a.head? ≠ some 0) (hne : a ≠ [])
    (h : a.foldl (fun acc b => 256 * acc + b.toNat) 0 =
      b.foldl (fun acc b => 256 * acc + b.toNat) 0) : a.length ≤ b.length := by
  by_contra hcon
  cases a with
  | nil => exact hne rfl
  | cons x xs =>
    have h1 := (byteFold_ge xs (256 * 0 + x.toNat)).1
    have h2 := (byteFold_ge b 0).2
    simp only [List.foldl_cons] at h
    have hx : 1 ≤ x.toNat := by
      rcases Nat.eq_zero_or_pos x.toNat with h0 | h0
      · exfalso; apply ha; simp
        exact UInt8.toNat_inj.mp (by simpa using h0)
      · exact h0
    have h3 : 256 ^ b.length ≤ 256 ^ xs.length :=
      Nat.pow_le_pow_right (by omega) (by simp at hcon; omega)
    have h4 : 256 ^ xs.length * 1 ≤ 256 ^ xs.length * (256 * 0 + x.toNat) :=
      Nat.mul_le_mul_left _ (by omega)
    omega

/-- **C50.** Different host names (not empty, not beginning with a zero byte) have different node
IDs. -/
theorem C50_node_id_injective (a b : List UInt8) (ha : a ≠ []) (hb : b ≠ [])
    (ha0 : a.head? ≠ some 0) (hb0 : b.head? ≠ some 0) (h : nodeID a = nodeID b) : a = b := by
  have hd : ∀ {l : List UInt8}, l ≠ [] → hexDigits l ≠ [] := by
    intro l hl; cases l with
    | nil => exact absurd rfl hl
    | cons => simp [hexDigits]
  simp only [nodeID, intBase16, if_neg (hd ha), if_neg (hd hb), hexFold_eq, Except.ok.injEq] at h
  have hl : a.length = b.length :=
    le_antisymm (byteFold_length_le a b ha0 ha h) (byteFold_length_le b a hb0 hb h.symm)
  exact (byteFold_inj_same a b 0 0 hl h).1

/-- **C50.** For host names that are not empty and do not begin with a zero byte, the node count is
the number of distinct host names. -/
theorem C50_num_nodes_is_number_of_hosts (hostnames : List (List UInt8))
    (h : ∀ n ∈ hostnames, n ≠ [] ∧ n.head? ≠ some 0) :
    numNodes hostnames = .ok hostnames.toFinset.card := by
  have hval : ∀ n ∈ hostnames,
      nodeID n = .ok (n.foldl (fun acc b => 256 * acc + b.toNat) 0) := by
    intro n hn
    have : hexDigits n ≠ [] := by
      cases n with
      | nil => exact absurd rfl (h _ hn).1
      | cons => simp [hexDigits]
    simp only [nodeID, intBase16, if_neg this, hexFold_eq]
  have hmap : ∀ l : List (List UInt8), (∀ n ∈ l, n ∈ hostnames) → l.mapM nodeID =
      (.ok (l.map fun n => n.foldl (fun acc b => 256 * acc + b.toNat) 0) : Except Err _) := by
    intro l
    induction l with
    | nil => intro _; rfl
    | cons a l ih =>
      intro hl
      rw [List.mapM_cons, hval a (hl a (by simp)), ih (fun n hn => hl n (by simp [hn]))]
      rfl
  rw [numNodes, hmap hostnames (fun _ h => h)]
  change Except.ok _ = _
  congr 1
  rw [← List.card_toFinset]
  have himg : (hostnames.map fun n => n.foldl (fun acc (b : UInt8) => 256 * acc + b.toNat) 0).toFinset
      = hostnames.toFinset.image fun n => n.foldl (fun acc b => 256 * acc + b.toNat) 0 := by
    ext; simp
  rw [himg]
  refine Finset.card_image_of_injOn ?_
  intro a ha b hb hab
  have ha := List.mem_toFinset.mp ha
  have hb := List.mem_toFinset.mp hb
  refine C50_node_id_injective a b (h a ha).1 (h b hb).1 (h a ha).2 (h b hb).2 ?_
  rw [hval a ha, hval b hb]
  simp only at hab
  rw [hab]

/-- Two hosts `ab` and `b` on three ranks. -/
example : ∀ n ∈ [[97, 98], [98], [97, (98 : UInt8)]], n ≠ [] ∧ n.head? ≠ some 0 := by decide
example : nodeID [97, 98] = .ok 24930 := by rfl

end Modred
