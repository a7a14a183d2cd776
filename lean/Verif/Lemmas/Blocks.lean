import Verif.Model.VectorSpace
import Verif.Props.Assign
import Verif.Lemmas.Reductions
import Mathlib.Order.Monotone.Basic
import Mathlib.Data.Set.Insert
import Mathlib.Algebra.BigOperators.Intervals

/-! Helper lemmas: blocks of consecutive tasks, chunks, the ring. -/

namespace Modred

variable {α V K σ μ τ ν : Type*}

/-! ### Blocks -/

theorem getElem_of_flatten_range' : ∀ (ls : List (List Nat)) (s n : Nat),
    ls.flatten = List.range' s n → ∀ r (hr : r < ls.length),
      ls[r] = List.range' (s + (ls.take r).flatten.length) ls[r].length := by
  intro ls
  induction ls with
  | nil => intro s n _ r hr; simp at hr
  | cons l ls ih =>
    intro s n h r hr
    rw [List.flatten_cons] at h
    obtain ⟨k, hk, h1, h2⟩ := List.range'_eq_append_iff.mp h.symm
    cases r with
    | zero => simp [h1]
    | succ r =>
      have := ih (s + k) (n - k) (by simpa using h2) r (by simpa using hr)
      have hl : l.length = k := by rw [h1]; simp
      simp only [List.getElem_cons_succ, List.take_succ_cons, List.flatten_cons,
        List.length_append, hl]
      rw [this]
      simp only [List.length_range']
      congr 1
      omega

theorem rangeTasks_length (p a b : Nat) : (rangeTasks p a b).length = p := by
  unfold rangeTasks findAssignments
  exact assignLoop_length _ _ _ _

theorem rangeTasks_flatten (p a b : Nat) (hp : 1 ≤ p) :
    (rangeTasks p a b).flatten = List.range' a (b - a) :=
  (C01_default_assignment_partitions_tasks p hp (List.range' a (b - a))).2

/-- Ranks get consecutive blocks of tasks. -/
theorem rangeTasks_blocks (p a b : Nat) (hp : 1 ≤ p) (hab : a ≤ b) :
    ∃ f : Nat → Nat, f 0 = a ∧ f p = b ∧ Monotone f ∧
      ∀ r, r < p → (rangeTasks p a b).getD r [] = List.range' (f r) (f (r + 1) - f r) := by
  have hlen := rangeTasks_length p a b
  have hfl := rangeTasks_flatten p a b hp
  generalize rangeTasks p a b = ls at *
  have hsucc : ∀ r (hr : r < ls.length),
      (ls.take (r + 1)).flatten.length = (ls.take r).flatten.length + ls[r].length := by
    intro r hr
    rw [List.take_add_one, List.getElem?_eq_getElem hr, List.flatten_append, List.length_append]
    simp
  refine ⟨fun r => a + (ls.take r).flatten.length, by simp, ?_, ?_, ?_⟩
  · dsimp only
    rw [← hlen, List.take_length, hfl, List.length_range']
    omega
  · refine monotone_nat_of_le_succ fun r => ?_
    rcases Nat.lt_or_ge r ls.length with h | h
    · have := hsucc r h
      omega
    · rw [List.take_of_length_le h, List.take_of_length_le (by omega)]
  · intro r hr
    have hr' : r < ls.length := by omega
    have h1 := getElem_of_flatten_range' ls a (b - a) hfl r hr'
    have h2 := hsucc r hr'
    have h3 : ls.getD r [] = ls[r] := by simp [List.getD, hr']
    rw [h3, h1]
    congr 1
    simp only
    omega

/-- Every number in the whole range lies in a block. -/
theorem exists_block {f : Nat → Nat} {p a b : Nat} (h0 : f 0 = a) (hp : f p = b) {x : Nat}
    (hax : a ≤ x) (hxb : x < b) : ∃ r, r < p ∧ f r ≤ x ∧ x < f (r + 1) := by
  induction p generalizing b with
  | zero => omega
  | succ p ih =>
    rcases Nat.lt_or_ge x (f p) with h | h
    · obtain ⟨r, h1, h2⟩ := ih rfl h
      exact ⟨r, by omega, h2⟩
    · exact ⟨p, by omega, h, by omega⟩

/-- Blocks do not overlap. -/
theorem block_unique {f : Nat → Nat} (hf : Monotone f) {x r r' : Nat} (h1 : f r ≤ x)
    (h2 : x < f (r + 1)) (h3 : f r' ≤ x) (h4 : x < f (r' + 1)) : r = r' := by
  rcases Nat.lt_trichotomy r r' with h | h | h
  · have := hf (show r + 1 ≤ r' from h); omega
  · exact h
  · have := hf (show r' + 1 ≤ r from h); omega

theorem length_le_maxLen {ls : List (List α)} {r : Nat} : (ls.getD r []).length ≤ maxLen ls := by
  induction ls generalizing r with
  | nil => simp [maxLen]
  | cons l ls ih =>
    have h : maxLen (l :: ls) = max l.length (maxLen ls) := rfl
    rw [h]
    cases r with
    | zero => simp
    | succ r => have := ih (r := r); simp only [List.getD_cons_succ]; omega

/-! ### Chunks -/

theorem chunkBounds_range' (f g i c : Nat) (h : f < g) :
    chunkBounds (List.range' f (g - f)) i c =
      (min (f + i * c) g, min g (min (f + i * c) g + c)) := by
  have h1 : (List.range' f (g - f)).head? = some f := by
    rw [List.head?_range']; simp; omega
  have h2 : (List.range' f (g - f)).getLast? = some (g - 1) := by
    rw [List.getLast?_range']; simp; omega
  have h3 : g - 1 + 1 = g := by omega
  simp only [chunkBounds, h1, h2, h3]

theorem chunkBounds_nil (i c : Nat) : chunkBounds [] i c = (0, 0) := rfl

/-- A chunk lies within the tasks. -/
theorem chunkBounds_spec (f g i c : Nat) :
    let b := chunkBounds (List.range' f (g - f)) i c
    b.1 ≤ b.2 ∧ ∀ x, b.1 ≤ x → x < b.2 → f ≤ x ∧ x < g := by
  rcases Nat.lt_or_ge f g with h | h
  · rw [chunkBounds_range' f g i c h]
    dsimp only
    refine ⟨by omega, fun x h1 h2 => ?_⟩
    constructor
    · have : f ≤ min (f + i * c) g := by
        have : f ≤ f + i * c := Nat.le_add_right _ _
        omega
      omega
    · omega
  · have : g - f = 0 := by omega
    rw [this]
    simp [chunkBounds]

theorem chunkBounds_le (f g i c : Nat) (n : Nat) (hg : g ≤ n) :
    (chunkBounds (List.range' f (g - f)) i c).2 ≤ n := by
  rcases Nat.lt_or_ge f g with h | h
  · rw [chunkBounds_range' f g i c h]
    dsimp only
    omega
  · have : g - f = 0 := by omega
    rw [this]
    simp [chunkBounds]

/-- Every task is in the chunk one expects. -/
theorem mem_chunk (f g c x : Nat) (hc : 1 ≤ c) (h1 : f ≤ x) (h2 : x < g) :
    let b := chunkBounds (List.range' f (g - f)) ((x - f) / c) c
    b.1 ≤ x ∧ x < b.2 := by
  rw [chunkBounds_range' f g _ c (by omega)]
  dsimp only
  have h3 := Nat.div_add_mod (x - f) c
  have h4 := Nat.mod_lt (x - f) hc
  rw [Nat.mul_comm] at h3
  generalize (x - f) / c * c = y at *
  omega

theorem div_lt_ceilDivNat {m k c : Nat} (hc : 1 ≤ c) (h : k < m) : k / c < ceilDivNat m c := by
  unfold ceilDivNat
  have h1 : k / c + 1 = (k + c) / c := (Nat.add_div_right k hc).symm
  have h2 : (k + c) / c ≤ (m + c - 1) / c := Nat.div_le_div_right (by omega)
  omega

theorem ceilDivNat_mul_ge (m c : Nat) (hc : 1 ≤ c) : m ≤ ceilDivNat m c * c := by
  unfold ceilDivNat
  have h3 := Nat.div_add_mod (m + c - 1) c
  have h4 := Nat.mod_lt (m + c - 1) hc
  rw [Nat.mul_comm] at h3
  omega

/-- The chunk of a task is the only one. -/
theorem chunk_unique (f g c x i : Nat) (hc : 1 ≤ c)
    (h1 : (chunkBounds (List.range' f (g - f)) i c).1 ≤ x)
    (h2 : x < (chunkBounds (List.range' f (g - f)) i c).2) : i = (x - f) / c := by
  have h := (chunkBounds_spec f g i c).2 x h1 h2
  have hfg : f < g := by omega
  rw [chunkBounds_range' f g i c hfg] at h1 h2
  dsimp only at h1 h2
  have h3 : f + i * c ≤ x := by omega
  have h4 : x < f + i * c + c := by omega
  symm
  apply Nat.div_eq_of_lt_le
  · omega
  · rw [Nat.succ_mul]; omega

theorem pySlice_getElem? (l : List α) (a b k : Nat) (h : a + k < b) :
    (pySlice l a b)[k]? = l[a + k]? := by
  unfold pySlice
  rw [List.getElem?_take, if_pos (by omega), List.getElem?_drop]

theorem pySlice_length (l : List α) (a b : Nat) (h : b ≤ l.length) :
    (pySlice l a b).length = b - a := by
  unfold pySlice
  rw [List.length_take, List.length_drop]
  omega

theorem pyMod_sub (r k p : Nat) (hk : k ≤ p) :
    pyMod ((r : Int) - k) p = (r + (p - k)) % p := by
  unfold pyMod
  have h : ((r : Int) - k) % p = ((r + (p - k) : Nat) : Int) % p := by
    rw [Nat.cast_add, Nat.cast_sub hk]
    rw [show (r : Int) + ((p : Int) - k) = ((r : Int) - k) + p by ring]
    rw [Int.add_emod_right]
  rw [h, ← Int.natCast_mod, Int.toNat_natCast]

/-! ### The ring -/

theorem ring_source (r p : Nat) (hr : r < p) :
    pyMod ((r : Int) - 1) p = (r + (p - 1)) % p := by
  have := pyMod_sub r 1 p (by omega)
  simpa using this

theorem ringRound_matched {p : Nat} (pack : σ → μ) (upd : Nat → σ → μ → σ) :
    (ringRound p pack upd).Matched p := by
  constructor
  · intro r hr so hso
    simp only [ringRound, Option.some.injEq] at hso
    subst hso
    have hd : (r + 1) % p < p := Nat.mod_lt _ (by omega)
    have hsrc : pyMod ((((r + 1) % p : Nat) : Int) - 1) p = r := by
      rw [ring_source _ _ hd, Nat.mod_add_mod, show r + 1 + (p - 1) = r + p by omega,
        Nat.add_mod_right, Nat.mod_eq_of_lt hr]
    refine ⟨hd, ?_⟩
    simp only [ringRound]
    rw [hsrc]
  · intro r hr ro hro
    simp only [ringRound, Option.some.injEq] at hro
    subst hro
    rw [ring_source r p hr]
    have hs : (r + (p - 1)) % p < p := Nat.mod_lt _ (by omega)
    have hdest : ((r + (p - 1)) % p + 1) % p = r := by
      rw [Nat.mod_add_mod, show r + (p - 1) + 1 = r + p by omega, Nat.add_mod_right,
        Nat.mod_eq_of_lt hr]
    refine ⟨hs, _, rfl, hdest, ?_⟩
    simp only [hdest]

theorem ringRound_step {p : Nat} (pack : σ → μ) (upd : Nat → σ → μ → σ) (st : Nat → σ) (r : Nat)
    (hr : r < p) :
    (ringRound p pack upd).step st r = upd r (st r) (pack (st ((r + (p - 1)) % p))) := by
  have hs := ring_source r p hr
  simp only [Round.step, Round.received, ringRound]
  simp only [hs, Option.bind_some, Option.map_some]

/-- After `n` passes around the ring, rank `r` has used what ranks `r-1, r-2, .., r-n` had. -/
theorem ring_exec {p : Nat} (pack : σ → μ) (upd : Nat → σ → μ → σ)
    (hpack : ∀ r s s', pack (upd r s (pack s')) = pack s') (st : Nat → σ) (n : Nat) :
    ∀ r, r < p →
      exec (List.replicate n (ringRound p pack upd)) st r =
        (List.range' 1 n).foldl (fun s t => upd r s (pack (st ((r + (p - 1) * t) % p)))) (st r) := by
  induction n with
  | zero => intro r _; rfl
  | succ n ih =>
    intro r hr
    have hp : ∀ q, q < p → pack (exec (List.replicate n (ringRound p pack upd)) st q) =
        pack (st ((q + (p - 1) * n) % p)) := by
      intro q hq
      rw [ih q hq]
      cases n with
      | zero => simp [Nat.mod_eq_of_lt hq]
      | succ n =>
        rw [List.range'_concat, List.foldl_append]
        simp only [List.foldl_cons, List.foldl_nil]
        rw [hpack, show 1 + 1 * n = n + 1 by omega]
    rw [List.replicate_succ', exec_append, exec_cons, exec_nil, ringRound_step _ _ _ _ hr,
      List.range'_concat, List.foldl_append, ih r hr]
    simp only [List.foldl_cons, List.foldl_nil]
    rw [hp _ (Nat.mod_lt _ (by omega))]
    congr 3
    rw [Nat.mod_add_mod]
    congr 1
    rw [Nat.one_mul, Nat.mul_add]
    omega

/-- The ranks met on the ring are all ranks. -/
theorem ring_meets {p r q : Nat} (hr : r < p) (hq : q < p) :
    ∃ t, t < p ∧ (r + (p - 1) * t) % p = q := by
  have hp : 0 < p := by omega
  refine ⟨(r + (p - q)) % p, Nat.mod_lt _ hp, ?_⟩
  have h1 : (r + (p - 1) * ((r + (p - q)) % p)) % p = (r + (p - 1) * (r + (p - q))) % p := by
    rw [Nat.add_mod, Nat.mul_mod, Nat.mod_mod, ← Nat.mul_mod, ← Nat.add_mod]
  rw [h1]
  have h2 : r + (p - 1) * (r + (p - q)) + (p - q) = p * (r + (p - q)) := by
    obtain ⟨m, rfl⟩ : ∃ m, p = m + 1 := ⟨p - 1, by omega⟩
    simp only [Nat.add_sub_cancel]
    rw [Nat.succ_mul]
    omega
  have h3 : (r + (p - 1) * (r + (p - q)) + (p - q) + q) % p = q := by
    rw [h2, Nat.mul_add_mod, Nat.mod_eq_of_lt hq]
  have h4 : r + (p - 1) * (r + (p - q)) + (p - q) + q = r + (p - 1) * (r + (p - q)) + p := by omega
  rw [h4, Nat.add_mod_right] at h3
  exact h3

/-! ### Programs inside larger ones -/

theorem embed_matched {p : Nat} {get : σ → τ} {set : σ → τ → σ} {inj : ν → μ}
    {proj : μ → Option ν} {R : Round τ ν} (h : R.Matched p) :
    (R.embed get set inj proj).Matched p := by
  constructor
  · intro r hr so hso
    simp only [Round.embed] at hso
    cases h1 : R.send r with
    | none => simp [h1] at hso
    | some so' =>
      simp only [h1, Option.map_some, Option.some.injEq] at hso
      subst hso
      exact h.send_ok r hr so' h1
  · intro r hr ro hro
    obtain ⟨h1, so, h2, h3, h4⟩ := h.recv_ok r hr ro hro
    refine ⟨h1, ⟨so.dest, so.tag, fun s => inj (so.msg (get s))⟩, ?_, h3, h4⟩
    simp [Round.embed, h2]

theorem embed_exec {get : σ → τ} {set : σ → τ → σ} {inj : ν → μ} {proj : μ → Option ν}
    (hgs : ∀ s t, get (set s t) = t) (hss : ∀ s t t', set (set s t) t' = set s t')
    (hsg : ∀ s, set s (get s) = s) (hpi : ∀ n, proj (inj n) = some n) (prog : Prog τ ν) :
    ∀ (st : Nat → σ) (r : Nat), exec (prog.map (Round.embed get set inj proj)) st r =
      set (st r) (exec prog (fun r => get (st r)) r) := by
  induction prog with
  | nil => intro st r; simp [exec_nil, hsg]
  | cons R prog ih =>
    intro st r
    rw [List.map_cons, exec_cons, exec_cons, ih]
    have hstep : ∀ r, (R.embed get set inj proj).step st r =
        set (st r) (R.step (fun r => get (st r)) r) := by
      intro r
      simp only [Round.step, Round.received, Round.embed]
      congr 2
      cases h1 : R.recv r with
      | none => rfl
      | some ro =>
        simp only [Option.bind_some]
        cases h2 : R.send ro.src with
        | none => rfl
        | some so => simp [hpi]
    rw [hstep, hss]
    congr 1
    have : (fun r => get ((R.embed get set inj proj).step st r)) =
        R.step (fun r => get (st r)) := by
      funext r
      rw [hstep, hgs]
    rw [this]

end Modred
