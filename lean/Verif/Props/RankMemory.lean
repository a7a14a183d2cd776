import Verif.Model.RankMemory
import Verif.Props.VectorSpace

/-!
# Handles in memory on several processes (C89)
-/

namespace Modred

variable {V K : Type*}

theorem heldAfter_map {sums : List Nat} (hs : sums.Nodup) (f : Nat → V) : ∀ (ks : List Nat) (_ : ∀ k ∈ ks, k < sums.length)
    (held : Nat → Option V),
    (∀ k (hk : k < sums.length), heldAfter sums (ks.map fun k => (k, some (f k))) held sums[k] =
      if k ∈ ks then some (f k) else held sums[k]) ∧
    ∀ q, q ∉ sums → heldAfter sums (ks.map fun k => (k, some (f k))) held q = held q := by
  intro ks
  induction ks with
  | nil => exact fun _ held => ⟨fun k hk => by simp [heldAfter], fun q _ => rfl⟩
  | cons a ks ih =>
    intro hks held
    have ha : a < sums.length := hks a (by simp)
    have hd : sums.getD a 0 = sums[a] := by simp [ha]
    obtain ⟨h1, h2⟩ := ih (fun k hk => hks k (by simp [hk])) (Function.update held (sums.getD a 0) (some (f a)))
    refine ⟨fun k hk => ?_, fun q hq => ?_⟩
    · refine (h1 k hk).trans ?_
      by_cases hka : k = a
      · subst hka
        rw [hd, Function.update_self]
        simp
      · have hne : sums[k] ≠ sums[a] := fun e => hka ((hs.getElem_inj_iff).mp e)
        rw [hd, Function.update_of_ne hne]
        simp [hka]
    · refine (h2 q hq).trans ?_
      have hne : q ≠ sums[a] := fun e => hq (e ▸ List.getElem_mem _)
      rw [hd, Function.update_of_ne hne]

/-- **C89, which process gets what.** Every sum is put by exactly one process: on it, the handle holds the linear combination; on all
others the handle holds what it held, in every interleaving.  All other handles keep what they hold. -/
theorem C89_owner_partial [AddCommMonoid V] [Zero K] (procs nodes : Nat)
    (hp : 1 ≤ procs) (hn : 1 ≤ nodes) (request : Option Nat) (mul : V → K → V)
    (sums : List Nat) (hs : sums.Nodup) (basis : List V) (hbasis : basis ≠ []) (coeff : CoeffArray K)
    (sel : Option (List Int)) (hsel : selectionOk (specShape basis.length coeff).2 sel)
    (hrows : (specShape basis.length coeff).1 = basis.length)
    (hcols : numSelected (specShape basis.length coeff).2 sel = sums.length) (held : Nat → Nat → Option V) :
    ∃ prog, linCombine procs (limits request procs nodes).perProc mul sums.length basis coeff sel = .ok prog ∧
      ∃ owner : Nat → Nat, (∀ k < sums.length, owner k < procs) ∧
        EveryInterleaving procs prog lcInit fun r s => s.err = false ∧
          (∀ k (hk : k < sums.length), heldAfter sums s.puts (held r) sums[k] =
            if owner k = r then some (specSum mul basis coeff sel k) else held r sums[k]) ∧
          ∀ q, q ∉ sums → heldAfter sums s.puts (held r) q = held r q := by
  obtain ⟨prog, h1, share, h2, h3⟩ := C09_lin_combine_result procs nodes hp hn request mul sums.length basis hbasis coeff sel hsel
    hrows hcols
  have hmem : ∀ k, k < sums.length ↔ ∃ r < procs, k ∈ share r := by
    intro k
    have : k ∈ (List.range procs).flatMap share ↔ k ∈ List.range sums.length := by rw [h2]
    simpa [eq_comm] using this.symm
  have hnodup : ((List.range procs).flatMap share).Nodup := by rw [h2]; exact List.nodup_range
  rw [List.nodup_flatMap] at hnodup
  have huniq : ∀ k r r', r < procs → r' < procs → k ∈ share r → k ∈ share r' → r = r' := by
    intro k r r' hr hr' hk hk'
    have hpw := List.pairwise_iff_getElem.mp hnodup.2
    rcases lt_trichotomy r r' with h | h | h
    · have := hpw r r' (by simpa using hr) (by simpa using hr') h
      simp only [List.getElem_range, Function.onFun] at this
      exact absurd hk' (this hk)
    · exact h
    · have := hpw r' r (by simpa using hr') (by simpa using hr) h
      simp only [List.getElem_range, Function.onFun] at this
      exact absurd hk (this hk')
  have hex : ∀ k, ∃ r, k < sums.length → r < procs ∧ k ∈ share r := by
    intro k
    by_cases hk : k < sums.length
    · obtain ⟨r, hr⟩ := (hmem k).mp hk
      exact ⟨r, fun _ => hr⟩
    · exact ⟨0, fun h => absurd h hk⟩
  choose owner howner using hex
  refine ⟨prog, h1, owner, fun k hk => (howner k hk).1, fun sync n t ht => ⟨(h3 sync n t ht).1, (h3 sync n t ht).2.1, fun hf =>
    ⟨fun r hr => ?_, ((h3 sync n t ht).2.2 hf).2⟩⟩⟩
  have hs' := ((h3 sync n t ht).2.2 hf).1 r hr
  obtain ⟨s, hst⟩ : ∃ s, s = t.loc r := ⟨_, rfl⟩
  rw [← hst] at hs' ⊢
  dsimp only at hs' ⊢
  have hlt : ∀ k ∈ share r, k < sums.length := fun k hk => (hmem k).mpr ⟨r, hr, hk⟩
  obtain ⟨g1, g2⟩ := heldAfter_map hs (specSum mul basis coeff sel) (share r) hlt (held r)
  rw [hs'.2]
  refine ⟨hs'.1, fun k hk => (g1 k hk).trans ?_, g2⟩
  have : k ∈ share r ↔ owner k = r :=
    ⟨fun h => huniq k _ _ (howner k hk).1 hr (howner k hk).2 h, fun h => h ▸ (howner k hk).2⟩
  simp only [this]

/-- **C89, one process.** On one process, all handles in memory hold the linear combinations afterwards. -/
theorem C89_one_process_partial [AddCommMonoid V] [Zero K] (nodes : Nat) (hn : 1 ≤ nodes) (request : Option Nat) (mul : V → K → V)
    (sums : List Nat) (hs : sums.Nodup) (basis : List V) (hbasis : basis ≠ []) (coeff : CoeffArray K)
    (sel : Option (List Int)) (hsel : selectionOk (specShape basis.length coeff).2 sel)
    (hrows : (specShape basis.length coeff).1 = basis.length)
    (hcols : numSelected (specShape basis.length coeff).2 sel = sums.length) (held : Nat → Option V) :
    ∃ prog, linCombine 1 (limits request 1 nodes).perProc mul sums.length basis coeff sel = .ok prog ∧
      EveryInterleaving 1 prog lcInit fun _ s => s.err = false ∧
        ∀ k (hk : k < sums.length), heldAfter sums s.puts held sums[k] = some (specSum mul basis coeff sel k) := by
  obtain ⟨prog, h1, owner, h2, h3⟩ := C89_owner_partial 1 nodes le_rfl hn request mul sums hs basis hbasis coeff sel hsel hrows hcols
    fun _ => held
  refine ⟨prog, h1, fun sync n t ht => ⟨(h3 sync n t ht).1, (h3 sync n t ht).2.1, fun hf =>
    ⟨fun r hr => ?_, ((h3 sync n t ht).2.2 hf).2⟩⟩⟩
  obtain ⟨g1, g2, -⟩ := ((h3 sync n t ht).2.2 hf).1 r hr
  refine ⟨g1, fun k hk => (g2 k hk).trans ?_⟩
  rw [if_pos]
  have := h2 k hk
  omega

/-- **C89, violation.** On several processes, each handle in memory for a sum is still empty afterwards on all processes but one, in
every interleaving, although no process raises. -/
theorem C89_still_empty_violation [AddCommMonoid V] [Zero K] (procs nodes : Nat)
    (hp : 2 ≤ procs) (hn : 1 ≤ nodes) (request : Option Nat) (mul : V → K → V)
    (sums : List Nat) (hs : sums.Nodup) (basis : List V) (hbasis : basis ≠ []) (coeff : CoeffArray K)
    (sel : Option (List Int)) (hsel : selectionOk (specShape basis.length coeff).2 sel)
    (hrows : (specShape basis.length coeff).1 = basis.length)
    (hcols : numSelected (specShape basis.length coeff).2 sel = sums.length) :
    ∃ prog, linCombine procs (limits request procs nodes).perProc mul sums.length basis coeff sel = .ok prog ∧
      ∀ k (hk : k < sums.length), ∃ owner < procs, (∃ r < procs, r ≠ owner) ∧
        EveryInterleaving procs prog lcInit fun r s => s.err = false ∧
          (r ≠ owner → heldAfter sums s.puts (fun _ => none) sums[k] = none) := by
  obtain ⟨prog, h1, owner, h2, h3⟩ := C89_owner_partial procs nodes (by omega) hn request mul sums hs basis hbasis coeff sel hsel
    hrows hcols fun _ _ => none
  refine ⟨prog, h1, fun k hk => ⟨owner k, h2 k hk, ?_, fun sync n t ht => ⟨(h3 sync n t ht).1, (h3 sync n t ht).2.1, fun hf =>
    ⟨fun r hr => ?_, ((h3 sync n t ht).2.2 hf).2⟩⟩⟩⟩
  · by_cases h : owner k = 0
    · exact ⟨1, by omega, by omega⟩
    · exact ⟨0, by omega, by omega⟩
  · obtain ⟨g1, g2, -⟩ := ((h3 sync n t ht).2.2 hf).1 r hr
    exact ⟨g1, fun hne => by rw [g2 k hk, if_neg (Ne.symm hne)]⟩

/-- The hypotheses can be met: two sums of two vectors on three processes. -/
example : ∃ prog, linCombine 3 (limits none 3 1).perProc (fun (v c : ℤ) => v * c) 2 [5, 7]
      (.mat 2 2 fun i j => i + j) none = .ok prog ∧
    ∀ k (hk : k < 2), ∃ owner < 3, (∃ r < 3, r ≠ owner) ∧ EveryInterleaving 3 prog lcInit fun r s => s.err = false ∧
      (r ≠ owner → heldAfter [8, 9] s.puts (fun _ => none) [8, 9][k] = none) :=
  C89_still_empty_violation 3 1 (by decide) (by decide) none _ [8, 9] (by decide) [5, 7] (by decide) _ none trivial rfl rfl

end Modred
