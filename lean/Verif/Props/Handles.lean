import Verif.Spec.Handles
import Mathlib.Tactic.Common
import Mathlib.Algebra.Group.Int.Defs

/-!
# Properties of vector handles (C13)
-/

namespace Modred

variable {V T K : Type*}

theorem BaseOf.trans {a b c : Handle K} (h1 : BaseOf a b) (h2 : BaseOf b c) : BaseOf a c := by
  induction h2 with
  | here place b scale => exact .there _ _ _ _ h1
  | there place b scale c _ ih => exact .there _ _ _ _ (ih h1)

theorem value_mk [Sub V] (fmt : TextFormat V T) (mul : V → K → V) (st : Storage V T) (place : Place)
    (base : Option (Handle K)) (scale : Option K) :
    (Handle.mk place base scale).value fmt mul st = scaleVec mul (match base with
      | none => rawGet fmt st place
      | some b => rawGet fmt st place - b.value fmt mul st) scale := by
  cases base <;> cases scale <;> simp [Handle.value, scaleVec]

/-- The cache holds the value of the cached handle, which is a base of a handle read before. -/
def CacheOk [Sub V] (fmt : TextFormat V T) (mul : V → K → V) (used : List (Handle K))
    (s : HandleState V T K) : Prop :=
  ∀ h v, s.cache = some (h, v) → v = h.value fmt mul s.store ∧ ∃ u ∈ used, BaseOf h u

theorem get_spec [DecidableEq V] [Sub V] (fmt : TextFormat V T) (mul : V → K → V)
    (used : List (Handle K)) : ∀ (h : Handle K) (s : HandleState V T K),
    ((∃ u ∈ used, BaseOf h u) ∨ h ∈ used) →
    (∀ a b, (∃ u ∈ used, BaseOf a u) → (∃ u ∈ used, BaseOf b u) →
      handleEq s.store a b = true → a.value fmt mul s.store = b.value fmt mul s.store) →
    CacheOk fmt mul used s →
    (h.get fmt mul s).1 = h.value fmt mul s.store ∧ (h.get fmt mul s).2.store = s.store ∧
      CacheOk fmt mul used (h.get fmt mul s).2
  | .mk place none scale, s, _, _, hc => by
    rw [value_mk]
    unfold Handle.get
    exact ⟨rfl, rfl, hc⟩
  | .mk place (some b) scale, s, hu, heq, hc => by
    have hb : ∃ u ∈ used, BaseOf b u := by
      rcases hu with ⟨u, h1, h2⟩ | h1
      · exact ⟨u, h1, (BaseOf.here _ _ _).trans h2⟩
      · exact ⟨_, h1, .here _ _ _⟩
    obtain ⟨h1, h2, h3⟩ := get_spec fmt mul used b s (.inl hb) heq hc
    have hmiss : ∀ t : V × HandleState V T K, t = (scaleVec mul (rawGet fmt s.store place -
          (b.get fmt mul s).1) scale,
          { (b.get fmt mul s).2 with cache := some (b, (b.get fmt mul s).1) }) →
        t.1 = (Handle.mk place (some b) scale).value fmt mul s.store ∧ t.2.store = s.store ∧
          CacheOk fmt mul used t.2 := by
      rintro t rfl
      refine ⟨by rw [value_mk, h1], h2, ?_⟩
      intro h v hv
      cases hv
      exact ⟨by dsimp only; rw [h1, h2], hb⟩
    unfold Handle.get
    dsimp only
    cases hcache : s.cache with
    | none => exact hmiss _ rfl
    | some c =>
      obtain ⟨ch, cv⟩ := c
      dsimp only
      by_cases he : handleEq s.store b ch = true
      · rw [if_pos he]
        obtain ⟨h4, h5⟩ := hc ch cv hcache
        refine ⟨?_, rfl, hc⟩
        rw [value_mk, h4, ← heq b ch hb h5 he]
      · rw [if_neg he]
        exact hmiss _ rfl

theorem rawGet_put (fmt : TextFormat V T) (st : Storage V T) (v : V) (p q : Place)
    (h : ¬ p.shares q) : rawGet fmt (rawPut fmt st v p) q = rawGet fmt st q := by
  cases p <;> cases q <;> simp_all [rawGet, rawPut, Place.shares, eq_comm]

theorem value_put [Sub V] (fmt : TextFormat V T) (mul : V → K → V) (st : Storage V T) (v : V)
    (p : Place) : ∀ b : Handle K, ¬ p.shares b.place → (∀ c, BaseOf c b → ¬ p.shares c.place) →
    b.value fmt mul (rawPut fmt st v p) = b.value fmt mul st
  | .mk place none scale, h, _ => by
    rw [value_mk, value_mk]
    dsimp only
    rw [rawGet_put fmt st v p place h]
  | .mk place (some b) scale, h, h' => by
    rw [value_mk, value_mk]
    dsimp only
    rw [rawGet_put fmt st v p place h, value_put fmt mul st v p b (h' b (.here _ _ _))
      fun c hc => h' c (hc.trans (.here _ _ _))]

/-- **C13, what holds.** In every history in which no `put` changes the storage of a base handle that
was used, and in which equal base handles stand for equal vectors, every `get` returns the stored
vector minus the base vector, times the scale.
Missing from the full claim: the two conditions on the history; see the violations below. -/
theorem C13_get_right_in_good_histories_partial [DecidableEq V] [Sub V] (fmt : TextFormat V T)
    (mul : V → K → V) (ops : List (Op V K)) (st : Storage V T)
    (hgood : GoodHistory fmt mul [] ops st) :
    runOps fmt mul ops ⟨st, none⟩ = valuesOf fmt mul ops st := by
  have main : ∀ (ops : List (Op V K)) (used : List (Handle K)) (s : HandleState V T K),
      GoodHistory fmt mul used ops s.store → CacheOk fmt mul used s →
      runOps fmt mul ops s = valuesOf fmt mul ops s.store := by
    intro ops
    induction ops with
    | nil => intros; rfl
    | cons op ops ih =>
      intro used s hg hc
      cases op with
      | get h =>
        obtain ⟨hg1, hg2⟩ := hg
        have hc' : CacheOk fmt mul (h :: used) s := fun c v hv => by
          obtain ⟨h1, u, h2, h3⟩ := hc c v hv
          exact ⟨h1, u, by simp [h2], h3⟩
        obtain ⟨h1, h2, h3⟩ := get_spec fmt mul (h :: used) h s (.inr (by simp)) hg1 hc'
        unfold runOps valuesOf
        rw [h1, ih (h :: used) _ (by rw [h2]; exact hg2) h3, h2]
      | put h v =>
        obtain ⟨hg1, hg2⟩ := hg
        unfold runOps valuesOf
        refine ih used (h.put fmt v s) hg2 fun c w hw => ?_
        obtain ⟨h1, u, h2, h3⟩ := hc c w hw
        refine ⟨?_, u, h2, h3⟩
        rw [h1]
        exact (value_put fmt mul s.store v h.place c (hg1 u h2 c h3)
          fun d hd => hg1 u h2 d (hd.trans h3)).symm
  exact main ops [] ⟨st, none⟩ hgood fun _ _ h => by simp at h

/-- **C13, what holds, in the usual case.** If base handles have no base and no scale of their own,
are read with one setting of `is_complex`, and are never written to, every `get` in every history is
right. -/
theorem C13_get_right_with_plain_bases_partial [DecidableEq V] [Sub V] (fmt : TextFormat V T)
    (mul : V → K → V) (ops : List (Op V K)) (st : Storage V T) (isComplex : Bool)
    (hplain : ∀ h, .get h ∈ ops → ∀ b, h.base = some b → ∃ place, b = .mk place none none ∧
      (∀ path c, place = .text path c → c = isComplex) ∧
      ∀ g v, .put g v ∈ ops → ¬ g.place.shares place) :
    runOps fmt mul ops ⟨st, none⟩ = valuesOf fmt mul ops st := by
  refine C13_get_right_in_good_histories_partial fmt mul ops st ?_
  have hbase : ∀ h, .get h ∈ ops → ∀ b, BaseOf b h → h.base = some b := by
    intro h hh b hb
    cases hb with
    | here place b scale => rfl
    | there place c scale b hb' =>
      obtain ⟨p, hp, -⟩ := hplain _ hh c rfl
      subst hp
      cases hb'
  have main : ∀ (l : List (Op V K)) (used : List (Handle K)) (st : Storage V T),
      (∀ op ∈ l, op ∈ ops) → (∀ u ∈ used, .get u ∈ ops) → GoodHistory fmt mul used l st := by
    intro l
    induction l with
    | nil => intros; trivial
    | cons op l ih =>
      intro used st hl hu
      cases op with
      | get h =>
        have hu' : ∀ u ∈ h :: used, .get u ∈ ops := by
          intro u hu'
          rcases List.mem_cons.mp hu' with rfl | h1
          · exact hl _ (by simp)
          · exact hu u h1
        refine ⟨?_, ih _ _ (fun op h => hl op (by simp [h])) hu'⟩
        rintro a b ⟨u, h1, h2⟩ ⟨w, h3, h4⟩ he
        obtain ⟨p, rfl, h5, -⟩ := hplain u (hu' u h1) a (hbase u (hu' u h1) a h2)
        obtain ⟨q, rfl, h6, -⟩ := hplain w (hu' w h3) b (hbase w (hu' w h3) b h4)
        unfold handleEq at he
        cases p <;> cases q <;> simp_all [Handle.place, Handle.value, rawGet]
      | put h v =>
        refine ⟨?_, ih _ _ (fun op h => hl op (by simp [h])) hu⟩
        intro u hu1 b hb
        obtain ⟨p, rfl, -, h7⟩ := hplain u (hu u hu1) b (hbase u (hu u hu1) b hb)
        exact h7 h v (hl _ (by simp))
  exact main ops [] st (fun _ h => h) (by simp)

/-- A history that meets the hypotheses: two vectors on one base in memory, with a `put` in between. -/
example (fmt : TextFormat ℤ ℤ) (st : Storage ℤ ℤ) :
    let base : Handle ℤ := .mk (.memory 0) none none
    let ops : List (Op ℤ ℤ) := [.get (.mk (.memory 1) (some base) (some 2)),
      .put (.mk (.memory 1) (some base) (some 2)) 7, .get (.mk (.memory 1) (some base) (some 2))]
    runOps fmt (fun v c => v * c) ops ⟨st, none⟩ =
      [(st.mem 1 - st.mem 0) * 2, (7 - st.mem 0) * 2] := by
  intro base ops
  rw [C13_get_right_with_plain_bases_partial fmt (fun v c => v * c) ops st false]
  · simp [ops, base, valuesOf, Handle.value, rawGet, rawPut, Handle.place]
  · intro h hh b hb
    simp [ops] at hh
    subst hh
    simp only [Handle.base, Option.some.injEq] at hb
    subst hb
    refine ⟨.memory 0, rfl, by simp, ?_⟩
    intro g v hg
    simp [ops] at hg
    obtain ⟨rfl, -⟩ := hg
    simp [Handle.place, Place.shares]

/-- **C13, violation.** The cache survives a `put` to the base handle: after the base vector is
changed from 1 to 5, a vector 10 on it is still read as 10 - 1. -/
theorem C13_stale_base_after_put_violation :
    ∃ (fmt : TextFormat ℤ ℤ) (st : Storage ℤ ℤ) (ops : List (Op ℤ ℤ)),
      runOps fmt (fun v c => v * c) ops ⟨st, none⟩ = [9, 9] ∧
      valuesOf fmt (fun v c => v * c) ops st = [9, 5] := by
  refine ⟨⟨fun _ t => t, fun v => v⟩, ⟨fun s => if s = 0 then 1 else 10, fun _ => 0, fun _ => 0⟩,
    [.get (.mk (.memory 1) (some (.mk (.memory 0) none none)) none),
     .put (.mk (.memory 0) none none) 5,
     .get (.mk (.memory 1) (some (.mk (.memory 0) none none)) none)], ?_, ?_⟩
  · decide +kernel
  · simp [valuesOf, Handle.value, rawGet, rawPut, Handle.place]

/-- **C13, violation.** The cache ignores the scale of base handles: for base handles of one file
with scales 1 and 3, the second vector is read with the first base. -/
theorem C13_scale_of_base_ignored_violation :
    ∃ (fmt : TextFormat ℤ ℤ) (st : Storage ℤ ℤ) (ops : List (Op ℤ ℤ)),
      runOps fmt (fun v c => v * c) ops ⟨st, none⟩ = [9, 9] ∧
      valuesOf fmt (fun v c => v * c) ops st = [9, 7] := by
  refine ⟨⟨fun _ t => t, fun v => v⟩, ⟨fun _ => 10, fun _ => 0, fun _ => 1⟩,
    [.get (.mk (.memory 1) (some (.mk (.pickle "base") none (some 1))) none),
     .get (.mk (.memory 1) (some (.mk (.pickle "base") none (some 3))) none)], ?_, ?_⟩
  · decide +kernel
  · simp [valuesOf, Handle.value, rawGet]

/-- **C13, violation.** Base handles in memory compare by the vector they store, so one with a base
of its own is taken for one without. -/
theorem C13_base_of_base_ignored_violation :
    ∃ (fmt : TextFormat ℤ ℤ) (st : Storage ℤ ℤ) (ops : List (Op ℤ ℤ)),
      runOps fmt (fun v c => v * c) ops ⟨st, none⟩ = [9, 9] ∧
      valuesOf fmt (fun v c => v * c) ops st = [9, 10] := by
  refine ⟨⟨fun _ t => t, fun v => v⟩, ⟨fun s => if s = 0 then 10 else 1, fun _ => 0, fun _ => 0⟩,
    [.get (.mk (.memory 0) (some (.mk (.memory 1) none none)) none),
     .get (.mk (.memory 0) (some (.mk (.memory 2) (some (.mk (.memory 3) none none)) none)) none)],
     ?_, ?_⟩
  · decide +kernel
  · simp [valuesOf, Handle.value, rawGet]

/-- **C13, violation.** Text handles compare by path only, so a base read as real numbers is used
where the same file should be read as complex numbers. -/
theorem C13_is_complex_of_base_ignored_violation :
    ∃ (fmt : TextFormat ℤ ℤ) (st : Storage ℤ ℤ) (ops : List (Op ℤ ℤ)),
      (fmt.load true 1 ≠ fmt.load false 1) ∧
      runOps fmt (fun v c => v * c) ops ⟨st, none⟩ = [9, 9] ∧
      valuesOf fmt (fun v c => v * c) ops st = [9, 8] := by
  refine ⟨⟨fun c t => if c then t + 1 else t, fun v => v⟩, ⟨fun _ => 10, fun _ => 1, fun _ => 0⟩,
    [.get (.mk (.memory 0) (some (.mk (.text "base" false) none none)) none),
     .get (.mk (.memory 0) (some (.mk (.text "base" true) none none)) none)], ?_, ?_, ?_⟩
  · decide
  · decide +kernel
  · simp [valuesOf, Handle.value, rawGet]

/-- **C13.** `get` of a handle without base and scale returns what is in memory or in its file, text loaded as its own
`is_complex` says, and changes nothing. -/
theorem C13_get_reads [DecidableEq V] [Sub V] (fmt : TextFormat V T) (mul : V → K → V) (s : HandleState V T K) :
    (∀ slot, (Handle.mk (.memory slot) none none).get fmt mul s = (s.store.mem slot, s)) ∧
    (∀ path isComplex, (Handle.mk (.text path isComplex) none none).get fmt mul s = (fmt.load isComplex (s.store.txt path), s)) ∧
    ∀ path, (Handle.mk (.pickle path) none none).get fmt mul s = (s.store.pkl path, s) :=
  ⟨fun _ => rfl, fun _ _ => rfl, fun _ => rfl⟩

/-- **C13.** `put` stores the vector as it is, without regard to base and scale, in memory or in its file, and changes nothing
else, not even the cached base vector. -/
theorem C13_put_writes (fmt : TextFormat V T) (base : Option (Handle K)) (scale : Option K) (v : V) (s : HandleState V T K) :
    (∀ slot, (Handle.mk (.memory slot) base scale).put fmt v s = ⟨⟨Function.update s.store.mem slot v, s.store.txt, s.store.pkl⟩, s.cache⟩) ∧
    (∀ path isComplex, (Handle.mk (.text path isComplex) base scale).put fmt v s =
      ⟨⟨s.store.mem, Function.update s.store.txt path (fmt.save v), s.store.pkl⟩, s.cache⟩) ∧
    ∀ path, (Handle.mk (.pickle path) base scale).put fmt v s = ⟨⟨s.store.mem, s.store.txt, Function.update s.store.pkl path v⟩, s.cache⟩ := by
  refine ⟨fun slot => ?_, fun path c => ?_, fun path => ?_⟩
  all_goals
    simp only [Handle.put, Handle.place, rawPut, HandleState.mk.injEq, Storage.mk.injEq, and_true, true_and]
    funext q
    simp [Function.update_apply]

/-- Two handles for one file, one with a base vector: what is put with one is read with the other. -/
example (fmt : TextFormat ℤ ℤ) (st : Storage ℤ ℤ) (b : Handle ℤ) :
    ((Handle.mk (.pickle "a") none none).get fmt (fun v c => v * c) ((Handle.mk (.pickle "a") (some b) (some 2)).put fmt 7 ⟨st, none⟩)).1 = 7 := by
  rw [(C13_get_reads fmt _ _).2.2, (C13_put_writes fmt (some b) (some 2) 7 ⟨st, none⟩).2.2]
  exact Function.update_self (β := fun _ => ℤ) "a" 7 st.pkl

end Modred
