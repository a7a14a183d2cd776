import Verif.Spec.HandlesFail
import Verif.Props.Handles
import Verif.Props.Text

/-!
# C104: exceptions in `get` and `put`
-/

namespace Modred

variable {V T K : Type*}

theorem tryValue_mk (ops : FallibleOps V T K) (st : FallibleStorage V T) (place : Place) (base : Option (Handle K))
    (scale : Option K) : (Handle.mk place base scale).tryValue ops st =
      match tryRead ops st place with
      | .error e => .error e
      | .ok vec =>
        match base with
        | none => tryScale ops vec scale
        | some b =>
          match b.tryValue ops st with
          | .error e => .error e
          | .ok baseVec => trySubScale ops vec baseVec scale := by
  rw [Handle.tryValue]
  simp only [bind, Except.bind, pure, Except.pure]
  cases tryRead ops st place with
  | error e => rfl
  | ok vec =>
    dsimp only
    cases base with
    | none => cases scale <;> rfl
    | some b =>
      dsimp only
      cases b.tryValue ops st with
      | error e => rfl
      | ok v =>
        unfold trySubScale
        dsimp only
        cases ops.sub vec v with
        | error e => rfl
        | ok d => cases scale <;> rfl

/-- The cache holds the value of the cached handle, which is a base of a handle read before. -/
def FallibleCacheOk (ops : FallibleOps V T K) (used : List (Handle K)) (s : FallibleState V T K) : Prop :=
  ∀ h v, s.cache = some (h, v) → h.tryValue ops s.store = .ok v ∧ ∃ u ∈ used, BaseOf h u

section
variable [DecidableEq V] (ops : FallibleOps V T K)

theorem tryGet_spec (used : List (Handle K)) : ∀ (h : Handle K) (s : FallibleState V T K),
    ((∃ u ∈ used, BaseOf h u) ∨ h ∈ used) →
    (∀ a b, (∃ u ∈ used, BaseOf a u) → (∃ u ∈ used, BaseOf b u) →
      tryHandleEq s.store a b = true → a.tryValue ops s.store = b.tryValue ops s.store) →
    FallibleCacheOk ops used s →
    (h.tryGet ops s).1 = h.tryValue ops s.store ∧ (h.tryGet ops s).2.store = s.store ∧
      FallibleCacheOk ops used (h.tryGet ops s).2
  | .mk place base scale, s, hu, heq, hc => by
    rw [tryValue_mk]
    unfold Handle.tryGet
    cases hr : tryRead ops s.store place with
    | error e => exact ⟨rfl, rfl, hc⟩
    | ok vec =>
      cases base with
      | none => exact ⟨rfl, rfl, hc⟩
      | some b =>
        have hb : ∃ u ∈ used, BaseOf b u := by
          rcases hu with ⟨u, h1, h2⟩ | h1
          · exact ⟨u, h1, (BaseOf.here _ _ _).trans h2⟩
          · exact ⟨_, h1, .here _ _ _⟩
        obtain ⟨h1, h2, h3⟩ := tryGet_spec used b s (.inl hb) heq hc
        dsimp only
        have hmiss : ∀ t : Except Err V × FallibleState V T K, t = (match b.tryGet ops s with
            | (.error e, s') => (.error e, s')
            | (.ok baseVec, s') => (trySubScale ops vec baseVec scale, { s' with cache := some (b, baseVec) })) →
            t.1 = (match b.tryValue ops s.store with
              | .error e => .error e
              | .ok baseVec => trySubScale ops vec baseVec scale) ∧ t.2.store = s.store ∧ FallibleCacheOk ops used t.2 := by
          rintro t rfl
          generalize b.tryGet ops s = g at h1 h2 h3
          obtain ⟨r, s'⟩ := g
          dsimp only at h1 h2 h3
          rw [← h1]
          cases r with
          | error e => exact ⟨rfl, h2, h3⟩
          | ok baseVec =>
            refine ⟨rfl, h2, ?_⟩
            intro h v hv
            cases hv
            exact ⟨by dsimp only; rw [h2, ← h1], hb⟩
        cases hcache : s.cache with
        | none => exact hmiss _ rfl
        | some c =>
          obtain ⟨ch, cv⟩ := c
          dsimp only
          by_cases he : tryHandleEq s.store b ch = true
          · rw [if_pos he]
            obtain ⟨h4, h5⟩ := hc ch cv hcache
            refine ⟨?_, rfl, hc⟩
            dsimp only
            rw [heq b ch hb h5 he, h4]
          · rw [if_neg he]
            exact hmiss _ rfl

omit [DecidableEq V] in
theorem tryRead_write (st : FallibleStorage V T) (v : V) (p q : Place) (h : ¬ p.shares q) :
    tryRead ops (tryWrite ops st v p).2 q = tryRead ops st q := by
  have hs : ∀ {a b : String}, ¬ a = b → ¬ b = a := fun h h' => h h'.symm
  cases p with
  | memory slot =>
    cases q with
    | memory slot' =>
      change ¬ slot = slot' at h
      simp only [tryWrite, tryRead]
      rw [if_neg fun h' => h h'.symm]
    | text _ _ => rfl
    | pickle _ => rfl
  | text path c =>
    unfold tryWrite
    cases q with
    | memory slot' => dsimp only; split <;> (try split) <;> rfl
    | text path' c' =>
      change ¬ path = path' at h
      dsimp only
      split <;> (try split) <;> simp only [tryRead] <;> rw [if_neg (hs h)]
    | pickle path' => dsimp only; split <;> (try split) <;> rfl
  | pickle path =>
    unfold tryWrite
    cases q with
    | memory slot' => dsimp only; split <;> (try split) <;> rfl
    | text path' c' => dsimp only; split <;> (try split) <;> rfl
    | pickle path' =>
      change ¬ path = path' at h
      dsimp only
      split
      · split <;> simp only [tryRead] <;> rw [if_neg (hs h)]
      · rfl

omit [DecidableEq V] in
theorem tryValue_write (st : FallibleStorage V T) (v : V) (p : Place) : ∀ b : Handle K, ¬ p.shares b.place →
    (∀ c, BaseOf c b → ¬ p.shares c.place) → b.tryValue ops (tryWrite ops st v p).2 = b.tryValue ops st
  | .mk place none scale, h, _ => by
    rw [tryValue_mk, tryValue_mk, tryRead_write ops st v p place h]
  | .mk place (some b) scale, h, h' => by
    rw [tryValue_mk, tryValue_mk, tryRead_write ops st v p place h]
    dsimp only
    rw [tryValue_write st v p b (h' b (.here _ _ _)) fun c hc => h' c (hc.trans (.here _ _ _))]

/-- **C104.** In every history as in C13, whatever raises exceptions on the way, every `get` returns
the stored vector minus the base vector, times the scale, or raises the exception that reading,
subtraction or multiplication raise: calls that raised earlier make no difference.
The conditions on the history are those of C13, whose violations show that they are needed. -/
theorem C104_histories_with_exceptions (calls : List (Op V K)) (st : FallibleStorage V T)
    (hgood : GoodFallibleHistory ops [] calls st) :
    tryOps ops calls ⟨st, none⟩ = tryValuesOf ops calls st := by
  have main : ∀ (calls : List (Op V K)) (used : List (Handle K)) (s : FallibleState V T K),
      GoodFallibleHistory ops used calls s.store → FallibleCacheOk ops used s →
      tryOps ops calls s = tryValuesOf ops calls s.store := by
    intro calls
    induction calls with
    | nil => intros; rfl
    | cons op calls ih =>
      intro used s hg hc
      cases op with
      | get h =>
        obtain ⟨hg1, hg2⟩ := hg
        have hc' : FallibleCacheOk ops (h :: used) s := fun c v hv => by
          obtain ⟨h1, u, h2, h3⟩ := hc c v hv
          exact ⟨h1, u, by simp [h2], h3⟩
        obtain ⟨h1, h2, h3⟩ := tryGet_spec ops (h :: used) h s (.inr (by simp)) hg1 hc'
        unfold tryOps tryValuesOf
        rw [h1, ih (h :: used) _ (by rw [h2]; exact hg2) h3, h2]
      | put h v =>
        obtain ⟨hg1, hg2⟩ := hg
        unfold tryOps tryValuesOf
        refine congrArg _ (ih used (h.tryPut ops v s).2 hg2 fun c w hw => ?_)
        obtain ⟨h1, u, h2, h3⟩ := hc c w hw
        refine ⟨?_, u, h2, h3⟩
        rw [← h1]
        exact tryValue_write ops s.store v h.place c (hg1 u h2 c h3) fun d hd => hg1 u h2 d (hd.trans h3)
  exact main calls [] ⟨st, none⟩ hgood fun _ _ h => by simp at h

/-- **C104.** `get` changes nothing that is stored, whether it raises or not. -/
theorem C104_get_keeps_store : ∀ (h : Handle K) (s : FallibleState V T K), (h.tryGet ops s).2.store = s.store
  | .mk place base scale, s => by
    unfold Handle.tryGet
    cases tryRead ops s.store place with
    | error e => rfl
    | ok vec =>
      cases base with
      | none => rfl
      | some b =>
        have h1 := C104_get_keeps_store b s
        dsimp only
        have hmiss : (match b.tryGet ops s with
            | (.error e, s') => ((.error e, s') : Except Err V × FallibleState V T K)
            | (.ok baseVec, s') => (trySubScale ops vec baseVec scale, { s' with cache := some (b, baseVec) })).2.store =
            s.store := by
          generalize b.tryGet ops s = g at h1
          obtain ⟨r, s'⟩ := g
          cases r <;> exact h1
        cases s.cache with
        | none => exact hmiss
        | some c =>
          dsimp only
          split
          · rfl
          · exact hmiss

/-- **C104.** A `get` that raises because a vector cannot be read, its own or that of a base handle,
changes nothing at all: neither what is stored nor which base vector is kept. -/
theorem C104_unreadable_changes_nothing (hsub : ∀ v w, ∃ d, ops.sub v w = .ok d) (hmul : ∀ v c, ∃ d, ops.mul v c = .ok d) :
    ∀ (h : Handle K) (s : FallibleState V T K) (e : Err), (h.tryGet ops s).1 = .error e → (h.tryGet ops s).2 = s
  | .mk place base scale, s, e, he => by
    have hsc : ∀ v (e : Err), tryScale ops v scale ≠ .error e := by
      intro v e h
      unfold tryScale at h
      cases scale with
      | none => cases h
      | some c =>
        obtain ⟨d, hd⟩ := hmul v c
        dsimp only at h
        rw [hd] at h
        cases h
    have hss : ∀ v w (e : Err), trySubScale ops v w scale ≠ .error e := by
      intro v w e h
      unfold trySubScale at h
      obtain ⟨d, hd⟩ := hsub v w
      rw [hd] at h
      exact hsc d e h
    unfold Handle.tryGet at he ⊢
    cases hr : tryRead ops s.store place with
    | error e' => rfl
    | ok vec =>
      rw [hr] at he
      cases base with
      | none => exact absurd he (hsc _ _)
      | some b =>
        have h1 := C104_unreadable_changes_nothing hsub hmul b s
        dsimp only at he ⊢
        have hmiss : ∀ (t : Except Err V × FallibleState V T K), t = (match b.tryGet ops s with
            | (.error e, s') => (.error e, s')
            | (.ok baseVec, s') => (trySubScale ops vec baseVec scale, { s' with cache := some (b, baseVec) })) →
            t.1 = .error e → t.2 = s := by
          rintro t rfl ht
          generalize b.tryGet ops s = g at h1 ht
          obtain ⟨r, s'⟩ := g
          cases r with
          | error e' => exact h1 e' rfl
          | ok baseVec => exact absurd ht (hss _ _ _)
        cases hcache : s.cache with
        | none =>
          rw [hcache] at he
          exact hmiss _ rfl he
        | some c =>
          rw [hcache] at he
          dsimp only at he ⊢
          by_cases hq : tryHandleEq s.store b c.1 = true
          · rw [if_pos hq] at he
            exact absurd he (hss _ _ _)
          · rw [if_neg hq] at he ⊢
            exact hmiss _ rfl he

end

/-! ### `put` -/

section
variable (ops : FallibleOps V T K)

/-- **C104.** A `put`, whether it raises or not, changes only its own place. -/
theorem C104_put_elsewhere (h : Handle K) (v : V) (s : FallibleState V T K) (q : Place) (hq : ¬ h.place.shares q) :
    tryRead ops (h.tryPut ops v s).2.store q = tryRead ops s.store q :=
  tryRead_write ops s.store v h.place q hq

/-- **C104.** After a `put` that did not raise, a handle without base and scale for the same place
returns what was put: in memory and from pickle files the same, from text files what loading makes
of what saving wrote. -/
theorem C104_put_then_get [DecidableEq V] (place : Place) (v : V) (s : FallibleState V T K)
    (hok : ((Handle.mk place none none).tryPut ops v s).1 = none) :
    ((Handle.mk place none none).tryGet ops ((Handle.mk place none none).tryPut ops v s).2).1 =
      match place with
      | .text _ isComplex => match ops.save v with
        | .ok t => ops.load isComplex t
        | .error _ => .error .osError
      | _ => .ok v := by
  unfold Handle.tryPut Handle.tryGet at *
  dsimp only [Handle.place] at hok ⊢
  cases place with
  | memory slot => simp [tryRead, tryWrite, tryScale]
  | text path c =>
    unfold tryWrite at hok ⊢
    dsimp only at hok ⊢
    cases hs : ops.save v with
    | error e =>
      rw [hs] at hok
      cases e with
      | inl e => cases hok
      | inr e =>
        dsimp only at hok
        split at hok <;> cases hok
    | ok t =>
      rw [hs] at hok
      dsimp only at hok ⊢
      by_cases hd : s.store.dir path = true
      · rw [if_pos hd]
        simp only [tryRead, if_pos]
        cases ops.load c t <;> rfl
      · rw [if_neg hd] at hok
        cases hok
  | pickle path =>
    unfold tryWrite at hok ⊢
    dsimp only at hok ⊢
    by_cases hd : s.store.dir path = true
    · rw [if_pos hd] at hok ⊢
      cases hs : ops.dump v with
      | error e =>
        rw [hs] at hok
        cases hok
      | ok u => simp [tryRead, tryScale]
    · rw [if_neg hd] at hok
      cases hok

/-- **C104, partial.** A `put` that raises before the file is opened leaves the vector that was there.
Missing: exceptions while the file is written, see the violation. -/
theorem C104_put_raises_partial (h : Handle K) (v : V) (s : FallibleState V T K) (e : Err)
    (he : (h.tryPut ops v s).1 = some e)
    (hearly : match h.place with
      | .memory _ => True
      | .text path _ => s.store.dir path = false ∨ ∃ e', ops.save v = .error (.inl e')
      | .pickle path => s.store.dir path = false) :
    (h.tryPut ops v s).2 = s := by
  unfold Handle.tryPut at *
  dsimp only at he ⊢
  suffices hw : (tryWrite ops s.store v h.place).2 = s.store by rw [hw]
  generalize h.place = place at he hearly
  cases place with
  | memory slot => cases he
  | text path c =>
    unfold tryWrite at he ⊢
    dsimp only at he hearly ⊢
    rcases hearly with hd | ⟨e', hs⟩
    · cases hs : ops.save v with
      | error e' => cases e' <;> simp [hd]
      | ok t => simp [hd]
    · rw [hs]
  | pickle path =>
    unfold tryWrite at he ⊢
    dsimp only at he hearly ⊢
    simp [hearly]

/-- **C104, violated.** A `put` that raises while the file is written destroys the vector that was in it: an
object that cannot be pickled leaves a file that cannot be read. -/
theorem C104_put_destroys_pickle_violation [DecidableEq V] (path : String) (v w : V) (e : Err) (hw : ops.dump w = .error e)
    (s : FallibleState V T K) (hd : s.store.dir path = true) (hv : s.store.pkl path = .holds v) :
    let h : Handle K := .mk (.pickle path) none none
    (h.tryGet ops s).1 = .ok v ∧ (h.tryPut ops w s).1 = some e ∧
      (h.tryGet ops (h.tryPut ops w s).2).1 = .error ops.broken := by
  simp [Handle.tryGet, Handle.tryPut, tryRead, tryWrite, Handle.place, hd, hw, hv, tryScale]

/-- The operations of handles for text files are `util.save_array_text` and `util.load_array_text`. -/
structure TextOps {R : Type*} (floatOfBits : Int → R) (ops : FallibleOps (NpArray R) (List (List R)) K) : Prop where
  save : ops.save = saveForPut floatOfBits
  load : ops.load = loadForGet
  empty : ops.empty = []

/-- **C104, partial.** Arrays with more than two dimensions and complex arrays whose rows are not
contiguous cannot be put into a text file; the file keeps the array it had. -/
theorem C104_put_text_partial {R : Type*} (floatOfBits : Int → R) (ops : FallibleOps (NpArray R) (List (List R)) K)
    (ht : TextOps floatOfBits ops) (path : String) (c : Bool) (a : NpArray R) (s : FallibleState (NpArray R) (List (List R)) K)
    (ha : a = .float .higher ∨ a = .complex .higher ∨ a = .int .higher ∨ ∃ rows, a = .complex (.d2 rows true)) :
    let h : Handle K := .mk (.text path c) none none
    (∃ e, (h.tryPut ops a s).1 = some e) ∧ (h.tryPut ops a s).2 = s := by
  have hs : ∃ e, ops.save a = .error (.inl e) := by
    rw [ht.save]
    rcases ha with rfl | rfl | rfl | ⟨rows, rfl⟩ <;> exact ⟨_, rfl⟩
  obtain ⟨e, he⟩ := hs
  have h1 : ((Handle.mk (.text path c) none none).tryPut ops a s).1 = some e := by
    simp [Handle.tryPut, Handle.place, tryWrite, he]
  exact ⟨⟨e, h1⟩, C104_put_raises_partial ops _ _ _ e h1 (Or.inr ⟨e, he⟩)⟩

/-- **C104.** Real and complex arrays of two dimensions that are put into a text file whose directory
exists come back with `get`. -/
theorem C104_text_round_trip {R : Type*} [DecidableEq (NpArray R)] (floatOfBits : Int → R)
    (ops : FallibleOps (NpArray R) (List (List R)) K) (ht : TextOps floatOfBits ops) (path : String)
    (s : FallibleState (NpArray R) (List (List R)) K) (hd : s.store.dir path = true) :
    (∀ rows, (((Handle.mk (.text path false) none none).tryGet ops
      ((Handle.mk (.text path false) none none).tryPut ops (.float (.d2 rows false)) s).2).1 = .ok (.float (.d2 rows false)))) ∧
    ∀ rows, (((Handle.mk (.text path true) none none).tryGet ops
      ((Handle.mk (.text path true) none none).tryPut ops (.complex (.d2 rows false)) s).2).1 = .ok (.complex (.d2 rows false))) := by
  constructor
  · intro rows
    obtain ⟨f, h1, h2⟩ := C14_float_round_trip floatOfBits rows false
    have hs : ops.save (.float (.d2 rows false)) = .ok f := by rw [ht.save]; unfold saveForPut; rw [h1]
    rw [C104_put_then_get]
    · dsimp only
      rw [hs, ht.load]
      dsimp only [loadForGet]
      rw [h2]
    · simp [Handle.tryPut, Handle.place, tryWrite, hs, hd]
  · intro rows
    obtain ⟨f, h1, h2⟩ := C14_complex_round_trip floatOfBits rows
    have hs : ops.save (.complex (.d2 rows false)) = .ok f := by rw [ht.save]; unfold saveForPut; rw [h1]
    rw [C104_put_then_get]
    · dsimp only
      rw [hs, ht.load]
      dsimp only [loadForGet]
      rw [h2]
    · simp [Handle.tryPut, Handle.place, tryWrite, hs, hd]

/-- **C104, violated.** The same for text files and an array without dimensions, for which `np.savetxt`
raises after it has opened the file: the file is empty then. -/
theorem C104_put_destroys_text_violation {R : Type*} (floatOfBits : Int → R)
    (ops : FallibleOps (NpArray R) (List (List R)) K) (ht : TextOps floatOfBits ops) (path : String) (x : R)
    (rows : List (List R)) (s : FallibleState (NpArray R) (List (List R)) K) (hd : s.store.dir path = true)
    (hf : s.store.txt path = some rows) :
    let h : Handle K := .mk (.text path false) none none
    tryRead ops s.store h.place = .ok (.float (.d2 rows false)) ∧ (h.tryPut ops (.float (.d0 x)) s).1 = some .valueError ∧
      tryRead ops (h.tryPut ops (.float (.d0 x)) s).2.store h.place = .ok (.float (.d2 [] false)) := by
  have hw : ops.save (.float (.d0 x)) = .error (.inr .valueError) := by rw [ht.save]; rfl
  simp [Handle.tryPut, tryRead, tryWrite, Handle.place, hd, hw, hf, ht.load, ht.empty, loadForGet, loadArrayText]

example : ∃ ops : FallibleOps (NpArray ℚ) (List (List ℚ)) ℚ, TextOps Modred.floatOfBits ops :=
  ⟨⟨loadForGet, saveForPut Modred.floatOfBits, [], fun _ => .ok (), .valueError, fun v _ => .ok v, fun v _ => .ok v⟩, rfl, rfl, rfl⟩

end

/-! ### Without exceptions this is the model of C13 -/

/-- Operations that never raise. -/
def FallibleOps.ofTotal [Sub V] (fmt : TextFormat V T) (mul : V → K → V) (empty : T) : FallibleOps V T K :=
  ⟨fun c t => .ok (fmt.load c t), fun v => .ok (fmt.save v), empty, fun _ => .ok (), .osError, fun v w => .ok (v - w),
    fun v c => .ok (mul v c)⟩

/-- All files exist and can be written. -/
def FallibleState.ofTotal (s : HandleState V T K) : FallibleState V T K :=
  ⟨⟨s.store.mem, fun p => some (s.store.txt p), fun p => .holds (s.store.pkl p), fun _ => true⟩, s.cache⟩

/-- **C104.** If nothing raises, `get` and `put` are those of C13. -/
theorem C104_without_exceptions [DecidableEq V] [Sub V] (fmt : TextFormat V T) (mul : V → K → V) (empty : T) :
    (∀ (h : Handle K) (s : HandleState V T K), h.tryGet (.ofTotal fmt mul empty) (.ofTotal s) =
      (.ok (h.get fmt mul s).1, .ofTotal (h.get fmt mul s).2)) ∧
    ∀ (h : Handle K) (v : V) (s : HandleState V T K), h.tryPut (.ofTotal fmt mul empty) v (.ofTotal s) =
      (none, .ofTotal (h.put fmt v s)) := by
  have hread : ∀ (s : HandleState V T K) (p : Place), tryRead (.ofTotal (K := K) fmt mul empty) (FallibleState.ofTotal s).store p =
      .ok (rawGet fmt s.store p) := by
    intro s p
    cases p <;> rfl
  have heq : ∀ (s : HandleState V T K) (a b : Handle K), tryHandleEq (FallibleState.ofTotal s).store a b = handleEq s.store a b :=
    fun s a b => rfl
  have hsc : ∀ (v : V) (scale : Option K), tryScale (.ofTotal fmt mul empty) v scale = .ok (scaleVec mul v scale) := by
    intro v scale
    cases scale <;> rfl
  have hss : ∀ (v w : V) (scale : Option K), trySubScale (.ofTotal fmt mul empty) v w scale = .ok (scaleVec mul (v - w) scale) := by
    intro v w scale
    cases scale <;> rfl
  constructor
  · intro h
    induction h using Handle.rec (motive_2 := fun o => ∀ b, o = some b → ∀ (s : HandleState V T K),
      b.tryGet (.ofTotal fmt mul empty) (.ofTotal s) = (.ok (b.get fmt mul s).1, .ofTotal (b.get fmt mul s).2)) with
    | mk place base scale ih =>
      intro s
      unfold Handle.tryGet Handle.get
      rw [hread]
      cases base with
      | none => simp only [hsc]
      | some b =>
        dsimp only
        rw [ih b rfl s]
        change (match s.cache with | some (ch, cv) => _ | none => _) = _
        cases hc : s.cache with
        | none => simp only [hss]; rfl
        | some c =>
          dsimp only
          rw [heq]
          split
          · simp only [hss]
          · simp only [hss]; rfl
    | none => rename_i hb _; cases hb
    | some b ih => rename_i hb s; cases hb; exact ih s
  · intro h v s
    unfold Handle.tryPut Handle.put
    cases h.place with
    | memory slot => rfl
    | text path c =>
      simp only [tryWrite, FallibleOps.ofTotal, FallibleState.ofTotal, rawPut, if_true]
      refine Prod.ext rfl ?_
      dsimp only
      congr 2
      funext p
      split <;> rfl
    | pickle path =>
      simp only [tryWrite, FallibleOps.ofTotal, FallibleState.ofTotal, rawPut, if_true]
      refine Prod.ext rfl ?_
      dsimp only
      congr 2
      funext p
      split <;> rfl

section
variable (ops : FallibleOps V T K)

/-- **C104.** `get` of a handle without base and scale returns what is stored or raises the exception of opening or loading
the file. -/
theorem C104_get_reads [DecidableEq V] (place : Place) (s : FallibleState V T K) :
    Stored ops s.store place ((Handle.mk place none none).tryGet ops s).1 ∧ ((Handle.mk place none none).tryGet ops s).2 = s := by
  constructor
  · cases place with
    | memory slot => simp [Stored, Handle.tryGet, tryRead, tryScale]
    | text path c =>
      refine ⟨fun h => by simp [Handle.tryGet, tryRead, h], fun t h => ?_⟩
      cases hl : ops.load c t <;> simp [Handle.tryGet, tryRead, h, hl, tryScale]
    | pickle path =>
      exact ⟨fun h => by simp [Handle.tryGet, tryRead, h], fun h => by simp [Handle.tryGet, tryRead, h],
        fun v h => by simp [Handle.tryGet, tryRead, h, tryScale]⟩
  · unfold Handle.tryGet
    cases tryRead ops s.store place <;> rfl

/-- **C104.** `get` of any handle whose own file is missing raises the exception of opening files, and nothing else happens. -/
theorem C104_get_missing [DecidableEq V] (place : Place) (base : Option (Handle K)) (scale : Option K) (s : FallibleState V T K)
    (hm : match place with
      | .memory _ => False
      | .text path _ => s.store.txt path = none
      | .pickle path => s.store.pkl path = .missing) :
    (Handle.mk place base scale).tryGet ops s = (.error .osError, s) := by
  cases place with
  | memory slot => exact hm.elim
  | text path c => rw [Handle.tryGet]; simp only [tryRead, hm]
  | pickle path => rw [Handle.tryGet]; simp only [tryRead, hm]

/-- **C104.** `put` raises the exception of saving or of opening the file, and no other. -/
theorem C104_put_exception (h : Handle K) (v : V) (s : FallibleState V T K) :
    PutRaises ops s.store v h.place (h.tryPut ops v s).1 := by
  unfold Handle.tryPut
  dsimp only
  generalize h.place = place
  cases place with
  | memory slot => rfl
  | text path c =>
    refine ⟨fun e he => by simp [tryWrite, he], fun hne hd => ?_, fun hd e he => by simp [tryWrite, he, hd],
      fun hd t ht => by simp [tryWrite, ht, hd]⟩
    cases hs : ops.save v with
    | error e' =>
      cases e' with
      | inl e => exact absurd hs (hne e)
      | inr e => simp [tryWrite, hs, hd]
    | ok t => simp [tryWrite, hs, hd]
  | pickle path =>
    exact ⟨fun hd => by simp [tryWrite, hd], fun hd e he => by simp [tryWrite, he, hd], fun hd u hu => by simp [tryWrite, hu, hd]⟩

end

/-- The cases occur: a missing file, and a file that cannot be opened for writing. -/
example : ∃ (ops : FallibleOps ℤ ℤ ℤ) (s : FallibleState ℤ ℤ ℤ), s.store.txt "a" = none ∧
    ((Handle.mk (.text "a" false) (some (.mk (.memory 0) none none)) (some 2)).tryGet ops s).1 = .error .osError ∧
    ((Handle.mk (K := ℤ) (.pickle "b") none none).tryPut ops 3 s).1 = some .osError :=
  ⟨⟨fun _ t => .ok t, fun v => .ok v, 0, fun _ => .ok (), .valueError, fun v w => .ok (v - w), fun v c => .ok (v * c)⟩,
    ⟨⟨fun _ => 1, fun _ => none, fun _ => .broken, fun _ => false⟩, none⟩, rfl,
    congrArg Prod.fst (C104_get_missing _ _ _ _ _ rfl), (C104_put_exception _ (.mk (.pickle "b") none none) _ _).1 rfl⟩

/-- A file that is not there yet: `get` raises, `put`, and `get` returns the vector. -/
example : tryOps (V := ℤ) (T := ℤ) (K := ℤ) ⟨fun _ t => .ok t, fun v => .ok v, 0, fun _ => .ok (), .valueError,
      fun v w => .ok (v - w), fun v c => .ok (v * c)⟩
    [.get (.mk (.text "a" false) (some (.mk (.memory 0) none none)) (some 2)),
      .put (.mk (.text "a" false) (some (.mk (.memory 0) none none)) (some 2)) 7,
      .get (.mk (.text "a" false) (some (.mk (.memory 0) none none)) (some 2)), .get (.mk (.pickle "b") none none)]
    ⟨⟨fun _ => 1, fun _ => none, fun _ => .broken, fun _ => true⟩, none⟩ =
      [.error .osError, .ok none, .ok (some 12), .error .valueError] := by
  decide +kernel

end Modred
