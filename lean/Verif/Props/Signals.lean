import Verif.Model.Signals
import Mathlib.Tactic.NormNum
import Mathlib.Tactic.Positivity
import Mathlib.Algebra.Order.Field.Rat
import Mathlib.Data.Rat.Lemmas

/-!
# Properties of signal loading (C16)
-/

namespace Modred

variable {α : Type*} [Field α] [LinearOrder α]

/-- A file with times `t` and signals `s` (one list per time). -/
def signalFile (t : List α) (s : List (List α)) : List (List α) := List.zipWith (fun x r => x :: r) t s

theorem loadSignals_file (t : List α) (s : List (List α)) (h : t.length = s.length) (m : Nat)
    (hs : ∀ r ∈ s, r.length = m) (hm : 1 ≤ m) (ht : t ≠ []) :
    loadSignals (signalFile t s) = .ok (t, s) := by
  unfold loadSignals signalFile
  have h1 : ∀ (t : List α) (s : List (List α)), t.length = s.length →
      ((List.zipWith (fun x r => x :: r) t s).map fun row => row.headD 0) = t ∧
      ((List.zipWith (fun x r => x :: r) t s).map fun row => row.drop 1) = s := by
    intro t
    induction t with
    | nil => intro s h; cases s <;> simp_all
    | cons x t ih =>
      intro s h
      cases s with
      | nil => simp at h
      | cons r s =>
        have := ih s (by simpa using h)
        rw [List.zipWith_cons_cons, List.map_cons, List.map_cons, this.1, this.2]
        exact ⟨rfl, rfl⟩
  dsimp only
  rw [(h1 t s h).1, (h1 t s h).2, if_neg]
  match t, s, h with
  | [], _, _ => exact absurd rfl ht
  | x :: t, [], h => simp at h
  | x :: t, r :: s, _ =>
    have := hs r (by simp)
    simp
    intro h
    simp [h] at this
    omega

/-- **C16.** A file of a time column and at least one signal column is split into the two. -/
theorem C16_load_signals_splits (t : List α) (s : List (List α)) (h : t.length = s.length) (m : Nat)
    (hs : ∀ r ∈ s, r.length = m) (hm : 1 ≤ m) (ht : t ≠ []) :
    loadSignals (signalFile t s) = .ok (t, s) := loadSignals_file t s h m hs hm ht

example : loadSignals (signalFile [0, 1] [[2, 3], [4, 5]]) = .ok ([0, (1 : ℚ)], [[2, 3], [4, 5]]) :=
  C16_load_signals_splits _ _ rfl 2 (by simp) (by decide) (by simp)

/-- **C16.** A file with one column is rejected. -/
theorem C16_one_column_raises (t : List α) (ht : t ≠ []) :
    loadSignals (t.map fun x => [x]) = .error .valueError := by
  cases t with
  | nil => exact absurd rfl ht
  | cons x t => simp [loadSignals]

/-- Two lists of times agree, up to numpy's tolerances. -/
def timesAgree (a b : List α) : Prop :=
  a.length = b.length ∧ ∀ (i : Nat) (h : i < a.length) (h' : i < b.length),
    |a[i] - b[i]| ≤ 1 / 10 ^ 8 + 1 / 10 ^ 5 * |b[i]|

theorem zipWith_all_iff {β : Type*} (f : β → β → Bool) (a b : List β) (h : a.length = b.length) :
    (List.zipWith f a b).all id = true ↔
      ∀ (i : Nat) (h : i < a.length) (h' : i < b.length), f a[i] b[i] = true := by
  induction a generalizing b with
  | nil => simp
  | cons x a ih =>
    cases b with
    | nil => simp at h
    | cons y b =>
      have ih := ih b (by simpa using h)
      rw [List.zipWith_cons_cons, List.all_cons, Bool.and_eq_true, ih]
      constructor
      · rintro ⟨h1, h2⟩ i hi hi'
        cases i with
        | zero => exact h1
        | succ i => exact h2 i (by simpa using hi) (by simpa using hi')
      · intro h1
        exact ⟨h1 0 (by simp) (by simp), fun i hi hi' => h1 (i + 1) (by simpa using hi) (by simpa using hi')⟩

theorem allclose_same_length (a b : List α) (h : a.length = b.length) :
    ∃ c, allclose a b = .ok c ∧ (c = true ↔ timesAgree a b) := by
  unfold allclose
  dsimp only
  rw [if_pos h]
  refine ⟨_, rfl, ?_⟩
  rw [zipWith_all_iff _ _ _ h]
  simp only [decide_eq_true_eq]
  exact ⟨fun h1 => ⟨h, h1⟩, fun h1 => h1.2⟩

theorem assign_same_shape (s : List (List α)) (m : Nat) (hs : ∀ r ∈ s, r.length = m) (hne : s ≠ []) :
    assignSignals s.length m s = .ok s := by
  have hcols : (s.headD []).length = m := by
    cases s with
    | nil => exact absurd rfl hne
    | cons r s => exact hs r (by simp)
  unfold assignSignals
  dsimp only
  rw [hcols, if_pos ⟨.inl rfl, .inl rfl⟩]
  congr 1
  apply List.ext_getElem (by simp)
  intro i h1 h2
  have hlen := hs s[i] (List.getElem_mem h2)
  apply List.ext_getElem (by simp [hlen])
  intro j h3 h4
  simp only [List.getElem_map, List.getElem_range]
  have e1 : (if s.length = 1 then 0 else i) = i := by split <;> omega
  have e2 : (if m = 1 then 0 else j) = j := by split <;> omega
  rw [e1, e2]
  simp [List.getD, h2, h4]

theorem loadLoop_spec (T : List α) (m : Nat) (hm : 1 ≤ m) (hT : T ≠ [])
    (files : List (List α × List (List α)))
    (hf : ∀ f ∈ files, f.1.length = T.length ∧ f.2.length = T.length ∧ ∀ r ∈ f.2, r.length = m) :
    ((∀ f ∈ files, timesAgree f.1 T) →
      loadLoop T m (files.map fun f => signalFile f.1 f.2) = .ok (files.map fun f => f.2)) ∧
    ((¬ ∀ f ∈ files, timesAgree f.1 T) →
      loadLoop T m (files.map fun f => signalFile f.1 f.2) = .error .valueError) := by
  induction files with
  | nil => simp [loadLoop]
  | cons f files ih =>
    obtain ⟨h1, h2, h3⟩ := hf f (by simp)
    have ih := ih fun g hg => hf g (by simp [hg])
    have hTl : 0 < T.length := List.length_pos_iff.mpr hT
    have hl : loadSignals (signalFile f.1 f.2) = .ok (f.1, f.2) :=
      loadSignals_file _ _ (by omega) m h3 hm (by rw [← List.length_pos_iff]; omega)
    obtain ⟨c, hc, hc'⟩ := allclose_same_length f.1 T h1
    have ha : assignSignals T.length m f.2 = .ok f.2 := by
      rw [← h2]
      exact assign_same_shape f.2 m h3 (by rw [← List.length_pos_iff]; omega)
    rw [List.map_cons, List.map_cons]
    unfold loadLoop
    rw [hl]
    dsimp only
    rw [hc]
    cases c with
    | false =>
      have hno : ¬ timesAgree f.1 T := fun h => by simpa using hc'.mpr h
      exact ⟨fun h => absurd (h f (by simp)) hno, fun _ => rfl⟩
    | true =>
      dsimp only
      rw [ha]
      dsimp only
      constructor
      · intro h
        rw [ih.1 fun g hg => h g (by simp [hg])]
      · intro h
        rw [ih.2]
        intro h'
        exact h fun g hg => by
          rcases List.mem_cons.mp hg with rfl | hg
          · exact hc'.mp rfl
          · exact h' g hg

/-- **C16.** For files of one shape: the signals of file `k` are at position `k`, together with the
times of the first file, if the times of all files agree; otherwise `ValueError` is raised. -/
theorem C16_load_multiple_signals (first : List α × List (List α))
    (files : List (List α × List (List α))) (m : Nat) (hm : 1 ≤ m) (hne : first.1 ≠ [])
    (hf : ∀ f ∈ first :: files,
      f.1.length = first.1.length ∧ f.2.length = first.1.length ∧ ∀ r ∈ f.2, r.length = m) :
    ((∀ f ∈ first :: files, timesAgree f.1 first.1) →
      loadMultipleSignals ((first :: files).map fun f => signalFile f.1 f.2) =
        .ok (first.1, (first :: files).map fun f => f.2)) ∧
    ((¬ ∀ f ∈ first :: files, timesAgree f.1 first.1) →
      loadMultipleSignals ((first :: files).map fun f => signalFile f.1 f.2) =
        .error .valueError) := by
  obtain ⟨h1, h2, h3⟩ := hf first (by simp)
  have hTl : 0 < first.1.length := List.length_pos_iff.mpr hne
  have hl : loadSignals (signalFile first.1 first.2) = .ok (first.1, first.2) :=
    loadSignals_file _ _ (by omega) m h3 hm hne
  have hw : (first.2.headD []).length = m := by
    cases h : first.2 with
    | nil => rw [h] at h2; simp at h2; omega
    | cons r s => exact h3 r (by simp [h])
  have := loadLoop_spec first.1 m hm hne (first :: files) hf
  unfold loadMultipleSignals
  rw [List.map_cons] at this ⊢
  dsimp only
  rw [hl]
  dsimp only
  rw [hw]
  constructor
  · intro h
    rw [this.1 h]
  · intro h
    rw [this.2 h]

omit [LinearOrder α] in
theorem timesAgree_self [LinearOrder α] [IsStrictOrderedRing α] (t : List α) : timesAgree t t :=
  ⟨rfl, fun i _ _ => by rw [sub_self, abs_zero]; positivity⟩

example : loadMultipleSignals [signalFile [0, 1] [[2, 3], [4, 5]], signalFile [0, 1] [[6, 7], [8, 9]]] =
    .ok ([0, (1 : ℚ)], [[[2, 3], [4, 5]], [[6, 7], [8, 9]]]) :=
  (C16_load_multiple_signals ([0, 1], [[2, 3], [4, 5]]) [([0, 1], [[6, 7], [8, 9]])] 2 (by decide)
    (by simp) (by simp)).1 (by
      intro f hf
      simp at hf
      rcases hf with rfl | rfl <;> exact timesAgree_self _)

/-- **C16.** No files at all raise `IndexError`. -/
theorem C16_no_files_raise : loadMultipleSignals ([] : List (List (List α))) = .error .indexError := rfl

/-- **C16, violation.** A file with one signal is accepted next to files with more, and its signal is
silently repeated. -/
theorem C16_single_signal_repeated_violation [IsStrictOrderedRing α] (t a b c : α) :
    loadMultipleSignals [[[t, a, b]], [[t, c]]] = .ok ([t], [[[a, b]], [[c, c]]]) := by
  have hself : |t - t| ≤ 1 / 10 ^ 8 + 1 / 10 ^ 5 * |t| := by
    rw [sub_self, abs_zero]; positivity
  simp [loadMultipleSignals, loadLoop, loadSignals, allclose, assignSignals, List.range_succ]
  have := hself
  simp at this
  simp [this]

end Modred
