import Verif.Spec.Arguments

/-!
# C108: one handle does what a list of one handle does
-/

namespace Modred

open Matrix

section VectorSpace

variable {V K : Type*}

theorem stands_iterable {a : HandlesArg V} {l : List V} (h : Stands a l) : makeIterable a = .seq l := by
  cases h <;> rfl

/-- Inner products of handles in any form that stands for a list are those of the lists: one handle as rows or columns
does what a list of one does, on all processes and with all memory limits. -/
theorem C108_inner_products_partial [Add K] [Star K] (p tag maxVecsPerProc : Nat) (ip : Option (V → V → K))
    (cast : K → K → K) {rowHandles colHandles : HandlesArg V} {rows cols : List V} (hr : Stands rowHandles rows)
    (hc : Stands colHandles cols) :
    innerProductsOf p tag maxVecsPerProc ip cast rowHandles colHandles =
      computeInnerProductArray p tag maxVecsPerProc ip cast rows cols := by
  cases ip with
  | none => rfl
  | some ip =>
    simp only [innerProductsOf, stands_iterable hr, stands_iterable hc, HandlesArg.len]
    by_cases h : rows.length > cols.length
    · simp only [if_pos h]
      cases rows with
      | nil => simp at h
      | cons r rs =>
        cases cols with
        | nil => simp [HandlesArg.entries, computeInnerProductArray]
        | cons c cs => simp [HandlesArg.entries]
    · simp only [if_neg h]
      cases rows with
      | nil => simp [HandlesArg.entries, computeInnerProductArray]
      | cons r rs =>
        cases cols with
        | nil => simp at h
        | cons c cs => simp [HandlesArg.entries]

/-- The same for inner products of handles with themselves. -/
theorem C108_symm_inner_products_partial [Add K] [Mul K] [Zero K] [One K] [Star K] [DecidableEq K]
    (p tag maxVecsPerProc : Nat) (ip : Option (V → V → K)) (cast : K → K → K) {handles : HandlesArg V} {vecs : List V}
    (h : Stands handles vecs) :
    symmInnerProductsOf p tag maxVecsPerProc ip cast handles =
      computeSymmInnerProductArray p tag maxVecsPerProc ip cast vecs := by
  cases ip with
  | none => rfl
  | some ip =>
    simp only [symmInnerProductsOf, stands_iterable h, HandlesArg.len]
    cases vecs with
    | nil => simp [HandlesArg.entries, computeSymmInnerProductArray]
    | cons v vs => simp [HandlesArg.entries]

/-- Handles given as an iterator or as a collection without order raise `TypeError`, also if there is only one of them;
only an empty list among the other handles may raise `IndexError` before. -/
theorem C108_no_list_raises [Add K] [Star K] [Mul K] [Zero K] [One K] [DecidableEq K] (p tag maxVecsPerProc : Nat)
    (ip : V → V → K) (cast : K → K → K) {a : HandlesArg V} (ha : NoList a) :
    symmInnerProductsOf p tag maxVecsPerProc (some ip) cast a = .error .typeError ∧
      ∀ b, (∀ l, Stands b l → l ≠ []) →
        innerProductsOf p tag maxVecsPerProc (some ip) cast a b = .error .typeError ∧
        innerProductsOf p tag maxVecsPerProc (some ip) cast b a = .error .typeError := by
  cases a with
  | single v => exact absurd (Stands.one v) (ha _)
  | seq l => exact absurd (Stands.seq l) (ha _)
  | iterator l =>
    refine ⟨rfl, fun b hb => ?_⟩
    cases b <;> simp [innerProductsOf, makeIterable, HandlesArg.len]
  | unordered l =>
    refine ⟨rfl, fun b hb => ?_⟩
    cases b with
    | single v => simp only [innerProductsOf, makeIterable, HandlesArg.len]; split_ifs <;> simp [HandlesArg.entries]
    | seq m =>
      have hm := hb m (.seq m)
      obtain ⟨x, xs, rfl⟩ := List.exists_cons_of_ne_nil hm
      simp only [innerProductsOf, makeIterable, HandlesArg.len]; split_ifs <;> simp [HandlesArg.entries]
    | iterator m => simp [innerProductsOf, makeIterable, HandlesArg.len]
    | unordered m => simp only [innerProductsOf, makeIterable, HandlesArg.len]; split_ifs <;> simp [HandlesArg.entries]

end VectorSpace

section Combine

variable {𝕜 : Type*} [RCLike 𝕜] {E : Type*} {S : Type*}

theorem columnsOf_stands {m n : Nat} (a : Matrix (Fin m) (Fin n) 𝕜) {i : IndexArg} {l : List Int}
    (h : IndexStands i l) : columnsOf a i = pickCols a (some l) := by
  cases h with
  | many l => rfl
  | one i =>
    simp only [columnsOf, pickCols, npAxisIndices, npAxisIndex]
    split_ifs
    · refine congrArg Except.ok (congrArg (Cols.mk 1) ?_)
      ext k j
      obtain rfl : j = 0 := Subsingleton.elim _ _
      rfl
    · refine congrArg Except.ok (congrArg (Cols.mk 1) ?_)
      ext k j
      obtain rfl : j = 0 := Subsingleton.elim _ _
      rfl
    · rfl

theorem combine_columns_first [AddCommMonoid E] [Module 𝕜 E] {m r : Nat} (b : List E)
    (coeff : Matrix (Fin m) (Fin r) 𝕜) (idx : List Int) (numSums : Nat) :
    linCombineSized numSums b.get coeff (some idx) =
      match pickCols coeff (some idx) with
      | .error e => .error e
      | .ok c =>
        if b.length ≠ m then .error .valueError
        else if numSums ≠ c.k then .error .valueError
        else if b = [] then .error .indexError
        else linCombineSized numSums b.get c.a none := by
  by_cases hb : b.length = m
  · subst hb
    simp only [linCombineSized, dif_pos, handlesLinCombine, pickCols]
    cases npAxisIndices r idx with
    | error e => rfl
    | ok l =>
      by_cases hs : numSums = l.length
      · by_cases he : b = []
        · subst he; simp [hs]
        · have he' : b.length ≠ 0 := by simpa using he
          simp [hs, he]
      · simp [hs]
  · simp only [linCombineSized, dif_neg hb]
    cases pickCols coeff (some idx) <;> simp [hb]

theorem combine_sized_ok [AddCommMonoid E] [Module 𝕜 E] {m k : Nat} (b : List E) (hb : b.length = m) (hb0 : b ≠ [])
    (c : Matrix (Fin m) (Fin k) 𝕜) : ∃ out, linCombineSized k b.get c none = .ok out := by
  subst hb
  have : b.length ≠ 0 := by simpa using hb0
  simp [linCombineSized, handlesLinCombine, pickCols, hb0]

/-- One basis handle, one sum handle and one column index do what lists of one do. -/
theorem C108_lin_combine_partial [AddCommMonoid E] [Module 𝕜 E] {m r : Nat} {sumHandles : HandlesArg S} {sums : List S}
    {basisHandles : HandlesArg E} {basis : List E} (coeff : Matrix (Fin m) (Fin r) 𝕜) {i : IndexArg} {idx : List Int}
    (hs : Stands sumHandles sums) (hb : Stands basisHandles basis) (hi : IndexStands i idx) :
    combineOf sumHandles basisHandles coeff i = linCombineSized sums.length basis.get coeff (some idx) := by
  rw [combine_columns_first]
  simp only [combineOf, stands_iterable hs, stands_iterable hb, HandlesArg.len, columnsOf_stands coeff hi]
  cases pickCols coeff (some idx) with
  | error e => rfl
  | ok c =>
    dsimp only
    by_cases h1 : basis.length ≠ m
    · rw [if_pos h1, if_pos h1]
    by_cases h2 : sums.length ≠ c.k
    · rw [if_neg h1, if_pos h2, if_neg h1, if_pos h2]
    rw [if_neg h1, if_neg h2, if_neg h1, if_neg h2]
    cases basis with
    | nil => rfl
    | cons b bs => cases sums <;> rfl

/-- Linear combinations of basis handles given as an iterator or as a collection without order raise an exception, and
so do sum handles given in these forms, if there is anything to put. -/
theorem C108_lin_combine_no_list_raises [AddCommMonoid E] [Module 𝕜 E] {m r : Nat} (coeff : Matrix (Fin m) (Fin r) 𝕜)
    (i : IndexArg) (sumHandles : HandlesArg S) (basisHandles : HandlesArg E) (out : Vecs E)
    (ho : combineOf sumHandles basisHandles coeff i = .ok out) :
    ¬ NoList basisHandles ∧ (NoList sumHandles → sumHandles = .unordered []) := by
  have hb : ¬ NoList basisHandles := by
    intro hn
    cases basisHandles with
    | single v => exact hn _ (Stands.one v)
    | seq l => exact hn _ (Stands.seq l)
    | iterator l => simp [combineOf, makeIterable, HandlesArg.len] at ho
    | unordered l =>
      simp only [combineOf, makeIterable, HandlesArg.len, HandlesArg.entries] at ho
      repeat' split at ho
      all_goals simp_all
  refine ⟨hb, fun hn => ?_⟩
  cases sumHandles with
  | single v => exact absurd (Stands.one v) (hn _)
  | seq l => exact absurd (Stands.seq l) (hn _)
  | iterator l =>
    simp only [combineOf, makeIterable, HandlesArg.len] at ho
    repeat' split at ho
    all_goals simp_all
  | unordered l =>
    cases l with
    | nil => rfl
    | cons x xs =>
      simp only [combineOf, makeIterable, HandlesArg.len, HandlesArg.entries, List.length_cons, Nat.add_eq_zero_iff,
        one_ne_zero, and_false, if_false] at ho
      repeat' split at ho
      all_goals simp_all

end Combine

section Methods

variable {𝕜 : Type*} [RCLike 𝕜] {E : Type*} {S : Type*}

/-- An object of the class `PODHandles` that was given one handle, or sequences of handles, returns and keeps what an
object that was given lists returns and keeps. -/
theorem C108_pod_decomp_partial (lib : PodObjLib 𝕜) (ip : E → E → 𝕜) {g : PodArgs 𝕜 E} {g' : PodObj 𝕜 E}
    (hg : PodStands g g') {vecs : HandlesArg E} {l : List E} (hv : Stands vecs l) (atol rtol : Option ℝ) :
    (g.computeDecomp lib ip vecs atol rtol).1 = (g'.computeDecomp lib ip l atol rtol).1 ∧
      PodStands (g.computeDecomp lib ip vecs atol rtol).2 (g'.computeDecomp lib ip l atol rtol).2 := by
  obtain ⟨_, h2, h3, h4⟩ := hg
  simp only [PodArgs.computeDecomp, PodObj.computeDecomp, stands_iterable hv, HandlesArg.len]
  cases l with
  | nil => exact ⟨rfl, Or.inr ⟨vecs, [], rfl, rfl, hv⟩, h2, h3, h4⟩
  | cons v vs =>
    simp only [HandlesArg.entries, reduceCtorEq, if_false, PodObj.computeEigendecomp]
    cases utilEigh lib.eigh lib.argsort (handlesSymmIp ip (v :: vs).get) atol rtol true with
    | error e => exact ⟨rfl, Or.inr ⟨vecs, _, rfl, rfl, hv⟩, rfl, h3, h4⟩
    | ok e => exact ⟨rfl, Or.inr ⟨vecs, _, rfl, rfl, hv⟩, rfl, rfl, h4⟩

/-- The same for the modes of such an object. -/
theorem C108_pod_modes_partial [AddCommMonoid E] [Module 𝕜 E] {g : PodArgs 𝕜 E} {g' : PodObj 𝕜 E}
    (hg : PodStands g g') {i : IndexArg} {idx : List Int} (hi : IndexStands i idx) {modeHandles : HandlesArg S}
    {modes : List S} (hm : Stands modeHandles modes) {vecs : Option (HandlesArg E)} {l : Option (List E)}
    (hv : (vecs = none ∧ l = none) ∨ ∃ a b, vecs = some a ∧ l = some b ∧ Stands a b) :
    (g.computeModes i modeHandles vecs).1 = (g'.computeModes idx modes.length l).1 ∧
      PodStands (g.computeModes i modeHandles vecs).2 (g'.computeModes idx modes.length l).2 := by
  obtain ⟨h1, h2, h3, h4⟩ := hg
  have key : ∀ (f : PodArgs 𝕜 E) (f' : PodObj 𝕜 E), PodStands f f' →
      (f.computeModes i modeHandles none).1 = (f'.computeModes idx modes.length none).1 ∧
      PodStands (f.computeModes i modeHandles none).2 (f'.computeModes idx modes.length none).2 := by
    intro f f' ⟨k1, k2, k3, k4⟩
    simp only [PodArgs.computeModes, PodObj.computeModes, Option.isSome_none, Bool.false_eq_true, if_false, k3]
    cases hd : f'.decomp with
    | none => exact ⟨rfl, k1, k2, k3, k4⟩
    | some d =>
      dsimp only
      rcases k1 with ⟨k1, k1'⟩ | ⟨a, b, k1, k1', ks⟩
      · simp only [k1, k1', combineAttr]
        rw [C108_lin_combine_partial _ hm (Stands.one (0 : E)) hi, combine_columns_first]
        cases pickCols (d.eigvecs * diagPow (𝕜 := 𝕜) d.eigvals (-0.5)) (some idx) with
        | error e => exact ⟨rfl, Or.inl ⟨k1, k1'⟩, k2, k3, k4⟩
        | ok c =>
          dsimp only
          by_cases hc : d.m = 1 ∧ modes.length = c.k
          · obtain ⟨out, ho⟩ := combine_sized_ok [(0 : E)] (by simpa using hc.1.symm) (by simp) c.a
            rw [if_neg (by simpa using hc.1.symm), if_neg (by simpa using hc.2), if_neg (by simp), hc.2, ho,
              if_pos ⟨hc.1, rfl⟩]
            exact ⟨rfl, Or.inl ⟨k1, k1'⟩, k2, k3, k4⟩
          · rw [if_neg hc]
            by_cases h1 : [(0 : E)].length ≠ d.m
            · rw [if_pos h1]; exact ⟨rfl, Or.inl ⟨k1, k1'⟩, k2, k3, k4⟩
            · rw [if_neg h1, if_pos (fun h => hc ⟨by simpa using (not_not.1 h1).symm, h⟩)]
              exact ⟨rfl, Or.inl ⟨k1, k1'⟩, k2, k3, k4⟩
      · simp only [k1, k1', combineAttr]
        exact ⟨C108_lin_combine_partial _ hm ks hi, Or.inr ⟨a, b, k1, k1', ks⟩, k2, k3, k4⟩
  rcases hv with ⟨rfl, rfl⟩ | ⟨a, b, rfl, rfl, hs⟩
  · exact key g g' ⟨h1, h2, h3, h4⟩
  · have := key { g with vecs := some (makeIterable a) } { g' with vecs := some b }
      ⟨Or.inr ⟨_, b, rfl, rfl, stands_iterable hs ▸ Stands.seq b⟩, h2, h3, h4⟩
    exact this

/-- Modes of an object of the class `BPODHandles` from one handle, given when modes are computed, are those of the list
of it. -/
theorem C108_bpod_modes_partial [AddCommMonoid E] [Module 𝕜 E] {m r : Nat} (attr : Option (HandlesArg E))
    {vecs : HandlesArg E} {l : List E} (hv : Stands vecs l) (build : Matrix (Fin m) (Fin r) 𝕜) {i : IndexArg}
    {idx : List Int} (hi : IndexStands i idx) {modeHandles : HandlesArg S} {modes : List S}
    (hm : Stands modeHandles modes) :
    bpodModesOf attr (some vecs) build i modeHandles =
      (linCombineSized modes.length l.get build (some idx), some (.seq l)) := by
  simp only [bpodModesOf, stands_iterable hv]
  rw [C108_lin_combine_partial build hm (Stands.seq l) hi]

/-- Exact dynamic modes from one advanced handle are those of the list of it; all dynamic modes from sequences are those
from lists. -/
theorem C108_dmd_modes_partial [AddCommMonoid E] [Module 𝕜 E] {m r : Nat} (vecs : Option (HandlesArg E))
    (build : Matrix (Fin m) (Fin r) 𝕜) {i : IndexArg} {idx : List Int} (hi : IndexStands i idx)
    {modeHandles : HandlesArg S} {modes : List S} (hm : Stands modeHandles modes) (l : List E) :
    (∀ adv b, Stands adv b → dmdExactModesOf vecs (some adv) build i modeHandles =
      linCombineSized modes.length b.get build (some idx)) ∧
    dmdExactModesOf (some (.seq l)) none build i modeHandles = exactModesFrom (some l) none build idx modes.length ∧
    dmdSpanModesOf (some (.seq l)) build i modeHandles = spanModesFrom (some l) build idx modes.length := by
  refine ⟨fun adv b hb => C108_lin_combine_partial build hm hb hi, ?_, ?_⟩
  · simp only [dmdExactModesOf, HandlesArg.len, HandlesArg.slice, exactModesFrom]
    rw [C108_lin_combine_partial build hm (Stands.seq _) hi]
  · simp only [dmdSpanModesOf, HandlesArg.len, HandlesArg.slice, spanModesFrom]
    rw [C108_lin_combine_partial build hm (Stands.seq _) hi, C108_lin_combine_partial build hm (Stands.seq _) hi]

/-- From sequences, the decomposition of `BPODHandles` computes inner products of the handles that
`BpodObj.computeDecomp` takes: all adjoint ones with the first direct ones, and the last adjoint ones with all direct
ones. -/
theorem C108_bpod_slices_partial (direct adjoint : List E) (numInputs numOutputs : Nat) :
    bpodSlices (.seq direct) (.seq adjoint) numInputs numOutputs =
      .ok ((.seq adjoint, .seq (List.ofFn (firstEntries direct.get numInputs))),
        (.seq (List.ofFn (lastVecs adjoint.get numOutputs)), .seq direct)) := by
  simp only [bpodSlices, HandlesArg.slice]
  have h1 : direct.take numInputs = List.ofFn (firstEntries direct.get numInputs) := by
    apply List.ext_getElem
    · simp
    · intro i hi hj
      simp [firstEntries]
  have h2 : adjoint.drop (if numOutputs = 0 then 0 else adjoint.length - numOutputs) =
      List.ofFn (lastVecs adjoint.get numOutputs) := by
    apply List.ext_getElem
    · rw [List.length_ofFn, List.length_drop, lastCount]; split_ifs <;> omega
    · intro i hi hj
      simp only [List.getElem_drop, List.getElem_ofFn, lastVecs, List.get_eq_getElem]
      congr 1
      rw [lastCount]; split_ifs <;> omega
  rw [h1, h2]

/-- The decomposition of `BPODHandles` raises `TypeError` for one direct or one adjoint handle, whereas lists of one
are accepted: the handles are sliced before they are made a list. -/
theorem C108_bpod_one_handle_violation (v w : E) (numInputs numOutputs : Nat) (b : HandlesArg E) :
    bpodSlices (.single v) b numInputs numOutputs = .error .typeError ∧
      bpodSlices (.seq [v]) (.single w) numInputs numOutputs = .error .typeError ∧
      bpodSlices (.seq [v]) (.seq [w]) 1 1 = .ok ((.seq [w], .seq [v]), (.seq [w], .seq [v])) :=
  ⟨rfl, rfl, rfl⟩

/-- Dynamic mode decomposition of one handle with one advanced handle raises `TypeError`, and so do projected and
adjoint modes from one handle, whereas lists of one are accepted. -/
theorem C108_dmd_one_handle_violation [AddCommMonoid E] [Module 𝕜 E] {r : Nat} (v w : E)
    (build : Matrix (Fin 1) (Fin r) 𝕜) (idx : List Int) (modes : List S) (b : HandlesArg E) :
    dmdCheckOf (.single v) (some b) = .error .typeError ∧
      dmdCheckOf (.seq [v]) (some (.single w)) = .error .typeError ∧
      dmdCheckOf (.seq [v]) (some (.seq [w])) = .ok () ∧
      dmdSpanModesOf (some (.single v)) build (.many idx) (.seq modes) = .error .typeError ∧
      dmdSpanModesOf (some (.seq [v])) build (.many idx) (.seq modes) =
        linCombineSized modes.length (fun _ : Fin 1 => v) build (some idx) := by
  refine ⟨rfl, rfl, rfl, rfl, ?_⟩
  rw [(C108_dmd_modes_partial none build (IndexStands.many idx) (Stands.seq modes) [v]).2.2]
  simp only [spanModesFrom, List.length_singleton]
  rw [if_neg (by omega), if_pos trivial]
  refine congrArg (fun f : Fin 1 → E => linCombineSized modes.length f build (some idx)) ?_
  funext j
  obtain rfl : j = (0 : Fin 1) := Subsingleton.elim (α := Fin 1) _ _
  rfl

/-- One handle for the vectors, one for the mode and one index give what lists of one give; an iterator does not. -/
example :
    combineOf (𝕜 := ℝ) (.single ()) (.single (3 : ℝ)) !![(2 : ℝ), 5] (.one (-1)) =
      linCombineSized 1 (fun _ : Fin 1 => (3 : ℝ)) !![(2 : ℝ), 5] (some [-1]) ∧
    (∃ out, combineOf (𝕜 := ℝ) (.single ()) (.single (3 : ℝ)) !![(2 : ℝ), 5] (.one (-1)) = .ok out ∧
      ∃ h : out.k = 1, out.v ⟨0, by omega⟩ = 15) ∧
    NoList (HandlesArg.iterator [(3 : ℝ)]) := by
  have h := C108_lin_combine_partial (𝕜 := ℝ) !![(2 : ℝ), 5] (Stands.one ()) (Stands.one (3 : ℝ)) (IndexStands.one (-1))
  refine ⟨h, ?_, fun l hl => by cases hl⟩
  rw [h]
  refine ⟨_, rfl, rfl, ?_⟩
  show ∑ i : Fin 1, (!![(2 : ℝ), 5] : Matrix (Fin 1) (Fin 2) ℝ) i 1 • (3 : ℝ) = 15
  simp; norm_num

/-- Inner products of one handle with a list of two. -/
example : innerProductsOf 2 0 3 (some fun v w : Int => v * w) (fun _ x => x) (.single 2) (.seq [3, 4]) =
    computeInnerProductArray 2 0 3 (some fun v w : Int => v * w) (fun _ x => x) [2] [3, 4] :=
  C108_inner_products_partial 2 0 3 _ _ (Stands.one 2) (Stands.seq [3, 4])

/-- Objects without handles stand for each other. -/
example : PodStands (𝕜 := ℝ) (E := ℝ) ⟨none, none, none, none⟩ PodObj.new := ⟨Or.inl ⟨rfl, rfl⟩, rfl, rfl, rfl⟩

end Methods

end Modred
