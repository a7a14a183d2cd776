import Verif.Spec.Helpers
import Verif.Props.VectorSpace
import Verif.Props.Reductions

/-!
# C112: helpers for blocks of inner products, reductions and comparisons
-/

namespace Modred

variable {V K A : Type*}


/-- **C112, what holds.** If assignment to an array of the type of the first inner product keeps all inner products,
`InnerProductBlock` gives the array of inner products.  Missing: inner products of several types, and empty lists. -/
theorem C112_block_exact_partial (ip : V → V → K) (cast : K → K → K) (vecs1 vecs2 : List V) (h1 : 0 < vecs1.length)
    (h2 : 0 < vecs2.length) (hcast : ∀ v ∈ vecs1, ∀ w ∈ vecs2, cast (ip vecs1[0] vecs2[0]) (ip v w) = ip v w) :
    ∃ b, innerProductBlock ip cast vecs1 vecs2 = .ok b ∧ b.length = vecs1.length ∧
      ∀ (i : Nat) (hi : i < vecs1.length), ∃ row, b[i]? = some row ∧ row.length = vecs2.length ∧
        ∀ (j : Nat) (hj : j < vecs2.length), row[j]? = some (ip vecs1[i] vecs2[j]) := by
  have e1 : vecs1.head? = some vecs1[0] := by rw [List.head?_eq_getElem?, List.getElem?_eq_getElem h1]
  have e2 : vecs2.head? = some vecs2[0] := by rw [List.head?_eq_getElem?, List.getElem?_eq_getElem h2]
  refine ⟨_, by rw [innerProductBlock, e1, e2], by simp,
    fun i hi => ⟨vecs2.map fun y => cast (ip vecs1[0] vecs2[0]) (ip vecs1[i] y), ?_, ?_, fun j hj => ?_⟩⟩
  · simp [hi]
  · simp
  · simp [hj, hcast _ (List.getElem_mem hi) _ (List.getElem_mem hj)]

/-- The hypotheses can be met: two rows and three columns. -/
example : ∃ b, innerProductBlock (fun v w : ℚ => v * w) (fun _ v => v) [1, 2] [3, 4, 5] = .ok b ∧ b.length = 2 ∧
    ∀ (i : Nat) (hi : i < 2), ∃ row, b[i]? = some row ∧ row.length = 3 ∧
      ∀ (j : Nat) (hj : j < 3), row[j]? = some ([1, 2][i] * [3, 4, 5][j]) :=
  C112_block_exact_partial (fun v w : ℚ => v * w) (fun _ v => v) [1, 2] [3, 4, 5] (by decide) (by decide)
    fun _ _ _ _ => rfl

/-- **C112, violation.** If the first inner product is an integer, others lose their fractions, and for an empty list
`IndexError` is raised. -/
theorem C112_block_violation : ∃ (ip : ℚ → ℚ → ℚ) (cast : ℚ → ℚ → ℚ),
    (∀ first v, cast first v = if first.den = 1 then (v.num.tdiv v.den : ℚ) else v) ∧
    (∀ v w, ip w v = ip v w) ∧
    innerProductBlock ip cast [1] [1, 1 / 2] = .ok [[1, 0]] ∧ ip 1 (1 / 2) = 1 / 2 ∧
    ∀ vecs, innerProductBlock ip cast [] vecs = .error .indexError := by
  refine ⟨fun v w => v * w, fun first v => if first.den = 1 then (v.num.tdiv v.den : ℚ) else v,
    fun _ _ => rfl, fun v w => mul_comm _ _, ?_, by norm_num, fun vecs => rfl⟩
  decide +kernel

/-- **C112.** `InnerProductBlock` raises what `compute_inner_product_array` raises and otherwise gives what it gives on
any number of processes, for no more rows than columns, also when fractions are lost: comparing the two does not find
the violations of C51. -/
theorem C112_block_is_array [AddZeroClass K] [Star K] (procs nodes : Nat)
    (hp : 1 ≤ procs) (hn : 1 ≤ nodes) (request : Option Nat) (tag : Nat) (ip : V → V → K)
    (cast : K → K → K) (rows cols : List V) (hle : rows.length ≤ cols.length) :
    match innerProductBlock ip cast rows cols with
    | .error e => computeInnerProductArray procs tag (limits request procs nodes).perProc (some ip) cast rows cols =
        .error e
    | .ok b => ∃ job, computeInnerProductArray procs tag (limits request procs nodes).perProc (some ip) cast
        rows cols = .ok job ∧ EveryInterleaving procs job.prog ipInit fun _ s => s.err = false ∧
          ∀ (i j : Nat) (row : List K) (x : K), b[i]? = some row → row[j]? = some x → job.ret s i j = x := by
  by_cases h : rows = [] ∨ cols = []
  · obtain ⟨e, h1, rfl⟩ := C07_empty_list_raises procs tag (limits request procs nodes).perProc ip cast rows cols h
    have : innerProductBlock ip cast rows cols = .error .indexError := by
      rcases h with rfl | rfl
      · rfl
      · cases rows <;> rfl
    rw [this]
    exact h1
  · rw [not_or] at h
    have hr := List.length_pos_of_ne_nil h.1
    have hc := List.length_pos_of_ne_nil h.2
    have e1 : rows.head? = some rows[0] := by rw [List.head?_eq_getElem?, List.getElem?_eq_getElem hr]
    have e2 : cols.head? = some cols[0] := by rw [List.head?_eq_getElem?, List.getElem?_eq_getElem hc]
    rw [innerProductBlock, e1, e2]
    obtain ⟨job, h1, h2⟩ := C07_inner_product_array_in_general procs nodes hp hn request tag ip cast rows cols hr hc
    refine ⟨job, h1, fun sync n s hrun => ?_⟩
    obtain ⟨h3, h4, h5⟩ := h2 sync n s hrun
    refine ⟨h3, h4, fun hfin => ⟨fun r hr => ⟨((h5 hfin).1 r hr).1, fun i j row x hi hj => ?_⟩, (h5 hfin).2⟩⟩
    rw [List.getElem?_map, Option.map_eq_some_iff] at hi
    obtain ⟨v, hv, rfl⟩ := hi
    rw [List.getElem?_map, Option.map_eq_some_iff] at hj
    obtain ⟨w, hw, rfl⟩ := hj
    obtain ⟨hi', rfl⟩ := List.getElem?_eq_some_iff.1 hv
    obtain ⟨hj', rfl⟩ := List.getElem?_eq_some_iff.1 hw
    rw [((h5 hfin).1 r hr).2 i j hi' hj', if_pos hle]


theorem sumDim_error {a b : Nat} {e : Err} (h : sumDim a b = .error e) : e = .valueError := by
  rw [sumDim] at h
  split_ifs at h
  simpa using h.symm

theorem sumDim_comm (a b : Nat) : sumDim a b = sumDim b a := by
  rw [sumDim, sumDim]
  split_ifs <;> first | rfl | (simp only [Except.ok.injEq]; omega) | omega

theorem sumDim_one_left (b : Nat) : sumDim 1 b = .ok b := by
  rw [sumDim]
  by_cases h : 1 = b ∨ b = 1
  · rw [if_pos h]
    congr 1
    omega
  · rw [if_neg h, if_pos rfl]

theorem sumDim_assoc (a b c : Nat) :
    ((sumDim a b).bind fun d => sumDim d c) = ((sumDim b c).bind fun d => sumDim a d) := by
  by_cases h1 : a = 1
  · subst h1
    rw [sumDim_one_left]
    cases h2 : sumDim b c with
    | error e => simp [Except.bind, h2]
    | ok d => simp [Except.bind, h2, sumDim_one_left]
  · by_cases h2 : a = b
    · subst h2
      rw [sumDim, if_pos (Or.inl rfl)]
      by_cases h3 : a = c ∨ c = 1
      · simp [Except.bind, sumDim, h3]
      · simp [Except.bind, sumDim, h3, h1]
    · by_cases h3 : b = 1
      · subst h3
        rw [sumDim_one_left, sumDim, if_pos (Or.inr rfl)]
        rfl
      · have h : sumDim a b = .error .valueError := by
          rw [sumDim, if_neg (by omega), if_neg h1]
        rw [h]
        by_cases h4 : b = c ∨ c = 1
        · have h' : sumDim b c = .ok b := by rw [sumDim, if_pos h4]
          rw [h']
          exact h.symm
        · have h' : sumDim b c = .error .valueError := by rw [sumDim, if_neg h4, if_neg h3]
          rw [h']
          rfl

theorem sumShape_error {a b : List Nat} {e : Err} (h : sumShape a b = .error e) : e = .valueError := by
  induction a generalizing b with
  | nil => simp [sumShape] at h
  | cons x a ih =>
    cases b with
    | nil => simp [sumShape] at h
    | cons y b =>
      rw [sumShape] at h
      cases hs : sumShape a b with
      | error e' =>
        rw [hs] at h
        simp only [Except.error.injEq] at h
        subst h
        exact ih hs
      | ok u =>
        rw [hs] at h
        cases hd : sumDim x y with
        | error e' =>
          rw [hd] at h
          simp only [Except.error.injEq] at h
          subst h
          exact sumDim_error hd
        | ok d => simp [hd] at h

theorem sumShape_comm (a b : List Nat) : sumShape a b = sumShape b a := by
  induction a generalizing b with
  | nil => cases b <;> simp [sumShape]
  | cons x a ih =>
    cases b with
    | nil => simp [sumShape]
    | cons y b => rw [sumShape, sumShape, ih b, sumDim_comm]

theorem sumShape_nil_right (a : List Nat) : sumShape a [] = .ok a := by cases a <;> rfl

theorem sumShape_self (a : List Nat) : sumShape a a = .ok a := by
  induction a with
  | nil => rfl
  | cons x a ih => rw [sumShape, ih]; simp [sumDim]

theorem sumShape_assoc (a b c : List Nat) :
    ((sumShape a b).bind fun s => sumShape s c) = ((sumShape b c).bind fun s => sumShape a s) := by
  induction a generalizing b c with
  | nil => cases h : sumShape b c <;> simp [sumShape, Except.bind, h]
  | cons x a ih =>
    cases b with
    | nil => simp [sumShape, Except.bind]
    | cons y b =>
      cases c with
      | nil => cases h : sumShape (x :: a) (y :: b) <;> simp [sumShape_nil_right, Except.bind, h]
      | cons z c =>
        have hi := ih b c
        have hd := sumDim_assoc x y z
        rw [sumShape, sumShape]
        cases h1 : sumShape a b with
        | error e =>
          obtain rfl := sumShape_error h1
          rw [h1] at hi
          cases h2 : sumShape b c with
          | error e' => rw [sumShape_error h2]; rfl
          | ok u =>
            rw [h2] at hi
            simp only [Except.bind] at hi ⊢
            cases h3 : sumDim y z with
            | error e' => rw [sumDim_error h3]
            | ok d => simp [sumShape, ← hi]
        | ok s =>
          rw [h1] at hi
          cases h2 : sumShape b c with
          | error e' =>
            obtain rfl := sumShape_error h2
            rw [h2] at hi
            simp only [Except.bind] at hi ⊢
            cases h3 : sumDim x y with
            | error e' => rw [sumDim_error h3]
            | ok d => simp [sumShape, hi]
          | ok u =>
            rw [h2] at hi
            simp only [Except.bind] at hi
            cases h3 : sumDim x y with
            | error e =>
              obtain rfl := sumDim_error h3
              cases h4 : sumDim y z with
              | error e => rw [sumDim_error h4]; rfl
              | ok d' =>
                rw [h3, h4] at hd
                simp only [Except.bind] at hd ⊢
                rw [sumShape, ← hd]
                cases h5 : sumShape a u with
                | error e => rw [sumShape_error h5]
                | ok t => rfl
            | ok d =>
              cases h4 : sumDim y z with
              | error e =>
                obtain rfl := sumDim_error h4
                rw [h3, h4] at hd
                simp only [Except.bind] at hd ⊢
                rw [sumShape, hd]
                cases h5 : sumShape s c with
                | error e => rw [sumShape_error h5]
                | ok t => rfl
              | ok d' =>
                rw [h3, h4] at hd
                simp only [Except.bind] at hd ⊢
                rw [sumShape, sumShape, hi, hd]

theorem sumIndex_sumIndex {a b s : List Nat} (h : sumShape a b = .ok s) (i : List Nat) :
    sumIndex a (sumIndex s i) = sumIndex a i := by
  induction a generalizing b s i with
  | nil => cases i <;> simp [sumIndex]
  | cons x a ih =>
    cases i with
    | nil => cases s <;> simp [sumIndex]
    | cons j i =>
      cases b with
      | nil =>
        simp only [sumShape, Except.ok.injEq] at h
        subst h
        rw [sumIndex, sumIndex, ih (sumShape_nil_right a)]
        split_ifs <;> rfl
      | cons y b =>
        rw [sumShape] at h
        cases hs : sumShape a b with
        | error e => simp [hs] at h
        | ok u =>
          rw [hs] at h
          cases hd : sumDim x y with
          | error e => simp [hd] at h
          | ok d =>
            rw [hd] at h
            simp only [Except.ok.injEq] at h
            subst h
            rw [sumIndex, sumIndex, sumIndex, ih hs]
            rw [sumDim] at hd
            split_ifs at hd with h1 h2
            · simp only [Except.ok.injEq] at hd
              subst hd
              split_ifs <;> rfl
            · simp [h2]

/-- **C112.** `sum_arrays` does not depend on the order of the arrays, whatever their shapes. -/
theorem C112_sum_arrays_comm [AddCommSemigroup K] (a b : ShapedArray K) : sumArrays a b = sumArrays b a := by
  rw [sumArrays, sumArrays, sumShape_comm]
  cases sumShape b.shape a.shape with
  | error e => rfl
  | ok s => simp [add_comm]

/-- **C112.** Sums of three arrays do not depend on which two are added first, and neither does whether `ValueError` is
raised. -/
theorem C112_sum_arrays_assoc [AddSemigroup K] (a b c : ShapedArray K) :
    ((sumArrays a b).bind fun s => sumArrays s c) = ((sumArrays b c).bind fun s => sumArrays a s) := by
  have h := sumShape_assoc a.shape b.shape c.shape
  simp only [sumArrays]
  cases h1 : sumShape a.shape b.shape with
  | error e =>
    cases h2 : sumShape b.shape c.shape with
    | error e' => rw [sumShape_error h1, sumShape_error h2]; rfl
    | ok u =>
      rw [h1, h2] at h
      simp only [Except.bind] at h ⊢
      rw [← h]
  | ok s =>
    cases h2 : sumShape b.shape c.shape with
    | error e' =>
      rw [h1, h2] at h
      simp only [Except.bind] at h ⊢
      rw [h]
    | ok u =>
      rw [h1, h2] at h
      simp only [Except.bind] at h ⊢
      rw [← h]
      cases h3 : sumShape s c.shape with
      | error e => rfl
      | ok t =>
        dsimp only
        congr 2
        funext i
        have hb : sumShape b.shape a.shape = .ok s := by rw [sumShape_comm, h1]
        have hc : sumShape c.shape b.shape = .ok u := by rw [sumShape_comm, h2]
        rw [sumIndex_sumIndex h1, sumIndex_sumIndex hb, sumIndex_sumIndex h2, sumIndex_sumIndex hc, add_assoc]

/-- **C112.** `sum_arrays` adds arrays of the same shape entry by entry. -/
theorem C112_sum_arrays [Add K] (a b : ShapedArray K) (h : a.shape = b.shape) :
    ∃ c, sumArrays a b = .ok c ∧ c.shape = a.shape ∧
      ∀ i, List.Forall₂ (fun k d => k < d) i a.shape → c.entry i = a.entry i + b.entry i := by
  have hidx : ∀ (s i : List Nat), List.Forall₂ (fun k d => k < d) i s → sumIndex s i = i := by
    intro s i hi
    induction hi with
    | nil => rfl
    | cons h1 _ ih =>
      rw [sumIndex, ih]
      split_ifs with h2
      · congr 1; omega
      · rfl
  rw [sumArrays, ← h, sumShape_self]
  exact ⟨_, rfl, rfl, fun i hi => by dsimp only; rw [hidx _ _ hi]⟩



/-- **C112.** `allreduce` with `sum_arrays` gives all processes the sum of the arrays of all processes. -/
theorem C112_allreduce [AddCommMonoid K] (size tag : Nat) (hsize : 0 < size) (x : Nat → ShapedArray K) (shape : List Nat)
    (hx : ∀ r < size, (x r).shape = shape) :
    EveryInterleaving size (allreduceProg size tag sumArraysOp) (fun r => some (x r)) fun _ s =>
      ∃ c, s = some c ∧ c.shape = shape ∧
        ∀ i, List.Forall₂ (fun k d => k < d) i shape → c.entry i = ∑ r ∈ Finset.range size, (x r).entry i := by
  have hop : ∀ a b c : Option (ShapedArray K), sumArraysOp (sumArraysOp a b) c = sumArraysOp a (sumArraysOp b c) := by
    intro a b c
    cases a with
    | none => rfl
    | some a =>
      cases b with
      | none => rfl
      | some b =>
        cases c with
        | none =>
          simp only [sumArraysOp, Option.bind_some, Option.bind_none]
          cases sumArrays a b <;> rfl
        | some c =>
          have h := C112_sum_arrays_assoc a b c
          simp only [sumArraysOp, Option.bind_some]
          cases h1 : sumArrays a b <;> cases h2 : sumArrays b c <;> rw [h1, h2] at h <;>
            simp only [Except.bind] at h <;> simp [Except.toOption, ← h]
          · rw [h]
  have key : ∀ n < size, ∃ c, rankFold sumArraysOp (fun r => some (x r)) n = some c ∧ c.shape = shape ∧
      ∀ i, List.Forall₂ (fun k d => k < d) i shape → c.entry i = ∑ r ∈ Finset.range (n + 1), (x r).entry i := by
    intro n hn
    induction n with
    | zero => exact ⟨x 0, rfl, hx 0 hn, fun i _ => by simp⟩
    | succ n ih =>
      obtain ⟨c, h1, h2, h3⟩ := ih (by omega)
      obtain ⟨d, h4, h5, h6⟩ := C112_sum_arrays c (x (n + 1)) (by rw [h2, hx _ hn])
      refine ⟨d, ?_, by rw [h5, h2], fun i hi => ?_⟩
      · rw [rankFold, h1]
        simp [sumArraysOp, h4, Except.toOption]
      · rw [h6 i (by rw [h2]; exact hi), h3 i hi, Finset.sum_range_succ _ (n + 1)]
  obtain ⟨c, h1, h2, h3⟩ := key (size - 1) (by omega)
  have h := C04_allreduce_gives_all_ranks_the_fold hop size tag fun r => some (x r)
  rw [h1] at h
  rw [Nat.sub_add_cancel hsize] at h3
  intro sync n s hrun
  obtain ⟨g1, g2, g3⟩ := h sync n s hrun
  exact ⟨g1, g2, fun hfin => ⟨fun r hr => ⟨c, (g3 hfin).1 r hr, h2, h3⟩, (g3 hfin).2⟩⟩

theorem getDataMembers_mem (attributes : List (Attribute A)) (d : List (List Char × A))
    (hn : (attributes.map Attribute.name).Nodup) (hd : (d.map Prod.fst).Nodup)
    (hdis : ∀ a ∈ attributes, a.name ∉ d.map Prod.fst) (hok : ∀ a ∈ attributes, ∃ v, a.value = .ok v) :
    ∃ d', getDataMembers attributes d = .ok d' ∧ (d'.map Prod.fst).Nodup ∧
      ∀ k v, (k, v) ∈ d' ↔ (k, v) ∈ d ∨ IsDataMember attributes k v := by
  induction attributes generalizing d with
  | nil => exact ⟨d, rfl, hd, fun k v => by simp [IsDataMember]⟩
  | cons a rest ih =>
    obtain ⟨v, hv⟩ := hok a (by simp)
    rw [List.map_cons, List.nodup_cons] at hn
    have hrest : ∀ b ∈ rest, ∃ v, b.value = .ok v := fun b hb => hok b (by simp [hb])
    rw [getDataMembers, hv]
    dsimp only
    by_cases hc : (!(['_', '_'].isPrefixOf a.name) && !a.isMethod) = true
    · have hset : dictSet d a.name v = d ++ [(a.name, v)] := by
        rw [dictSet, if_neg]
        rw [List.any_eq_true]
        rintro ⟨p, hp, hpa⟩
        exact hdis a (by simp) (List.mem_map.2 ⟨p, hp, by simpa using hpa⟩)
      rw [if_pos hc, hset]
      obtain ⟨d', h1, h2, h3⟩ := ih (d ++ [(a.name, v)]) hn.2
        (by
          rw [List.map_append, List.nodup_append]
          refine ⟨hd, by simp, ?_⟩
          intro x hx y hy
          simp only [List.map_cons, List.map_nil, List.mem_singleton] at hy
          rintro rfl
          exact hdis a (by simp) (hy ▸ hx))
        (by
          intro b hb
          rw [List.map_append, List.mem_append, not_or]
          refine ⟨hdis b (by simp [hb]), ?_⟩
          simp only [List.map_cons, List.map_nil, List.mem_singleton]
          intro h
          exact hn.1 (List.mem_map.2 ⟨b, hb, h⟩)) hrest
      refine ⟨d', h1, h2, fun k w => ?_⟩
      rw [h3 k w]
      simp only [List.mem_append, Prod.mk.injEq, IsDataMember, List.mem_cons, exists_eq_or_imp, List.not_mem_nil,
        or_false]
      simp only [Bool.and_eq_true, Bool.not_eq_true', List.isPrefixOf_iff_prefix, ← Bool.not_eq_true] at hc
      have : (k = a.name ∧ w = v) ↔ (a.name = k ∧ a.value = .ok w ∧ a.isMethod = false ∧ ¬ ['_', '_'] <+: a.name) := by
        rw [hv]
        constructor
        · rintro ⟨rfl, rfl⟩
          exact ⟨rfl, rfl, by simpa using hc.2, hc.1⟩
        · rintro ⟨h, h', -, -⟩
          exact ⟨h.symm, by simpa using h'.symm⟩
      rw [this, or_assoc]
    · rw [if_neg hc]
      obtain ⟨d', h1, h2, h3⟩ := ih d hn.2 hd (fun b hb => hdis b (by simp [hb])) hrest
      refine ⟨d', h1, h2, fun k w => ?_⟩
      rw [h3 k w]
      simp only [IsDataMember, List.mem_cons, exists_eq_or_imp]
      have : ¬ (a.name = k ∧ a.value = .ok w ∧ a.isMethod = false ∧ ¬ ['_', '_'] <+: a.name) := by
        rintro ⟨-, -, h, h'⟩
        apply hc
        simp only [Bool.and_eq_true, Bool.not_eq_true', ← Bool.not_eq_true, List.isPrefixOf_iff_prefix]
        exact ⟨h', by simp [h]⟩
      tauto

/-- **C112.** `get_data_members` gives the attributes that are no methods and whose names do not begin with two
underscores, each once. -/
theorem C112_data_members (attributes : List (Attribute A)) (hn : (attributes.map Attribute.name).Nodup)
    (hok : ∀ a ∈ attributes, ∃ v, a.value = .ok v) :
    ∃ d, getDataMembers attributes [] = .ok d ∧ (d.map Prod.fst).Nodup ∧
      ∀ k v, (k, v) ∈ d ↔ IsDataMember attributes k v := by
  obtain ⟨d, h1, h2, h3⟩ := getDataMembers_mem attributes [] hn (by simp) (by simp) hok
  exact ⟨d, h1, h2, fun k v => by rw [h3]; simp⟩

/-- **C112.** If an attribute cannot be read, `get_data_members` raises the exception, also for methods and names that
it would leave out. -/
theorem C112_data_members_raise (before after : List (Attribute A)) (a : Attribute A) (e : Err)
    (hb : ∀ b ∈ before, ∃ v, b.value = .ok v) (ha : a.value = .error e) :
    getDataMembers (before ++ a :: after) [] = .error e := by
  generalize ([] : List (List Char × A)) = d
  induction before generalizing d with
  | nil => rw [List.nil_append, getDataMembers, ha]
  | cons b before ih =>
    obtain ⟨v, hv⟩ := hb b (by simp)
    rw [List.cons_append, getDataMembers, hv]
    exact ih (fun c hc => hb c (by simp [hc])) _

/-- An array of two rows and three columns and one of three columns add to an array of two rows and three columns. -/
example : ∃ c, sumArrays (⟨[3, 2], fun i => if i = [2, 1] then 7 else 0⟩ : ShapedArray ℚ)
      ⟨[3], fun i => if i = [2] then 5 else 0⟩ = .ok c ∧ c.shape = [3, 2] ∧ c.entry [2, 1] = 12 ∧ c.entry [2, 0] = 5 :=
  ⟨_, rfl, rfl, by decide +kernel, by decide +kernel⟩

/-- Two and three columns do not add. -/
example : sumArrays (⟨[3, 2], fun _ => 0⟩ : ShapedArray ℚ) ⟨[2], fun _ => 0⟩ = .error .valueError := rfl

/-- Five processes with arrays of three entries. -/
example : EveryInterleaving 5 (allreduceProg 5 1 sumArraysOp)
      (fun r => some (⟨[3], fun i => (r : ℚ) + i.length⟩ : ShapedArray ℚ)) fun _ s =>
    ∃ c, s = some c ∧ c.shape = [3] ∧ ∀ i, List.Forall₂ (fun k d => k < d) i [3] →
      c.entry i = ∑ r ∈ Finset.range 5, ((r : ℚ) + i.length) :=
  C112_allreduce 5 1 (by decide) (fun r => ⟨[3], fun i => (r : ℚ) + i.length⟩) [3] fun _ _ => rfl

/-- An object with an attribute, a method and a name with underscores. -/
example : getDataMembers [⟨['_', '_', 'x'], false, .ok 1⟩, ⟨['a'], false, .ok 2⟩, ⟨['b'], true, .ok 3⟩,
      ⟨['_', 'c'], false, .ok 4⟩] [] = .ok [(['a'], 2), (['_', 'c'], 4)] := by
  rfl

end Modred
