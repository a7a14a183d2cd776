import Verif.Model.Hankel
import Mathlib.Tactic.Common
import Mathlib.Tactic.Ring
import Mathlib.Algebra.Order.Ring.Nat

/-!
# Properties of Hankel arrays (C17, C18)
-/

namespace Modred

variable {α : Type*}

section

variable [Zero α]

/-- **C17.** Entry `(i, j)` is `first_col[i + j]` if that exists, and `last_row[i + j - n + 1]`
otherwise, with `n` the length of the first column.  In particular entries on a skew diagonal agree,
and `last_row[0]` is ignored. -/
theorem C17_hankel_entries (c r : List α) :
    (hankel c (some r)).length = c.length ∧ ∀ (i : Nat), i < c.length →
      ∃ row, (hankel c (some r))[i]? = some row ∧ row.length = r.length ∧
        ∀ j, j < r.length → row[j]? =
          if i + j < c.length then c[i + j]? else r[i + j - c.length + 1]? := by
  refine ⟨by simp [hankel], fun i hi => ?_⟩
  refine ⟨(List.range r.length).map fun j => (c ++ r.drop 1).getD (i + j) 0, by simp [hankel, hi],
    by simp, fun j hj => ?_⟩
  rw [List.getElem?_map, List.getElem?_range hj, Option.map_some, List.getD]
  split
  · rename_i h
    rw [List.getElem?_append_left h, List.getElem?_eq_getElem h]
    rfl
  · rename_i h
    rw [List.getElem?_append_right (by omega), List.getElem?_drop,
      List.getElem?_eq_getElem (by omega : 1 + (i + j - c.length) < r.length), Option.getD_some,
      List.getElem?_eq_getElem (by omega : i + j - c.length + 1 < r.length)]
    congr 2
    omega

example : hankel [1, 2, 3] (some [9, 4, 5, 6]) = [[1, 2, 3, 4], [2, 3, 4, 5], [3, 4, 5, 6]] := by
  decide

/-- **C17.** Without a last row, zeros are used: the array is square and zero below the skew
diagonal. -/
theorem C17_hankel_default (c : List α) :
    (hankel c none).length = c.length ∧ ∀ (i : Nat), i < c.length →
      ∃ row, (hankel c none)[i]? = some row ∧ row.length = c.length ∧
        ∀ j, j < c.length → row[j]? = if i + j < c.length then c[i + j]? else some 0 := by
  have h : hankel c none = hankel c (some (List.replicate c.length 0)) := rfl
  rw [h]
  obtain ⟨h1, h2⟩ := C17_hankel_entries c (List.replicate c.length (0 : α))
  refine ⟨h1, fun i hi => ?_⟩
  obtain ⟨row, h3, h4, h5⟩ := h2 i hi
  refine ⟨row, h3, by simpa using h4, fun j hj => ?_⟩
  rw [h5 j (by simpa using hj)]
  split
  · rfl
  · rw [List.getElem?_replicate, if_pos (by omega)]

/-- **C17.** The first element of the last row has no influence. -/
theorem C17_first_of_last_row_ignored (c : List α) (x y : α) (r : List α) :
    hankel c (some (x :: r)) = hankel c (some (y :: r)) := rfl

end

/-! ### Chunks -/

theorem foldl_hstack (p q : Nat) (cs : List (List (List α))) : ∀ (acc : List (List α)) (m : Nat),
    acc.length = p → (∀ row ∈ acc, row.length = m * q) →
    (∀ d ∈ cs, d.length = p ∧ ∀ row ∈ d, row.length = q) →
    let out := cs.foldl (fun acc d => List.zipWith (fun x y => x ++ y) acc d) acc
    out.length = p ∧ (∀ row ∈ out, row.length = (m + cs.length) * q) ∧
    (∀ a, a < p → ∀ b, b < m * q → ((out[a]?).bind fun row => row[b]?) =
      ((acc[a]?).bind fun row => row[b]?)) ∧
    ∀ a, a < p → ∀ J, J < cs.length → ∀ b, b < q →
      ((out[a]?).bind fun row => row[(m + J) * q + b]?) =
        ((cs[J]?).bind fun d => (d[a]?).bind fun row => row[b]?) := by
  induction cs with
  | nil =>
    intro acc m h1 h2 _
    exact ⟨h1, by simpa using h2, fun _ _ _ _ => rfl, fun _ _ J hJ => by simp at hJ⟩
  | cons d cs ih =>
    intro acc m h1 h2 h3
    obtain ⟨h4, h5⟩ := h3 d (by simp)
    have hlen : (List.zipWith (fun x y : List α => x ++ y) acc d).length = p := by simp [h1, h4]
    have hget : ∀ a, a < p → ∃ x y, acc[a]? = some x ∧ d[a]? = some y ∧
        (List.zipWith (fun x y : List α => x ++ y) acc d)[a]? = some (x ++ y) ∧
        x.length = m * q ∧ y.length = q := by
      intro a ha
      refine ⟨acc[a], d[a], by simp [h1, ha], by simp [h4, ha], by simp [h1, h4, ha],
        h2 _ (List.getElem_mem _), h5 _ (List.getElem_mem _)⟩
    have hrow : ∀ row ∈ List.zipWith (fun x y : List α => x ++ y) acc d,
        row.length = (m + 1) * q := by
      intro row hr
      obtain ⟨a, ha, rfl⟩ := List.mem_iff_getElem.mp hr
      obtain ⟨x, y, h6, h7, h8, h9, h10⟩ := hget a (by omega)
      rw [List.getElem?_eq_getElem ha] at h8
      rw [Option.some.inj h8, List.length_append, h9, h10]
      ring
    obtain ⟨i1, i2, i3, i4⟩ := ih (List.zipWith (fun x y => x ++ y) acc d) (m + 1) hlen hrow
      fun d hd => h3 d (by simp [hd])
    rw [List.foldl_cons]
    refine ⟨i1, ?_, ?_, ?_⟩
    · intro row hr
      rw [i2 row hr, List.length_cons]
      ring
    · intro a ha b hb
      rw [i3 a ha b (by rw [Nat.succ_mul]; omega)]
      obtain ⟨x, y, h6, h7, h8, h9, h10⟩ := hget a ha
      rw [h8, h6]
      simp only [Option.bind_some]
      rw [List.getElem?_append_left (by omega)]
    · intro a ha J hJ b hb
      cases J with
      | zero =>
        rw [i3 a ha _ (by rw [Nat.succ_mul, Nat.add_zero]; omega)]
        obtain ⟨x, y, h6, h7, h8, h9, h10⟩ := hget a ha
        rw [h8]
        simp only [Option.bind_some, List.getElem?_cons_zero, h7]
        rw [List.getElem?_append_right (by rw [h9, Nat.add_zero]; omega), h9, Nat.add_zero,
          Nat.add_sub_cancel_left]
      | succ J =>
        have := i4 a ha J (by simpa using hJ) b hb
        rw [List.getElem?_cons_succ, ← this]
        congr 2
        funext row
        congr 1
        ring

theorem hstack_spec (p q : Nat) (hp : 1 ≤ p) (cs : List (List (List α))) (hne : cs ≠ [])
    (h : ∀ d ∈ cs, d.length = p ∧ ∀ row ∈ d, row.length = q) :
    ∃ out, hstack cs = .ok out ∧ out.length = p ∧ (∀ row ∈ out, row.length = cs.length * q) ∧
      ∀ a, a < p → ∀ J, J < cs.length → ∀ b, b < q →
        ((out[a]?).bind fun row => row[J * q + b]?) =
          ((cs[J]?).bind fun d => (d[a]?).bind fun row => row[b]?) := by
  cases cs with
  | nil => exact absurd rfl hne
  | cons c cs =>
    have hshape : ∀ d ∈ c :: cs, shapeOf d = (p, q) := by
      intro d hd
      obtain ⟨h1, h2⟩ := h d hd
      cases d with
      | nil => simp at h1; omega
      | cons row d =>
        have := h2 row (by simp)
        simp [shapeOf, this, ← h1]
    obtain ⟨h1, h2⟩ := h c (by simp)
    obtain ⟨i1, i2, i3, i4⟩ := foldl_hstack p q cs c 1 h1 (by simpa using h2)
      fun d hd => h d (by simp [hd])
    refine ⟨cs.foldl (fun acc d => List.zipWith (fun x y => x ++ y) acc d) c, ?_, i1, ?_, ?_⟩
    · unfold hstack
      dsimp only
      rw [if_pos]
      rw [List.all_eq_true]
      intro d hd
      rw [hshape d (by simp [hd]), hshape c (by simp)]
      simp
    · intro row hr
      rw [i2 row hr, List.length_cons]
      ring
    · intro a ha J hJ b hb
      cases J with
      | zero =>
        rw [Nat.zero_mul, Nat.zero_add, i3 a ha b (by omega)]
        rfl
      | succ J =>
        have := i4 a ha J (by simpa using hJ) b hb
        rw [List.getElem?_cons_succ, ← this]
        congr 2
        funext row
        congr 1
        ring

theorem mapM_ok {β γ : Type*} (f : β → Except Err γ) (g : β → γ) (l : List β)
    (h : ∀ x ∈ l, f x = .ok (g x)) : l.mapM (m := Except Err) f = .ok (l.map g) := by
  induction l with
  | nil => rfl
  | cons x l ih =>
    rw [List.mapM_cons, h x (by simp), ih fun y hy => h y (by simp [hy])]
    rfl

theorem getElem?_flatten_blocks {β : Type*} (p : Nat) (ls : List (List β))
    (h : ∀ l ∈ ls, l.length = p) : ∀ (I a : Nat), a < p → I < ls.length →
    ls.flatten[I * p + a]? = (ls[I]?).bind fun l => l[a]? := by
  induction ls with
  | nil => intro I a _ hI; simp at hI
  | cons l ls ih =>
    intro I a ha hI
    have hl := h l (by simp)
    rw [List.flatten_cons]
    cases I with
    | zero =>
      rw [Nat.zero_mul, Nat.zero_add, List.getElem?_append_left (by omega)]
      rfl
    | succ I =>
      have e : (I + 1) * p + a - l.length = I * p + a := by
        rw [hl, Nat.succ_mul]
        omega
      rw [List.getElem?_append_right (by rw [hl, Nat.succ_mul]; omega), e,
        ih (fun l hl => h l (by simp [hl])) I a ha (by simpa using hI)]
      rfl

variable [Zero α]

/-- **C18.** For chunks of one shape `p` x `q`, the array has chunk number `I + J` (of the first
column's chunks followed by the last row's chunks without the first) at block position `(I, J)`. -/
theorem C18_hankel_chunks (p q : Nat) (hp : 1 ≤ p) (c r : List (List (List α)))
    (hc : c ≠ []) (hr : r ≠ []) (hcs : ∀ d ∈ c, d.length = p ∧ ∀ row ∈ d, row.length = q)
    (hrs : ∀ d ∈ r, d.length = p ∧ ∀ row ∈ d, row.length = q) :
    ∃ out, hankelChunks c (some r) = .ok out ∧ out.length = c.length * p ∧
      (∀ row ∈ out, row.length = r.length * q) ∧
      ∀ I, I < c.length → ∀ J, J < r.length → ∀ a, a < p → ∀ b, b < q →
        ((out[I * p + a]?).bind fun row => row[J * q + b]?) =
          ((if I + J < c.length then c[I + J]? else r[I + J - c.length + 1]?).bind fun d =>
            (d[a]?).bind fun row => row[b]?) := by
  have hr1 : 1 ≤ r.length := List.length_pos_iff.mpr hr
  have hc1 : 1 ≤ c.length := List.length_pos_iff.mpr hc
  have hslice : ∀ I, I < c.length → (((c ++ r.drop 1).drop I).take r.length).length = r.length := by
    intro I hI
    rw [List.length_take, List.length_drop, List.length_append, List.length_drop]
    omega
  have hmem : ∀ I, ∀ d ∈ ((c ++ r.drop 1).drop I).take r.length,
      d.length = p ∧ ∀ row ∈ d, row.length = q := by
    intro I d hd
    have := List.mem_of_mem_drop (List.mem_of_mem_take hd)
    rcases List.mem_append.mp this with h | h
    · exact hcs d h
    · exact hrs d (List.mem_of_mem_drop h)
  have hst : ∀ I, ∃ out, I < c.length → hstack (((c ++ r.drop 1).drop I).take r.length) = .ok out ∧
      out.length = p ∧ (∀ row ∈ out, row.length = r.length * q) ∧
      ∀ a, a < p → ∀ J, J < r.length → ∀ b, b < q →
        ((out[a]?).bind fun row => row[J * q + b]?) =
          ((((c ++ r.drop 1).drop I).take r.length)[J]?.bind fun d =>
            (d[a]?).bind fun row => row[b]?) := by
    intro I
    by_cases hI : I < c.length
    · obtain ⟨out, h1, h2, h3, h4⟩ := hstack_spec p q hp _ (by
        rw [← List.length_pos_iff, hslice I hI]; omega) (hmem I)
      rw [hslice I hI] at h3 h4
      exact ⟨out, fun _ => ⟨h1, h2, h3, h4⟩⟩
    · exact ⟨[], fun h => absurd h hI⟩
  choose g hg using hst
  have hmap := mapM_ok (fun idx => hstack (((c ++ r.drop 1).drop idx).take r.length)) g
    (List.range c.length) fun I hI => (hg I (List.mem_range.mp hI)).1
  have hshape : ∀ I, I < c.length → shapeOf (g I) = (p, r.length * q) := by
    intro I hI
    obtain ⟨-, h2, h3, -⟩ := hg I hI
    unfold shapeOf
    cases h : g I with
    | nil => rw [h] at h2; simp at h2; omega
    | cons row d =>
      rw [h] at h2 h3
      rw [h2, List.headD_cons, h3 row (by simp)]
  have hlens : ∀ l ∈ (List.range c.length).map g, l.length = p := by
    intro l hl
    obtain ⟨I, hI, rfl⟩ := List.mem_map.mp hl
    exact (hg I (List.mem_range.mp hI)).2.1
  refine ⟨((List.range c.length).map g).flatten, ?_, ?_, ?_, ?_⟩
  · unfold hankelChunks
    dsimp only
    rw [hmap]
    dsimp only
    obtain ⟨n, hn⟩ : ∃ n, c.length = n + 1 := ⟨c.length - 1, by omega⟩
    rw [hn, List.range_succ_eq_map, List.map_cons]
    unfold vstack
    dsimp only
    rw [if_pos, List.flatten_cons]
    rw [List.all_eq_true]
    intro d hd
    simp only [List.map_map, List.mem_map, List.mem_range] at hd
    obtain ⟨I, hI, rfl⟩ := hd
    rw [Function.comp, hshape _ (by rw [hn]; exact Nat.succ_lt_succ hI), hshape 0 (by omega)]
    simp
  · rw [List.length_flatten, List.map_map]
    have : (List.range c.length).map (List.length ∘ g) = (List.range c.length).map fun _ => p :=
      List.map_congr_left fun I hI => (hg I (List.mem_range.mp hI)).2.1
    rw [this]
    rw [List.map_const', List.length_range, List.sum_replicate_nat]
  · intro row hrow
    obtain ⟨l, hl, hl'⟩ := List.mem_flatten.mp hrow
    obtain ⟨I, hI, rfl⟩ := List.mem_map.mp hl
    exact (hg I (List.mem_range.mp hI)).2.2.1 row hl'
  · intro I hI J hJ a ha b hb
    rw [getElem?_flatten_blocks p _ hlens I a ha (by simpa using hI), List.getElem?_map,
      List.getElem?_range hI, Option.map_some, Option.bind_some,
      (hg I hI).2.2.2 a ha J hJ b hb, List.getElem?_take, if_pos hJ, List.getElem?_drop]
    congr 1
    split
    · rename_i h
      exact List.getElem?_append_left h
    · rename_i h
      rw [List.getElem?_append_right (by omega), List.getElem?_drop]
      congr 1
      omega

example : hankelChunks [[[1, 2]], [[3, 4]]] (some [[[3, 4]], [[5, 6]], [[7, 8]]]) =
    .ok [[1, 2, 3, 4, 5, 6], [3, 4, 5, 6, 7, 8]] := by rfl

/-- **C18.** Without a last row, chunks of zeros are used. -/
theorem C18_hankel_chunks_default (p q : Nat) (hp : 1 ≤ p) (c : List (List (List α)))
    (hc : c ≠ []) (hcs : ∀ d ∈ c, d.length = p ∧ ∀ row ∈ d, row.length = q) :
    ∃ out, hankelChunks c none = .ok out ∧ out.length = c.length * p ∧
      (∀ row ∈ out, row.length = c.length * q) ∧
      ∀ I, I < c.length → ∀ J, J < c.length → ∀ a, a < p → ∀ b, b < q →
        ((out[I * p + a]?).bind fun row => row[J * q + b]?) =
          if I + J < c.length then (c[I + J]?).bind fun d => (d[a]?).bind fun row => row[b]?
          else some 0 := by
  obtain ⟨d, cs, rfl⟩ := List.exists_cons_of_ne_nil hc
  obtain ⟨h1, h2⟩ := hcs d (by simp)
  have hshape : shapeOf d = (p, q) := by
    cases d with
    | nil => simp at h1; omega
    | cons row d =>
      have := h2 row (by simp)
      simp [shapeOf, this, ← h1]
  have hz : hankelChunks (d :: cs) none = hankelChunks (d :: cs)
      (some (List.replicate (d :: cs).length (zerosOf (p, q)))) := by
    unfold hankelChunks
    simp only [List.head?_cons, hshape]
  rw [hz]
  obtain ⟨out, o1, o2, o3, o4⟩ := C18_hankel_chunks p q hp (d :: cs)
    (List.replicate (d :: cs).length (zerosOf (p, q))) hc (by simp) hcs (by
      intro e he
      obtain ⟨-, rfl⟩ := List.mem_replicate.mp he
      refine ⟨by simp [zerosOf], fun row hrow => ?_⟩
      obtain ⟨-, rfl⟩ := List.mem_replicate.mp hrow
      simp)
  rw [List.length_replicate] at o3 o4
  refine ⟨out, o1, o2, o3, fun I hI J hJ a ha b hb => ?_⟩
  rw [o4 I hI J hJ a ha b hb]
  split
  · rfl
  · rw [List.getElem?_replicate, if_pos (by omega)]
    simp [zerosOf, ha, hb]

/-- **C18.** No chunks at all raise an error. -/
theorem C18_no_chunks_raise (r : List (List (List α))) :
    hankelChunks ([] : List (List (List α))) none = .error .indexError ∧
      hankelChunks [] (some r) = .error .valueError := ⟨rfl, rfl⟩

end Modred
