import Verif.Spec.VecObjects
import Verif.Lemmas.Blocks
import Mathlib.Tactic.Ring

/-!
# Combining vectors that are objects
-/

namespace Modred

variable {𝕜 E F : Type*} [AddCommMonoid F]

/-- A loop that cannot fail keeps what its body keeps. -/
theorem foldlM_range_inv {α : Type*} (I : Nat → α → Prop) (f : α → Nat → Except Err α) :
    ∀ n, (∀ i < n, ∀ s, I i s → ∃ s', f s i = .ok s' ∧ I (i + 1) s') → ∀ s, I 0 s →
      ∃ s', (List.range n).foldlM f s = .ok s' ∧ I n s' := by
  intro n
  induction n with
  | zero => exact fun _ s hs => ⟨s, rfl, hs⟩
  | succ n ih =>
    intro hf s hs
    obtain ⟨s', h1, h2⟩ := ih (fun i hi => hf i (by omega)) s hs
    obtain ⟨t, h3, h4⟩ := hf n (by omega) s' h2
    refine ⟨t, ?_, h4⟩
    rw [List.range_succ, List.foldlM_append, h1]
    change (List.foldlM f s' [n]) = _
    rw [List.foldlM_cons, h3]
    rfl

/-- State of the sums of a round that began with the objects `o0`: `c k` vectors have been added to the sum `k`. -/
structure LayersInv (inPlace : Prop) (Layer : E → Prop) (val : E → F) (scale : 𝕜 → F → F) (coeff : Nat → Nat → 𝕜) (x : Nat → F)
    (o0 : Objects E) (c : Nat → Nat) (s : Objects E × (Nat → Option Nat)) : Prop where
  next : o0.next ≤ s.1.next
  kept : ∀ z < o0.next, s.1.content z = o0.content z
  empty : ∀ k, c k = 0 → s.2 k = none
  layer : ∀ k, c k ≠ 0 → ∃ a, s.2 k = some a ∧ a < s.1.next ∧ (inPlace → o0.next ≤ a) ∧ Layer (s.1.content a) ∧
    val (s.1.content a) = ∑ i ∈ Finset.range (c k), scale (coeff i k) (x i)
  different : inPlace → ∀ k l, k ≠ l → s.2 k ≠ none → s.2 k ≠ s.2 l

theorem layerObj_inv {C : VecClass 𝕜 E} {inPlace : Prop} {Number : 𝕜 → Prop} {Basis Layer : E → Prop} {val : E → F} {scale : 𝕜 → F → F}
    (hC : C.Proper inPlace Number Basis Layer val scale) {coeff : Nat → Nat → 𝕜} {x : Nat → F} {o0 : Objects E} {c : Nat → Nat}
    {s : Objects E × (Nat → Option Nat)} (h : LayersInv inPlace Layer val scale coeff x o0 c s) (k v : Nat) (hv : v < o0.next)
    (hb : Basis (o0.content v)) (hx : x (c k) = val (o0.content v)) (hn : Number (coeff (c k) k)) :
    ∃ s', layerObj C (coeff (c k) k) v k s = .ok s' ∧
      LayersInv inPlace Layer val scale coeff x o0 (Function.update c k (c k + 1)) s' := by
  have hv1 : v < s.1.next := lt_of_lt_of_le hv h.next
  have hb1 : Basis (s.1.content v) := by rw [h.kept v hv]; exact hb
  obtain ⟨o1, r, hm, m1, m2, m3, m4, m5, m6⟩ := hC.mul s.1 v (coeff (c k) k) hv1 hb1
  rw [h.kept v hv, ← hx] at m6
  replace m5 := m5 hn
  by_cases hk : c k = 0
  · refine ⟨(o1, Function.update s.2 k (some r)), by simp only [layerObj, h.empty k hk, hm], ?_⟩
    refine ⟨h.next.trans m1, ?_, ?_, ?_, ?_⟩
    · intro z hz
      rw [← h.kept z hz]
      exact m4 z (lt_of_lt_of_le hz h.next)
    · intro l hl
      by_cases hlk : l = k
      · subst hlk; simp at hl
      · rw [Function.update_of_ne hlk] at hl
        simp only [Function.update_of_ne hlk]
        exact h.empty l hl
    · intro l hl
      by_cases hlk : l = k
      · subst hlk
        refine ⟨r, by simp, m2, fun hp => h.next.trans (m3 hp), m5, ?_⟩
        rw [m6, Function.update_self, hk]
        simp
      · rw [Function.update_of_ne hlk] at hl ⊢
        obtain ⟨a, e1, e2, e3, e4, e5⟩ := h.layer l hl
        refine ⟨a, by simp only [Function.update_of_ne hlk, e1], lt_of_lt_of_le e2 m1, e3, ?_, ?_⟩
        · rw [m4 a e2]; exact e4
        · rw [m4 a e2]; exact e5
    · intro hp i j hij hi
      have key : ∀ l, l ≠ k → s.2 l ≠ some r := by
        intro l hl e
        by_cases hc : c l = 0
        · rw [h.empty l hc] at e; exact absurd e (by simp)
        · obtain ⟨a, e1, e2, -⟩ := h.layer l hc
          rw [e1] at e
          have := m3 hp
          have : a = r := by simpa using e
          omega
      by_cases hik : i = k
      · subst hik
        simp only [Function.update_self, Function.update_of_ne (Ne.symm hij)]
        exact fun e => key j (Ne.symm hij) e.symm
      · by_cases hjk : j = k
        · subst hjk
          simp only [Function.update_self, Function.update_of_ne hij]
          exact key i hij
        · simp only [Function.update_of_ne hik, Function.update_of_ne hjk] at hi ⊢
          exact h.different hp i j hij hi
  · obtain ⟨a, e1, e2, e3, e4, e5⟩ := h.layer k hk
    have ha1 : a < o1.next := lt_of_lt_of_le e2 m1
    have hca : o1.content a = s.1.content a := m4 a e2
    obtain ⟨o2, t, hp, p1, p2, p3, p4, p5, p6⟩ := hC.plus o1 a r ha1 m2 (by rw [hca]; exact e4) m5
      (fun hp => by have := m3 hp; omega)
    rw [hca, e5, m6] at p6
    refine ⟨(o2, Function.update s.2 k (some t)), by simp only [layerObj, e1, hm, hp, Except.bind], ?_⟩
    have keep : ∀ z < s.1.next, (inPlace → z ≠ a) → o2.content z = s.1.content z := by
      intro z hz hza
      rw [← m4 z hz]
      exact p4 z (lt_of_lt_of_le hz m1) hza
    refine ⟨h.next.trans (m1.trans p1), ?_, ?_, ?_, ?_⟩
    · intro z hz
      rw [← h.kept z hz]
      exact keep z (lt_of_lt_of_le hz h.next) fun hp => by have := e3 hp; omega
    · intro l hl
      by_cases hlk : l = k
      · subst hlk; simp at hl
      · rw [Function.update_of_ne hlk] at hl
        simp only [Function.update_of_ne hlk]
        exact h.empty l hl
    · intro l hl
      by_cases hlk : l = k
      · subst hlk
        refine ⟨t, by simp, p2, ?_, p5, ?_⟩
        · intro hp
          rcases p3 hp with q | q
          · rw [q]; exact e3 hp
          · exact h.next.trans (m1.trans q)
        · rw [p6, Function.update_self, Finset.sum_range_succ]
      · rw [Function.update_of_ne hlk] at hl ⊢
        obtain ⟨b, f1, f2, f3, f4, f5⟩ := h.layer l hl
        have hba : inPlace → b ≠ a := by
          intro hp hab
          refine h.different hp l k hlk (by rw [f1]; simp) ?_
          rw [f1, e1, hab]
        refine ⟨b, by simp only [Function.update_of_ne hlk, f1], lt_of_lt_of_le f2 (m1.trans p1), f3, ?_, ?_⟩
        · rw [keep b f2 hba]; exact f4
        · rw [keep b f2 hba]; exact f5
    · intro hp i j hij hi
      have key : ∀ l, l ≠ k → s.2 l ≠ some t := by
        intro l hl e
        by_cases hc : c l = 0
        · rw [h.empty l hc] at e; exact absurd e (by simp)
        · obtain ⟨b, f1, f2, -⟩ := h.layer l hc
          rcases p3 hp with q | q
          · refine h.different hp l k hl (by rw [f1]; simp) ?_
            rw [e, e1, q]
          · rw [f1] at e
            have : b = t := by simpa using e
            omega
      by_cases hik : i = k
      · subst hik
        simp only [Function.update_self, Function.update_of_ne (Ne.symm hij)]
        exact fun e => key j (Ne.symm hij) e.symm
      · by_cases hjk : j = k
        · subst hjk
          simp only [Function.update_self, Function.update_of_ne hij]
          exact key i hij
        · simp only [Function.update_of_ne hik, Function.update_of_ne hjk] at hi ⊢
          exact h.different hp i j hij hi

/-- Numbers of vectors added after `i` of the `n` sums from `start` on got the vector `b`. -/
def layerCount (start n b i k : Nat) : Nat :=
  if start ≤ k ∧ k < start + i then b + 1 else if start ≤ k ∧ k < start + n then b else 0

theorem layerCount_succ {start n b i : Nat} (hi : i < n) :
    Function.update (layerCount start n b i) (start + i) (layerCount start n b i (start + i) + 1) = layerCount start n b (i + 1) := by
  funext k
  by_cases hk : k = start + i
  · subst hk
    rw [Function.update_self]
    unfold layerCount
    rw [if_neg (by omega), if_pos (by omega), if_pos (by omega)]
  · rw [Function.update_of_ne hk]
    unfold layerCount
    split_ifs <;> omega

theorem layerCount_full (start n b : Nat) : layerCount start n b n = layerCount start n (b + 1) 0 := by
  funext k
  unfold layerCount
  split_ifs <;> omega

theorem basisObj_inv {C : VecClass 𝕜 E} {inPlace : Prop} {Number : 𝕜 → Prop} {Basis Layer : E → Prop} {val : E → F} {scale : 𝕜 → F → F}
    (hC : C.Proper inPlace Number Basis Layer val scale) {basis : List Nat} {coeff : Nat → Nat → 𝕜} {x : Nat → F} {o0 : Objects E}
    {start n b v : Nat} {held : Nat → Option Nat}
    {s : Objects E × (Nat → Option Nat)} (h : LayersInv inPlace Layer val scale coeff x o0 (layerCount start n b 0) s)
    (hheld : held (basis.getD b 0) = some v) (hv : v < o0.next) (hb : Basis (o0.content v)) (hx : x b = val (o0.content v)) (hn : ∀ i k, Number (coeff i k)) :
    ∃ s', basisObj C basis coeff start n held s b = .ok s' ∧
      LayersInv inPlace Layer val scale coeff x o0 (layerCount start n (b + 1) 0) s' := by
  rw [← layerCount_full]
  simp only [basisObj, HeldObjects.get, hheld, Except.bind]
  refine foldlM_range_inv (fun i s => LayersInv inPlace Layer val scale coeff x o0 (layerCount start n b i) s) _ n ?_ s h
  intro i hi s hs
  have hc : layerCount start n b i (start + i) = b := by
    unfold layerCount
    rw [if_neg (by omega), if_pos (by omega)]
  have := layerObj_inv hC hs (start + i) v hv hb (by rw [hc]; exact hx) (hn _ _)
  rw [layerCount_succ hi, hc] at this
  exact this

/-- Putting the layers into handles that are all different. -/
theorem putObj_held (sums : List Nat) (hs : sums.Nodup) (layers : Nat → Option Nat) (start : Nat) (held : Nat → Option Nat) :
    ∀ n, start + n ≤ sums.length →
      let held' := (List.range n).foldl (fun held k => Function.update held (sums.getD (start + k) 0) (layers (start + k))) held
      (∀ k (hk : k < sums.length), held' sums[k] = if start ≤ k ∧ k < start + n then layers k else held sums[k]) ∧
      ∀ q, q ∉ sums → held' q = held q := by
  intro n
  induction n with
  | zero =>
    intro _
    refine ⟨fun k hk => ?_, fun q _ => rfl⟩
    rw [if_neg (by omega)]
    rfl
  | succ n ih =>
    intro hn
    obtain ⟨h1, h2⟩ := ih (by omega)
    have hlt : start + n < sums.length := by omega
    have hd : sums.getD (start + n) 0 = sums[start + n] := by simp [hlt]
    simp only [List.range_succ, List.foldl_append, List.foldl_cons, List.foldl_nil]
    rw [hd]
    refine ⟨fun k hk => ?_, fun q hq => ?_⟩
    · by_cases hkn : k = start + n
      · subst hkn
        rw [Function.update_self, if_pos (by omega)]
      · have hne : sums[k] ≠ sums[start + n] := fun e => hkn ((hs.getElem_inj_iff).mp e)
        rw [Function.update_of_ne hne, h1 k hk]
        split_ifs <;> first | rfl | omega
    · have hne : q ≠ sums[start + n] := fun e => hq (e ▸ List.getElem_mem _)
      rw [Function.update_of_ne hne, h2 q hq]

/-- State after the first `n` sums have been put. -/
structure SumsInv (new : Prop) (val : E → F) (scale : 𝕜 → F → F) (nBasis : Nat) (sums : List Nat) (coeff : Nat → Nat → 𝕜)
    (x : Nat → F) (m : HeldObjects E) (n : Nat) (m' : HeldObjects E) : Prop where
  next : m.objects.next ≤ m'.objects.next
  kept : ∀ z < m.objects.next, m'.objects.content z = m.objects.content z
  others : ∀ q, q ∉ sums → m'.held q = m.held q
  result : ∀ k (hk : k < sums.length), k < n → ∃ r, m'.held sums[k] = some r ∧ r < m'.objects.next ∧
    (new → m.objects.next ≤ r) ∧ val (m'.objects.content r) = ∑ i ∈ Finset.range nBasis, scale (coeff i k) (x i)
  different : new → ∀ k l (hk : k < sums.length) (hl : l < sums.length), k < n → l < n → k ≠ l → m'.held sums[k] ≠ m'.held sums[l]

theorem roundObj_inv {C : VecClass 𝕜 E} {inPlace : Prop} {Number : 𝕜 → Prop} {Basis Layer : E → Prop} {val : E → F} {scale : 𝕜 → F → F}
    (hC : C.Proper inPlace Number Basis Layer val scale) {mx : Nat} {basis sums : List Nat} (hpos : basis ≠ []) (hs : sums.Nodup)
    (hdis : ∀ q ∈ basis, q ∉ sums) {coeff : Nat → Nat → 𝕜} {x : Nat → F} {m : HeldObjects E} {v : Nat → Nat}
    (hheld : ∀ i (hi : i < basis.length), m.held basis[i] = some (v i))
    (hv : ∀ i < basis.length, v i < m.objects.next) (hb : ∀ i < basis.length, Basis (m.objects.content (v i)))
    (hx : ∀ i < basis.length, x i = val (m.objects.content (v i))) (hn : ∀ i k, Number (coeff i k)) {j : Nat} {m1 : HeldObjects E}
    (h : SumsInv inPlace val scale basis.length sums coeff x m (min (j * (mx - 1)) sums.length) m1) :
    ∃ m2, roundObj C mx basis sums coeff m1 j = .ok m2 ∧
      SumsInv inPlace val scale basis.length sums coeff x m (min ((j + 1) * (mx - 1)) sums.length) m2 := by
  obtain ⟨start, hstart⟩ : ∃ start, start = min (j * (mx - 1)) sums.length := ⟨_, rfl⟩
  obtain ⟨stop, hstop⟩ : ∃ stop, stop = min (start + (mx - 1)) sums.length := ⟨_, rfl⟩
  have hend : min ((j + 1) * (mx - 1)) sums.length = stop := by
    rw [hstop, hstart, Nat.succ_mul]; omega
  rw [hend]
  rw [← hstart] at h
  have hlen : start + (stop - start) ≤ sums.length := by omega
  have hle : start ≤ stop := by omega
  obtain ⟨s, hfold, hinv⟩ := foldlM_range_inv
    (fun b s => LayersInv inPlace Layer val scale coeff x m1.objects (layerCount start (stop - start) b 0) s)
    (basisObj C basis coeff start (stop - start) m1.held) basis.length (by
      intro b hb' s hs'
      have hmem : basis[b] ∈ basis := List.getElem_mem _
      refine basisObj_inv hC hs' (v := v b) ?_ (lt_of_lt_of_le (hv b hb') h.next) ?_ ?_ hn
      · have : basis.getD b 0 = basis[b] := by simp [hb']
        rw [this, h.others _ (hdis _ hmem)]
        exact hheld b hb'
      · rw [h.kept _ (hv b hb')]; exact hb b hb'
      · rw [h.kept _ (hv b hb')]; exact hx b hb')
    (m1.objects, fun _ => none) (by
      have h0 : ∀ k, layerCount start (stop - start) 0 0 k = 0 := by
        intro k; unfold layerCount; split_ifs <;> omega
      exact ⟨le_rfl, fun _ _ => rfl, fun _ _ => rfl, fun k hk => absurd (h0 k) hk, fun _ _ _ _ hk => absurd rfl hk⟩)
  have hround : roundObj C mx basis sums coeff m1 j = .ok ⟨s.1, (List.range (stop - start)).foldl
      (fun held k => Function.update held (sums.getD (start + k) 0) (s.2 (start + k))) m1.held⟩ := by
    simp only [roundObj, ← hstart, ← hstop, hfold, Except.bind]
  refine ⟨_, hround, ?_⟩
  obtain ⟨p1, p2⟩ := putObj_held sums hs s.2 start m1.held (stop - start) hlen
  have hbl : 0 < basis.length := List.length_pos_iff.mpr hpos
  have hcount : ∀ k, start ≤ k → k < stop → layerCount start (stop - start) basis.length 0 k = basis.length := by
    intro k h1 h2
    unfold layerCount
    rw [if_neg (by omega), if_pos (by omega)]
  refine ⟨h.next.trans hinv.next, ?_, ?_, ?_, ?_⟩
  · intro z hz
    rw [← h.kept z hz]
    exact hinv.kept z (lt_of_lt_of_le hz h.next)
  · intro q hq
    exact (p2 q hq).trans (h.others q hq)
  · intro k hk hkn
    by_cases hks : k < start
    · obtain ⟨r, e1, e2, e3, e4⟩ := h.result k hk hks
      refine ⟨r, ?_, lt_of_lt_of_le e2 hinv.next, e3, ?_⟩
      · refine (p1 k hk).trans ?_
        rw [if_neg (by omega)]; exact e1
      · refine Eq.trans ?_ e4
        exact congrArg val (hinv.kept r e2)
    · have hc := hcount k (by omega) hkn
      obtain ⟨a, e1, e2, e3, -, e5⟩ := hinv.layer k (by rw [hc]; omega)
      refine ⟨a, ?_, e2, fun hp => h.next.trans (e3 hp), ?_⟩
      · refine (p1 k hk).trans ?_
        rw [if_pos (by omega)]; exact e1
      · rw [hc] at e5; exact e5
  · intro hp k l hk hl hkn hln hkl
    have hq : ∀ (i : Nat) (hi : i < sums.length), i < stop →
        (i < start ∧ ∃ r, (List.range (stop - start)).foldl
          (fun held k => Function.update held (sums.getD (start + k) 0) (s.2 (start + k))) m1.held sums[i] = some r ∧
          m1.held sums[i] = some r ∧ r < m1.objects.next) ∨
        (start ≤ i ∧ ∃ r, (List.range (stop - start)).foldl
          (fun held k => Function.update held (sums.getD (start + k) 0) (s.2 (start + k))) m1.held sums[i] = some r ∧
          s.2 i = some r ∧ m1.objects.next ≤ r) := by
      intro i hi hin
      by_cases his : i < start
      · obtain ⟨r, e1, e2, -⟩ := h.result i hi his
        refine .inl ⟨his, r, ?_, e1, e2⟩
        refine (p1 i hi).trans ?_
        rw [if_neg (by omega)]; exact e1
      · have hc := hcount i (by omega) hin
        obtain ⟨a, e1, e2, e3, -⟩ := hinv.layer i (by rw [hc]; omega)
        refine .inr ⟨by omega, a, ?_, e1, e3 hp⟩
        refine (p1 i hi).trans ?_
        rw [if_pos (by omega)]; exact e1
    change (List.range (stop - start)).foldl _ m1.held sums[k] ≠ (List.range (stop - start)).foldl _ m1.held sums[l]
    rcases hq k hk hkn with ⟨k1, r, k2, k3, k4⟩ | ⟨k1, r, k2, k3, k4⟩ <;>
      rcases hq l hl hln with ⟨l1, t, l2, l3, l4⟩ | ⟨l1, t, l2, l3, l4⟩
    · have := h.different hp k l hk hl k1 l1 hkl
      rw [k2, l2, ← k3, ← l3]; exact this
    · rw [k2, l2]; intro e; have : r = t := by simpa using e
      omega
    · rw [k2, l2]; intro e; have : r = t := by simpa using e
      omega
    · have := hinv.different hp k l hkl (by rw [k3]; simp)
      rw [k2, l2, ← k3, ← l3]; exact this

theorem burnObj_inv {C : VecClass 𝕜 E} {inPlace : Prop} {Number : 𝕜 → Prop} {Basis Layer : E → Prop} {val : E → F} {scale : 𝕜 → F → F}
    (hC : C.Proper inPlace Number Basis Layer val scale) (two : 𝕜) {q v : Nat} {m : HeldObjects E} (hq : m.held q = some v)
    (hv : v < m.objects.next) (hb : Basis (m.objects.content v)) :
    ∃ m', burnObj C two q m = .ok m' ∧ m'.held = m.held ∧ m.objects.next ≤ m'.objects.next ∧
      ∀ z < m.objects.next, m'.objects.content z = m.objects.content z := by
  obtain ⟨o1, r, h1, h2, -, -, h5, -⟩ := hC.mul m.objects v two hv hb
  obtain ⟨h6, h7⟩ := hC.add o1 v r
  refine ⟨⟨(C.add o1 v r).1, m.held⟩, ?_, rfl, h2.trans h6, fun z hz => ?_⟩
  · simp only [burnObj, HeldObjects.get, hq, Except.bind, VecClass.rmulObj, hC.rmul, h1, if_true]
  · rw [← h5 z hz]; exact h7 z (lt_of_lt_of_le hz h2)

/-- Combining vectors of a proper class. -/
theorem linCombineObj_combined {C : VecClass 𝕜 E} {inPlace : Prop} {Number : 𝕜 → Prop} {Basis Layer : E → Prop} {val : E → F} {scale : 𝕜 → F → F}
    (hC : C.Proper inPlace Number Basis Layer val scale) (two : 𝕜) {mx : Nat} (hmx : 2 ≤ mx) {basis sums : List Nat} (hpos : basis ≠ [])
    (hs : sums.Nodup) (hdis : ∀ q ∈ basis, q ∉ sums) (coeff : Nat → Nat → 𝕜) (hn : ∀ i k, Number (coeff i k)) (m : HeldObjects E)
    (hheld : ∀ q ∈ basis, ∃ v, m.held q = some v ∧ v < m.objects.next ∧ Basis (m.objects.content v)) :
    ∃ m', linCombineObj C two mx basis sums coeff m = .ok m' ∧ CombinedObj inPlace val scale basis sums coeff m m' := by
  choose! w hw using hheld
  obtain ⟨v, hvw⟩ : ∃ v : Nat → Nat, ∀ i (hi : i < basis.length), v i = w basis[i] :=
    ⟨fun i => w (basis.getD i 0), fun i hi => by simp [hi]⟩
  have hmem : ∀ i (hi : i < basis.length), basis[i] ∈ basis := fun i hi => List.getElem_mem _
  have h1 : ∀ i (hi : i < basis.length), m.held basis[i] = some (v i) := fun i hi => by
    rw [hvw i hi]; exact (hw _ (hmem i hi)).1
  have h2 : ∀ i < basis.length, v i < m.objects.next := fun i hi => by rw [hvw i hi]; exact (hw _ (hmem i hi)).2.1
  have h3 : ∀ i < basis.length, Basis (m.objects.content (v i)) := fun i hi => by rw [hvw i hi]; exact (hw _ (hmem i hi)).2.2
  obtain ⟨q, rest, hbq⟩ : ∃ q rest, basis = q :: rest := List.exists_cons_of_ne_nil hpos
  have hq : q ∈ basis := by rw [hbq]; simp
  obtain ⟨m1, b1, b2, b3, b4⟩ := burnObj_inv hC two (hw q hq).1 (hw q hq).2.1 (hw q hq).2.2
  obtain ⟨m2, c1, c2, c3, c4⟩ := burnObj_inv hC two (m := m1) (by rw [b2]; exact (hw q hq).1)
    (lt_of_lt_of_le (hw q hq).2.1 b3) (by rw [b4 _ (hw q hq).2.1]; exact (hw q hq).2.2)
  obtain ⟨m3, d1, d2⟩ := foldlM_range_inv
    (fun j m' => SumsInv inPlace val scale basis.length sums coeff (fun i => val (m.objects.content (v i))) m
      (min (j * (mx - 1)) sums.length) m')
    (roundObj C mx basis sums coeff) (ceilDivNat sums.length (mx - 1))
    (fun j _ m' hm' => roundObj_inv hC hpos hs hdis h1 h2 h3 (fun _ _ => rfl) hn hm') m2
    ⟨b3.trans c3, fun z hz => (c4 z (lt_of_lt_of_le hz b3)).trans (b4 z hz), fun q _ => by rw [c2, b2],
      fun k hk hk0 => absurd hk0 (by omega), fun _ k l _ _ hk0 => absurd hk0 (by omega)⟩
  have hall : min (ceilDivNat sums.length (mx - 1) * (mx - 1)) sums.length = sums.length :=
    min_eq_right (ceilDivNat_mul_ge _ _ (by omega))
  rw [hall] at d2
  refine ⟨m3, ?_, d2.kept, d2.others, ?_, fun hp k l hk hl hkl => d2.different hp k l hk hl hk hl hkl⟩
  · rw [← d1]
    subst hbq
    simp only [linCombineObj, b1, c1, Except.bind]
  · intro k hk
    obtain ⟨r, e1, e2, e3, e4⟩ := d2.result k hk hk
    refine ⟨r, e1, e2, e3, fun u hu => ?_⟩
    rw [e4]
    refine Finset.sum_congr rfl fun i hi => ?_
    have hi' := Finset.mem_range.mp hi
    have : u i = v i := by
      have := (hu i hi').symm.trans (h1 i hi')
      simpa using this
    rw [this]

end Modred
