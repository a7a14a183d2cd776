import Verif.Lemmas.InnerProduct
import Mathlib.Algebra.BigOperators.Group.List.Basic
import Mathlib.Data.Nat.ModEq

/-! Helper lemmas about `lin_combine`. -/

namespace Modred

variable {α β V K σ μ X : Type*}

/-! ### Order of the work -/

theorem ring_injective {p r t t' : Nat} (ht : t < p) (ht' : t' < p)
    (h : (r + (p - 1) * t) % p = (r + (p - 1) * t') % p) : t = t' := by
  have h1 : r + (p - 1) * t ≡ r + (p - 1) * t' [MOD p] := h
  have h2 : r + (p - 1) * t + (t + t') ≡ r + (p - 1) * t' + (t + t') [MOD p] := h1.add_right _
  obtain ⟨m, rfl⟩ : ∃ m, p = m + 1 := ⟨p - 1, by omega⟩
  have e1 : r + (m + 1 - 1) * t + (t + t') = t' + r + (m + 1) * t := by
    simp only [Nat.add_sub_cancel, Nat.succ_mul]; omega
  have e2 : r + (m + 1 - 1) * t' + (t + t') = t + r + (m + 1) * t' := by
    simp only [Nat.add_sub_cancel, Nat.succ_mul]; omega
  rw [e1, e2] at h2
  have h3 : t' + r ≡ t + r [MOD (m + 1)] := by
    have := h2
    unfold Nat.ModEq at this ⊢
    rwa [Nat.add_mul_mod_self_left, Nat.add_mul_mod_self_left] at this
  have h4 : t' ≡ t [MOD (m + 1)] := Nat.ModEq.add_right_cancel' r h3
  unfold Nat.ModEq at h4
  rw [Nat.mod_eq_of_lt ht, Nat.mod_eq_of_lt ht'] at h4
  exact h4.symm

/-- All chunks in order are all tasks in order. -/
theorem chunks_flatten (f g c m : Nat) (hc : 1 ≤ c) :
    (List.range m).flatMap (fun k => List.range' (chunkBounds (List.range' f (g - f)) k c).1
      ((chunkBounds (List.range' f (g - f)) k c).2 - (chunkBounds (List.range' f (g - f)) k c).1)) =
    List.range' f (min (g - f) (m * c)) := by
  rcases Nat.lt_or_ge f g with h | h
  · induction m with
    | zero => simp
    | succ m ih =>
      rw [List.range_succ, List.flatMap_append, ih]
      simp only [List.flatMap_cons, List.flatMap_nil, List.append_nil]
      rw [chunkBounds_range' f g m c h, Nat.succ_mul]
      dsimp only
      generalize m * c = y
      rcases Nat.lt_or_ge (g - f) y with h1 | h1
      · rw [show min g (min (f + y) g + c) - min (f + y) g = 0 by omega]
        simp only [List.range'_zero, List.append_nil]
        congr 1
        omega
      · rw [show min (f + y) g = f + y by omega, Nat.min_eq_right h1]
        have := List.range'_append (s := f) (m := y) (n := min g (f + y + c) - (f + y)) (step := 1)
        rw [Nat.one_mul] at this
        rw [this]
        congr 1
        omega
  · rw [show g - f = 0 by omega]
    simp [chunkBounds]

/-- Basis vectors in the order in which a rank uses them. -/
def basisOrder (p : Nat) (tasks : List (List Nat)) (m r : Nat) : List Nat :=
  (List.range m).flatMap fun k => (List.range p).flatMap fun t =>
    List.range' (chunkBounds (tasks.getD ((r + (p - 1) * t) % p) []) k 1).1
      ((chunkBounds (tasks.getD ((r + (p - 1) * t) % p) []) k 1).2 -
        (chunkBounds (tasks.getD ((r + (p - 1) * t) % p) []) k 1).1)

/-- Each basis vector is used exactly once. -/
theorem basisOrder_perm (p n r : Nat) (hp : 1 ≤ p) (hr : r < p) :
    (basisOrder p (rangeTasks p 0 n) (maxLen (rangeTasks p 0 n)) r).Perm (List.range n) := by
  obtain ⟨g, hg0, hgp, hgm, hgt⟩ := rangeTasks_blocks p 0 n hp (by omega)
  have hq : ∀ t, (r + (p - 1) * t) % p < p := fun t => Nat.mod_lt _ hp
  have hmem : ∀ k t x, x ∈ List.range' (chunkBounds ((rangeTasks p 0 n).getD ((r + (p - 1) * t) % p) []) k 1).1
      ((chunkBounds ((rangeTasks p 0 n).getD ((r + (p - 1) * t) % p) []) k 1).2 -
        (chunkBounds ((rangeTasks p 0 n).getD ((r + (p - 1) * t) % p) []) k 1).1) →
      g ((r + (p - 1) * t) % p) ≤ x ∧ x < g ((r + (p - 1) * t) % p + 1) ∧
        k = (x - g ((r + (p - 1) * t) % p)) / 1 := by
    intro k t x hx
    rw [hgt _ (hq t), List.mem_range'_1] at hx
    have h2 := (chunkBounds_spec (g ((r + (p - 1) * t) % p)) (g ((r + (p - 1) * t) % p + 1)) k 1).2 x
      hx.1 (by omega)
    exact ⟨h2.1, h2.2, chunk_unique _ _ 1 x k (le_refl 1) hx.1 (by omega)⟩
  rw [List.perm_ext_iff_of_nodup]
  · intro x
    unfold basisOrder
    simp only [List.mem_flatMap, List.mem_range]
    constructor
    · rintro ⟨k, _, t, _, hx⟩
      have h1 := hmem k t x hx
      have h2 := hgm (show (r + (p - 1) * t) % p + 1 ≤ p from hq t)
      omega
    · intro hx
      obtain ⟨q, hqp, h4, h5⟩ := exists_block hg0 hgp (Nat.zero_le x) hx
      obtain ⟨t, ht, rfl⟩ := ring_meets hr hqp
      have h6 := mem_chunk _ _ 1 x (le_refl 1) h4 h5
      refine ⟨(x - g ((r + (p - 1) * t) % p)) / 1, ?_, t, ht, ?_⟩
      · have h7 := length_le_maxLen (ls := rangeTasks p 0 n) (r := (r + (p - 1) * t) % p)
        rw [hgt _ hqp, List.length_range'] at h7
        rw [Nat.div_one]
        omega
      · rw [hgt _ hqp, List.mem_range'_1]
        omega
  · unfold basisOrder
    rw [List.nodup_flatMap]
    constructor
    · intro k _
      rw [List.nodup_flatMap]
      constructor
      · intro t _
        exact List.nodup_range'
      · have := List.nodup_range (n := p)
        refine List.Pairwise.imp_of_mem ?_ this
        intro t t' ht ht' hne x hx hx'
        have h1 := hmem k t x hx
        have h2 := hmem k t' x hx'
        have h3 := block_unique hgm h1.1 h1.2.1 h2.1 h2.2.1
        exact hne (ring_injective (List.mem_range.mp ht) (List.mem_range.mp ht') h3)
    · refine List.Pairwise.imp_of_mem ?_ (List.nodup_range (n := maxLen (rangeTasks p 0 n)))
      intro k k' _ _ hne x hx hx'
      simp only [List.mem_flatMap, List.mem_range] at hx hx'
      obtain ⟨t, _, hx⟩ := hx
      obtain ⟨t', _, hx'⟩ := hx'
      have h1 := hmem k t x hx
      have h2 := hmem k' t' x hx'
      have h3 := block_unique hgm h1.1 h1.2.1 h2.1 h2.2.1
      rw [← h3] at h2
      exact hne (by rw [h1.2.2, h2.2.2])
  · exact List.nodup_range

/-! ### Layers -/

/-- A layer after the basis vectors `B`. -/
def layerOf [Add V] (x : Nat → V) (B : List Nat) : Option V :=
  B.foldl (fun acc i => some (match acc with
    | none => x i
    | some old => old + x i)) none

theorem layerOf_concat [Add V] (x : Nat → V) (B : List Nat) (i : Nat) :
    layerOf x (B ++ [i]) = some (match layerOf x B with
      | none => x i
      | some old => old + x i) := by
  unfold layerOf
  rw [List.foldl_append]
  rfl

theorem layerOf_eq_sum [AddCommMonoid V] (x : Nat → V) (B : List Nat) :
    layerOf x B = if B = [] then none else some (B.map x).sum := by
  induction B using List.reverseRecOn with
  | nil => rfl
  | append_singleton B i ih =>
    rw [layerOf_concat, ih]
    by_cases h : B = []
    · simp [h]
    · simp [h]

/-- `M j` are the basis vectors in layer `j`; the other variables as given. -/
structure LayersAt [Add V] (x : Nat → Nat → V) (a b : Nat) (P : List (Nat × Option V))
    (M : Nat → List Nat) (s : LCState V) : Prop where
  start : s.startSum = a
  stop : s.endSum = b
  puts : s.puts = P
  err : s.err = false
  len : s.sumLayers.length = b - a
  layer : ∀ j, a ≤ j → j < b → s.sumLayers[j - a]? = some (layerOf (fun i => x i j) (M j))

section
variable [Add V] {mul : V → K → V} {coeff : Nat → Nat → K} {basis : List V} {x : Nat → Nat → V}
  {a b : Nat} {P : List (Nat × Option V)}

theorem addLayer_inv (hx : ∀ i j w, basis[i]? = some w → mul w (coeff i j) = x i j)
    {vs : List V} {is : List Nat} (hc : ColsOk basis vs is) {j : Nat} (haj : a ≤ j) (hjb : j < b)
    {w : V} {k i : Nat} (hw : vs[k]? = some w) (hi : is[k]? = some i) {M : Nat → List Nat}
    {s : LCState V} (hs : LayersAt x a b P M s) (hvs : s.basisVecs = vs) (his : s.basisIndices = is) :
    LayersAt x a b P (fun j' => if j' = j then M j' ++ [i] else M j')
        (addLayer mul coeff j s (w, k)) ∧
      (addLayer mul coeff j s (w, k)).basisVecs = vs ∧
      (addLayer mul coeff j s (w, k)).basisIndices = is := by
  have hl := hs.layer j haj hjb
  have hlt : j - a < s.sumLayers.length := by rw [hs.len]; omega
  have hbw := hx i j w (hc.2 k w i hw hi)
  have heq : addLayer mul coeff j s (w, k) =
      { s with sumLayers :=
          s.sumLayers.set (j - a) (layerOf (fun i => x i j) (M j ++ [i])) } := by
    have h1 : s.basisIndices[k]? = some i := by rw [his]; exact hi
    have h2 : s.sumLayers[j - s.startSum]? = some (layerOf (fun i => x i j) (M j)) := by
      rw [hs.start]; exact hl
    unfold addLayer
    simp only [h1, h2]
    simp only [layerOf_concat, hbw, hs.start]
    cases layerOf (fun i => x i j) (M j) <;> rfl
  rw [heq]
  refine ⟨⟨hs.start, hs.stop, hs.puts, hs.err, by simp [hs.len], ?_⟩, hvs, his⟩
  intro j' h1 h2
  dsimp only
  by_cases hj : j' = j
  · subst hj
    rw [List.getElem?_set_self hlt, if_pos rfl]
  · rw [List.getElem?_set_ne (by omega), if_neg hj]
    exact hs.layer j' h1 h2

theorem takeBasis_inv (hx : ∀ i j w, basis[i]? = some w → mul w (coeff i j) = x i j)
    {vs : List V} {is : List Nat} (hc : ColsOk basis vs is) {B : List Nat}
    {s : LCState V} (hs : LayersAt x a b P (fun _ => B) s) :
    LayersAt x a b P (fun _ => B ++ is) (takeBasis mul coeff s (vs, is)) ∧
      (takeBasis mul coeff s (vs, is)).basisVecs = vs ∧
      (takeBasis mul coeff s (vs, is)).basisIndices = is := by
  -- one sum
  have hinner : ∀ j, a ≤ j → j < b → ∀ (L : List (V × Nat)), (∀ wk ∈ L, vs[wk.2]? = some wk.1) →
      ∀ (M : Nat → List Nat) (s : LCState V), LayersAt x a b P M s → s.basisVecs = vs →
      s.basisIndices = is →
      LayersAt x a b P (fun j' => if j' = j then M j' ++ L.map (fun wk => is.getD wk.2 0) else M j')
        (L.foldl (addLayer mul coeff j) s) ∧ (L.foldl (addLayer mul coeff j) s).basisVecs = vs ∧
        (L.foldl (addLayer mul coeff j) s).basisIndices = is := by
    intro j haj hjb L
    induction L with
    | nil => intro _ M s h1 h2 h3; simpa using ⟨h1, h2, h3⟩
    | cons wk L ih =>
      intro hL M s h1 h2 h3
      have hw := hL wk (by simp)
      have hk : wk.2 < is.length := by
        rw [← hc.1]; exact (List.getElem?_eq_some_iff.mp hw).1
      have hi : is[wk.2]? = some (is.getD wk.2 0) := by
        rw [List.getD, List.getElem?_eq_getElem hk]; rfl
      obtain ⟨h4, h5, h6⟩ := addLayer_inv hx hc haj hjb hw hi h1 h2 h3
      have h7 := ih (fun wk h => hL wk (by simp [h])) _ _ h4 h5 h6
      rw [List.foldl_cons]
      convert h7 using 2
      funext j'
      split <;> simp
  have hzip : vs.zipIdx.map (fun wk => is.getD wk.2 0) = is := by
    apply List.ext_getElem
    · simp [hc.1]
    · intro k h1 h2
      simp [List.getD, h2]
  -- all sums
  have houter : ∀ (m c : Nat), a ≤ c → c + m ≤ b → ∀ (s : LCState V),
      LayersAt x a b P (fun j => if j < c then B ++ is else B) s → s.basisVecs = vs →
      s.basisIndices = is →
      LayersAt x a b P (fun j => if j < c + m then B ++ is else B)
        ((List.range' c m).foldl (fun s j => s.basisVecs.zipIdx.foldl (addLayer mul coeff j) s) s) ∧
      ((List.range' c m).foldl (fun s j =>
        s.basisVecs.zipIdx.foldl (addLayer mul coeff j) s) s).basisVecs = vs ∧
      ((List.range' c m).foldl (fun s j =>
        s.basisVecs.zipIdx.foldl (addLayer mul coeff j) s) s).basisIndices = is := by
    intro m
    induction m with
    | zero => intro c _ _ s h1 h2 h3; exact ⟨h1, h2, h3⟩
    | succ m ih =>
      intro c hac hcb s h1 h2 h3
      rw [List.range'_succ, List.foldl_cons]
      obtain ⟨h4, h5, h6⟩ := hinner c hac (by omega) vs.zipIdx
        (fun wk h => by rw [← List.mk_mem_zipIdx_iff_getElem?]; exact h) _ s h1 h2 h3
      rw [hzip] at h4
      have h7 := ih (c + 1) (by omega) (by omega) (vs.zipIdx.foldl (addLayer mul coeff c) s)
        (by
          convert h4 using 1
          funext j
          rcases Nat.lt_trichotomy j c with h | h | h
          · rw [if_pos (by omega), if_neg (by omega), if_pos h]
          · subst h; simp
          · rw [if_neg (by omega), if_neg (by omega), if_neg (by omega)]) h5 h6
      rw [h2]
      rw [show c + (m + 1) = c + 1 + m by omega]
      exact h7
  have htb : takeBasis mul coeff s (vs, is) = (List.range' a (b - a)).foldl (fun s j =>
      s.basisVecs.zipIdx.foldl (addLayer mul coeff j) s)
      { s with basisVecs := vs, basisIndices := is } := by
    unfold takeBasis addLayers
    dsimp only
    rw [← hs.start, ← hs.stop]
  rw [htb]
  rcases Nat.lt_or_ge b a with hab | hab
  · rw [show b - a = 0 by omega]
    exact ⟨⟨hs.start, hs.stop, hs.puts, hs.err, hs.len, fun j h1 h2 => by omega⟩, rfl, rfl⟩
  · have := houter (b - a) a (le_refl _) (by omega)
      { s with basisVecs := vs, basisIndices := is }
      ⟨hs.start, hs.stop, hs.puts, hs.err, hs.len, fun j h1 h2 => by
        rw [if_neg (by omega)]; exact hs.layer j h1 h2⟩ rfl rfl
    refine ⟨⟨this.1.start, this.1.stop, this.1.puts, this.1.err, this.1.len, fun j h1 h2 => ?_⟩,
      this.2⟩
    have h3 := this.1.layer j h1 h2
    rw [if_pos (by omega)] at h3
    exact h3

theorem putSums_inv {B : List Nat} {s : LCState V} (hs : LayersAt x a b P (fun _ => B) s) :
    (putSums s).err = false ∧
      (putSums s).puts = P ++ (List.range' a (b - a)).map fun j => (j, layerOf (fun i => x i j) B) := by
  unfold putSums
  rw [hs.start, hs.stop]
  have h : ∀ (m c : Nat), a ≤ c → c + m ≤ b → ∀ (s : LCState V) (P : List (Nat × Option V)),
      LayersAt x a b P (fun _ => B) s →
      LayersAt x a b (P ++ (List.range' c m).map fun j => (j, layerOf (fun i => x i j) B)) (fun _ => B)
        ((List.range' c m).foldl (fun s sumIndex =>
          match s.sumLayers[sumIndex - s.startSum]? with
          | some layer => { s with puts := s.puts ++ [(sumIndex, layer)] }
          | none => { s with err := true }) s) := by
    intro m
    induction m with
    | zero => intro c _ _ s P h; simpa using h
    | succ m ih =>
      intro c hac hcb s P h
      rw [List.range'_succ, List.foldl_cons, List.map_cons]
      have h1 := h.layer c hac (by omega)
      have := ih (c + 1) (by omega) (by omega)
        (match s.sumLayers[c - s.startSum]? with
          | some layer => { s with puts := s.puts ++ [(c, layer)] }
          | none => { s with err := true }) (P ++ [(c, layerOf (fun i => x i c) B)]) (by
          have h2 : s.sumLayers[c - s.startSum]? = some (layerOf (fun i => x i c) B) := by
            rw [h.start]; exact h1
          simp only [h2]
          exact ⟨h.start, h.stop, by dsimp only; rw [h.puts], h.err, h.len, h.layer⟩)
      rw [List.append_assoc] at this
      exact this
  rcases Nat.lt_or_ge b a with hab | hab
  · rw [show b - a = 0 by omega]
    simp [hs.err, hs.puts]
  · have := h (b - a) a (le_refl _) (by omega) s P hs
    exact ⟨this.err, this.puts⟩

end

/-! ### The whole program -/

theorem lcProg_matched [Add V] (p mx : Nat) (mul : V → K → V) (basis : List V) (numSums : Nat)
    (coeff : Nat → Nat → K) : AllMatched p (lcProg p mx mul basis numSums coeff) := by
  unfold lcProg
  refine AllMatched.flatMap fun _ _ => AllMatched.append (AllMatched.cons (localRound_matched _ _)
    (AllMatched.flatMap fun _ _ => AllMatched.cons (localRound_matched _ _) ?_))
    (AllMatched.cons (localRound_matched _ _) AllMatched.nil)
  intro R hR
  rw [List.eq_of_mem_replicate hR]
  exact ringRound_matched _ _

theorem addLayers_basis [Add V] (mul : V → K → V) (coeff : Nat → Nat → K) (s : LCState V) :
    ((addLayers mul coeff s).basisVecs, (addLayers mul coeff s).basisIndices) =
      (s.basisVecs, s.basisIndices) := by
  unfold addLayers
  have h1 : ∀ j (s : LCState V) wk, ((addLayer mul coeff j s wk).basisVecs,
      (addLayer mul coeff j s wk).basisIndices) = (s.basisVecs, s.basisIndices) := by
    intro j s wk
    unfold addLayer
    split <;> rfl
  have h2 : ∀ j (L : List (V × Nat)) (s : LCState V), ((L.foldl (addLayer mul coeff j) s).basisVecs,
      (L.foldl (addLayer mul coeff j) s).basisIndices) = (s.basisVecs, s.basisIndices) := by
    intro j L
    induction L with
    | nil => intro s; rfl
    | cons wk L ih => intro s; rw [List.foldl_cons, ih, h1]
  have h3 : ∀ (J : List Nat) (s : LCState V), ((J.foldl (fun s j =>
      s.basisVecs.zipIdx.foldl (addLayer mul coeff j) s) s).basisVecs, (J.foldl (fun s j =>
      s.basisVecs.zipIdx.foldl (addLayer mul coeff j) s) s).basisIndices) =
        (s.basisVecs, s.basisIndices) := by
    intro J
    induction J with
    | nil => intro s; rfl
    | cons j J ih => intro s; rw [List.foldl_cons, ih, h2]
  exact h3 _ _

theorem basisPass_local [Add V] (p : Nat) (mul : V → K → V) (coeff : Nat → Nat → K)
    (own : Nat → List V × List Nat) :
    LocalOn p (localRound (fun rank s => takeBasis mul coeff s (own rank)) ::
        List.replicate (p - 1) (ringRound p (fun s => (s.basisVecs, s.basisIndices))
          fun _ s m => takeBasis mul coeff s m))
      (fun r s => (List.range p).foldl
        (fun s t => takeBasis mul coeff s (own ((r + (p - 1) * t) % p))) s) := by
  intro st r hr
  have hpk : ∀ (s : LCState V) m, ((takeBasis mul coeff s m).basisVecs,
      (takeBasis mul coeff s m).basisIndices) = m := fun s m => addLayers_basis _ _ _
  rw [exec_cons, ring_exec _ _ _ _ _ r hr]
  · simp only [localRound_step, hpk]
    obtain ⟨k, rfl⟩ : ∃ k, p = k + 1 := ⟨p - 1, by omega⟩
    have hr0 : List.range (k + 1) = 0 :: List.range' 1 k := by
      rw [List.range_eq_range', List.range'_succ]
    rw [hr0, List.foldl_cons]
    simp [Nat.mod_eq_of_lt hr]
  · intro r s s'
    exact hpk _ _

/-- The basis loop of rank `r`. -/
def basisLoop [Add V] (p : Nat) (mul : V → K → V) (coeff : Nat → Nat → K) (basis : List V) (r : Nat)
    (s : LCState V) : LCState V :=
  (List.range (maxLen (rangeTasks p 0 basis.length))).foldl (fun s k =>
    (List.range p).foldl (fun s t => takeBasis mul coeff s
      (ownBasis basis (rangeTasks p 0 basis.length) k ((r + (p - 1) * t) % p))) s) s

/-- Where addition is associative and commutative, the order does not matter. -/
theorem layerOf_basisOrder [AddCommMonoid V] (p : Nat) (hp : 1 ≤ p) (n : Nat) (hn : n ≠ 0) (x : Nat → V) (r : Nat)
    (hr : r < p) :
    layerOf x (basisOrder p (rangeTasks p 0 n) (maxLen (rangeTasks p 0 n)) r) =
      some (∑ i ∈ Finset.range n, x i) := by
  have hperm := basisOrder_perm p n r hp hr
  rw [layerOf_eq_sum, if_neg, (hperm.map _).sum_eq]
  · congr 1
  · intro h
    rw [h] at hperm
    have := hperm.length_eq
    rw [List.length_range, List.length_nil] at this
    exact hn this.symm

/-- What one round of sums does on rank `r`. -/
theorem lcChunk_order [Add V] (p mx : Nat) (hp : 1 ≤ p) (mul : V → K → V)
    (basis : List V) (numSums : Nat) (coeff : Nat → Nat → K)
    {x : Nat → Nat → V} (hx : ∀ i j w, basis[i]? = some w → mul w (coeff i j) = x i j) (r : Nat)
    (hr : r < p) (k : Nat) (s : LCState V) (hs : s.err = false) :
    let s' := putSums (basisLoop p mul coeff basis r
      (startSums (rangeTasks p 0 numSums) k (mx - 1) r s))
    s'.err = false ∧ s'.puts = s.puts ++
      (List.range' (chunkBounds ((rangeTasks p 0 numSums).getD r []) k (mx - 1)).1
        ((chunkBounds ((rangeTasks p 0 numSums).getD r []) k (mx - 1)).2 -
          (chunkBounds ((rangeTasks p 0 numSums).getD r []) k (mx - 1)).1)).map fun j =>
            (j, layerOf (fun i => x i j) (basisOrder p (rangeTasks p 0 basis.length)
              (maxLen (rangeTasks p 0 basis.length)) r)) := by
  obtain ⟨g, hg0, hgp, hgm, hgt⟩ := rangeTasks_blocks p 0 basis.length hp (by omega)
  have hgle : ∀ r, r ≤ p → g r ≤ basis.length := fun r h => by rw [← hgp]; exact hgm h
  have hbl : ∀ a b P (s : LCState V), LayersAt x a b P (fun _ => []) s →
      LayersAt x a b P (fun _ => basisOrder p (rangeTasks p 0 basis.length)
        (maxLen (rangeTasks p 0 basis.length)) r) (basisLoop p mul coeff basis r s) := by
    intro a b P s hs
    have hA : ∀ (L : List Nat) (k : Nat) (B : List Nat) (s : LCState V),
        LayersAt x a b P (fun _ => B) s →
        LayersAt x a b P (fun _ => B ++ L.flatMap fun t =>
          (ownBasis basis (rangeTasks p 0 basis.length) k ((r + (p - 1) * t) % p)).2)
          (L.foldl (fun s t => takeBasis mul coeff s
            (ownBasis basis (rangeTasks p 0 basis.length) k ((r + (p - 1) * t) % p))) s) := by
      intro L k
      induction L with
      | nil => intro B s h; simpa using h
      | cons t L ih =>
        intro B s h
        have hq : (r + (p - 1) * t) % p < p := Nat.mod_lt _ hp
        have hc : ColsOk basis
            (ownBasis basis (rangeTasks p 0 basis.length) k ((r + (p - 1) * t) % p)).1
            (ownBasis basis (rangeTasks p 0 basis.length) k ((r + (p - 1) * t) % p)).2 := by
          unfold ownBasis
          dsimp only
          rw [hgt _ hq]
          exact colsOk_slice _ _ _ (chunkBounds_le _ _ _ _ _ (hgle _ (by omega)))
        have h2 := (takeBasis_inv hx hc h).1
        have h3 := ih _ _ h2
        rw [List.foldl_cons, List.flatMap_cons, ← List.append_assoc]
        exact h3
    have hB : ∀ (L : List Nat) (B : List Nat) (s : LCState V), LayersAt x a b P (fun _ => B) s →
        LayersAt x a b P (fun _ => B ++ L.flatMap fun k => (List.range p).flatMap fun t =>
          (ownBasis basis (rangeTasks p 0 basis.length) k ((r + (p - 1) * t) % p)).2)
          (L.foldl (fun s k => (List.range p).foldl (fun s t => takeBasis mul coeff s
            (ownBasis basis (rangeTasks p 0 basis.length) k ((r + (p - 1) * t) % p))) s) s) := by
      intro L
      induction L with
      | nil => intro B s h; simpa using h
      | cons k L ih =>
        intro B s h
        have h3 := ih _ _ (hA (List.range p) k B s h)
        rw [List.foldl_cons, List.flatMap_cons, ← List.append_assoc]
        exact h3
    have := hB (List.range (maxLen (rangeTasks p 0 basis.length))) [] s hs
    rw [List.nil_append] at this
    exact this
  have h2 : LayersAt x (chunkBounds ((rangeTasks p 0 numSums).getD r []) k (mx - 1)).1
      (chunkBounds ((rangeTasks p 0 numSums).getD r []) k (mx - 1)).2 s.puts (fun _ => [])
      (startSums (rangeTasks p 0 numSums) k (mx - 1) r s) := by
    refine ⟨rfl, rfl, rfl, hs, by simp [startSums], fun j h3 h4 => ?_⟩
    unfold startSums
    dsimp only
    rw [List.getElem?_replicate, if_pos (by omega)]
    rfl
  have h3 := putSums_inv (hbl _ _ _ _ h2)
  exact h3

theorem lcChunk_spec [AddCommMonoid V] (p mx : Nat) (hp : 1 ≤ p) (mul : V → K → V)
    (basis : List V) (hbasis : basis ≠ []) (numSums : Nat) (coeff : Nat → Nat → K)
    {x : Nat → Nat → V} (hx : ∀ i j w, basis[i]? = some w → mul w (coeff i j) = x i j) (r : Nat)
    (hr : r < p) (k : Nat) (s : LCState V) (hs : s.err = false) :
    let s' := putSums (basisLoop p mul coeff basis r
      (startSums (rangeTasks p 0 numSums) k (mx - 1) r s))
    s'.err = false ∧ s'.puts = s.puts ++
      (List.range' (chunkBounds ((rangeTasks p 0 numSums).getD r []) k (mx - 1)).1
        ((chunkBounds ((rangeTasks p 0 numSums).getD r []) k (mx - 1)).2 -
          (chunkBounds ((rangeTasks p 0 numSums).getD r []) k (mx - 1)).1)).map fun j =>
            (j, some (∑ i ∈ Finset.range basis.length, x i j)) := by
  have h := lcChunk_order p mx hp mul basis numSums coeff hx r hr k s hs
  simp only [layerOf_basisOrder p hp basis.length (fun h => hbasis (List.length_eq_zero_iff.mp h)) _ r hr] at h
  exact h

/-- What each rank puts: the products added in the order in which the basis vectors come round. -/
theorem lcProg_order [Add V] (p mx : Nat) (hp : 1 ≤ p) (hmx : 2 ≤ mx) (mul : V → K → V)
    (basis : List V) (numSums : Nat) (coeff : Nat → Nat → K)
    {x : Nat → Nat → V} (hx : ∀ i j w, basis[i]? = some w → mul w (coeff i j) = x i j) (r : Nat)
    (hr : r < p) :
    let s := exec (lcProg p mx mul basis numSums coeff) lcInit r
    s.err = false ∧ s.puts = ((rangeTasks p 0 numSums).getD r []).map fun j =>
      (j, layerOf (fun i => x i j) (basisOrder p (rangeTasks p 0 basis.length)
              (maxLen (rangeTasks p 0 basis.length)) r)) := by
  obtain ⟨f, hf0, hfp, hfm, hft⟩ := rangeTasks_blocks p 0 numSums hp (by omega)
  have h1 : ∀ m, ceilDivNat m 1 = m := fun m => by simp [ceilDivNat]
  -- the loops, rank by rank
  let loops : Nat → LCState V → LCState V := fun r s =>
    (List.range (ceilDivNat (maxLen (rangeTasks p 0 numSums)) (mx - 1))).foldl
      (fun s k => putSums (basisLoop p mul coeff basis r
        (startSums (rangeTasks p 0 numSums) k (mx - 1) r s))) s
  have hlocal : exec (lcProg p mx mul basis numSums coeff) lcInit r = loops r (lcInit r) := by
    unfold lcProg
    dsimp only
    rw [h1]
    have hl : ∀ k, LocalOn p (μ := List V × List Nat)
        (localRound (startSums (V := V) (rangeTasks p 0 numSums) k (mx - 1)) ::
        ((List.range (maxLen (rangeTasks p 0 basis.length))).flatMap fun basisIndex =>
          localRound (fun rank s => takeBasis mul coeff s
            (ownBasis basis (rangeTasks p 0 basis.length) basisIndex rank)) ::
          List.replicate (p - 1) (ringRound p (fun s => (s.basisVecs, s.basisIndices))
            fun _ s m => takeBasis mul coeff s m)) ++
        [localRound fun _ s => putSums s])
        (fun r s => putSums (basisLoop p mul coeff basis r
          (startSums (rangeTasks p 0 numSums) k (mx - 1) r s))) := by
      intro k
      refine LocalOn.append (g := fun _ s => putSums s) (LocalOn.cons (LocalOn.flatMap _ fun kb _ =>
        basisPass_local p mul coeff _)) ?_
      intro st r _
      rw [exec_cons, exec_nil, localRound_step]
    exact LocalOn.flatMap _ (fun k _ => hl k) _ r hr
  have hloops : ∀ (L : List Nat) (s : LCState V), s.err = false →
      let s' := L.foldl (fun s k => putSums (basisLoop p mul coeff basis r
        (startSums (rangeTasks p 0 numSums) k (mx - 1) r s))) s
      s'.err = false ∧ s'.puts = s.puts ++ (L.flatMap fun k =>
        List.range' (chunkBounds ((rangeTasks p 0 numSums).getD r []) k (mx - 1)).1
          ((chunkBounds ((rangeTasks p 0 numSums).getD r []) k (mx - 1)).2 -
            (chunkBounds ((rangeTasks p 0 numSums).getD r []) k (mx - 1)).1)).map fun j =>
              (j, layerOf (fun i => x i j) (basisOrder p (rangeTasks p 0 basis.length)
              (maxLen (rangeTasks p 0 basis.length)) r)) := by
    intro L
    induction L with
    | nil => intro s hs; simpa using hs
    | cons k L ih =>
      intro s hs
      rw [List.foldl_cons, List.flatMap_cons, List.map_append]
      obtain ⟨h3, h4⟩ := lcChunk_order p mx hp mul basis numSums coeff hx r hr k s hs
      have h5 := ih _ h3
      rw [h4] at h5
      refine ⟨h5.1, ?_⟩
      rw [h5.2, List.append_assoc]
  dsimp only
  rw [hlocal]
  have h2 := hloops (List.range (ceilDivNat (maxLen (rangeTasks p 0 numSums)) (mx - 1))) (lcInit r) rfl
  refine ⟨h2.1, ?_⟩
  have h3 := h2.2
  rw [hft r hr, chunks_flatten _ _ _ _ (by omega)] at h3
  rw [hft r hr]
  have h7 := length_le_maxLen (ls := rangeTasks p 0 numSums) (r := r)
  rw [hft r hr, List.length_range'] at h7
  have h8 := ceilDivNat_mul_ge (maxLen (rangeTasks p 0 numSums)) (mx - 1) (by omega)
  rw [Nat.min_eq_left (by omega)] at h3
  exact h3

theorem lcProg_exec [AddCommMonoid V] (p mx : Nat) (hp : 1 ≤ p) (hmx : 2 ≤ mx) (mul : V → K → V)
    (basis : List V) (hbasis : basis ≠ []) (numSums : Nat) (coeff : Nat → Nat → K)
    {x : Nat → Nat → V} (hx : ∀ i j w, basis[i]? = some w → mul w (coeff i j) = x i j) (r : Nat)
    (hr : r < p) :
    let s := exec (lcProg p mx mul basis numSums coeff) lcInit r
    s.err = false ∧ s.puts = ((rangeTasks p 0 numSums).getD r []).map fun j =>
      (j, some (∑ i ∈ Finset.range basis.length, x i j)) := by
  have h := lcProg_order p mx hp hmx mul basis numSums coeff hx r hr
  simp only [layerOf_basisOrder p hp basis.length (fun h => hbasis (List.length_eq_zero_iff.mp h)) _ r hr] at h
  exact h


end Modred
