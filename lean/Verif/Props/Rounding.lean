import Verif.Props.VectorSpace
import Verif.Props.AssignFloat
import Verif.Spec.FloatArith
import Verif.Spec.LeftSum
import Verif.Lemmas.Rounding
import Mathlib.Data.List.FinRange

/-!
# Rounding and the number of processes (C79)

In exact arithmetic the results of the vector space class do not depend on the number of processes (C07, C08, C09).  Here
it is shown what remains of this in floating point arithmetic.
-/

namespace Modred

universe u v

variable {V : Type u} {K : Type v}

/-! ### Inner products -/

/-- **C79.** In any arithmetic with `0 + x = x + 0 = x`, there is one array that all processes get, whatever the number of
processes and nodes, the memory limit, and the interleaving. -/
theorem C79_inner_products_any_arithmetic [AddZeroClass K] [Star K] (ip : V → V → K) (cast : K → K → K) (rows cols : List V)
    (hrows : rows ≠ []) (hcols : cols ≠ []) :
    ∃ A : Nat → Nat → K, ∀ (procs nodes : Nat) (request : Option Nat) (tag : Nat), 1 ≤ procs → 1 ≤ nodes →
      ∃ job, computeInnerProductArray procs tag (limits request procs nodes).perProc (some ip) cast rows cols = .ok job ∧
        EveryInterleaving procs job.prog ipInit fun _ s => s.err = false ∧
          ∀ i j, i < rows.length → j < cols.length → job.ret s i j = A i j := by
  have h1 := List.length_pos_iff.mpr hrows
  have h2 := List.length_pos_iff.mpr hcols
  refine ⟨fun i j => if h : i < rows.length ∧ j < cols.length then
      if rows.length ≤ cols.length then cast (ip rows[0] cols[0]) (ip rows[i] cols[j])
      else star (cast (ip cols[0] rows[0]) (ip cols[j] rows[i])) else 0, fun procs nodes request tag hp hn => ?_⟩
  obtain ⟨job, h3, h4⟩ := C07_inner_product_array_in_general procs nodes hp hn request tag ip cast rows cols h1 h2
  refine ⟨job, h3, fun sync n s hrun => ?_⟩
  obtain ⟨h5, h6, h7⟩ := h4 sync n s hrun
  refine ⟨h5, h6, fun hfin => ⟨fun r hr => ⟨((h7 hfin).1 r hr).1, fun i j hi hj => ?_⟩, (h7 hfin).2⟩⟩
  dsimp only
  rw [dif_pos ⟨hi, hj⟩]
  exact ((h7 hfin).1 r hr).2 i j hi hj

/-- **C79.** The same for `compute_symm_inner_product_array`, for inner products that are conjugate symmetric as
calculated, if calculations with 0 and 1 are exact. -/
theorem C79_symmetric_any_arithmetic [BareArith K] [DecidableEq K] (procs nodes : Nat)
    (hp : 1 ≤ procs) (hn : 1 ≤ nodes) (request : Option Nat) (tag : Nat) (ip : V → V → K)
    (cast : K → K → K) (vecs : List V) (hvecs : 0 < vecs.length)
    (hsymm : ∀ v ∈ vecs, ∀ w ∈ vecs, ip w v = star (ip v w))
    (hcast : ∀ v ∈ vecs, ∀ w ∈ vecs, cast (ip vecs[0] vecs[0]) (ip v w) = ip v w) :
    ∃ job, computeSymmInnerProductArray procs tag (limits request procs nodes).perProc (some ip)
        cast vecs = .ok job ∧
      EveryInterleaving procs job.prog ipInit fun _ s => s.err = false ∧
        ∀ (i j : Nat) (hi : i < vecs.length) (hj : j < vecs.length),
          job.ret s i j = ip vecs[i] vecs[j] :=
  symm_inner_product_array_bare procs nodes hp hn request tag ip cast vecs hvecs hsymm hcast

/-- In double precision: numbers under rounded multiplication on five processes. -/
example (R : { rnd : ℚ → ℚ // IsRounding rnd }) (a b c : Fl R) :
    ∃ job, computeSymmInnerProductArray 5 0 (limits none 5 1).perProc (some fun v w : Fl R => v * w) (fun _ v => v)
        [a, b, c] = .ok job ∧
      EveryInterleaving 5 job.prog ipInit fun _ s => s.err = false ∧
        ∀ (i j : Nat) (hi : i < 3) (hj : j < 3), job.ret s i j = [a, b, c][i] * [a, b, c][j] :=
  C79_symmetric_any_arithmetic 5 1 (by decide) (by decide) none 0 (fun v w : Fl R => v * w) (fun _ v => v) [a, b, c]
    (by simp) (fun v _ w _ => Subtype.ext (by rw [Fl.mul_val, mul_comm]; rfl)) (fun _ _ _ _ => rfl)

/-- There is such an arithmetic. -/
example : Nonempty { rnd : ℚ → ℚ // IsRounding rnd } := exists_rounding.elim fun rnd h => ⟨⟨rnd, h⟩⟩

/-! ### Linear combinations -/

theorem everyInterleaving_mono {σ μ : Type*} {p : Nat} {prog : Prog σ μ} {st : Nat → σ} {P Q : Nat → σ → Prop}
    (h : EveryInterleaving p prog st P) (hPQ : ∀ r s, r < p → P r s → Q r s) : EveryInterleaving p prog st Q := by
  intro sync n s hrun
  obtain ⟨h1, h2, h3⟩ := h sync n s hrun
  exact ⟨h1, h2, fun hfin => ⟨fun r hr => hPQ r _ hr ((h3 hfin).1 r hr), (h3 hfin).2⟩⟩

theorem layerOf_eq_leftSum [Add V] (x : Nat → V) (B : List Nat) : layerOf x B = leftSum (B.map x) := by
  induction B using List.reverseRecOn with
  | nil => rfl
  | append_singleton B i ih =>
    rw [layerOf_concat, ih]
    cases B with
    | nil => rfl
    | cons b B => simp [leftSum, List.foldl_append]

/-- Basis vectors are added in this order by rank `r`. -/
def finOrder (p n r : Nat) : List (Fin n) :=
  (basisOrder p (rangeTasks p 0 n) (maxLen (rangeTasks p 0 n)) r).filterMap fun i => if h : i < n then some ⟨i, h⟩ else none

theorem finOrder_vals (p n r : Nat) (hp : 1 ≤ p) (hr : r < p) :
    (finOrder p n r).map Fin.val = basisOrder p (rangeTasks p 0 n) (maxLen (rangeTasks p 0 n)) r := by
  unfold finOrder
  have hmem : ∀ i ∈ basisOrder p (rangeTasks p 0 n) (maxLen (rangeTasks p 0 n)) r, i < n := fun i hi =>
    List.mem_range.mp ((basisOrder_perm p n r hp hr).mem_iff.mp hi)
  generalize basisOrder p (rangeTasks p 0 n) (maxLen (rangeTasks p 0 n)) r = B at hmem
  induction B with
  | nil => rfl
  | cons b B ih =>
    have hb := hmem b (by simp)
    rw [List.filterMap_cons]
    simp only [hb, dif_pos, List.map_cons]
    rw [ih fun i hi => hmem i (by simp [hi])]

theorem finOrder_perm (p n r : Nat) (hp : 1 ≤ p) (hr : r < p) : (finOrder p n r).Perm (List.finRange n) := by
  have h1 := basisOrder_perm p n r hp hr
  rw [← finOrder_vals p n r hp hr, ← List.map_coe_finRange_eq_range] at h1
  exact (List.map_perm_map_iff Fin.val_injective).mp h1

theorem basisOrder_one (n : Nat) : basisOrder 1 (rangeTasks 1 0 n) (maxLen (rangeTasks 1 0 n)) 0 = List.range n := by
  obtain ⟨g, hg0, hgp, hgm, hgt⟩ := rangeTasks_blocks 1 0 n (le_refl 1) (by omega)
  have h1 := hgt 0 (by omega)
  have h7 := length_le_maxLen (ls := rangeTasks 1 0 n) (r := 0)
  rw [h1, List.length_range'] at h7
  unfold basisOrder
  have h2 : ∀ t, (0 + (1 - 1) * t) % 1 = 0 := fun t => Nat.mod_one _
  simp only [h2, List.range_one, List.flatMap_cons, List.flatMap_nil, List.append_nil]
  rw [h1, chunks_flatten _ _ _ _ (le_refl 1), Nat.mul_one, Nat.min_eq_left h7, hg0, Nat.zero_add, hgp, Nat.sub_zero,
    List.range_eq_range']

theorem finOrder_one (n : Nat) : finOrder 1 n 0 = List.finRange n := by
  have h := finOrder_vals 1 n 0 (le_refl 1) (by omega)
  rw [basisOrder_one, ← List.map_coe_finRange_eq_range] at h
  exact List.map_injective_iff.mpr Fin.val_injective h

theorem share_all (procs numSums : Nat) (hp : 1 ≤ procs) :
    (List.range procs).flatMap (fun r => (rangeTasks procs 0 numSums).getD r []) = List.range numSums := by
  have h7 := rangeTasks_flatten procs 0 numSums hp
  have h8 := rangeTasks_length procs 0 numSums
  rw [Nat.sub_zero, ← List.range_eq_range'] at h7
  rw [← h7, List.flatMap_def]
  congr 1
  apply List.ext_getElem
  · simp [h8]
  · intro i h9 h10
    simp [List.getD, h10]

/-- **C79.** With any addition at all, `lin_combine` puts into sum handle `k` the products `basis_i * coeff[i, k]` added up
from the left in some order of the basis vectors.  The order depends on nothing but the numbers of processes and of basis
vectors and on the rank that calculates the sum.  On one process it is the order of the basis vectors. -/
theorem C79_lin_combine_order (n : Nat) : ∃ order : Nat → Nat → List (Fin n),
    (∀ procs r, r < procs → (order procs r).Perm (List.finRange n)) ∧ order 1 0 = List.finRange n ∧
    ∀ (V : Type u) (K : Type v) [Add V] [Zero K] (procs nodes : Nat) (request : Option Nat) (mul : V → K → V)
      (numSums : Nat) (basis : List V) (hbasis : basis.length = n) (coeff : CoeffArray K)
      (sel : Option (List Int)), 1 ≤ procs → 1 ≤ nodes → basis ≠ [] → selectionOk (specShape basis.length coeff).2 sel →
      (specShape basis.length coeff).1 = basis.length → numSelected (specShape basis.length coeff).2 sel = numSums →
      ∃ prog, linCombine procs (limits request procs nodes).perProc mul numSums basis coeff sel = .ok prog ∧
        ∃ share : Nat → List Nat, (List.range procs).flatMap share = List.range numSums ∧
          EveryInterleaving procs prog lcInit fun r s => s.err = false ∧
            s.puts = (share r).map fun k => (k, leftSum ((order procs r).map fun i : Fin n => mul (basis[i.1]'(hbasis ▸ i.2))
              (specEntry basis.length coeff i (specColumn (specShape basis.length coeff).2 sel k)))) := by
  refine ⟨fun p r => finOrder p n r, fun p r hr => finOrder_perm p n r (by omega) hr, finOrder_one n, ?_⟩
  intro V K _ _ procs nodes request mul numSums basis hlen coeff sel hp hn hbasis hsel hrows hcols
  subst hlen
  have hmx := C12_at_least_three_vectors_per_process request procs nodes hp hn
  generalize (limits request procs nodes).perProc = mx at hmx
  obtain ⟨h1, h2⟩ := coeff2d_spec basis.length coeff
  rw [← h1] at hsel hrows hcols
  obtain ⟨b, h3, h4, h5, h6⟩ := selectCols_spec _ sel hsel
  dsimp only at h5 h6 hrows hcols
  have hlen : ¬ basis.length = 0 := fun h => hbasis (List.length_eq_zero_iff.mp h)
  refine ⟨lcProg procs mx mul basis numSums b.e, ?_, fun r => (rangeTasks procs 0 numSums).getD r [],
    share_all procs numSums hp, ?_⟩
  · unfold linCombine
    rw [h3]
    dsimp only
    rw [h4, h5, hrows, hcols]
    simp [hlen]
  · refine everyInterleaving_of_matched (lcProg_matched _ _ _ _ _ _) fun r hr => ?_
    have := lcProg_order procs mx hp (by omega) mul basis numSums b.e (x := fun i j =>
      match basis[i]? with
      | some w => mul w (b.e i j)
      | none => mul (basis.head hbasis) (b.e i j)) (fun i j w h => by rw [h]) r hr
    refine ⟨this.1, ?_⟩
    rw [this.2]
    refine List.map_congr_left fun k hk => ?_
    have hk' : k < numSums := by
      have h7 := share_all procs numSums hp
      have h8 : k ∈ (List.range procs).flatMap fun r => (rangeTasks procs 0 numSums).getD r [] :=
        List.mem_flatMap.mpr ⟨r, List.mem_range.mpr hr, hk⟩
      rw [h7, List.mem_range] at h8
      exact h8
    refine Prod.ext rfl ?_
    dsimp only
    rw [layerOf_eq_leftSum, ← finOrder_vals _ _ _ hp hr, List.map_map]
    congr 1
    refine List.map_congr_left fun i _ => ?_
    rw [Function.comp_apply, List.getElem?_eq_getElem i.2]
    dsimp only
    rw [h6 i k (by rw [hcols]; exact hk'), h2, ← h1]

/-- Three basis vectors on three processes: each rank has its own order. -/
example : (List.range 3).map (finOrder 3 3) = [[0, 2, 1], [1, 0, 2], [2, 1, 0]] := by decide +kernel

variable {R : { rnd : ℚ → ℚ // IsRounding rnd }}

theorem leftSum_val (x : Fl R) (xs : List (Fl R)) :
    (xs.foldl (· + ·) x).1 = (xs.map (fun y : Fl R => y.1)).foldl (fun s y => R.1 (s + y)) x.1 := by
  induction xs generalizing x with
  | nil => rfl
  | cons y xs ih => rw [List.foldl_cons, ih]; rfl

/-- Error of a sum in double precision in any order. -/
theorem leftSum_error {ys zs : List (Fl R)} (h : ys.Perm zs) (hne : zs ≠ []) :
    ∃ y, leftSum ys = some y ∧ |y.1 - (zs.map fun z : Fl R => z.1).sum| ≤
      ((1 + 1 / 2 ^ 53) ^ (zs.length - 1) - 1) * (zs.map fun z : Fl R => |z.1|).sum := by
  cases ys with
  | nil => exact absurd h.symm.eq_nil hne
  | cons x xs =>
    refine ⟨_, rfl, ?_⟩
    have h1 := foldl_add_error (n := 0) R.2 (xs.map fun y : Fl R => y.1) (fun y hy => by
      obtain ⟨z, -, rfl⟩ := List.mem_map.mp hy
      exact z.2) x.1 |x.1| x.1 x.2 (by simp) (le_refl _)
    rw [leftSum_val]
    have h2 := h1.2
    rw [Nat.zero_add, List.length_map, List.map_map] at h2
    rw [← (h.map fun z : Fl R => z.1).sum_eq, ← (h.map fun z : Fl R => |z.1|).sum_eq, ← h.length_eq, mul_comm]
    simpa [Function.comp_def] using h2

/-- **C79.** Error of `lin_combine` in double precision, on any number of processes: the vector put into sum handle `k`
differs from the exact sum of the products by at most `(1 + u) ^ (n - 1) - 1` times the sum of their absolute values, where
`n` is the number of basis vectors and `u = 2 ^ (-53)`. -/
theorem C79_lin_combine_error [Zero K] (procs nodes : Nat) (hp : 1 ≤ procs) (hn : 1 ≤ nodes) (request : Option Nat)
    (mul : Fl R → K → Fl R) (numSums : Nat) (basis : List (Fl R)) (hbasis : basis ≠ []) (coeff : CoeffArray K)
    (sel : Option (List Int)) (hsel : selectionOk (specShape basis.length coeff).2 sel)
    (hrows : (specShape basis.length coeff).1 = basis.length)
    (hcols : numSelected (specShape basis.length coeff).2 sel = numSums) :
    let term := fun (i : Fin basis.length) (k : Nat) => (mul basis[i]
      (specEntry basis.length coeff i (specColumn (specShape basis.length coeff).2 sel k))).1
    ∃ prog, linCombine procs (limits request procs nodes).perProc mul numSums basis coeff sel = .ok prog ∧
      ∃ share : Nat → List Nat, (List.range procs).flatMap share = List.range numSums ∧
        EveryInterleaving procs prog lcInit fun r s => s.err = false ∧ s.puts.map Prod.fst = share r ∧
          ∀ k v, (k, v) ∈ s.puts → ∃ y : Fl R, v = some y ∧ |y.1 - ∑ i, term i k| ≤
            ((1 + 1 / 2 ^ 53) ^ (basis.length - 1) - 1) * ∑ i, |term i k| := by
  intro term
  obtain ⟨order, h1, -, h2⟩ := C79_lin_combine_order basis.length
  obtain ⟨prog, h3, share, h4, h5⟩ := h2 (Fl R) K procs nodes request mul numSums basis rfl coeff sel hp hn hbasis hsel
    hrows hcols
  refine ⟨prog, h3, share, h4, fun sync n s hrun => ?_⟩
  obtain ⟨h6, h7, h8⟩ := h5 sync n s hrun
  refine ⟨h6, h7, fun hfin => ⟨fun r hr => ⟨((h8 hfin).1 r hr).1, ?_, fun k v hkv => ?_⟩, (h8 hfin).2⟩⟩
  · rw [((h8 hfin).1 r hr).2, List.map_map]
    exact List.map_id _
  · rw [((h8 hfin).1 r hr).2] at hkv
    obtain ⟨k', -, h9⟩ := List.mem_map.mp hkv
    obtain ⟨rfl, rfl⟩ := Prod.ext_iff.mp h9
    have hne : List.finRange basis.length ≠ [] := by
      intro h
      have := congrArg List.length h
      rw [List.length_finRange, List.length_nil] at this
      exact hbasis (List.length_eq_zero_iff.mp this)
    obtain ⟨y, h10, h11⟩ := leftSum_error ((h1 procs r hr).map fun i : Fin basis.length => mul (basis[(i : Nat)])
      (specEntry basis.length coeff i (specColumn (specShape basis.length coeff).2 sel k'))) (by simpa using hne)
    refine ⟨y, h10, ?_⟩
    rw [List.length_map, List.length_finRange, List.map_map, List.map_map] at h11
    rw [← List.sum_ofFn, ← List.sum_ofFn, List.ofFn_eq_map, List.ofFn_eq_map]
    exact h11

theorem foldl_add_int {rnd : ℚ → ℚ} (hr : IsRounding rnd) (xs : List ℚ) (hxs : ∀ x ∈ xs, ∃ m : ℤ, x = m) (a : ℤ)
    (h : |(a : ℚ)| + (xs.map abs).sum ≤ 2 ^ 53) : xs.foldl (fun s x => rnd (s + x)) a = a + xs.sum := by
  induction xs generalizing a with
  | nil => simp
  | cons x xs ih =>
    obtain ⟨m, rfl⟩ := hxs x (by simp)
    rw [List.map_cons, List.sum_cons] at h
    have h0 : 0 ≤ (xs.map abs).sum := List.sum_nonneg fun y hy => by
      obtain ⟨z, -, rfl⟩ := List.mem_map.mp hy
      exact abs_nonneg z
    have h1 := abs_add_le (a : ℚ) m
    have h2 : rnd ((a : ℚ) + m) = ((a + m : ℤ) : ℚ) := by
      rw [← Int.cast_add]
      refine hr.fix (float64_of_int (a + m) ?_ rfl)
      have : |((a + m : ℤ) : ℚ)| ≤ 2 ^ 53 := by push_cast; linarith
      exact_mod_cast this
    rw [List.foldl_cons, h2, ih (fun y hy => hxs y (by simp [hy])) (a + m) (by push_cast; linarith), List.sum_cons]
    push_cast
    ring

/-- **C79.** If the products are integers, and not too large, the sums are exact and so the same on any number of
processes. -/
theorem C79_lin_combine_integers [Zero K] (procs nodes : Nat) (hp : 1 ≤ procs) (hn : 1 ≤ nodes) (request : Option Nat)
    (mul : Fl R → K → Fl R) (numSums : Nat) (basis : List (Fl R)) (hbasis : basis ≠ []) (coeff : CoeffArray K)
    (sel : Option (List Int)) (hsel : selectionOk (specShape basis.length coeff).2 sel)
    (hrows : (specShape basis.length coeff).1 = basis.length)
    (hcols : numSelected (specShape basis.length coeff).2 sel = numSums) :
    let term := fun (i : Fin basis.length) (k : Nat) => (mul basis[i]
      (specEntry basis.length coeff i (specColumn (specShape basis.length coeff).2 sel k))).1
    (∀ i k, ∃ m : ℤ, term i k = m) → (∀ k, ∑ i, |term i k| ≤ 2 ^ 53) →
    ∃ prog, linCombine procs (limits request procs nodes).perProc mul numSums basis coeff sel = .ok prog ∧
      ∃ share : Nat → List Nat, (List.range procs).flatMap share = List.range numSums ∧
        EveryInterleaving procs prog lcInit fun r s => s.err = false ∧ s.puts.map Prod.fst = share r ∧
          ∀ k v, (k, v) ∈ s.puts → ∃ y : Fl R, v = some y ∧ y.1 = ∑ i, term i k := by
  intro term hint hsmall
  obtain ⟨order, h1, -, h2⟩ := C79_lin_combine_order basis.length
  obtain ⟨prog, h3, share, h4, h5⟩ := h2 (Fl R) K procs nodes request mul numSums basis rfl coeff sel hp hn hbasis hsel
    hrows hcols
  refine ⟨prog, h3, share, h4, everyInterleaving_mono h5 fun r s hr h6 => ⟨h6.1, ?_, fun k v hkv => ?_⟩⟩
  · rw [h6.2, List.map_map]
    exact List.map_id _
  · rw [h6.2] at hkv
    obtain ⟨k', -, h9⟩ := List.mem_map.mp hkv
    obtain ⟨rfl, rfl⟩ := Prod.ext_iff.mp h9
    have hperm := h1 procs r hr
    have hs1 : ∑ i, term i k' = ((order procs r).map fun i => term i k').sum := by
      rw [(hperm.map _).sum_eq, ← List.sum_ofFn, List.ofFn_eq_map]
    have hs2 := hsmall k'
    rw [← List.sum_ofFn, List.ofFn_eq_map, ← (hperm.map _).sum_eq] at hs2
    dsimp only
    generalize order procs r = L at hperm hs1 hs2
    cases L with
    | nil =>
      have := hperm.length_eq
      rw [List.length_finRange, List.length_nil] at this
      exact absurd (List.length_eq_zero_iff.mp this.symm) hbasis
    | cons i L =>
      refine ⟨_, rfl, ?_⟩
      rw [hs1, leftSum_val, List.map_cons, List.sum_cons]
      obtain ⟨m, hm⟩ := hint i k'
      rw [List.map_cons, List.sum_cons] at hs2
      have := foldl_add_int R.2 (L.map fun i => term i k') (fun x hx => by
        obtain ⟨j, -, rfl⟩ := List.mem_map.mp hx
        exact hint j k') m (by rw [← hm, List.map_map]; exact hs2)
      rw [← hm] at this
      rw [List.map_map]
      exact this

/-- Numbers whose sum depends on the order. -/
def bigFl (R : { rnd : ℚ → ℚ // IsRounding rnd }) : Fl R := Fl.round R (2 ^ 54)

theorem bigFl_val : (bigFl R).1 = 2 ^ 54 :=
  R.2.fix (float64_of_nat_pow 1 54 (by norm_num) (by norm_num))

theorem negBigFl_val : (Fl.round R (-2 ^ 54)).1 = -2 ^ 54 :=
  R.2.fix (float64_of_nat_pow (-1) 54 (by norm_num) (by norm_num))

theorem sum_differs : (bigFl R + Fl.round R (-2 ^ 54)) + 1 = 1 ∧ (bigFl R + 1) + Fl.round R (-2 ^ 54) = 0 := by
  have f0 : R.1 0 = 0 := Fl.zero_val
  constructor
  · refine Subtype.ext ?_
    rw [Fl.add_val, Fl.add_val, bigFl_val, negBigFl_val, Fl.one_val, add_neg_cancel, f0, zero_add]
    exact Fl.one_val
  · refine Subtype.ext ?_
    rw [Fl.add_val, Fl.add_val, bigFl_val, negBigFl_val, Fl.one_val, rnd_absorbs R.2, add_neg_cancel]
    rfl

/-- The products with coefficients 1. -/
theorem lc_ones (p numSums : Nat) (hp : 1 ≤ p) (x : Nat → Fl R) :
    let basis : List (Fl R) := [x 0, x 1, x 2]
    ∃ prog, linCombine p (limits none p 1).perProc (· * ·) numSums basis (.mat 3 numSums fun _ _ => (1 : Fl R)) none =
        .ok prog ∧
      EveryInterleaving p prog lcInit fun r s => s.puts = ((rangeTasks p 0 numSums).getD r []).map fun k =>
        (k, leftSum ((basisOrder p (rangeTasks p 0 3) (maxLen (rangeTasks p 0 3)) r).map x)) := by
  intro basis
  have hmx := C12_at_least_three_vectors_per_process none p 1 hp (le_refl 1)
  refine ⟨lcProg p (limits none p 1).perProc (· * ·) basis numSums fun _ _ => 1, ?_, ?_⟩
  · simp [linCombine, selectCols, coeff2d, basis]
  · refine everyInterleaving_of_matched (lcProg_matched _ _ _ _ _ _) fun r hr => ?_
    have := lcProg_order p (limits none p 1).perProc hp (by omega) (· * ·) basis numSums (fun _ _ => (1 : Fl R))
      (x := fun i _ => x i) (fun i j w h => ?_) r hr
    · rw [this.2]
      refine List.map_congr_left fun k _ => ?_
      rw [layerOf_eq_leftSum]
      rfl
    · rw [mul_one]
      match i, h with
      | 0, h => exact (Option.some.inj h).symm
      | 1, h => exact (Option.some.inj h).symm
      | 2, h => exact (Option.some.inj h).symm
      | i + 3, h => simp [basis] at h

/-- **C79, violated.** In double precision the result of `lin_combine` depends on the number of processes: with the basis
vectors `2 ^ 54`, `- 2 ^ 54`, `1` and coefficients 1 it is 1 on one process and 0 on three. -/
theorem C79_lin_combine_processes_violation (R : { rnd : ℚ → ℚ // IsRounding rnd }) :
    let basis : List (Fl R) := [bigFl R, Fl.round R (-2 ^ 54), 1]
    (∃ prog, linCombine 1 (limits none 1 1).perProc (· * ·) 1 basis (.mat 3 1 fun _ _ => (1 : Fl R)) none = .ok prog ∧
      EveryInterleaving 1 prog lcInit fun _ s => s.puts = [(0, some 1)]) ∧
    ∃ prog, linCombine 3 (limits none 3 1).perProc (· * ·) 1 basis (.mat 3 1 fun _ _ => (1 : Fl R)) none = .ok prog ∧
      EveryInterleaving 3 prog lcInit fun r s => s.puts = if r = 0 then [(0, some 0)] else [] := by
  intro basis
  let x : Nat → Fl R := fun i => if i = 0 then bigFl R else if i = 1 then Fl.round R (-2 ^ 54) else 1
  constructor
  · obtain ⟨prog, h1, h2⟩ := lc_ones 1 1 (le_refl 1) x
    refine ⟨prog, h1, everyInterleaving_mono h2 fun r s hr h => ?_⟩
    obtain rfl : r = 0 := by omega
    have e1 : (rangeTasks 1 0 1).getD 0 [] = [0] := by decide +kernel
    have e2 : basisOrder 1 (rangeTasks 1 0 3) (maxLen (rangeTasks 1 0 3)) 0 = [0, 1, 2] := by decide +kernel
    rw [h, e1, e2]
    exact congrArg (fun y => [(0, some y)]) sum_differs.1
  · obtain ⟨prog, h1, h2⟩ := lc_ones 3 1 (by decide) x
    refine ⟨prog, h1, everyInterleaving_mono h2 fun r s hr h => ?_⟩
    have e1 : (rangeTasks 3 0 1).getD 0 [] = [0] := by decide +kernel
    have e2 : (rangeTasks 3 0 1).getD 1 [] = [] := by decide +kernel
    have e4 : (rangeTasks 3 0 1).getD 2 [] = [] := by decide +kernel
    have e3 : basisOrder 3 (rangeTasks 3 0 3) (maxLen (rangeTasks 3 0 3)) 0 = [0, 2, 1] := by decide +kernel
    rw [h]
    match r, hr with
    | 0, _ =>
      rw [e1, e3]
      exact congrArg (fun y => [(0, some y)]) sum_differs.2
    | 1, _ => rw [e2]; rfl
    | 2, _ => rw [e4]; rfl

/-- **C79, violated.** Equal columns of coefficients need not give equal vectors, as the sums are calculated by different
ranks in different orders: on three processes, with the same basis vectors and two columns of coefficients 1, the first sum
is 0 and the second one is 1. -/
theorem C79_lin_combine_equal_columns_violation (R : { rnd : ℚ → ℚ // IsRounding rnd }) :
    let basis : List (Fl R) := [bigFl R, Fl.round R (-2 ^ 54), 1]
    ∃ prog, linCombine 3 (limits none 3 1).perProc (· * ·) 3 basis (.mat 3 3 fun _ _ => (1 : Fl R)) none = .ok prog ∧
      EveryInterleaving 3 prog lcInit fun r s => (r = 0 → s.puts = [(0, some 0)]) ∧ (r = 1 → s.puts = [(1, some 1)]) := by
  intro basis
  let x : Nat → Fl R := fun i => if i = 0 then bigFl R else if i = 1 then Fl.round R (-2 ^ 54) else 1
  obtain ⟨prog, h1, h2⟩ := lc_ones 3 3 (by decide) x
  refine ⟨prog, h1, everyInterleaving_mono h2 fun r s hr h => ⟨?_, ?_⟩⟩
  · rintro rfl
    have e1 : (rangeTasks 3 0 3).getD 0 [] = [0] := by decide +kernel
    have e2 : basisOrder 3 (rangeTasks 3 0 3) (maxLen (rangeTasks 3 0 3)) 0 = [0, 2, 1] := by decide +kernel
    rw [h, e1, e2]
    exact congrArg (fun y => [(0, some y)]) sum_differs.2
  · rintro rfl
    have e1 : (rangeTasks 3 0 3).getD 1 [] = [1] := by decide +kernel
    have e2 : basisOrder 3 (rangeTasks 3 0 3) (maxLen (rangeTasks 3 0 3)) 1 = [1, 0, 2] := by decide +kernel
    have e3 : Fl.round R (-2 ^ 54) + bigFl R + 1 = 1 := by
      rw [show Fl.round R (-2 ^ 54) + bigFl R = bigFl R + Fl.round R (-2 ^ 54) from
        Subtype.ext (by rw [Fl.add_val, Fl.add_val, add_comm])]
      exact sum_differs.1
    rw [h, e1, e2]
    exact congrArg (fun y => [(1, some y)]) e3

end Modred
