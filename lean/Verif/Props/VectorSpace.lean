import Verif.Spec.VectorSpace
import Verif.Lemmas.SymmInner
import Verif.Lemmas.LinCombine
import Verif.Props.Spmd
import Mathlib.Algebra.Star.Rat
import Mathlib.Algebra.BigOperators.Fin
import Mathlib.Tactic.NormNum
import Mathlib.Tactic.Linarith
import Mathlib.Tactic.FieldSimp

/-!
# Properties of `modred/vectorspace.py` (C06, C07, C08, C09, C10, C11, C12, C51)
-/

namespace Modred

variable {V K : Type*}

/-! ### Limits -/

theorem limits_cond (m procs nodes : Nat) (hn : 1 ≤ nodes) :
    ((m : ℚ) < 3 * procs / nodes) ↔ m * nodes < 3 * procs := by
  rw [lt_div_iff₀ (by exact_mod_cast hn)]
  exact_mod_cast Iff.rfl

/-- **C12.** At least three vectors per process are allowed. -/
theorem C12_at_least_three_vectors_per_process (request : Option Nat) (procs nodes : Nat)
    (hp : 1 ≤ procs) (hn : 1 ≤ nodes) : 3 ≤ (limits request procs nodes).perProc := by
  unfold limits
  dsimp only
  split
  · exact le_refl 3
  · rename_i h
    rw [limits_cond _ _ _ hn] at h
    exact (Nat.le_div_iff_mul_le (by omega)).mpr (by omega)

example : limits (some 7) 2 1 = ⟨7, 3⟩ := by decide +kernel
example : limits (some 2) 5 2 = ⟨8, 3⟩ := by decide +kernel

/-- **C12.** If the request is at least three vectors per process, it is kept, and the limit per
process is the largest number such that all processes together stay within the request. -/
theorem C12_limit_is_largest_within_request (request : Option Nat) (procs nodes : Nat)
    (hp : 1 ≤ procs) (hn : 1 ≤ nodes) (h : 3 * procs ≤ nodes * request.getD 10000) :
    let l := limits request procs nodes
    l.perNode = request.getD 10000 ∧ procs * l.perProc ≤ nodes * request.getD 10000 ∧
      ∀ k, procs * k ≤ nodes * request.getD 10000 → k ≤ l.perProc := by
  unfold limits
  dsimp only
  rw [if_neg (by rw [limits_cond _ _ _ hn, Nat.mul_comm]; omega)]
  refine ⟨rfl, ?_, fun k hk => ?_⟩
  · dsimp only
    rw [Nat.mul_comm nodes]
    exact Nat.mul_div_le _ _
  · rw [Nat.le_div_iff_mul_le (by omega), Nat.mul_comm k, Nat.mul_comm _ nodes]
    exact hk

example : 3 * 2 ≤ 1 * (some 7).getD 10000 := by decide

/-- **C12.** If the request is too small, three vectors per process are assumed, and the limit per
node is raised to the smallest number with room for that. -/
theorem C12_small_request_raised (request : Option Nat) (procs nodes : Nat) (hn : 1 ≤ nodes)
    (h : nodes * request.getD 10000 < 3 * procs) :
    let l := limits request procs nodes
    l.perProc = 3 ∧ 3 * procs ≤ nodes * l.perNode ∧ ∀ k, 3 * procs ≤ nodes * k → l.perNode ≤ k := by
  unfold limits
  dsimp only
  rw [if_pos (by rw [limits_cond _ _ _ hn, Nat.mul_comm]; omega)]
  have hn' : (0 : ℚ) < nodes := by exact_mod_cast hn
  have hpos : (0 : ℚ) ≤ 3 * procs / nodes := by positivity
  have hc : 0 ≤ ⌈(3 * procs / nodes : ℚ)⌉ := Int.ceil_nonneg hpos
  refine ⟨rfl, ?_, fun k hk => ?_⟩
  · have h1 : (3 * procs / nodes : ℚ) ≤ ⌈(3 * procs / nodes : ℚ)⌉ := Int.le_ceil _
    rw [div_le_iff₀ hn'] at h1
    have h2 : (3 * procs : Int) ≤ ⌈(3 * procs / nodes : ℚ)⌉ * nodes := by exact_mod_cast h1
    have h3 : ((⌈(3 * procs / nodes : ℚ)⌉).toNat : Int) = ⌈(3 * procs / nodes : ℚ)⌉ :=
      Int.toNat_of_nonneg hc
    have h4 : (3 * procs : Int) ≤ (nodes * (⌈(3 * procs / nodes : ℚ)⌉).toNat : Nat) := by
      rw [Nat.cast_mul, h3, mul_comm (nodes : Int)]; exact h2
    exact_mod_cast h4
  · dsimp only
    rw [Int.toNat_le, Int.ceil_le, div_le_iff₀ hn']
    rw [Nat.mul_comm] at hk
    exact_mod_cast (by rw [Nat.mul_comm nodes k] at hk; rw [Nat.mul_comm procs 3] at hk; exact hk)

example : 2 * (some 2).getD 10000 < 3 * 5 := by decide

/-- **C12.** The numbers of vectors per process in the time estimates exceed 2, so nothing is
divided by zero there (`modred/vectorspace.py` lines 363-369, 921-927). -/
theorem C12_time_estimate_denominator_positive (request : Option Nat) (procs nodes : Nat)
    (hp : 1 ≤ procs) (hn : 1 ≤ nodes) :
    (0 : ℚ) < (limits request procs nodes).perNode * nodes / procs - 2 := by
  have hp' : (0 : ℚ) < procs := by exact_mod_cast hp
  have h3 : 3 * procs ≤ nodes * (limits request procs nodes).perNode := by
    rcases Nat.lt_or_ge (nodes * request.getD 10000) (3 * procs) with h | h
    · exact (C12_small_request_raised request procs nodes hn h).2.1
    · rw [(C12_limit_is_largest_within_request request procs nodes hp hn h).1]; exact h
  have h4 : (3 * procs : ℚ) ≤ (limits request procs nodes).perNode * nodes := by
    rw [mul_comm _ (nodes : ℚ)]; exact_mod_cast h3
  have h5 : (3 : ℚ) ≤ (limits request procs nodes).perNode * nodes / procs := by
    rw [le_div_iff₀ hp']; exact h4
  linarith

/-! ### Exchanges of the vector space loops -/

/-- **C06.** The rounds of `compute_inner_product_array` are matched. -/
theorem C06_inner_product_rounds_matched [Add K] (p tag mx : Nat) (ip : V → V → K)
    (rows cols : List V) : AllMatched p (ipProg p tag mx ip rows cols) :=
  ipProg_matched p tag mx ip rows cols

/-- **C06.** The rounds of `compute_symm_inner_product_array` (pairwise exchanges and ring) are
matched. -/
theorem C06_symmetric_rounds_matched [Add K] (p tag mx : Nat) (hp : 1 ≤ p) (ip : V → V → K)
    (vecs : List V) : AllMatched p (symmProg p tag mx ip vecs) :=
  symmProg_matched p tag mx hp ip vecs

/-- **C06.** The rounds of `lin_combine` are matched. -/
theorem C06_lin_combine_rounds_matched [Add V] (p mx : Nat) (mul : V → K → V) (basis : List V)
    (numSums : Nat) (coeff : Nat → Nat → K) :
    AllMatched p (lcProg p mx mul basis numSums coeff) :=
  lcProg_matched p mx mul basis numSums coeff

/-! ### Inner products -/

theorem ipCore [AddZeroClass K] (p tag mx : Nat) (hp : 1 ≤ p) (hmx : 2 ≤ mx) (ip : V → V → K)
    (rows cols : List V) :
    EveryInterleaving p (ipProg p tag mx ip rows cols) ipInit fun _ s => s.err = false ∧
      ∀ (i j : Nat) (hi : i < rows.length) (hj : j < cols.length), s.arr i j = ip rows[i] cols[j] := by
  refine everyInterleaving_of_matched (ipProg_matched _ _ _ _ _ _) fun r hr => ?_
  have := ipProg_exec p tag mx hp hmx ip rows cols (F := fun i j =>
    match rows[i]?, cols[j]? with
    | some v, some w => ip v w
    | _, _ => 0) (fun i c v w h1 h2 => by rw [h1, h2]) r hr
  refine ⟨this.1, fun i j hi hj => ?_⟩
  rw [this.2 i j hi hj]
  simp [hi, hj]

/-- **C07, in general.** The array returned on every process has as entry `(i, j)` the inner product
of row `i` and column `j`, or, if there are more rows than columns, the conjugate of the inner
product of column `j` and row `i`.  Values are converted to the type of the first product. -/
theorem C07_inner_product_array_in_general [AddZeroClass K] [Star K] (procs nodes : Nat)
    (hp : 1 ≤ procs) (hn : 1 ≤ nodes) (request : Option Nat) (tag : Nat) (ip : V → V → K)
    (cast : K → K → K) (rows cols : List V) (hrows : 0 < rows.length) (hcols : 0 < cols.length) :
    ∃ job, computeInnerProductArray procs tag (limits request procs nodes).perProc (some ip) cast
        rows cols = .ok job ∧
      EveryInterleaving procs job.prog ipInit fun _ s => s.err = false ∧
        ∀ (i j : Nat) (hi : i < rows.length) (hj : j < cols.length), job.ret s i j =
          if rows.length ≤ cols.length then cast (ip rows[0] cols[0]) (ip rows[i] cols[j])
          else star (cast (ip cols[0] rows[0]) (ip cols[j] rows[i])) := by
  have hmx := C12_at_least_three_vectors_per_process request procs nodes hp hn
  generalize (limits request procs nodes).perProc = mx at hmx
  have h1 : rows.head? = some rows[0] := by
    rw [List.head?_eq_getElem?, List.getElem?_eq_getElem hrows]
  have h2 : cols.head? = some cols[0] := by
    rw [List.head?_eq_getElem?, List.getElem?_eq_getElem hcols]
  rcases Nat.lt_or_ge cols.length rows.length with h | h
  · refine ⟨⟨ipProg procs tag mx (fun v w => cast (ip cols[0] rows[0]) (ip v w)) cols rows,
      fun s i j => star (s.arr j i)⟩, ?_, ?_⟩
    · simp [computeInnerProductArray, h, h1, h2]
    · intro sync n s hrun
      obtain ⟨h3, h4, h5⟩ := ipCore procs tag mx hp (by omega)
        (fun v w => cast (ip cols[0] rows[0]) (ip v w)) cols rows sync n s hrun
      refine ⟨h3, h4, fun hfin => ⟨fun r hr => ⟨((h5 hfin).1 r hr).1, fun i j hi hj => ?_⟩,
        (h5 hfin).2⟩⟩
      rw [if_neg (by omega)]
      dsimp only
      rw [((h5 hfin).1 r hr).2 j i hj hi]
  · refine ⟨⟨ipProg procs tag mx (fun v w => cast (ip rows[0] cols[0]) (ip v w)) rows cols,
      fun s => s.arr⟩, ?_, ?_⟩
    · have h' : ¬ rows.length > cols.length := by omega
      simp [computeInnerProductArray, h', h1, h2]
    · intro sync n s hrun
      obtain ⟨h3, h4, h5⟩ := ipCore procs tag mx hp (by omega)
        (fun v w => cast (ip rows[0] cols[0]) (ip v w)) rows cols sync n s hrun
      refine ⟨h3, h4, fun hfin => ⟨fun r hr => ⟨((h5 hfin).1 r hr).1, fun i j hi hj => ?_⟩,
        (h5 hfin).2⟩⟩
      rw [if_pos h]
      exact ((h5 hfin).1 r hr).2 i j hi hj

/-- **C07.** For a conjugate-symmetric inner product whose values have one type, every process gets
the array of the inner products of rows and columns, whatever the number of processes and nodes and
the memory limit. -/
theorem C07_inner_product_array [AddZeroClass K] [InvolutiveStar K] (procs nodes : Nat)
    (hp : 1 ≤ procs) (hn : 1 ≤ nodes) (request : Option Nat) (tag : Nat) (ip : V → V → K)
    (cast : K → K → K) (rows cols : List V) (hrows : 0 < rows.length) (hcols : 0 < cols.length)
    (hsymm : ∀ v ∈ rows, ∀ w ∈ cols, ip w v = star (ip v w))
    (hcast : ∀ v w v' w', cast (ip v w) (ip v' w') = ip v' w') :
    ∃ job, computeInnerProductArray procs tag (limits request procs nodes).perProc (some ip) cast
        rows cols = .ok job ∧
      EveryInterleaving procs job.prog ipInit fun _ s => s.err = false ∧
        ∀ (i j : Nat) (hi : i < rows.length) (hj : j < cols.length),
          job.ret s i j = ip rows[i] cols[j] := by
  obtain ⟨job, h1, h2⟩ := C07_inner_product_array_in_general procs nodes hp hn request tag ip cast
    rows cols hrows hcols
  refine ⟨job, h1, fun sync n s hrun => ?_⟩
  obtain ⟨h3, h4, h5⟩ := h2 sync n s hrun
  refine ⟨h3, h4, fun hfin => ⟨fun r hr => ⟨((h5 hfin).1 r hr).1, fun i j hi hj => ?_⟩, (h5 hfin).2⟩⟩
  rw [((h5 hfin).1 r hr).2 i j hi hj]
  split
  · exact hcast ..
  · rw [hcast, hsymm _ (List.getElem_mem hi) _ (List.getElem_mem hj), star_star]

/-- The hypotheses are met, e.g., by numbers under multiplication. -/
example : ∃ job, computeInnerProductArray 2 0 (limits (some 4) 2 1).perProc
      (some fun v w : ℚ => v * w) (fun _ v => v) [1, 2, 3] [4, 5] = .ok job ∧
    EveryInterleaving 2 job.prog ipInit fun _ s => s.err = false ∧
      ∀ (i j : Nat) (hi : i < 3) (hj : j < 2),
        job.ret s i j = [1, 2, 3][i] * [4, 5][j] :=
  C07_inner_product_array 2 1 (by decide) (by decide) (some 4) 0 (fun v w : ℚ => v * w)
    (fun _ v => v) [1, 2, 3] [4, 5] (by decide) (by decide)
    (fun v _ w _ => by simp [mul_comm]) (fun _ _ _ _ => rfl)

/-- **C07.** Without an inner product a `RuntimeError` is raised. -/
theorem C07_missing_inner_product_raises [Add K] [Star K] (procs tag mx : Nat) (cast : K → K → K)
    (rows cols : List V) :
    computeInnerProductArray procs tag mx none cast rows cols = .error .runtimeError := rfl

/-- **C07.** An empty list of rows or columns raises `IndexError`. -/
theorem C07_empty_list_raises [Add K] [Star K] (procs tag mx : Nat) (ip : V → V → K)
    (cast : K → K → K) (rows cols : List V) (h : rows = [] ∨ cols = []) :
    ∃ e, computeInnerProductArray procs tag mx (some ip) cast rows cols = .error e ∧
      e = .indexError := by
  refine ⟨.indexError, ?_, rfl⟩
  rcases h with rfl | rfl
  · simp [computeInnerProductArray]
  · cases rows <;> simp [computeInnerProductArray]

/-- **C51, violation.** The array has the type of the first inner product, so if that is an integer,
later products lose their fractions: with products 1 and 1/2 the second entry is 0. -/
theorem C51_mixed_types_truncated_violation :
    ∃ (ip : ℚ → ℚ → ℚ) (cast : ℚ → ℚ → ℚ),
      (∀ first v, cast first v = if first.den = 1 then (v.num.tdiv v.den : ℚ) else v) ∧
      (∀ v w, ip w v = star (ip v w)) ∧
      ∃ job, computeInnerProductArray 1 0 (limits none 1 1).perProc (some ip) cast [1] [1, 1 / 2] =
          .ok job ∧
        EveryInterleaving 1 job.prog ipInit fun _ s =>
          job.ret s 0 1 = 0 ∧ ip 1 (1 / 2) = 1 / 2 := by
  refine ⟨fun v w => v * w, fun first v => if first.den = 1 then (v.num.tdiv v.den : ℚ) else v,
    fun _ _ => rfl, fun v w => by simp [mul_comm], ?_⟩
  obtain ⟨job, h1, h2⟩ := C07_inner_product_array_in_general 1 1 (le_refl 1) (le_refl 1) none 0
    (fun v w : ℚ => v * w) (fun first v => if first.den = 1 then (v.num.tdiv v.den : ℚ) else v)
    [1] [1, 1 / 2] (by decide) (by decide)
  refine ⟨job, h1, fun sync n s hrun => ?_⟩
  obtain ⟨h3, h4, h5⟩ := h2 sync n s hrun
  refine ⟨h3, h4, fun hfin => ⟨fun r hr => ?_, (h5 hfin).2⟩⟩
  have h6 := ((h5 hfin).1 r hr).2 0 1 (by decide) (by decide)
  dsimp only
  rw [h6]
  have hden : (1 / 2 : ℚ).den = 2 := by decide +kernel
  have hnum : (1 / 2 : ℚ).num = 1 := by decide +kernel
  constructor
  · simp only [List.length_cons, List.length_nil, List.getElem_cons_zero, List.getElem_cons_succ,
      one_mul, mul_one, Rat.den_one, if_true, hden, hnum]
    decide +kernel
  · norm_num

/-- **C51, what holds.** If the conversion to the type of the first product keeps all products, the
array is right: this is `C07_inner_product_array` without symmetry, for no more rows than columns. -/
theorem C51_one_type_exact_partial [AddZeroClass K] [Star K] (procs nodes : Nat)
    (hp : 1 ≤ procs) (hn : 1 ≤ nodes) (request : Option Nat) (tag : Nat) (ip : V → V → K)
    (cast : K → K → K) (rows cols : List V) (hrows : 0 < rows.length) (hcols : 0 < cols.length)
    (hle : rows.length ≤ cols.length)
    (hcast : ∀ v ∈ rows, ∀ w ∈ cols, cast (ip rows[0] cols[0]) (ip v w) = ip v w) :
    ∃ job, computeInnerProductArray procs tag (limits request procs nodes).perProc (some ip) cast
        rows cols = .ok job ∧
      EveryInterleaving procs job.prog ipInit fun _ s => s.err = false ∧
        ∀ (i j : Nat) (hi : i < rows.length) (hj : j < cols.length),
          job.ret s i j = ip rows[i] cols[j] := by
  obtain ⟨job, h1, h2⟩ := C07_inner_product_array_in_general procs nodes hp hn request tag ip cast
    rows cols hrows hcols
  refine ⟨job, h1, fun sync n s hrun => ?_⟩
  obtain ⟨h3, h4, h5⟩ := h2 sync n s hrun
  refine ⟨h3, h4, fun hfin => ⟨fun r hr => ⟨((h5 hfin).1 r hr).1, fun i j hi hj => ?_⟩, (h5 hfin).2⟩⟩
  rw [((h5 hfin).1 r hr).2 i j hi hj, if_pos hle,
    hcast _ (List.getElem_mem hi) _ (List.getElem_mem hj)]

/-! ### Symmetric inner products -/

/-- `C08_symm_inner_product_array` for any arithmetic. -/
theorem symm_inner_product_array_bare [BareArith K] [DecidableEq K] (procs nodes : Nat)
    (hp : 1 ≤ procs) (hn : 1 ≤ nodes) (request : Option Nat) (tag : Nat) (ip : V → V → K)
    (cast : K → K → K) (vecs : List V) (hvecs : 0 < vecs.length)
    (hsymm : ∀ v ∈ vecs, ∀ w ∈ vecs, ip w v = star (ip v w))
    (hcast : ∀ v ∈ vecs, ∀ w ∈ vecs, cast (ip vecs[0] vecs[0]) (ip v w) = ip v w) :
    ∃ job, computeSymmInnerProductArray procs tag (limits request procs nodes).perProc (some ip)
        cast vecs = .ok job ∧
      EveryInterleaving procs job.prog ipInit fun _ s => s.err = false ∧
        ∀ (i j : Nat) (hi : i < vecs.length) (hj : j < vecs.length),
          job.ret s i j = ip vecs[i] vecs[j] := by
  have hmx := C12_at_least_three_vectors_per_process request procs nodes hp hn
  generalize (limits request procs nodes).perProc = mx at hmx
  have h1 : vecs.head? = some vecs[0] := by
    rw [List.head?_eq_getElem?, List.getElem?_eq_getElem hvecs]
  refine ⟨⟨symmProg procs tag mx (fun v w => cast (ip vecs[0] vecs[0]) (ip v w)) vecs,
    fun s => symmetrize s.arr⟩, by simp [computeSymmInnerProductArray, h1], ?_⟩
  refine everyInterleaving_of_matched (symmProg_matched _ _ _ hp _ _) fun r hr => ?_
  let F : Nat → Nat → K := fun i j =>
    match vecs[i]?, vecs[j]? with
    | some v, some w => ip v w
    | _, _ => 0
  have hF : ∀ (i j : Nat) (hi : i < vecs.length) (hj : j < vecs.length),
      F i j = ip vecs[i] vecs[j] := by
    intro i j hi hj
    simp [F, hi, hj]
  have := symmProg_exec procs tag mx hp (by omega)
    (fun v w => cast (ip vecs[0] vecs[0]) (ip v w)) vecs (F := F) (fun i c v w h1 h2 => by
      rw [hcast v (List.mem_of_getElem? h1) w (List.mem_of_getElem? h2)]
      simp only [F, h1, h2]) r hr
  refine ⟨this.1, fun i j hi hj => ?_⟩
  dsimp only
  rw [symmetrize_eq (F := F) (n := vecs.length) this.2.1 this.2.2 ?_ i j hi hj, hF i j hi hj]
  intro i j hi hj
  rw [hF i j hi hj, hF j i hj hi]
  exact hsymm _ (List.getElem_mem hi) _ (List.getElem_mem hj)

/-- **C08.** Every process gets the full array of inner products. -/
theorem C08_symm_inner_product_array [Semiring K] [StarRing K] [DecidableEq K] (procs nodes : Nat)
    (hp : 1 ≤ procs) (hn : 1 ≤ nodes) (request : Option Nat) (tag : Nat) (ip : V → V → K)
    (cast : K → K → K) (vecs : List V) (hvecs : 0 < vecs.length)
    (hsymm : ∀ v ∈ vecs, ∀ w ∈ vecs, ip w v = star (ip v w))
    (hcast : ∀ v ∈ vecs, ∀ w ∈ vecs, cast (ip vecs[0] vecs[0]) (ip v w) = ip v w) :
    ∃ job, computeSymmInnerProductArray procs tag (limits request procs nodes).perProc (some ip)
        cast vecs = .ok job ∧
      EveryInterleaving procs job.prog ipInit fun _ s => s.err = false ∧
        ∀ (i j : Nat) (hi : i < vecs.length) (hj : j < vecs.length),
          job.ret s i j = ip vecs[i] vecs[j] :=
  letI := BareArith.ofStarRing K
  symm_inner_product_array_bare procs nodes hp hn request tag ip cast vecs hvecs hsymm hcast

/-- The hypotheses are met, e.g., by numbers under multiplication, with products that vanish. -/
example : ∃ job, computeSymmInnerProductArray 4 0 (limits (some 4) 4 1).perProc
      (some fun v w : ℚ => v * w) (fun _ v => v) [1, 0, 3, 5, 7] = .ok job ∧
    EveryInterleaving 4 job.prog ipInit fun _ s => s.err = false ∧
      ∀ (i j : Nat) (hi : i < 5) (hj : j < 5),
        job.ret s i j = [1, 0, 3, 5, 7][i] * [1, 0, 3, 5, 7][j] :=
  C08_symm_inner_product_array 4 1 (by decide) (by decide) (some 4) 0 (fun v w : ℚ => v * w)
    (fun _ v => v) [1, 0, 3, 5, 7] (by decide) (fun v _ w _ => by simp [mul_comm])
    (fun _ _ _ _ => rfl)

/-- **C08.** Without an inner product a `RuntimeError` is raised, and without vectors an `IndexError`. -/
theorem C08_raises [Semiring K] [StarRing K] [DecidableEq K] (procs tag mx : Nat) (ip : V → V → K) (cast : K → K → K)
    (vecs : List V) : (∃ e, computeSymmInnerProductArray procs tag mx none cast vecs = .error e ∧ e = .runtimeError) ∧
    ∃ e, computeSymmInnerProductArray procs tag mx (some ip) cast ([] : List V) = .error e ∧ e = .indexError :=
  ⟨⟨_, rfl, rfl⟩, _, rfl, rfl⟩

/-! ### Linear combinations: shapes -/

theorem coeff2d_spec [Zero K] (numBases : Nat) (coeff : CoeffArray K) :
    ((coeff2d numBases coeff).rows, (coeff2d numBases coeff).cols) = specShape numBases coeff ∧
      ∀ i j, (coeff2d numBases coeff).e i j = specEntry numBases coeff i j := by
  cases coeff with
  | scalar c => exact ⟨rfl, fun _ _ => rfl⟩
  | mat r c e => exact ⟨rfl, fun _ _ => rfl⟩
  | vec c =>
    unfold coeff2d specShape specEntry
    dsimp only
    split
    · exact ⟨rfl, fun _ _ => rfl⟩
    · exact ⟨rfl, fun _ _ => rfl⟩

theorem npIndex_spec (n : Nat) (i : Int) (h1 : -(n : Int) ≤ i) (h2 : i < n) :
    npIndex n i = some (if i < 0 then i + n else i).toNat := by
  unfold npIndex
  by_cases h : i < 0
  · rw [if_neg (by omega), if_pos ⟨h, h1⟩, if_pos h]
  · rw [if_pos (by omega), if_neg h]

theorem npIndex_none (n : Nat) (i : Int) (h : ¬ (-(n : Int) ≤ i ∧ i < n)) : npIndex n i = none := by
  unfold npIndex
  rw [if_neg (by omega), if_neg (by omega)]

theorem mapM_npIndex (n : Nat) (l : List Int) :
    (∀ i ∈ l, -(n : Int) ≤ i ∧ i < n) →
      l.mapM (npIndex n) = some (l.map fun i : Int => (if i < 0 then i + n else i).toNat) := by
  induction l with
  | nil => intro _; rfl
  | cons i l ih =>
    intro h
    have h1 := h i (by simp)
    rw [List.mapM_cons, npIndex_spec n i h1.1 h1.2, ih fun i hi => h i (by simp [hi])]
    rfl

theorem mapM_npIndex_none (n : Nat) (l : List Int) (h : ¬ ∀ i ∈ l, -(n : Int) ≤ i ∧ i < n) :
    l.mapM (npIndex n) = none := by
  induction l with
  | nil => simp at h
  | cons i l ih =>
    rw [List.mapM_cons]
    by_cases h1 : -(n : Int) ≤ i ∧ i < n
    · rw [npIndex_spec n i h1.1 h1.2, ih]
      · rfl
      · intro h2
        exact h fun j hj => by
          rcases List.mem_cons.mp hj with rfl | hj
          · exact h1
          · exact h2 j hj
    · rw [npIndex_none n i h1]
      rfl

theorem selectCols_spec (a : Arr2 K) (sel : Option (List Int)) (h : selectionOk a.cols sel) :
    ∃ b, selectCols a sel = .ok b ∧ b.rows = a.rows ∧ b.cols = numSelected a.cols sel ∧
      ∀ i k, k < numSelected a.cols sel → b.e i k = a.e i (specColumn a.cols sel k) := by
  cases sel with
  | none => exact ⟨a, rfl, rfl, rfl, fun _ _ _ => rfl⟩
  | some l =>
    refine ⟨⟨a.rows, l.length, fun i k => a.e i ((l.map fun i : Int =>
      (if i < 0 then i + a.cols else i).toNat).getD k 0)⟩, ?_, rfl, rfl, fun i k hk => ?_⟩
    · unfold selectCols
      dsimp only
      rw [mapM_npIndex _ _ h]
      simp
    · dsimp only
      congr 1
      unfold specColumn
      have hk : k < l.length := hk
      simp [List.getD, hk]

/-- **C11.** With columns that exist and at least one basis vector, `lin_combine` accepts the
coefficients if and only if the numbers of rows and of selected columns match; otherwise it raises
`ValueError` before any put. -/
theorem C11_accepts_exactly_matching_shapes [Add V] [Zero K] (p mx : Nat) (mul : V → K → V)
    (numSums : Nat) (basis : List V) (hbasis : basis ≠ []) (coeff : CoeffArray K)
    (sel : Option (List Int)) (hsel : selectionOk (specShape basis.length coeff).2 sel) :
    if (specShape basis.length coeff).1 = basis.length ∧
        numSelected (specShape basis.length coeff).2 sel = numSums
    then ∃ prog, linCombine p mx mul numSums basis coeff sel = .ok prog
    else linCombine p mx mul numSums basis coeff sel = .error .valueError := by
  obtain ⟨h1, h2⟩ := coeff2d_spec basis.length coeff
  rw [← h1] at hsel ⊢
  obtain ⟨b, h3, h4, h5, -⟩ := selectCols_spec _ sel hsel
  unfold linCombine
  rw [h3]
  dsimp only
  rw [h4, h5]
  have hlen : ¬ basis.length = 0 := fun h => hbasis (List.length_eq_zero_iff.mp h)
  split
  · rename_i h
    refine ⟨lcProg p mx mul basis numSums b.e, ?_⟩
    rw [if_neg (not_not.mpr h.1.symm), if_neg (not_not.mpr h.2.symm)]
  · rename_i h
    by_cases h6 : basis.length = (coeff2d basis.length coeff).rows
    · rw [if_neg (by simpa using h6), if_pos (fun h7 => h ⟨h6.symm, h7.symm⟩)]
    · rw [if_pos h6]

example : selectionOk (specShape 2 (.mat 2 3 fun _ _ => (1 : ℚ))).2 (some [0, -1]) := by
  intro i hi
  simp at hi
  rcases hi with rfl | rfl <;> decide

/-- **C11.** A column that does not exist raises `IndexError` before any put. -/
theorem C11_missing_column_raises [Add V] [Zero K] (p mx : Nat) (mul : V → K → V)
    (numSums : Nat) (basis : List V) (coeff : CoeffArray K) (sel : Option (List Int))
    (hsel : ¬ selectionOk (specShape basis.length coeff).2 sel) :
    linCombine p mx mul numSums basis coeff sel = .error .indexError := by
  obtain ⟨h1, h2⟩ := coeff2d_spec basis.length coeff
  rw [← h1] at hsel
  cases sel with
  | none => exact absurd trivial hsel
  | some l =>
    unfold linCombine selectCols
    dsimp only at hsel ⊢
    rw [mapM_npIndex_none _ _ hsel]

example : ¬ selectionOk (specShape 2 (.mat 2 3 fun _ _ => (1 : ℚ))).2 (some [0, 3]) := by
  intro h
  have := h 3 (by simp)
  simp [specShape] at this

/-- **C11.** An empty list of basis handles raises an error before any put, whatever the
coefficients. -/
theorem C11_empty_basis_raises [Add V] [Zero K] (p mx : Nat) (mul : V → K → V)
    (numSums : Nat) (coeff : CoeffArray K) (sel : Option (List Int)) :
    ∃ e, linCombine p mx mul numSums [] coeff sel = .error e := by
  unfold linCombine
  cases selectCols (coeff2d ([] : List V).length coeff) sel with
  | error e => exact ⟨e, rfl⟩
  | ok c =>
    dsimp only
    split
    · exact ⟨_, rfl⟩
    · split
      · exact ⟨_, rfl⟩
      · exact ⟨.indexError, by simp⟩

/-! ### Linear combinations: result -/

/-- **C09.** `lin_combine` puts into sum handle `k` the vector `sum_i basis_i * coeff[i, k]`, and
each sum handle is put exactly once: the sum handles are split among the processes, in order, and
each process puts its own, each once. -/
theorem C09_lin_combine_result [AddCommMonoid V] [Zero K] (procs nodes : Nat)
    (hp : 1 ≤ procs) (hn : 1 ≤ nodes) (request : Option Nat) (mul : V → K → V)
    (numSums : Nat) (basis : List V) (hbasis : basis ≠ []) (coeff : CoeffArray K)
    (sel : Option (List Int)) (hsel : selectionOk (specShape basis.length coeff).2 sel)
    (hrows : (specShape basis.length coeff).1 = basis.length)
    (hcols : numSelected (specShape basis.length coeff).2 sel = numSums) :
    ∃ prog, linCombine procs (limits request procs nodes).perProc mul numSums basis coeff sel =
        .ok prog ∧
      ∃ share : Nat → List Nat, (List.range procs).flatMap share = List.range numSums ∧
        EveryInterleaving procs prog lcInit fun r s => s.err = false ∧
          s.puts = (share r).map fun k => (k, some (specSum mul basis coeff sel k)) := by
  have hmx := C12_at_least_three_vectors_per_process request procs nodes hp hn
  generalize (limits request procs nodes).perProc = mx at hmx
  obtain ⟨h1, h2⟩ := coeff2d_spec basis.length coeff
  rw [← h1] at hsel hrows hcols
  obtain ⟨b, h3, h4, h5, h6⟩ := selectCols_spec _ sel hsel
  dsimp only at h5 h6 hrows hcols
  have hlen : ¬ basis.length = 0 := fun h => hbasis (List.length_eq_zero_iff.mp h)
  refine ⟨lcProg procs mx mul basis numSums b.e, ?_,
    fun r => (rangeTasks procs 0 numSums).getD r [], ?_, ?_⟩
  · unfold linCombine
    rw [h3]
    dsimp only
    rw [h4, h5, hrows, hcols]
    simp [hlen]
  · have h7 := rangeTasks_flatten procs 0 numSums hp
    have h8 := rangeTasks_length procs 0 numSums
    rw [Nat.sub_zero, ← List.range_eq_range'] at h7
    rw [← h7, List.flatMap_def]
    congr 1
    apply List.ext_getElem
    · simp [h8]
    · intro i h9 h10
      simp [List.getD, h10]
  · refine everyInterleaving_of_matched (lcProg_matched _ _ _ _ _ _) fun r hr => ?_
    have := lcProg_exec procs mx hp (by omega) mul basis hbasis numSums b.e (x := fun i j =>
      match basis[i]? with
      | some w => mul w (b.e i j)
      | none => 0) (fun i j w h => by rw [h]) r hr
    refine ⟨this.1, ?_⟩
    rw [this.2]
    refine List.map_congr_left fun k hk => ?_
    have hk' : k < numSums := by
      have h7 := rangeTasks_flatten procs 0 numSums hp
      have h8 : k ∈ (rangeTasks procs 0 numSums).flatten := by
        rw [List.mem_flatten]
        refine ⟨_, ?_, hk⟩
        have h8 := rangeTasks_length procs 0 numSums
        rw [List.getD, List.getElem?_eq_getElem (by omega), Option.getD_some]
        exact List.getElem_mem _
      rw [h7, List.mem_range'_1] at h8
      omega
    refine Prod.ext rfl (congrArg some ?_)
    unfold specSum
    rw [Finset.sum_range]
    refine Finset.sum_congr rfl fun i _ => ?_
    rw [List.getElem?_eq_getElem i.2]
    rw [h6 i k (by rw [hcols]; exact hk'), h2, ← h1]
    rfl

example : numSelected (specShape 2 (.mat 2 3 fun i j => (i + j : ℚ))).2 (some [0, -1]) = 2 ∧
    (specShape 2 (.mat 2 3 fun i j => (i + j : ℚ))).1 = [1, (10 : ℚ)].length ∧
    specSum (fun v c : ℚ => v * c) [1, 10] (.mat 2 3 fun i j => (i + j : ℚ)) (some [0, -1]) 1 = 32 := by
  refine ⟨rfl, rfl, ?_⟩
  simp [specSum, Fin.sum_univ_two, specEntry, specColumn, specShape]
  norm_num

/-! ### Linear combinations on shared storage -/

theorem storeRound_spec [AddCommMonoid V] (mx : Nat) (mul : V → K → V)
    (bp sp : List Nat) (hbp : bp ≠ []) (coeff : Nat → Nat → K) (store : Nat → V) (k : Nat) :
    storeRound mx mul bp sp coeff store k =
      (List.range' (chunkBounds (List.range' 0 sp.length) k (mx - 1)).1
        ((chunkBounds (List.range' 0 sp.length) k (mx - 1)).2 -
          (chunkBounds (List.range' 0 sp.length) k (mx - 1)).1)).foldl (fun st j =>
            match sp[j]? with
            | some place => fun q => if q = place then
                ∑ i : Fin bp.length, mul (store bp[i]) (coeff i j) else st q
            | none => st) store := by
  have h1 : ∀ m, ceilDivNat m 1 = m := fun m => by simp [ceilDivNat]
  have hne : bp.map store ≠ [] := by simpa using hbp
  have hspec := lcChunk_spec 1 mx (le_refl 1) mul (bp.map store) hne sp.length coeff
    (x := fun i j => match (bp.map store)[i]? with
      | some w => mul w (coeff i j)
      | none => 0) (fun i j w h => by rw [h]) 0 (by omega) k (lcInit 0) rfl
  have htasks : (rangeTasks 1 0 sp.length).getD 0 [] = List.range' 0 sp.length := by
    obtain ⟨f, hf0, hfp, -, hft⟩ := rangeTasks_blocks 1 0 sp.length (le_refl 1) (by omega)
    rw [hft 0 (by omega), hf0, hfp]
    rfl
  have hb : ∀ s : LCState V, (List.range (ceilDivNat (maxLen (rangeTasks 1 0 (bp.map store).length)) 1)).foldl
      (fun s basisIndex => takeBasis mul coeff s (ownBasis (bp.map store)
        (rangeTasks 1 0 (bp.map store).length) basisIndex 0)) s =
      basisLoop 1 mul coeff (bp.map store) 0 s := by
    intro s
    unfold basisLoop
    rw [h1]
    simp [List.range_succ]
  unfold storeRound
  dsimp only
  rw [hb, hspec.2, htasks]
  rw [show (lcInit 0 : LCState V).puts = [] from rfl, List.nil_append, List.foldl_map]
  congr 1
  funext st j
  cases sp[j]? with
  | none => rfl
  | some place =>
    dsimp only
    funext q
    split
    · have hlen : (bp.map store).length = bp.length := List.length_map ..
      rw [hlen, Finset.sum_range]
      refine Finset.sum_congr rfl fun i _ => ?_
      simp
    · rfl

/-- Writing values into places, one index after the other. -/
def writeAll (sp : List Nat) (f : Nat → V) (L : List Nat) (store : Nat → V) : Nat → V :=
  L.foldl (fun st j => match sp[j]? with
    | some place => fun q => if q = place then f j else st q
    | none => st) store

theorem writeAll_off (sp : List Nat) (f : Nat → V) (L : List Nat) (q : Nat) :
    ∀ store : Nat → V, (∀ j ∈ L, sp[j]? ≠ some q) → writeAll sp f L store q = store q := by
  induction L with
  | nil => intro _ _; rfl
  | cons j L ih =>
    intro store h
    unfold writeAll at ih ⊢
    rw [List.foldl_cons, ih _ fun j hj => h j (by simp [hj])]
    have := h j (by simp)
    cases h1 : sp[j]? with
    | none => rfl
    | some place =>
      rw [h1] at this
      dsimp only
      rw [if_neg fun h => this (by rw [h])]

theorem writeAll_at (sp : List Nat) (f : Nat → V) (hsp : sp.Nodup) (j : Nat) (hj : j < sp.length)
    (L : List Nat) : ∀ store : Nat → V, j ∈ L → writeAll sp f L store sp[j] = f j := by
  have huniq : ∀ i : Nat, sp[i]? = some sp[j] → i = j := fun i h => by
    rw [List.getElem?_eq_some_iff] at h
    obtain ⟨h1, h2⟩ := h
    exact (List.Nodup.getElem_inj_iff hsp).mp h2
  induction L with
  | nil => intro _ h; simp at h
  | cons i L ih =>
    intro store h
    by_cases h1 : j ∈ L
    · unfold writeAll at ih ⊢
      rw [List.foldl_cons]
      exact ih _ h1
    · have h2 : j = i := by
        rcases List.mem_cons.mp h with h | h
        · exact h
        · exact absurd h h1
      subst h2
      have h3 : writeAll sp f (j :: L) store = writeAll sp f L (fun q => if q = sp[j] then f j else store q) := by
        unfold writeAll
        rw [List.foldl_cons, List.getElem?_eq_getElem hj]
      rw [h3, writeAll_off]
      · rw [if_pos rfl]
      · intro i hi h4
        exact h1 (huniq i h4 ▸ hi)

/-- **C10, what holds.** If no sum handle writes to a place that a basis handle reads, the sums are
those of the vectors stored at the start, for every memory limit, and nothing else changes. -/
theorem C10_disjoint_storage_partial [AddCommMonoid V] (mx : Nat) (hmx : 2 ≤ mx) (mul : V → K → V)
    (bp sp : List Nat) (hbp : bp ≠ []) (hsp : sp.Nodup) (hdisj : ∀ q ∈ bp, q ∉ sp)
    (coeff : Nat → Nat → K) (store : Nat → V) :
    (∀ (k : Nat) (hk : k < sp.length), linCombineStore mx mul bp sp coeff store sp[k] =
      ∑ i : Fin bp.length, mul (store bp[i]) (coeff i k)) ∧
    ∀ q, q ∉ sp → linCombineStore mx mul bp sp coeff store q = store q := by
  let f : Nat → V := fun k => ∑ i : Fin bp.length, mul (store bp[i]) (coeff i k)
  have hround : ∀ (st : Nat → V) (k : Nat), (∀ q ∈ bp, st q = store q) →
      storeRound mx mul bp sp coeff st k = writeAll sp f
        (List.range' (chunkBounds (List.range' 0 sp.length) k (mx - 1)).1
        ((chunkBounds (List.range' 0 sp.length) k (mx - 1)).2 -
          (chunkBounds (List.range' 0 sp.length) k (mx - 1)).1)) st := by
    intro st k hst
    rw [storeRound_spec mx mul bp sp hbp]
    unfold writeAll
    congr 1
    funext st' j
    have : ∑ i : Fin bp.length, mul (st bp[i]) (coeff i j) = f j :=
      Finset.sum_congr rfl fun i _ => by rw [hst bp[i] (List.getElem_mem i.2)]
    rw [this]
  have hkeep : ∀ (L : List Nat) (st : Nat → V), (∀ q ∈ bp, st q = store q) →
      ∀ q ∈ bp, writeAll sp f L st q = store q := by
    intro L st hst q hq
    rw [writeAll_off, hst q hq]
    intro j _ hj
    exact hdisj q hq (List.mem_of_getElem? hj)
  have hall : ∀ (N : List Nat) (st : Nat → V), (∀ q ∈ bp, st q = store q) →
      N.foldl (storeRound mx mul bp sp coeff) st = writeAll sp f (N.flatMap fun k =>
        List.range' (chunkBounds (List.range' 0 sp.length) k (mx - 1)).1
        ((chunkBounds (List.range' 0 sp.length) k (mx - 1)).2 -
          (chunkBounds (List.range' 0 sp.length) k (mx - 1)).1)) st := by
    intro N
    induction N with
    | nil => intro st _; rfl
    | cons k N ih =>
      intro st hst
      rw [List.foldl_cons, hround st k hst, ih _ (hkeep _ _ hst), List.flatMap_cons]
      unfold writeAll
      rw [List.foldl_append]
  have htasks : rangeTasks 1 0 sp.length = [List.range' 0 sp.length] := by
    have h8 := rangeTasks_length 1 0 sp.length
    obtain ⟨f, hf0, hfp, -, hft⟩ := rangeTasks_blocks 1 0 sp.length (le_refl 1) (by omega)
    have h9 := hft 0 (by omega)
    rw [hf0, hfp] at h9
    match h : rangeTasks 1 0 sp.length with
    | [a] => rw [h] at h9; simpa using h9
    | [] => rw [h] at h8; simp at h8
    | a :: b :: l => rw [h] at h8; simp at h8
  have hmain : linCombineStore mx mul bp sp coeff store =
      writeAll sp f (List.range' 0 sp.length) store := by
    unfold linCombineStore
    have h10 := chunks_flatten 0 sp.length (mx - 1)
      (ceilDivNat (maxLen (rangeTasks 1 0 sp.length)) (mx - 1)) (by omega)
    simp only [Nat.sub_zero] at h10
    rw [hall _ store fun _ _ => rfl, h10]
    have h7 := length_le_maxLen (ls := rangeTasks 1 0 sp.length) (r := 0)
    rw [htasks] at h7 ⊢
    have h8 := ceilDivNat_mul_ge (maxLen [List.range' 0 sp.length]) (mx - 1) (by omega)
    have h9 : ([List.range' 0 sp.length].getD 0 []).length = sp.length := by simp
    rw [h9] at h7
    rw [Nat.min_eq_left (by omega)]
  rw [hmain]
  refine ⟨fun k hk => writeAll_at sp f hsp k hk _ _ (by simp [hk]), fun q hq => ?_⟩
  exact writeAll_off _ _ _ _ _ fun j _ hj => hq (List.mem_of_getElem? hj)

example : ([0, 1, 2] : List Nat) ≠ [] ∧ ([3, 4] : List Nat).Nodup ∧
    ∀ q ∈ [0, 1, 2], q ∉ ([3, 4] : List Nat) := by decide

/-- **C10, what holds.** If all sums fit into one round, the sums are those of the vectors stored at
the start, even when sum handles write to places that basis handles read. -/
theorem C10_one_round_partial [AddCommMonoid V] (mx : Nat) (mul : V → K → V)
    (bp sp : List Nat) (hbp : bp ≠ []) (hsp : sp.Nodup) (hmx : sp.length ≤ mx - 1)
    (coeff : Nat → Nat → K) (store : Nat → V) :
    (∀ (k : Nat) (hk : k < sp.length), linCombineStore mx mul bp sp coeff store sp[k] =
      ∑ i : Fin bp.length, mul (store bp[i]) (coeff i k)) ∧
    ∀ q, q ∉ sp → linCombineStore mx mul bp sp coeff store q = store q := by
  let f : Nat → V := fun k => ∑ i : Fin bp.length, mul (store bp[i]) (coeff i k)
  rcases Nat.eq_zero_or_pos sp.length with h0 | hpos
  · have : sp = [] := List.length_eq_zero_iff.mp h0
    subst this
    refine ⟨fun k hk => absurd hk (by simp), fun q _ => ?_⟩
    have h1 : maxLen (rangeTasks 1 0 ([] : List Nat).length) = 0 := by decide +kernel
    unfold linCombineStore
    rw [h1]
    simp [ceilDivNat]
    cases mx - 1 with
    | zero => simp
    | succ n =>
      have : (n + 1 - 1) / (n + 1) = 0 := Nat.div_eq_of_lt (by omega)
      rw [this]
      simp
  have htasks : rangeTasks 1 0 sp.length = [List.range' 0 sp.length] := by
    have h8 := rangeTasks_length 1 0 sp.length
    obtain ⟨f, hf0, hfp, -, hft⟩ := rangeTasks_blocks 1 0 sp.length (le_refl 1) (by omega)
    have h9 := hft 0 (by omega)
    rw [hf0, hfp] at h9
    match h : rangeTasks 1 0 sp.length with
    | [a] => rw [h] at h9; simpa using h9
    | [] => rw [h] at h8; simp at h8
    | a :: b :: l => rw [h] at h8; simp at h8
  have hmain : linCombineStore mx mul bp sp coeff store =
      writeAll sp f (List.range' 0 sp.length) store := by
    have h1 : ceilDivNat (maxLen (rangeTasks 1 0 sp.length)) (mx - 1) = 1 := by
      have : maxLen (rangeTasks 1 0 sp.length) = sp.length := by
        rw [htasks]
        simp [maxLen]
      rw [this]
      unfold ceilDivNat
      have := Nat.div_eq_of_lt_le (m := sp.length + (mx - 1) - 1) (n := mx - 1) (k := 1)
        (by omega) (by omega)
      exact this
    unfold linCombineStore
    rw [h1]
    have h2 : List.range 1 = [0] := rfl
    rw [h2, List.foldl_cons, List.foldl_nil, storeRound_spec mx mul bp sp hbp]
    have h3 := chunks_flatten 0 sp.length (mx - 1) 1 (by omega)
    simp only [Nat.sub_zero] at h3
    rw [h2, List.flatMap_cons, List.flatMap_nil, List.append_nil, Nat.min_eq_left (by omega)] at h3
    rw [h3]
    rfl
  rw [hmain]
  refine ⟨fun k hk => writeAll_at sp f hsp k hk _ _ (by simp [hk]), fun q hq => ?_⟩
  exact writeAll_off _ _ _ _ _ fun j _ hj => hq (List.mem_of_getElem? hj)

/-- **C10, violation.** With sum handles writing where basis handles read, the result depends on the
memory limit: shifting three numbers cyclically gives different results for limits 3 and 4. -/
theorem C10_aliasing_depends_on_memory_limit_violation :
    let run : Nat → Nat → ℤ := fun mx => linCombineStore mx (fun v c => v * c) [0, 1, 2] [0, 1, 2]
      (fun i j => if i = (j + 1) % 3 then 1 else 0) (fun q => q + 1)
    [run 3 0, run 3 1, run 3 2] = [2, 3, 2] ∧ [run 4 0, run 4 1, run 4 2] = [2, 3, 1] := by
  decide +kernel

end Modred
