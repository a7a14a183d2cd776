import Verif.Lemmas.Progress
import Verif.Lemmas.Calls
import Verif.Spec.Progress
import Verif.Props.Assign

/-!
# C99: progress messages
-/

namespace Modred

variable {ρ V K σ μ : Type*}

/-! ### The loops are the same -/

theorem map_snd_mk (l : Prog σ μ) : (l.map (Prod.mk true)).map Prod.snd = l := by
  rw [List.map_map]
  exact List.map_id l

/-- **C99.** The reports are those of the loops of `compute_inner_product_array`: without the marks
the program is the same. -/
theorem C99_inner_product_program [Add K] (p tag mx : Nat) (ip : V → V → K) (rows cols : List V) :
    (ipMarked p mx ip rows cols).map Prod.snd ++ allreduceArr p tag =
      ipProg p tag mx ip rows cols := by
  simp only [ipMarked, ipProg, List.map_flatMap, List.map_cons, map_snd_mk]

/-- **C99.** The same for `compute_symm_inner_product_array` in one process. -/
theorem C99_symmetric_program [Add K] (tag mx : Nat) (ip : V → V → K) (vecs : List V) :
    (symmMarked mx ip vecs).map Prod.snd ++ allreduceArr 1 tag = symmProg 1 tag mx ip vecs := by
  simp only [symmMarked, symmProg, symmChunk, List.map_flatMap, List.map_cons, map_snd_mk]
  congr 2
  funext S
  have h1 : ((rangeTasks 1 S (min vecs.length (S + (mx - 1) * 1))).filter fun t => t ≠ []).length
      ≤ 1 := by
    refine (List.length_filter_le _ _).trans ?_
    rw [rangeTasks_length]
  have h2 : ∀ A, A ≤ 1 → ceilDivNat (A - 1) 2 = 0 := by
    intro A hA
    unfold ceilDivNat
    omega
  rw [h2 _ h1]
  rfl

/-! ### When something is printed -/

/-- **C99.** A report is printed exactly if more than `print_interval` seconds have passed since the
last message, as the clock showed after it was printed. -/
theorem C99_when_printed (interval prev : ℚ) (l : List (ρ × ClockReading)) (c : ρ × ClockReading) :
    printed interval prev (l ++ [c]) = printed interval prev l ++
      if c.2.compared -
          (((printed interval prev l).getLast?.map fun m => m.2.stored).getD prev) > interval
      then [c] else [] := by
  induction l generalizing prev with
  | nil => simp [printed]
  | cons d l ih =>
    rw [List.cons_append, printed, printed]
    split
    · rw [ih, List.cons_append]
      congr 2
      generalize printed interval d.2.stored l = q
      cases q with
      | nil => simp
      | cons a q => simp [List.getLast?_cons]
    · rw [ih]

/-- **C99.** Nothing is printed by the other ranks, and nothing at all if the verbosity is not
positive. -/
theorem C99_quiet (verbosity : Int) (rank : Nat) (h : verbosity ≤ 0 ∨ rank ≠ 0) (interval prev : ℚ)
    (clock : Nat → ClockReading) (reports : List ℚ) :
    progressMessages verbosity interval prev clock rank reports = [] := by
  unfold progressMessages printMsgs
  rw [if_neg (by omega)]

/-- Messages make sense if the reports do. -/
theorem sane_of_reports {verbosity : Int} (hv : 0 < verbosity) (interval prev : ℚ)
    (clock : Nat → ClockReading) {reports : List ℚ} (h1 : ∀ x ∈ reports, 0 ≤ x ∧ x ≤ 100)
    (h2 : reports.Pairwise (· ≤ ·)) :
    SaneProgress (progressMessages verbosity interval prev clock 0 reports) := by
  have hs := printed_fst_sublist interval prev reports clock
  unfold progressMessages printMsgs
  rw [if_pos ⟨hv, rfl⟩]
  refine ⟨fun x hx => ?_, ?_, by simp⟩
  · rcases List.mem_append.mp hx with hx | hx
    · exact h1 x (hs.subset hx)
    · rw [List.mem_singleton.mp hx]; norm_num
  · rw [List.pairwise_append]
    refine ⟨h2.sublist hs, List.pairwise_singleton _ _, fun x hx y hy => ?_⟩
    rw [List.mem_singleton.mp hy]
    exact (h1 x (hs.subset hx)).2

/-! ### Inner products -/

section
variable [Zero K] [DecidableEq K]

/-- **C99, partial.** With any number of processes the percentages of rank zero never go down and
are at least zero, but only bounded by `100 * (rows + processes - 1) / rows`. -/
theorem C99_inner_products_partial (p mx : Nat) (hp : 1 ≤ p) (ip : V → V → K) (rows cols : List V) :
    (∀ x ∈ ipReports p mx ip rows cols 0,
      0 ≤ x ∧ x ≤ 100 * (rows.length + p - 1) / rows.length) ∧
      (ipReports p mx ip rows cols 0).Pairwise (· ≤ ·) ∧
      (p ∣ rows.length → ∀ x ∈ ipReports p mx ip rows cols 0, x ≤ 100) := by
  classical
  obtain ⟨f, hf0, hfp, hfm, hft⟩ := rangeTasks_blocks p 0 rows.length hp (by omega)
  let F : Nat → Nat → K := fun i c => match rows[i]?, cols[c]? with
    | some v, some w => ip v w
    | _, _ => 0
  have hF : ∀ i c v w, rows[i]? = some v → cols[c]? = some w → ip v w = F i c := by
    intro i c v w h1 h2
    simp only [F, h1, h2]
  have h := checks_ascend (fun r => Filling rows cols F (f r) (f (r + 1))) Keeps Keeps.trans
    (show 0 < p from hp) (ipMarked p mx ip rows cols) (ipMarked_keeps hp hF hfp hfm hft) ipInit
    fun r _ => Filling.start r
  -- number of rows of rank zero
  have hlen : rows.length / p ≤ f (0 + 1) - f 0 ∧
      f (0 + 1) - f 0 ≤ (rows.length + (p - 1)) / p := by
    have h1 := C02_default_assignment_balanced (K := ℚ) p hp (List.range' 0 (rows.length - 0))
      ((rangeTasks p 0 rows.length).getD 0 []) ?_
    · rw [hft 0 hp, List.length_range', List.length_range', Nat.sub_zero] at h1
      exact h1
    · have h2 : 0 < (rangeTasks p 0 rows.length).length := by rw [rangeTasks_length]; exact hp
      rw [List.getD_eq_getElem _ _ h2]
      exact List.getElem_mem h2
  have hval : ∀ x ∈ ipReports p mx ip rows cols 0, ∃ s : IPState V K,
      Filling rows cols F (f 0) (f (0 + 1)) s ∧ x = ipPercent p rows.length cols.length s := by
    intro x hx
    obtain ⟨s, hs, rfl⟩ := List.mem_map.mp hx
    exact ⟨s, (h.1 s (List.mem_of_mem_filter hs)).1, rfl⟩
  have hbound : ∀ x ∈ ipReports p mx ip rows cols 0,
      0 ≤ x ∧ ∀ y : ℚ, 0 ≤ y → ((f (0 + 1) - f 0 : Nat) : ℚ) * p ≤ y * rows.length → x ≤ 100 * y := by
    intro x hx
    obtain ⟨s, hs, rfl⟩ := hval x hx
    refine ⟨by unfold ipPercent; positivity, fun y hy0 hy => ?_⟩
    have h1 : countNonzero rows.length cols.length s.arr ≤ (f (0 + 1) - f 0) * cols.length :=
      countNonzero_le hs.nonzero
    have h2 : (countNonzero rows.length cols.length s.arr : ℚ) ≤
        ((f (0 + 1) - f 0 : Nat) : ℚ) * cols.length := by exact_mod_cast h1
    unfold ipPercent
    rw [mul_comm (100 : ℚ)]
    refine mul_le_mul_of_nonneg_right ?_ (by norm_num)
    refine div_le_of_le_mul₀ (by positivity) hy0 ?_
    have hp0 : (0 : ℚ) ≤ p := by positivity
    have hc0 : (0 : ℚ) ≤ cols.length := by positivity
    calc (countNonzero rows.length cols.length s.arr : ℚ) * p
        ≤ ((f (0 + 1) - f 0 : Nat) : ℚ) * cols.length * p := mul_le_mul_of_nonneg_right h2 hp0
      _ = ((f (0 + 1) - f 0 : Nat) : ℚ) * p * cols.length := by ring
      _ ≤ y * rows.length * cols.length := mul_le_mul_of_nonneg_right hy hc0
      _ = y * (cols.length * rows.length) := by ring
  refine ⟨fun x hx => ⟨(hbound x hx).1, ?_⟩, ?_, fun hdvd x hx => ?_⟩
  · have h1 : (f (0 + 1) - f 0) * p ≤ rows.length + (p - 1) :=
      (Nat.mul_le_mul_right p hlen.2).trans (Nat.div_mul_le_self _ _)
    have hp1 : (1 : ℚ) ≤ p := by exact_mod_cast hp
    have h2 : ((f (0 + 1) - f 0 : Nat) : ℚ) * p ≤ rows.length + p - 1 := by
      have h3 : (((f (0 + 1) - f 0) * p : Nat) : ℚ) ≤ ((rows.length + (p - 1) : Nat) : ℚ) := by
        exact_mod_cast h1
      push_cast [Nat.cast_sub hp] at h3
      push_cast at h3 ⊢
      linarith
    rcases Nat.eq_zero_or_pos rows.length with h0 | h0
    · have h4 : (f (0 + 1) - f 0) = 0 := by
        have := hfm (show 0 + 1 ≤ p from hp)
        omega
      have := (hbound x hx).2 0 (le_refl _) (by rw [h4]; simp)
      rw [h0]
      simpa using this
    · have h5 : (0 : ℚ) < rows.length := by exact_mod_cast h0
      have := (hbound x hx).2 ((rows.length + p - 1) / rows.length)
        (div_nonneg (by linarith) h5.le) (by rw [div_mul_cancel₀ _ h5.ne']; exact h2)
      rwa [← mul_div_assoc] at this
  · unfold ipReports
    rw [List.pairwise_map]
    refine (h.2.filter _).imp fun {a b} hab => ?_
    unfold ipPercent
    have h1 : (countNonzero rows.length cols.length a.arr : ℚ) ≤
        countNonzero rows.length cols.length b.arr := by
      exact_mod_cast countNonzero_mono (m := rows.length) (n := cols.length) hab
    gcongr
  · have h1 : (f (0 + 1) - f 0) * p ≤ rows.length := by
      obtain ⟨k, hk⟩ := hdvd
      have h2 := hlen.2
      rw [hk, Nat.mul_add_div hp, Nat.div_eq_of_lt (show p - 1 < p by omega), Nat.add_zero] at h2
      rw [hk, Nat.mul_comm p]
      exact Nat.mul_le_mul_right p h2
    have := (hbound x hx).2 1 (by norm_num) (by rw [one_mul]; exact_mod_cast h1)
    rwa [mul_one] at this

/-- **C99.** In one process, or if the rows can be divided equally among the processes, the messages
of `compute_inner_product_array` make sense whatever the clock shows. -/
theorem C99_inner_products (p mx : Nat) (hp : 1 ≤ p) (ip : V → V → K) (rows cols : List V)
    (hdvd : p ∣ rows.length) {verbosity : Int} (hv : 0 < verbosity) (interval prev : ℚ)
    (clock : Nat → ClockReading) :
    SaneProgress (progressMessages verbosity interval prev clock 0
      (ipReports p mx ip rows cols 0)) := by
  obtain ⟨h1, h2, h3⟩ := C99_inner_products_partial p mx hp ip rows cols
  exact sane_of_reports hv interval prev clock (fun x hx => ⟨(h1 x hx).1, h3 hdvd x hx⟩) h2

/-- **C99.** In one process the messages of `compute_symm_inner_product_array` make sense whatever
the clock shows. -/
theorem C99_symmetric (mx : Nat) (hmx : 2 ≤ mx) (ip : V → V → K) (vecs : List V) {verbosity : Int}
    (hv : 0 < verbosity) (interval prev : ℚ) (clock : Nat → ClockReading) :
    SaneProgress (progressMessages verbosity interval prev clock 0 (symmReports mx ip vecs)) := by
  let F : Nat → Nat → K := fun i c => match vecs[i]?, vecs[c]? with
    | some v, some w => ip v w
    | _, _ => 0
  have hF : ∀ i c v w, vecs[i]? = some v → vecs[c]? = some w → ip v w = F i c := by
    intro i c v w h1 h2
    simp only [F, h1, h2]
  have h := checks_ascend (fun _ => Filling vecs vecs F 0 vecs.length) Keeps Keeps.trans
    (show 0 < 1 by omega) (symmMarked mx ip vecs) (symmMarked_keeps hmx hF) ipInit
    fun r _ => Filling.start r
  refine sane_of_reports hv interval prev clock ?_ ?_
  · intro x hx
    obtain ⟨s, -, rfl⟩ := List.mem_map.mp hx
    refine ⟨by unfold symmPercent; positivity, ?_⟩
    unfold symmPercent
    have h1 : (2 : ℚ) * countTriu vecs.length s.arr ≤ vecs.length * (vecs.length + 1) := by
      exact_mod_cast countTriu_le vecs.length s.arr
    have h2 : (countTriu vecs.length s.arr * 1 / (vecs.length * (vecs.length + 1) / 2) : ℚ) ≤ 1 := by
      refine div_le_of_le_mul₀ (by positivity) (by norm_num) ?_
      linarith
    linarith
  · unfold symmReports
    rw [List.pairwise_map]
    refine (h.2.filter _).imp fun {a b} hab => ?_
    unfold symmPercent
    have h1 : (countTriu vecs.length a.arr : ℚ) ≤ countTriu vecs.length b.arr := by
      refine Nat.cast_le.mpr (countNonzero_mono fun i j hij => ?_)
      split at hij
      · rename_i hle
        rw [if_pos hle]
        exact hab i j hij
      · exact absurd rfl hij
    gcongr

theorem checks_append (rank : Nat) (a b : MarkedProg σ μ) (st : Nat → σ) :
    checks rank (a ++ b) st = checks rank a st ++ checks rank b (exec (a.map Prod.snd) st) := by
  induction a generalizing st with
  | nil => rfl
  | cons m a ih =>
    obtain ⟨mark, R⟩ := m
    rw [List.cons_append, checks, checks, List.map_cons, exec_cons]
    split
    · rw [ih, List.cons_append]
    · rw [ih]

theorem checks_last (rank : Nat) (l : Prog σ μ) (hl : l ≠ []) (st : Nat → σ) :
    (checks rank (l.map (Prod.mk true)) st).getLast? = some (exec l st rank) := by
  induction l generalizing st with
  | nil => exact absurd rfl hl
  | cons R l ih =>
    rw [List.map_cons, checks, if_pos rfl, exec_cons, List.getLast?_cons]
    by_cases h : l = []
    · subst h; rfl
    · rw [ih h]; rfl

theorem exec_rowVecs (l : Prog (IPState V K) (IPMsg V K))
    (h : ∀ R ∈ l, ∀ st : Nat → IPState V K, (R.step st 0).rowVecs = (st 0).rowVecs) :
    ∀ st : Nat → IPState V K, (exec l st 0).rowVecs = (st 0).rowVecs := by
  induction l with
  | nil => intro st; rfl
  | cons R l ih =>
    intro st
    rw [exec_cons, ih (fun R hR => h R (by simp [hR])), h R (by simp)]

/-- **C99.** In one process, if no inner product is zero, the last report before the end is 100. -/
theorem C99_last_report {L : Type*} [AddZeroClass L] [DecidableEq L] (mx : Nat) (hmx : 2 ≤ mx)
    (ip : V → V → L) (rows cols : List V) (hrows : rows ≠ []) (hcols : cols ≠ [])
    (hip : ∀ v ∈ rows, ∀ w ∈ cols, ip v w ≠ 0) :
    (ipReports 1 mx ip rows cols 0).getLast? = some 100 := by
  have hm : 0 < rows.length := List.length_pos_iff.mpr hrows
  have hn : 0 < cols.length := List.length_pos_iff.mpr hcols
  obtain ⟨f, hf0, hfp, hfm, hft⟩ := rangeTasks_blocks 1 0 rows.length (le_refl _) (by omega)
  obtain ⟨g, hg0, hgp, hgm, hgt⟩ := rangeTasks_blocks 1 0 cols.length (le_refl _) (by omega)
  have hfp' : f (0 + 1) = rows.length := hfp
  have hmaxr : rows.length ≤ maxLen (rangeTasks 1 0 rows.length) := by
    have := length_le_maxLen (ls := rangeTasks 1 0 rows.length) (r := 0)
    rw [hft 0 (by omega), List.length_range'] at this
    omega
  have hmaxr' : maxLen (rangeTasks 1 0 rows.length) ≤ rows.length := by
    have h1 := rangeTasks_length 1 0 rows.length
    have h2 := rangeTasks_flatten 1 0 rows.length (le_refl _)
    match h : rangeTasks 1 0 rows.length with
    | [] => simp [maxLen]
    | [a] =>
      rw [h] at h2
      simp only [List.flatten_cons, List.flatten_nil, List.append_nil, Nat.sub_zero] at h2
      simp [maxLen, h2]
    | a :: b :: c => rw [h] at h1; simp at h1
  have hmaxc : cols.length ≤ maxLen (rangeTasks 1 0 cols.length) := by
    have := length_le_maxLen (ls := rangeTasks 1 0 cols.length) (r := 0)
    rw [hgt 0 (by omega), List.length_range'] at this
    have hgp' : g (0 + 1) = cols.length := hgp
    omega
  have hL := div_lt_ceilDivNat (m := maxLen (rangeTasks 1 0 rows.length)) (k := 0) (c := mx - 1)
    (by omega) (by omega)
  rw [Nat.zero_div] at hL
  have hC := div_lt_ceilDivNat (m := maxLen (rangeTasks 1 0 cols.length)) (k := 0) (c := 1)
    (by omega) (by omega)
  rw [Nat.zero_div] at hC
  -- the final state
  have hprog := C99_inner_product_program 1 0 mx ip rows cols
  have hred : (allreduceArr 1 0 : Prog (IPState V L) (IPMsg V L)) = [] := by
    unfold allreduceArr
    exact if_neg (by omega)
  rw [hred, List.append_nil] at hprog
  let F : Nat → Nat → L := fun i c => match rows[i]?, cols[c]? with
    | some v, some w => ip v w
    | _, _ => 0
  have hF : ∀ i c v w, rows[i]? = some v → cols[c]? = some w → ip v w = F i c := by
    intro i c v w h1 h2
    simp only [F, h1, h2]
  have hfin := (ipProg_exec 1 0 mx (le_refl _) hmx ip rows cols hF 0 (by omega)).2
  rw [← hprog] at hfin
  -- the last chunk of rows
  obtain ⟨k, hk⟩ : ∃ k, ceilDivNat (maxLen (rangeTasks 1 0 rows.length)) (mx - 1) = k + 1 :=
    ⟨_, (Nat.succ_pred_eq_of_pos hL).symm⟩
  obtain ⟨c, hc⟩ : ∃ c, ceilDivNat (maxLen (rangeTasks 1 0 cols.length)) 1 = c + 1 :=
    ⟨_, (Nat.succ_pred_eq_of_pos hC).symm⟩
  let B : Prog (IPState V L) (IPMsg V L) := (List.range (c + 1)).flatMap fun colIndex =>
    colPass 1 rows.length cols.length ip (ownCols cols (rangeTasks 1 0 cols.length) colIndex)
  have hB : B ≠ [] := by
    intro h
    have h1 := List.flatMap_eq_nil_iff.mp h 0 (by simp)
    simp [colPass] at h1
  obtain ⟨A, hA⟩ : ∃ A, ipMarked 1 mx ip rows cols = A ++
      (false, localRound (getRows rows (rangeTasks 1 0 rows.length) k (mx - 1))) ::
        B.map (Prod.mk true) := by
    refine ⟨(List.range k).flatMap fun rowIndex =>
      (false, localRound (getRows rows (rangeTasks 1 0 rows.length) rowIndex (mx - 1))) ::
        (List.range (c + 1)).flatMap fun colIndex => (colPass 1 rows.length cols.length ip
          (ownCols cols (rangeTasks 1 0 cols.length) colIndex)).map (Prod.mk true), ?_⟩
    simp only [ipMarked, hk, hc, List.range_succ (n := k), List.flatMap_append, List.flatMap_cons,
      List.flatMap_nil, List.append_nil, B, List.map_flatMap]
  let st := (localRound (getRows rows (rangeTasks 1 0 rows.length) k (mx - 1)) :
    Round (IPState V L) (IPMsg V L)).step (exec (A.map Prod.snd) ipInit)
  have hend : exec ((ipMarked 1 mx ip rows cols).map Prod.snd) ipInit = exec B st := by
    rw [hA, List.map_append, List.map_cons, map_snd_mk, exec_append, exec_cons]
  rw [hend] at hfin
  have hlast : (checks 0 (ipMarked 1 mx ip rows cols) ipInit).getLast? = some (exec B st 0) := by
    rw [hA, checks_append, checks, if_neg (by simp), List.getLast?_append]
    have := checks_last 0 B hB st
    rw [this]
    rfl
  have hrow : 0 < (exec B st 0).rowVecs.length := by
    rw [exec_rowVecs B ?_ st]
    · have h1 : (st 0).rowVecs = pySlice rows
          (chunkBounds ((rangeTasks 1 0 rows.length).getD 0 []) k (mx - 1)).1
          (chunkBounds ((rangeTasks 1 0 rows.length).getD 0 []) k (mx - 1)).2 := by
        simp only [st, localRound_step, getRows]
      rw [h1, hft 0 (by omega), chunkBounds_range' _ _ _ _ (by omega), hf0, hfp']
      dsimp only
      rw [pySlice_length _ _ _ (by omega)]
      have h2 : k * (mx - 1) < rows.length := by
        unfold ceilDivNat at hk
        have h3 := Nat.div_mul_le_self
          (maxLen (rangeTasks 1 0 rows.length) + (mx - 1) - 1) (mx - 1)
        rw [hk, Nat.succ_mul] at h3
        omega
      omega
    · intro R hR st
      obtain ⟨j, -, hR⟩ := List.mem_flatMap.mp hR
      rcases List.mem_cons.mp hR with rfl | hR
      · rw [localRound_step]
        exact takeCols_rowVecs _ _ _ _ _ _
      · simp at hR
  unfold ipReports
  obtain ⟨l, hl⟩ := List.getLast?_eq_some_iff.mp hlast
  rw [hl, List.filter_append, List.map_append, List.getLast?_append]
  rw [List.filter_cons_of_pos (by simpa using hrow)]
  simp only [List.filter_nil, List.map_cons, List.map_nil, List.getLast?_singleton, Option.some_or,
    Option.some.injEq]
  unfold ipPercent
  rw [countNonzero_all]
  · have h1 : (0 : ℚ) < rows.length := by exact_mod_cast hm
    have h2 : (0 : ℚ) < cols.length := by exact_mod_cast hn
    push_cast
    field_simp
  · intro i j hi hj
    rw [hfin i j hi hj, ← hF i j _ _ (List.getElem?_eq_getElem hi) (List.getElem?_eq_getElem hj)]
    exact hip _ (List.getElem_mem hi) _ (List.getElem_mem hj)

end

/-- Three rows and four columns, two rows in memory at a time. -/
example : ipReports 1 3 (fun (v w : ℚ) => v * w) [1, 2, 1] [1, 2, 3, 4] 0 =
    [50 / 3, 100 / 3, 50, 200 / 3, 75, 250 / 3, 275 / 3, 100] := by decide +kernel

/-- Five vectors, two rows in memory at a time. -/
example : symmReports 3 (fun (v w : ℚ) => v * w) [1, 2, 1, 4, 5] =
    [100 / 3, 140 / 3, 60, 280 / 3] := by decide +kernel

/-- A clock that goes on four seconds from check to check, and messages at most every ten. -/
example : progressMessages 1 10 0 (fun i => ⟨100 + 4 * i, 100 + 4 * i⟩) 0
    (ipReports 1 3 (fun (v w : ℚ) => v * w) [1, 2, 1] [1, 2, 3, 4] 0) =
    [50 / 3, 200 / 3, 275 / 3, 100] := by decide +kernel

/-- **C99, violated.** One row and two columns on two processes: "Completed 200.0% of inner
products". -/
theorem C99_parallel_violation :
    ipReports 2 3 (fun (v w : ℚ) => v * w) [1] [1, 2] 0 = [100, 200] := by decide +kernel

/-- **C99, violated.** Inner products that are zero are taken for inner products that have not been
computed: "Completed 0.0%" after the only one was. -/
theorem C99_zero_violation :
    ipReports 1 3 (fun (v w : ℚ) => v * w) [0] [1] 0 = [0] := by decide +kernel

/-! ### Linear combinations -/

/-- **C99, partial.** The percentages of `lin_combine` that rank zero prints are at least 0 and less
than 100. -/
theorem C99_lin_combine_partial (p mx numBases numSums : Nat) (hp : 1 ≤ p) :
    ∀ x ∈ combineReports p mx numBases numSums 0, 0 ≤ x ∧ x < 100 := by
  obtain ⟨f, hf0, hfp, hfm, hft⟩ := rangeTasks_blocks p 0 numSums hp (by omega)
  intro x hx
  unfold combineReports at hx
  simp only [List.mem_flatMap, List.mem_map, List.mem_range'_1] at hx
  obtain ⟨k, -, -, -, -, -, i, ⟨hi1, hi2⟩, rfl⟩ := hx
  refine ⟨by positivity, ?_⟩
  rw [hft 0 hp] at hi1 hi2 ⊢
  have h1 := (chunkBounds_spec (f 0) (f (0 + 1)) k (mx - 1)).2 i hi1 (by omega)
  rw [List.length_range', hf0, Nat.sub_zero]
  have h2 : (i : ℚ) < f (0 + 1) := by exact_mod_cast h1.2
  have h3 : (0 : ℚ) ≤ i := by positivity
  rw [div_lt_iff₀ (by linarith)]
  linarith

/-- **C99, partial.** In one process with one basis vector the messages of `lin_combine` make sense
whatever the clock shows.  With more they do not (`C99_lin_combine_violation`). -/
theorem C99_lin_combine_one_partial (mx numSums : Nat) (hmx : 2 ≤ mx) {verbosity : Int}
    (hv : 0 < verbosity) (interval prev : ℚ) (clock : Nat → ClockReading) :
    SaneProgress (progressMessages verbosity interval prev clock 0
      (combineReports 1 mx 1 numSums 0)) := by
  refine sane_of_reports hv interval prev clock (fun x hx => ?_) ?_
  · have := C99_lin_combine_partial 1 mx 1 numSums (le_refl _) x hx
    exact ⟨this.1, this.2.le⟩
  · obtain ⟨f, hf0, hfp, hfm, hft⟩ := rangeTasks_blocks 1 0 numSums (le_refl _) (by omega)
    have h0 : ceilDivNat (maxLen (rangeTasks 1 0 1)) 1 = 1 := by decide +kernel
    have h1 : combineReports 1 mx 1 numSums 0 =
        ((List.range (ceilDivNat (maxLen (rangeTasks 1 0 numSums)) (mx - 1))).flatMap fun k =>
          between (chunkBounds ((rangeTasks 1 0 numSums).getD 0 []) k (mx - 1))).map
          fun (i : Nat) => (i : ℚ) * 100 / ((rangeTasks 1 0 numSums).getD 0 []).length := by
      simp only [combineReports, h0, between, List.map_flatMap, List.range_one, List.flatMap_cons,
        List.flatMap_nil, List.append_nil]
    have h3 := length_le_maxLen (ls := rangeTasks 1 0 numSums) (r := 0)
    have h4 := ceilDivNat_mul_ge (maxLen (rangeTasks 1 0 numSums)) (mx - 1) (by omega)
    have h6 := chunks_flatten (f 0) (f (0 + 1)) (mx - 1)
      (ceilDivNat (maxLen (rangeTasks 1 0 numSums)) (mx - 1)) (by omega)
    rw [hft 0 (by omega), List.length_range'] at h3
    rw [Nat.min_eq_left (by omega)] at h6
    have h7 : ((List.range (ceilDivNat (maxLen (rangeTasks 1 0 numSums)) (mx - 1))).flatMap fun k =>
          between (chunkBounds ((rangeTasks 1 0 numSums).getD 0 []) k (mx - 1))) =
        List.range' (f 0) (f (0 + 1) - f 0) := by
      rw [hft 0 (by omega)]
      exact h6
    rw [h1, h7, List.pairwise_map]
    refine (List.pairwise_lt_range' (s := f 0) (n := f (0 + 1) - f 0)).imp fun {a b} hab => ?_
    have : (a : ℚ) ≤ b := by exact_mod_cast hab.le
    gcongr

/-- **C99, violated.** With two basis vectors the percentages of `lin_combine` go down: 0, 50, 0,
50. -/
theorem C99_lin_combine_violation : combineReports 1 4 2 2 0 = [0, 50, 0, 50] := by decide +kernel

end Modred
