import Verif.Model.Era
import Mathlib.Data.Complex.Basic
import Mathlib.Data.Rat.Floor
import Mathlib.Tactic.Ring
import Mathlib.Tactic.Linarith
import Mathlib.Tactic.FieldSimp
import Mathlib.Tactic.NormNum

/-!
# Sampled format and Hankel arrays of ERA (C32-C35, C54)
-/

namespace Modred

variable {K : Type*}

/-! ### Lemmas -/

theorem interleaveIndex_even (k : Nat) : interleaveIndex (2 * k) = k := by
  unfold interleaveIndex
  rw [if_pos (by omega)]; omega

theorem interleaveIndex_odd (k : Nat) : interleaveIndex (2 * k + 1) = k + 1 := by
  unfold interleaveIndex
  rw [if_neg (by omega)]; omega

section Sampled

variable {T : Type*} [Field T] [LinearOrder T] [IsStrictOrderedRing T] [FloorRing T]

theorem npRound_intCast (n : Int) : npRound (n : T) = n := by
  unfold npRound
  simp

/-- A number less than one half away from an integer is rounded to it. -/
theorem npRound_near {x : T} {n : Int} (h : |x - n| < 1 / 2) : npRound x = n := by
  obtain ⟨h1, h2⟩ := abs_lt.mp h
  unfold npRound
  by_cases hx : (n : T) ≤ x
  · have hf : ⌊x⌋ = n := Int.floor_eq_iff.mpr ⟨hx, by linarith⟩
    simp only [hf]
    rw [if_pos h2]
  · have hf : ⌊x⌋ = n - 1 := by
      refine Int.floor_eq_iff.mpr ⟨?_, ?_⟩
      · push_cast; linarith
      · push_cast; linarith [not_le.mp hx]
    simp only [hf]
    have h3 : (1 : T) / 2 < x - ((n - 1 : Int) : T) := by push_cast; linarith
    rw [if_neg (not_lt.mpr h3.le), if_pos h3]
    omega

theorem mem_npDiff {l : List T} {d : T} :
    d ∈ npDiff l ↔ ∃ k, ∃ h : k + 1 < l.length, d = l[k + 1] - l[k] := by
  unfold npDiff
  rw [List.mem_iff_getElem]
  constructor
  · rintro ⟨k, hk, rfl⟩
    have hk' : k + 1 < l.length := by simp at hk; omega
    exact ⟨k, hk', by simp [List.getElem_drop, Nat.add_comm]⟩
  · rintro ⟨k, hk, rfl⟩
    refine ⟨k, by simp; omega, by simp [List.getElem_drop, Nat.add_comm]⟩

/-- What `make_sampled_format` returns when it accepts the times. -/
theorem makeSampledFormat_ok (cast : K → K) (times : List T) (m : Markovs K) (tol : T)
    (hn : m.nt = times.length) (h2 : 2 ≤ times.length)
    (hdt : times[1] ≠ times[0])
    (hd : ∀ k, ∀ h : k + 1 < times.length,
      |(times[k + 1] - times[k]) - (times[1] - times[0])| ≤ tol) :
    makeSampledFormat cast times m tol =
      .ok ((List.range ((times.length - 1) * 2)).map fun i =>
          (times.map fun t => npRound ((t - times[0]) / (times[1] - times[0]))).getD
            (interleaveIndex i) 0,
        ⟨(times.length - 1) * 2, m.no, m.ni, fun i a b => cast (m.at_ (interleaveIndex i) a b)⟩) := by
  match times, h2 with
  | t0 :: t1 :: rest, h2 =>
    unfold makeSampledFormat
    rw [if_neg (by simpa using hn)]
    dsimp only
    have hno : ¬ ∃ d ∈ npDiff (t0 :: t1 :: rest), tol < |d - (t1 - t0)| := by
      rintro ⟨d, hd1, hd2⟩
      obtain ⟨k, hk, rfl⟩ := mem_npDiff.mp hd1
      exact absurd (hd k hk) (not_le.mpr hd2)
    rw [if_neg hno, if_neg (show t1 - t0 ≠ 0 from sub_ne_zero.mpr hdt), hn]
    rfl

end Sampled

theorem blk_eq {no r r' i : Nat} (hi : i < no) (h1 : r' * no ≤ r * no + i)
    (h2 : r * no + i < r' * no + no) : r = r' := by
  have ha : r' < r + 1 := by
    by_contra hc
    have : (r + 1) * no ≤ r' * no := Nat.mul_le_mul_right _ (by omega)
    rw [Nat.succ_mul] at this; omega
  have hb : r < r' + 1 := by
    by_contra hc
    have : (r' + 1) * no ≤ r * no := Nat.mul_le_mul_right _ (by omega)
    rw [Nat.succ_mul] at this; omega
  omega

theorem setBlock_at (cast : K → K) (a : Nat → Nat → K) (no ni r c r' c' i j : Nat)
    (block : Nat → Nat → K) (hi : i < no) (hj : j < ni) :
    setBlock cast a (r' * no) no (c' * ni) ni block (r * no + i) (c * ni + j) =
      if (r, c) = (r', c') then cast (block i j) else a (r * no + i) (c * ni + j) := by
  unfold setBlock
  by_cases h : (r, c) = (r', c')
  · obtain ⟨rfl, rfl⟩ := Prod.mk.inj h
    rw [if_pos (by omega), if_pos rfl, Nat.add_sub_cancel_left, Nat.add_sub_cancel_left]
  · rw [if_neg h, if_neg]
    rintro ⟨⟨h1, h2⟩, h3, h4⟩
    exact h (by rw [blk_eq hi h1 h2, blk_eq hj h3 h4])

theorem hankel_fold_ok (cast : K → K) (m : Markovs K) (ps : List (Nat × Nat))
    (hps : ∀ p ∈ ps, 2 * (p.1 + p.2) + 1 < m.nt) (a : HankelPair K) :
    ∃ b, ps.foldl (hankelStep cast m) (.ok a) = .ok b ∧ b.rows = a.rows ∧ b.cols = a.cols ∧
      ∀ r c i j, i < m.no → j < m.ni →
        (b.h (r * m.no + i) (c * m.ni + j) =
          if (r, c) ∈ ps then cast (m.at_ (2 * (r + c)) i j) else a.h (r * m.no + i) (c * m.ni + j)) ∧
        (b.h2 (r * m.no + i) (c * m.ni + j) =
          if (r, c) ∈ ps then cast (m.at_ (2 * (r + c) + 1) i j)
          else a.h2 (r * m.no + i) (c * m.ni + j)) := by
  induction ps generalizing a with
  | nil => exact ⟨a, rfl, rfl, rfl, fun r c i j _ _ => by simp⟩
  | cons p ps ih =>
    rw [List.foldl_cons]
    unfold hankelStep
    dsimp only
    rw [if_pos (hps p (by simp))]
    obtain ⟨b, hb, h1, h2, h3⟩ := ih (fun q hq => hps q (by simp [hq])) _
    refine ⟨b, hb, h1, h2, fun r c i j hi hj => ?_⟩
    obtain ⟨e1, e2⟩ := h3 r c i j hi hj
    rw [e1, e2]
    dsimp only
    rw [setBlock_at _ _ _ _ _ _ _ _ _ _ _ hi hj, setBlock_at _ _ _ _ _ _ _ _ _ _ _ hi hj]
    obtain ⟨pr, pc⟩ := p
    by_cases hp : (r, c) = (pr, pc)
    · obtain ⟨rfl, rfl⟩ := Prod.mk.inj hp
      simp
    · simp only [List.mem_cons, hp, false_or, if_false, and_self]

theorem hankel_fold_error (cast : K → K) (m : Markovs K) (ps : List (Nat × Nat)) (e : Err) :
    ps.foldl (hankelStep cast m) (.error e) = .error e := by
  induction ps with
  | nil => rfl
  | cons p ps ih => rw [List.foldl_cons]; exact ih

theorem hankel_fold_index (cast : K → K) (m : Markovs K) (ps : List (Nat × Nat))
    (hps : ∃ p ∈ ps, m.nt ≤ 2 * (p.1 + p.2) + 1) (a : HankelPair K) :
    ps.foldl (hankelStep cast m) (.ok a) = .error .indexError := by
  induction ps generalizing a with
  | nil => simp at hps
  | cons p ps ih =>
    rw [List.foldl_cons]
    by_cases hp : 2 * (p.1 + p.2) + 1 < m.nt
    · rw [show hankelStep cast m (.ok a) p = .ok _ from by
        unfold hankelStep; dsimp only; rw [if_pos hp]]
      apply ih
      obtain ⟨q, hq, hq'⟩ := hps
      rcases List.mem_cons.mp hq with rfl | hq
      · omega
      · exact ⟨q, hq, hq'⟩
    · rw [show hankelStep cast m (.ok a) p = .error .indexError from by
        unfold hankelStep; dsimp only; rw [if_neg hp]]
      exact hankel_fold_error _ _ _ _

theorem mem_positions {mo mc r c : Nat} :
    (r, c) ∈ (List.range mo).flatMap (fun row => (List.range mc).map fun col => (row, col)) ↔
      r < mo ∧ c < mc := by
  simp

theorem assembleHankel_some [Zero K] (cast : K → K) (m : Markovs K) (mc mo : Nat)
    (hg : mo + mc + 2 ≤ m.nt) :
    assembleHankel cast m (some mc) (some mo) =
      ((List.range mo).flatMap fun row => (List.range mc).map fun col => (row, col)).foldl
        (hankelStep cast m) (.ok ⟨m.no * mo, m.ni * mc, fun _ _ => 0, fun _ _ => 0⟩) := by
  unfold assembleHankel blockCounts
  dsimp only
  rw [if_neg (by omega), if_neg]
  · simp
  · rintro (h | h)
    · exact absurd (Int.mul_nonneg (Int.natCast_nonneg m.no) (Int.natCast_nonneg mo)) (by omega)
    · exact absurd (Int.mul_nonneg (Int.natCast_nonneg m.ni) (Int.natCast_nonneg mc)) (by omega)

theorem assembleHankel_none [Zero K] (cast : K → K) (m : Markovs K) (h : 2 ≤ m.nt)
    (mc mo : Option Int) (hn : mc = none ∨ mo = none) :
    assembleHankel cast m mc mo =
      assembleHankel cast m (some ((m.nt - 2) / 4 : Nat)) (some ((m.nt - 2) / 4 : Nat)) := by
  have hb : blockCounts m.nt mc mo =
      blockCounts m.nt (some ((m.nt - 2) / 4 : Nat)) (some ((m.nt - 2) / 4 : Nat)) := by
    have hd : ((m.nt : Int) - 2) / 4 = (((m.nt - 2) / 4 : Nat) : Int) := by omega
    rcases hn with rfl | rfl
    · cases mo <;> simp only [blockCounts, hd]
    · cases mc <;> simp only [blockCounts, hd]
  unfold assembleHankel
  rw [hb]

/-! ### C32 -/

section C32

variable {T : Type*} [Field T] [LinearOrder T] [IsStrictOrderedRing T] [FloorRing T]

/-- Equally spaced series `t0, t0 + dt, ...` of length `n` at least two: the result has `2 (n - 1)`
entries, entries `2 k` and `2 k + 1` are Markov parameters `k` and `k + 1`, and the returned time steps
are `k` and `k + 1`. -/
theorem C32_interleaved (cast : K → K) (t0 dt tol : T) (m : Markovs K) (hn : 2 ≤ m.nt)
    (hdt : dt ≠ 0) (htol : 0 ≤ tol) :
    ∃ steps out,
      makeSampledFormat cast ((List.range m.nt).map fun k : Nat => t0 + (k : T) * dt) m tol =
        .ok (steps, out) ∧
      steps.length = 2 * (m.nt - 1) ∧ out.nt = 2 * (m.nt - 1) ∧ out.no = m.no ∧ out.ni = m.ni ∧
      (∀ k, k < m.nt - 1 → steps[2 * k]? = some (k : Int) ∧ steps[2 * k + 1]? = some (k + 1 : Int)) ∧
      (∀ k a b, k < m.nt - 1 → out.at_ (2 * k) a b = cast (m.at_ k a b) ∧
        out.at_ (2 * k + 1) a b = cast (m.at_ (k + 1) a b)) := by
  have hlen : ((List.range m.nt).map fun k : Nat => t0 + (k : T) * dt).length = m.nt := by simp
  have h0 : ((List.range m.nt).map fun k : Nat => t0 + (k : T) * dt)[0]'(by omega) = t0 := by simp
  have h1 : ((List.range m.nt).map fun k : Nat => t0 + (k : T) * dt)[1]'(by omega) = t0 + dt := by simp
  rw [makeSampledFormat_ok cast _ m tol hlen.symm (by omega)
    (by rw [h0, h1]; simpa using hdt)
    (fun k hk => by
      rw [h0, h1, List.getElem_map, List.getElem_map, List.getElem_range, List.getElem_range]
      rw [show t0 + ((k + 1 : Nat) : T) * dt - (t0 + (k : T) * dt) - (t0 + dt - t0) = 0 by
        push_cast; ring]
      simpa using htol)]
  refine ⟨_, _, rfl, by simp; omega, by dsimp only; rw [hlen]; omega, rfl, rfl, ?_, ?_⟩
  · have hstep : ∀ j, j < m.nt →
        (((List.range m.nt).map fun k : Nat => t0 + (k : T) * dt).map fun t =>
          npRound ((t - t0) / (t0 + dt - t0))).getD j 0 = (j : Int) := by
      intro j hj
      rw [List.getD_eq_getElem?_getD, List.getElem?_eq_getElem (by simpa using hj), Option.getD_some]
      rw [List.getElem_map, List.getElem_map, List.getElem_range]
      rw [show (t0 + (j : T) * dt - t0) / (t0 + dt - t0) = ((j : Int) : T) by
        rw [add_sub_cancel_left, add_sub_cancel_left]; field_simp; simp]
      exact npRound_intCast _
    intro k hk
    simp only [h0, h1, hlen]
    constructor
    · rw [List.getElem?_map, List.getElem?_range (by omega), Option.map_some, interleaveIndex_even,
        hstep k (by omega)]
    · rw [List.getElem?_map, List.getElem?_range (by omega), Option.map_some, interleaveIndex_odd,
        hstep (k + 1) (by omega)]
      push_cast; rfl
  · intro k a b _
    dsimp only
    rw [interleaveIndex_even, interleaveIndex_odd]
    exact ⟨rfl, rfl⟩

example : (makeSampledFormat id [(1 : ℚ), 3/2, 2] ⟨3, 1, 1, fun i _ _ => (10 + i : ℚ)⟩ (1/1000000)).map
    (fun r => (r.1, (List.range r.2.nt).map fun i => r.2.at_ i 0 0)) =
    .ok ([0, 1, 1, 2], [10, 11, 11, 12]) := by
  decide +kernel

/-- Times that deviate from equal spacing, by less than half a step in total, give the same time
steps. -/
theorem C32_nearly_equal_spacing (cast : K → K) (times : List T) (m : Markovs K) (tol : T)
    (hn : m.nt = times.length) (h2 : 2 ≤ times.length) (hdt : times[1] ≠ times[0])
    (htol : (times.length : T) * tol < |times[1] - times[0]| / 2)
    (hd : ∀ k, ∀ h : k + 1 < times.length,
      |(times[k + 1] - times[k]) - (times[1] - times[0])| ≤ tol) :
    ∃ steps out, makeSampledFormat cast times m tol = .ok (steps, out) ∧
      steps.length = 2 * (m.nt - 1) ∧
      ∀ k, k < m.nt - 1 → steps[2 * k]? = some (k : Int) ∧ steps[2 * k + 1]? = some (k + 1 : Int) := by
  have hdt' : times[1] - times[0] ≠ 0 := sub_ne_zero.mpr hdt
  have htol0 : 0 ≤ tol := le_trans (abs_nonneg _) (hd 0 (by omega))
  have hdev : ∀ k, ∀ h : k < times.length,
      |(times[k] - times[0]) - (k : T) * (times[1] - times[0])| ≤ (k : T) * tol := by
    intro k
    induction k with
    | zero => intro h; simp
    | succ k ih =>
      intro h
      have e : times[k + 1] - times[0] - ((k + 1 : Nat) : T) * (times[1] - times[0]) =
          (times[k] - times[0] - (k : T) * (times[1] - times[0])) +
          (times[k + 1] - times[k] - (times[1] - times[0])) := by push_cast; ring
      rw [e]
      refine le_trans (abs_add_le _ _) ?_
      have := ih (by omega)
      have := hd k h
      push_cast
      linarith
  have hstep : ∀ j, j < times.length →
      (times.map fun t => npRound ((t - times[0]) / (times[1] - times[0]))).getD j 0 = (j : Int) := by
    intro j hj
    rw [List.getD_eq_getElem?_getD, List.getElem?_eq_getElem (by simpa using hj), Option.getD_some, List.getElem_map]
    apply npRound_near
    rw [show (times[j] - times[0]) / (times[1] - times[0]) - ((j : Int) : T) =
      ((times[j] - times[0]) - (j : T) * (times[1] - times[0])) / (times[1] - times[0]) by
        field_simp; simp, abs_div, div_lt_iff₀ (abs_pos.mpr hdt')]
    have hj' : (j : T) * tol ≤ (times.length : T) * tol :=
      mul_le_mul_of_nonneg_right (by exact_mod_cast hj.le) htol0
    have := hdev j hj
    linarith
  rw [makeSampledFormat_ok cast times m tol hn h2 hdt hd]
  refine ⟨_, _, rfl, by simp; omega, fun k hk => ?_⟩
  rw [List.getElem?_map, List.getElem?_range (by omega), Option.map_some, interleaveIndex_even,
    hstep k (by omega), List.getElem?_map, List.getElem?_range (by omega), Option.map_some,
    interleaveIndex_odd, hstep (k + 1) (by omega)]
  exact ⟨rfl, by push_cast; rfl⟩

example : (makeSampledFormat id [(1 : ℚ), 3/2, 21/10] ⟨3, 1, 1, fun i _ _ => (10 + i : ℚ)⟩ (1/10)).map
    (fun r => r.1) = .ok [0, 1, 1, 2] := by
  decide +kernel

/-- A number of times that differs from the number of parameters raises `RuntimeError`. -/
theorem C32_lengths_differ (cast : K → K) (times : List T) (m : Markovs K) (tol : T)
    (h : m.nt ≠ times.length) : makeSampledFormat cast times m tol = .error .runtimeError := by
  unfold makeSampledFormat
  rw [if_pos h]

example : makeSampledFormat id [(1 : ℚ), 2] ⟨3, 1, 1, fun _ _ _ => (0 : ℚ)⟩ (1/1000000) =
    .error .runtimeError := C32_lengths_differ id _ _ _ (by decide)

/-- `ValueError` is raised exactly if some step differs from the first one by more than the
tolerance. -/
theorem C32_value_error_iff (cast : K → K) (times : List T) (m : Markovs K) (tol : T)
    (hn : m.nt = times.length) (h2 : 2 ≤ times.length) :
    makeSampledFormat cast times m tol = .error .valueError ↔
      ∃ k, ∃ h : k + 1 < times.length,
        tol < |(times[k + 1] - times[k]) - (times[1] - times[0])| := by
  match times, h2 with
  | t0 :: t1 :: rest, h2 =>
    unfold makeSampledFormat
    rw [if_neg (by simpa using hn)]
    dsimp only
    have hiff : (∃ d ∈ npDiff (t0 :: t1 :: rest), tol < |d - (t1 - t0)|) ↔
        ∃ k, ∃ h : k + 1 < (t0 :: t1 :: rest).length,
          tol < |((t0 :: t1 :: rest)[k + 1] - (t0 :: t1 :: rest)[k]) - (t1 - t0)| := by
      constructor
      · rintro ⟨d, hd1, hd2⟩
        obtain ⟨k, hk, rfl⟩ := mem_npDiff.mp hd1
        exact ⟨k, hk, hd2⟩
      · rintro ⟨k, hk, hd⟩
        exact ⟨_, mem_npDiff.mpr ⟨k, hk, rfl⟩, hd⟩
    refine Iff.trans ?_ hiff
    constructor
    · intro h
      by_contra hc
      rw [if_neg hc] at h
      split at h <;> cases h
    · intro h
      rw [if_pos h]

example : makeSampledFormat id [(1 : ℚ), 2, 4] ⟨3, 1, 1, fun _ _ _ => (0 : ℚ)⟩ (1/1000000) =
    .error .valueError :=
  (C32_value_error_iff id [(1 : ℚ), 2, 4] ⟨3, 1, 1, fun _ _ _ => (0 : ℚ)⟩ (1/1000000) rfl
    (by decide)).mpr ⟨1, by decide, by norm_num⟩

/-- A single time step raises `IndexError`. -/
theorem C32_single_time (cast : K → K) (t tol : T) (m : Markovs K) (h : m.nt = 1) :
    makeSampledFormat cast [t] m tol = .error .indexError := by
  unfold makeSampledFormat
  rw [if_neg (by simp [h])]

example : makeSampledFormat id [(1 : ℚ)] ⟨1, 1, 1, fun _ _ _ => (0 : ℚ)⟩ (1/1000000) =
    .error .indexError := C32_single_time id 1 _ _ rfl

/-- The tolerance is absolute: increasing times with steps no larger than the tolerance are accepted,
however unequal the steps are. -/
theorem C32_small_steps_violation (cast : K → K) (times : List T) (m : Markovs K) (tol : T)
    (hn : m.nt = times.length) (h2 : 2 ≤ times.length)
    (hinc : ∀ k, ∀ h : k + 1 < times.length, times[k] < times[k + 1])
    (hsmall : ∀ k, ∀ h : k + 1 < times.length, times[k + 1] - times[k] ≤ tol) :
    ∃ r, makeSampledFormat cast times m tol = .ok r := by
  refine ⟨_, makeSampledFormat_ok cast times m tol hn h2 (hinc 0 (by omega)).ne' fun k hk => ?_⟩
  have a1 := hinc k hk
  have a2 := hsmall k hk
  have a3 := hinc 0 (by omega)
  have a4 := hsmall 0 (by omega)
  simp only [Nat.zero_add] at a3 a4
  rw [abs_le]
  constructor <;> linarith

/-- With the default tolerance, times in seconds of which the second step is nine times the first. -/
example : (makeSampledFormat id [(0 : ℚ), 1/10000000, 1/1000000] ⟨3, 1, 1, fun i _ _ => (i : ℚ)⟩
    (1/1000000)).map (fun r => r.1) = .ok [0, 1, 1, 10] := by
  decide +kernel

end C32

/-! ### C33 -/

/-- Blocks of the Hankel arrays are entries of the sampled sequence. -/
theorem C33_blocks [Zero K] (cast : K → K) (m : Markovs K) (mc mo : Nat)
    (hg : mo + mc + 2 ≤ m.nt) (hd : 2 * (mo + mc) ≤ m.nt + 2) :
    ∃ b, assembleHankel cast m (some mc) (some mo) = .ok b ∧
      b.rows = m.no * mo ∧ b.cols = m.ni * mc ∧
      ∀ r c i j, r < mo → c < mc → i < m.no → j < m.ni →
        b.h (r * m.no + i) (c * m.ni + j) = cast (m.at_ (2 * (r + c)) i j) ∧
        b.h2 (r * m.no + i) (c * m.ni + j) = cast (m.at_ (2 * (r + c) + 1) i j) := by
  rw [assembleHankel_some cast m mc mo hg]
  obtain ⟨b, hb, h1, h2, h3⟩ := hankel_fold_ok cast m
    ((List.range mo).flatMap fun row => (List.range mc).map fun col => (row, col))
    (fun p hp => by have := mem_positions.mp (show (p.1, p.2) ∈ _ from hp); omega)
    ⟨m.no * mo, m.ni * mc, fun _ _ => 0, fun _ _ => 0⟩
  refine ⟨b, hb, h1, h2, fun r c i j hr hc hi hj => ?_⟩
  obtain ⟨e1, e2⟩ := h3 r c i j hi hj
  rw [if_pos (mem_positions.mpr ⟨hr, hc⟩)] at e1 e2
  exact ⟨e1, e2⟩

theorem eraHankel_ok [Zero K] (cast : K → K) (self : EraObj) (markovs : MarkovsIn K) (m : Markovs K)
    (mc mo : Nat) (b : HankelPair K) (hm : setMarkovs markovs = .ok m)
    (hb : assembleHankel cast m (some mc) (some mo) = .ok b) :
    eraHankel cast self markovs (some mc) (some mo) = .ok (⟨some mc, some mo⟩, b) := by
  unfold eraHankel
  rw [hm]
  dsimp only
  rw [hb]
  rfl

/-- Two-dimensional Markov parameters: times in rows, outputs in columns, one input.  One-dimensional
ones: one output and one input. -/
theorem C33_fewer_dimensions [Zero K] (cast : K → K) (self : EraObj) (n no mc mo : Nat)
    (f : Nat → Nat → K) (g : Nat → K) (hg : mo + mc + 2 ≤ n - n % 2) (hd : 2 * (mo + mc) ≤ n - n % 2 + 2) :
    (∃ o b, eraHankel cast self (.d2 n no f) (some mc) (some mo) = .ok (o, b) ∧
      b.rows = no * mo ∧ b.cols = mc ∧
      ∀ r c i, r < mo → c < mc → i < no →
        b.h (r * no + i) c = cast (f (2 * (r + c)) i) ∧
        b.h2 (r * no + i) c = cast (f (2 * (r + c) + 1) i)) ∧
    ∃ o b, eraHankel cast self (.d1 n g) (some mc) (some mo) = .ok (o, b) ∧
      b.rows = mo ∧ b.cols = mc ∧
      ∀ r c, r < mo → c < mc →
        b.h r c = cast (g (2 * (r + c))) ∧ b.h2 r c = cast (g (2 * (r + c) + 1)) := by
  have hn : (if n % 2 ≠ 0 then n - 1 else n) = n - n % 2 := by split <;> omega
  constructor
  · obtain ⟨b, hb, h1, h2, h3⟩ := C33_blocks cast ⟨n - n % 2, no, 1, fun i a _ => f i a⟩ mc mo hg hd
    refine ⟨_, b, eraHankel_ok cast self _ _ mc mo b (by simp only [setMarkovs, hn]) hb, h1,
      by simpa using h2, fun r c i hr hc hi => ?_⟩
    have := h3 r c i 0 hr hc hi (by simp)
    simpa using this
  · obtain ⟨b, hb, h1, h2, h3⟩ := C33_blocks cast ⟨n - n % 2, 1, 1, fun i _ _ => g i⟩ mc mo hg hd
    refine ⟨_, b, eraHankel_ok cast self _ _ mc mo b (by simp only [setMarkovs, hn]) hb,
      by simpa using h1, by simpa using h2, fun r c hr hc => ?_⟩
    have := h3 r c 0 0 hr hc (by simp) (by simp)
    simpa using this

/-- Nine times with two outputs: the last time is not used. -/
example : ∃ o b, eraHankel id (eraInit none none) (.d2 9 2 fun i a => ((10 * i + a : Nat) : ℚ)) (some 2)
    (some 3) = .ok (o, b) ∧ b.rows = 6 ∧ b.cols = 2 ∧ b.h 5 1 = 61 ∧ b.h2 5 1 = 71 := by
  obtain ⟨⟨o, b, h1, h2, h3, h4⟩, -⟩ := C33_fewer_dimensions id (eraInit none none) 9 2 2 3
    (fun i a => ((10 * i + a : Nat) : ℚ)) (fun _ => 0) (by decide) (by decide)
  obtain ⟨h5, h6⟩ := h4 2 1 1 (by decide) (by decide) (by decide)
  exact ⟨o, b, h1, h2, h3, by simpa using h5, by simpa using h6⟩

/-- With an equally spaced series of `n` Markov parameters, converted by `make_sampled_format`, block
`(r, c)` of the Hankel arrays is parameter number `r + c` and `r + c + 1` of the series. -/
theorem C33_equally_spaced {T : Type*} [Field T] [LinearOrder T] [IsStrictOrderedRing T] [FloorRing T]
    [Zero K] (cast : K → K) (hcast : ∀ x, cast (cast x) = cast x) (t0 dt tol : T) (m : Markovs K)
    (hdt : dt ≠ 0) (htol : 0 ≤ tol) (mc mo : Nat) (hg : mo + mc + 4 ≤ 2 * m.nt)
    (hd : mo + mc ≤ m.nt) :
    ∃ steps s o b,
      makeSampledFormat cast ((List.range m.nt).map fun k : Nat => t0 + (k : T) * dt) m tol =
        .ok (steps, s) ∧
      (∀ self, eraHankel cast self (.d3 s) (some mc) (some mo) = .ok (o, b)) ∧
      b.rows = m.no * mo ∧ b.cols = m.ni * mc ∧
      ∀ r c i j, r < mo → c < mc → i < m.no → j < m.ni →
        b.h (r * m.no + i) (c * m.ni + j) = cast (m.at_ (r + c) i j) ∧
        b.h2 (r * m.no + i) (c * m.ni + j) = cast (m.at_ (r + c + 1) i j) := by
  obtain ⟨steps, s, hs, -, hnt, hno, hni, -, hat⟩ :=
    C32_interleaved cast t0 dt tol m (by omega) hdt htol
  have heven : setMarkovs (.d3 s) = .ok s := by
    simp only [setMarkovs]
    rw [if_neg (by omega)]
  obtain ⟨b, hb, h1, h2, h3⟩ := C33_blocks cast s mc mo (by omega) (by omega)
  refine ⟨steps, s, ⟨some mc, some mo⟩, b, hs, fun self => ?_, by rw [h1, hno], by rw [h2, hni],
    fun r c i j hr hc hi hj => ?_⟩
  · unfold eraHankel
    rw [heven]
    dsimp only
    rw [hb]
    rfl
  · obtain ⟨e1, e2⟩ := h3 r c i j hr hc (by omega) (by omega)
    obtain ⟨e3, e4⟩ := hat (r + c) i j (by omega)
    rw [hno, hni] at e1 e2
    rw [e1, e2, e3, e4, hcast, hcast]
    exact ⟨rfl, rfl⟩

/-- Two outputs, one input, block counts two and two: the arrays as the code makes them. -/
example :
    let m : Markovs ℚ := ⟨6, 2, 1, fun i a _ => ((10 * (i / 2 + i % 2) + a : Nat) : ℚ)⟩
    ((assembleHankel id m (some 2) (some 2)).map fun b =>
      ((List.range b.rows).map fun i => (List.range b.cols).map fun j => b.h i j,
       (List.range b.rows).map fun i => (List.range b.cols).map fun j => b.h2 i j)) =
    .ok ([[0, 10], [1, 11], [10, 20], [11, 21]], [[10, 20], [11, 21], [20, 30], [21, 31]]) := by
  decide +kernel

/-! ### C34 -/

/-- Numbers of blocks that fail the guard raise `ValueError`.  What is missing: the guard does not
cover all choices that need more data than given. -/
theorem C34_guard_partial [Zero K] (cast : K → K) (m : Markovs K) (mc mo : Int)
    (h : (m.nt : Int) < mo + mc + 2) :
    assembleHankel cast m (some mc) (some mo) = .error .valueError := by
  unfold assembleHankel blockCounts
  dsimp only
  rw [if_pos (by omega)]

example : assembleHankel id (⟨6, 1, 1, fun i _ _ => (i : ℚ)⟩ : Markovs ℚ) (some 3) (some 2) =
    .error .valueError := C34_guard_partial id _ 3 2 (by decide)

/-- Exactly which numbers of blocks work. -/
theorem C34_accepted_iff [Zero K] (cast : K → K) (m : Markovs K) (mc mo : Nat) (hc : 1 ≤ mc)
    (ho : 1 ≤ mo) :
    (∃ b, assembleHankel cast m (some mc) (some mo) = .ok b) ↔
      mo + mc + 2 ≤ m.nt ∧ 2 * (mo + mc) ≤ m.nt + 2 := by
  constructor
  · rintro ⟨b, hb⟩
    by_cases hg : mo + mc + 2 ≤ m.nt
    · refine ⟨hg, ?_⟩
      by_contra hn
      rw [assembleHankel_some cast m mc mo hg, hankel_fold_index] at hb
      · cases hb
      · exact ⟨(mo - 1, mc - 1), mem_positions.mpr ⟨by omega, by omega⟩, by omega⟩
    · rw [C34_guard_partial cast m mc mo (by omega)] at hb
      cases hb
  · rintro ⟨hg, hd⟩
    obtain ⟨b, hb, -⟩ := C33_blocks cast m mc mo hg hd
    exact ⟨b, hb⟩

example : (∃ b, assembleHankel id (⟨10, 1, 1, fun i _ _ => (i : ℚ)⟩ : Markovs ℚ) (some (3 : Nat))
    (some (3 : Nat)) = .ok b) :=
  (C34_accepted_iff id (⟨10, 1, 1, fun i _ _ => (i : ℚ)⟩ : Markovs ℚ) 3 3 (by decide)
    (by decide)).mpr ⟨by decide, by decide⟩

/-- All choices that pass the guard and need more data than given raise `IndexError`. -/
theorem C34_index_error_violation [Zero K] (cast : K → K) (m : Markovs K) (mc mo : Nat)
    (hc : 1 ≤ mc) (ho : 1 ≤ mo) (hg : mo + mc + 2 ≤ m.nt) (hd : m.nt + 2 < 2 * (mo + mc)) :
    assembleHankel cast m (some mc) (some mo) = .error .indexError := by
  rw [assembleHankel_some cast m mc mo hg, hankel_fold_index]
  exact ⟨(mo - 1, mc - 1), mem_positions.mpr ⟨by omega, by omega⟩, by omega⟩

example : assembleHankel id (⟨8, 1, 1, fun i _ _ => (i : ℚ)⟩ : Markovs ℚ) (some (3 : Nat))
    (some (3 : Nat)) = .error .indexError :=
  C34_index_error_violation id _ 3 3 (by decide) (by decide) (by decide) (by decide)

/-- On the other hand the guard refuses one block of each kind for a series of one pair of Markov
parameters, of which no more is needed. -/
theorem C34_sufficient_data_refused_violation [Zero K] (cast : K → K) (m : Markovs K)
    (h : m.nt = 2) :
    assembleHankel cast m (some (1 : Nat)) (some (1 : Nat)) = .error .valueError ∧
    ∀ r c, r < 1 → c < 1 → 2 * (r + c) + 1 < m.nt :=
  ⟨C34_guard_partial cast m 1 1 (by omega), fun r c hr hc => by omega⟩

example : assembleHankel id (⟨2, 1, 1, fun i _ _ => (i : ℚ)⟩ : Markovs ℚ) (some (1 : Nat))
    (some (1 : Nat)) = .error .valueError :=
  (C34_sufficient_data_refused_violation id _ rfl).1

/-- The default numbers of blocks never need more data than given, from one pair of parameters on. -/
theorem C34_default_accepted [Zero K] (cast : K → K) (m : Markovs K) (h : 2 ≤ m.nt)
    (mc mo : Option Int) (hn : mc = none ∨ mo = none) :
    ∃ b, assembleHankel cast m mc mo = .ok b ∧
      b.rows = m.no * ((m.nt - 2) / 4) ∧ b.cols = m.ni * ((m.nt - 2) / 4) := by
  rw [assembleHankel_none cast m h mc mo hn]
  obtain ⟨b, hb, h1, h2, -⟩ := C33_blocks cast m ((m.nt - 2) / 4) ((m.nt - 2) / 4) (by omega) (by omega)
  exact ⟨b, hb, h1, h2⟩

example : ∃ b, assembleHankel id (⟨10, 2, 3, fun i _ _ => (i : ℚ)⟩ : Markovs ℚ) none none = .ok b ∧
    b.rows = 4 ∧ b.cols = 6 := by
  simpa using C34_default_accepted id (⟨10, 2, 3, fun i _ _ => (i : ℚ)⟩ : Markovs ℚ) (by decide)
    none none (Or.inl rfl)

/-- The default is not maximal: one more block row and column are always possible, and two more never
are. -/
theorem C34_default_not_maximal_violation [Zero K] (cast : K → K) (m : Markovs K) (h : 6 ≤ m.nt) :
    (∃ b, assembleHankel cast m (some ((m.nt - 2) / 4 + 1 : Nat)) (some ((m.nt - 2) / 4 + 1 : Nat)) =
      .ok b) ∧
    ¬ ∃ b, assembleHankel cast m (some ((m.nt - 2) / 4 + 2 : Nat)) (some ((m.nt - 2) / 4 + 2 : Nat)) =
      .ok b := by
  rw [C34_accepted_iff cast m _ _ (by omega) (by omega),
    C34_accepted_iff cast m _ _ (by omega) (by omega)]
  constructor
  · constructor <;> omega
  · rintro ⟨_, h2⟩
    omega

example : ∃ b, assembleHankel id (⟨6, 1, 1, fun i _ _ => (i : ℚ)⟩ : Markovs ℚ) (some (2 : Nat))
    (some (2 : Nat)) = .ok b :=
  (C34_default_not_maximal_violation id (⟨6, 1, 1, fun i _ _ => (i : ℚ)⟩ : Markovs ℚ) (by decide)).1

/-- Data with at most one time step raise `ValueError` when the numbers of blocks are left out. -/
theorem C34_no_data [Zero K] (cast : K → K) (m : Markovs K) (h : m.nt = 0) (ho : 1 ≤ m.no) :
    assembleHankel cast m none none = .error .valueError := by
  unfold assembleHankel blockCounts
  dsimp only
  rw [h]
  rw [if_neg (by decide), if_pos (Or.inl ?_)]
  have : ((0 : Nat) - 2 : Int) / 4 = -1 := by decide
  rw [this]
  omega

example : ∃ m, setMarkovs (.d1 1 fun _ => (3 : ℚ)) = .ok m ∧
    assembleHankel id m none none = .error .valueError :=
  ⟨_, rfl, C34_no_data id _ rfl (by decide)⟩

/-! ### C35 -/

/-- Numbers of blocks given to `compute_model` are used.  What is missing: those given to the
constructor. -/
theorem C35_arguments_of_compute_model_used_partial [Zero K] (cast : K → K) (self : EraObj)
    (markovs : MarkovsIn K) (mc mo : Nat) (o : EraObj) (b : HankelPair K) (m : Markovs K)
    (hm : setMarkovs markovs = .ok m)
    (h : eraHankel cast self markovs (some mc) (some mo) = .ok (o, b)) :
    o = ⟨some mc, some mo⟩ ∧ b.rows = m.no * mo ∧ b.cols = m.ni * mc := by
  unfold eraHankel at h
  rw [hm] at h
  dsimp only at h
  by_cases hg : mo + mc + 2 ≤ m.nt
  · have hok : ∀ p ∈ (List.range mo).flatMap (fun row => (List.range mc).map fun col => (row, col)),
        2 * (p.1 + p.2) + 1 < m.nt := by
      by_contra hc
      push Not at hc
      rw [assembleHankel_some cast m mc mo hg, hankel_fold_index _ _ _ hc] at h
      cases h
    obtain ⟨b', hb', h1, h2, -⟩ := hankel_fold_ok cast m _ hok
      ⟨m.no * mo, m.ni * mc, fun _ _ => 0, fun _ _ => 0⟩
    rw [assembleHankel_some cast m mc mo hg, hb'] at h
    cases h
    exact ⟨rfl, h1, h2⟩
  · rw [C34_guard_partial cast m mc mo (by omega)] at h
    cases h

example : ∃ o b, eraHankel id (eraInit none none) (.d1 11 fun i => (i : ℚ)) (some (1 : Nat))
    (some (2 : Nat)) = .ok (o, b) ∧ b.rows = 2 ∧ b.cols = 1 := by
  refine ⟨_, _, rfl, ?_⟩
  decide +kernel

/-- Numbers of blocks given to the constructor are kept as attributes but have no effect on any result: objects made
with any two choices give the same result for every call. -/
theorem C35_constructor_ignored_violation [Zero K] (cast : K → K) (mc mo mc' mo' : Option Int)
    (markovs : MarkovsIn K) (cmc cmo : Option Int) :
    (eraInit mc mo).mc = mc ∧ (eraInit mc mo).mo = mo ∧
    eraHankel cast (eraInit mc mo) markovs cmc cmo =
      eraHankel cast (eraInit mc' mo') markovs cmc cmo := ⟨rfl, rfl, rfl⟩

/-- Three block rows and columns were asked for and two are used. -/
example : (eraHankel id (eraInit (some 3) (some 3)) (.d1 10 fun i => (i : ℚ)) none none).map
    (fun r => (r.1.mc, r.1.mo, r.2.rows, r.2.cols)) = .ok (some 2, some 2, 2, 2) := by
  decide +kernel

/-! ### C54 -/

/-- Storing a complex number in an array of real ones. -/
noncomputable def storeReal (z : ℂ) : ℂ := (z.re : ℂ)

/-- Of complex Markov parameters the Hankel arrays keep the real parts only. -/
theorem C54_hankel_real_violation (m : Markovs ℂ) (mc mo : Nat)
    (hg : mo + mc + 2 ≤ m.nt) (hd : 2 * (mo + mc) ≤ m.nt + 2) :
    ∃ b, assembleHankel storeReal m (some mc) (some mo) = .ok b ∧
      ∀ r c i j, r < mo → c < mc → i < m.no → j < m.ni →
        (b.h (r * m.no + i) (c * m.ni + j)).im = 0 ∧
        (b.h (r * m.no + i) (c * m.ni + j) = m.at_ (2 * (r + c)) i j ↔
          (m.at_ (2 * (r + c)) i j).im = 0) := by
  obtain ⟨b, hb, -, -, h⟩ := C33_blocks storeReal m mc mo hg hd
  refine ⟨b, hb, fun r c i j hr hc hi hj => ?_⟩
  rw [(h r c i j hr hc hi hj).1]
  refine ⟨by simp [storeReal], ?_⟩
  unfold storeReal
  rw [Complex.ext_iff]
  simp [eq_comm]

example : ∃ b, assembleHankel storeReal ⟨6, 1, 1, fun _ _ _ => Complex.I⟩ (some (1 : Nat)) (some (1 : Nat))
    = .ok b ∧ b.h 0 0 ≠ Complex.I := by
  obtain ⟨b, hb, h⟩ := C54_hankel_real_violation ⟨6, 1, 1, fun _ _ _ => Complex.I⟩ 1 1 (by decide)
    (by decide)
  refine ⟨b, hb, fun hI => ?_⟩
  have := ((h 0 0 0 0 (by decide) (by decide) (by decide) (by decide)).2).mp hI
  simp at this

/-- `make_sampled_format` loses imaginary parts as well. -/
theorem C54_sampled_format_real_violation {T : Type*} [Field T] [LinearOrder T] [IsStrictOrderedRing T]
    [FloorRing T] (t0 dt tol : T) (m : Markovs ℂ) (hn : 2 ≤ m.nt) (hdt : dt ≠ 0) (htol : 0 ≤ tol) :
    ∃ steps out,
      makeSampledFormat storeReal ((List.range m.nt).map fun k : Nat => t0 + (k : T) * dt) m tol =
        .ok (steps, out) ∧
      ∀ k a b, k < m.nt - 1 → (out.at_ (2 * k) a b = m.at_ k a b ↔ (m.at_ k a b).im = 0) := by
  obtain ⟨steps, out, h, -, -, -, -, -, hat⟩ := C32_interleaved storeReal t0 dt tol m hn hdt htol
  refine ⟨steps, out, h, fun k a b hk => ?_⟩
  rw [(hat k a b hk).1]
  unfold storeReal
  rw [Complex.ext_iff]
  simp [eq_comm]

example : ∃ steps out, makeSampledFormat storeReal ((List.range 3).map fun k : Nat => (0 : ℚ) + (k : ℚ) * 1)
    ⟨3, 1, 1, fun _ _ _ => Complex.I⟩ 0 = .ok (steps, out) ∧ out.at_ 0 0 0 ≠ Complex.I := by
  obtain ⟨steps, out, h, hat⟩ := C54_sampled_format_real_violation (0 : ℚ) 1 0
    ⟨3, 1, 1, fun _ _ _ => Complex.I⟩ (by decide) one_ne_zero le_rfl
  refine ⟨steps, out, h, fun hI => ?_⟩
  have := (hat 0 0 0 (by decide)).mp hI
  simp at this

end Modred
