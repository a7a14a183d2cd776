import Verif.Props.Okid
import Verif.Props.EraModel
import Verif.Props.Systems
import Verif.Props.Pod
import Mathlib.Data.List.GetD

/-!
# Identification of a system from a simulation (C62)

`lsim`, `OKID`, `make_sampled_format` and ERA one after the other.
-/

namespace Modred

open Matrix

theorem rank_mul_full {𝕜 : Type*} [Field 𝕜] {a n b : Nat} (O : Matrix (Fin a) (Fin n) 𝕜) (K : Matrix (Fin n) (Fin b) 𝕜)
    (hO : O.rank = n) (hK : K.rank = n) : (O * K).rank = n := by
  have h : LinearMap.range K.mulVecLin = ⊤ := by
    refine Submodule.eq_top_of_finrank_eq ?_
    rw [Module.finrank_fin_fun]
    exact hK
  unfold Matrix.rank
  rw [Matrix.mulVecLin_mul, LinearMap.range_comp_of_range_eq_top _ h]
  exact hO

/-- Systems with the same Markov parameters have the same outputs from rest. -/
theorem lsim_of_markovs {K : Type*} [Field K] {n n' p q : Nat} (A : Matrix (Fin n) (Fin n) K) (B : Matrix (Fin n) (Fin p) K)
    (C : Matrix (Fin q) (Fin n) K) (A' : Matrix (Fin n') (Fin n') K) (B' : Matrix (Fin n') (Fin p) K)
    (C' : Matrix (Fin q) (Fin n') K) (h : ∀ k, C' * A' ^ k * B' = C * A ^ k * B) (us : List (Fin p → K)) :
    lsim A' B' C' (.d2 p us) none = lsim A B C (.d2 p us) none := by
  by_cases hus : us = []
  · subst hus
    rfl
  · obtain ⟨ys, hy, hl, -⟩ := C41_lsim A B C us hus none
    obtain ⟨ys', hy', hl', -⟩ := C41_lsim A' B' C' us hus none
    rw [hy, hy']
    congr 1
    refine List.ext_getElem (hl'.trans hl.symm) fun k hk hk' => ?_
    have e := C41_superposition A B C us none ys hy k (by omega)
    have e' := C41_superposition A' B' C' us none ys' hy' k (by omega)
    simp only [h, Option.getD_none, mulVec_zero] at e e'
    rw [← e, List.getD_eq_getElem _ _ hk, List.getD_eq_getElem _ _ hk'] at e'
    exact e'

section

variable {𝕜 : Type*} [RCLike 𝕜] (svd : ∀ {m n : Nat}, Matrix (Fin m) (Fin n) 𝕜 → SvdOut 𝕜 m n)
  (hlib : ∀ {m n : Nat} (X : Matrix (Fin m) (Fin n) 𝕜), IsSvd X (svd X))
  {n p q : Nat} (A : Matrix (Fin n) (Fin n) 𝕜) (B : Matrix (Fin n) (Fin p) 𝕜) (C : Matrix (Fin q) (Fin n) 𝕜)

include hlib

/-- ERA for Markov parameters of a system at equally spaced times. -/
theorem era_of_markovs {T : Type*} [Field T] [LinearOrder T] [IsStrictOrderedRing T] [FloorRing T] (t0 dt tol : T)
    (hdt : dt ≠ 0) (htol : 0 ≤ tol) (nt : Nat) (at_ : Nat → Nat → Nat → 𝕜) (hn : 1 ≤ n)
    (hM : ∀ k < nt, ∀ (i : Fin q) (j : Fin p), at_ k i j = (C * A ^ k * B) i j) (mc mo : Nat)
    (hg : mo + mc + 4 ≤ 2 * nt) (hd : mo + mc ≤ nt)
    (hO : (obsArray A C 1 (q * mo)).rank = n) (hK : (ctrlArray A B 1 (p * mc)).rank = n)
    (hz : ∀ i, (svd (obsArray A C 1 (q * mo) * ctrlArray A B 1 (p * mc))).S i ≠ 0 →
      1e-13 < (svd (obsArray A C 1 (q * mo) * ctrlArray A B 1 (p * mc))).S i) :
    ∃ steps s, makeSampledFormat id ((List.range nt).map fun k : Nat => t0 + (k : T) * dt) ⟨nt, q, p, at_⟩ tol =
        .ok (steps, s) ∧ s.nt = 2 * (nt - 1) ∧
      ∀ self, ∃ o A' B' C', eraModel svd id self (.d3 s) n (some mc) (some mo) = .ok (o, ⟨n, p, q, A', B', C'⟩) ∧
        ∀ k, C' * A' ^ k * B' = C * A ^ k * B := by
  obtain ⟨steps, s, hs, -, hnt, -⟩ := C32_interleaved id t0 dt tol (⟨nt, q, p, at_⟩ : Markovs 𝕜) (by dsimp only; omega) hdt htol
  refine ⟨steps, s, hs, hnt, fun self => ?_⟩
  obtain ⟨steps', s', o, h, hs', hh, hr, hc, hb⟩ := C33_equally_spaced id (fun _ => rfl) t0 dt tol
    (⟨nt, q, p, at_⟩ : Markovs 𝕜) hdt htol mc mo hg hd
  obtain rfl : s = s' := by
    rw [hs] at hs'
    cases hs'
    rfl
  obtain ⟨steps'', s'', hs'', hrec⟩ := C36_from_samples svd id self o o ⟨nt, q, p, at_⟩ (some mc) (some mo) (fun _ => rfl)
    t0 dt tol hdt htol (by dsimp only; omega) A B C hM
  obtain rfl : s = s'' := by
    rw [hs] at hs''
    cases hs''
    rfl
  have hh := hh self
  obtain ⟨model, hmodel⟩ := C36_no_error svd id self o (.d3 s) (some mc) (some mo) n h hh
  obtain ⟨rows, cols, h1, h2⟩ := h
  dsimp only at hr hc hb
  subst hr hc
  have harr : (⟨q * mo, p * mc, h1, h2⟩ : HankelPair 𝕜).array = obsArray A C 1 (q * mo) * ctrlArray A B 1 (p * mc) := by
    have hq : ∀ i : Fin (q * mo), 0 < q := fun i => by
      rcases Nat.eq_zero_or_pos q with rfl | h
      · have := i.isLt
        simp at this
      · exact h
    have hp : ∀ j : Fin (p * mc), 0 < p := fun j => by
      rcases Nat.eq_zero_or_pos p with rfl | h
      · have := j.isLt
        simp at this
      · exact h
    ext i j
    have hi := Nat.mod_lt i.val (hq i)
    have hj := Nat.mod_lt j.val (hp j)
    have hr : i.val / q < mo := Nat.div_lt_of_lt_mul i.isLt
    have hc : j.val / p < mc := Nat.div_lt_of_lt_mul j.isLt
    have e := obs_mul_ctrl A 1 B C 1 (q * mo) (p * mc) i j hi hj
    rw [Matrix.mul_one] at e
    rw [e, Matrix.mul_one, Matrix.mul_assoc C, ← pow_add]
    have := (hb _ _ _ _ hr hc hi hj).1
    rw [Nat.mul_comm (i.val / q), Nat.div_add_mod, Nat.mul_comm (j.val / p), Nat.div_add_mod] at this
    change h1 i j = _
    rw [this]
    change at_ _ _ _ = _
    rw [hM (i.val / q + j.val / p) (by omega) ⟨_, hi⟩ ⟨_, hj⟩]
    simp only [Nat.one_mul]
  obtain ⟨e1, e2, e3⟩ := hrec _ hh (by rw [harr]; exact rank_mul_full _ _ hO hK) (hlib _) (by rw [harr]; exact hz) model hmodel
  obtain ⟨r, p', q', A', B', C'⟩ := model
  dsimp only at e1 e2 e3
  obtain ⟨e4, e5⟩ := e2 hn
  subst e1 e4 e5
  exact ⟨o, A', B', C', hmodel, fun k => by ext i j; exact e3 k i j i j rfl rfl⟩

end

/-- The numbers of blocks used by default. -/
theorem eraModel_default {𝕜 : Type*} [RCLike 𝕜] (svd : ∀ {m n : Nat}, Matrix (Fin m) (Fin n) 𝕜 → SvdOut 𝕜 m n)
    (cast : 𝕜 → 𝕜) (self : EraObj) (s : Markovs 𝕜) (b n : Nat) (hs : s.nt = 4 * b + 2 ∨ s.nt = 4 * b + 4) :
    eraModel svd cast self (.d3 s) n none none = eraModel svd cast self (.d3 s) n (some b) (some b) := by
  have hset : setMarkovs (.d3 s) = .ok s := by
    simp only [setMarkovs]
    rw [if_neg (by omega)]
  have hb : blockCounts s.nt none none = blockCounts s.nt (some b) (some b) := by
    unfold blockCounts
    dsimp only
    rw [show ((s.nt : Int) - 2) / 4 = b by omega]
  have hh : eraHankel cast self (.d3 s) none none = eraHankel cast self (.d3 s) (some b) (some b) := by
    unfold eraHankel assembleHankel
    rw [hset]
    dsimp only
    rw [hb]
  unfold eraModel
  rw [hset]
  dsimp only
  rw [hh]

/-- `Markovs[1:]`. -/
def Markovs.tail {K : Type*} (m : Markovs K) : Markovs K := ⟨m.nt - 1, m.no, m.ni, fun k => m.at_ (k + 1)⟩

section Real

variable (lstsq : ∀ {a b c : Nat}, Matrix (Fin a) (Fin b) ℝ → Matrix (Fin a) (Fin c) ℝ → Matrix (Fin b) (Fin c) ℝ)
  (hlstsq : ∀ {a b c : Nat} (V : Matrix (Fin a) (Fin b) ℝ) (y : Matrix (Fin a) (Fin c) ℝ), IsLstsq V y (lstsq V y))
  (svd : ∀ {m n : Nat}, Matrix (Fin m) (Fin n) ℝ → SvdOut ℝ m n)
  (hsvd : ∀ {m n : Nat} (X : Matrix (Fin m) (Fin n) ℝ), IsSvd X (svd X))
  {n p q : Nat} (A : Matrix (Fin n) (Fin n) ℝ) (B : Matrix (Fin n) (Fin p) ℝ) (C : Matrix (Fin q) (Fin n) ℝ)

/-- The outputs of a simulation are those of the system at rest. -/
theorem lsim_rest (us : List (Fin p → ℝ)) (hus : us ≠ []) :
    ∃ ys, lsim A B C (.d2 p us) none = .ok ys ∧ ys.length = us.length ∧
      ∀ k < us.length, ys.getD k 0 = restOutput A B C 0 (fun k => us.getD k 0) k := by
  obtain ⟨ys, h, hl, hx⟩ := C41_lsim A B C us hus none
  refine ⟨ys, h, hl, fun k hk => ?_⟩
  rw [hx (restState A B fun k => us.getD k 0) rfl (fun _ _ => rfl) k hk]
  unfold restOutput
  rw [zero_mulVec, add_zero]

include hsvd

/-- From the Markov parameters that OKID returns to the model. -/
theorem identified {T : Type*} [Field T] [LinearOrder T] [IsStrictOrderedRing T] [FloorRing T] (t0 dt tol : T)
    (hdt : dt ≠ 0) (htol : 0 ≤ tol) (num : Nat) (out : Markovs ℝ) (hnt : out.nt = num) (hno : out.no = q) (hni : out.ni = p)
    (hout : ∀ k < num, ∀ (i : Fin q) (j : Fin p), out.at_ k i j = markov A B C 0 k i j) (hn : 1 ≤ n) (mc mo : Nat)
    (hg : mo + mc + 6 ≤ 2 * num) (hd : mo + mc + 1 ≤ num)
    (hO : (obsArray A C 1 (q * mo)).rank = n) (hK : (ctrlArray A B 1 (p * mc)).rank = n)
    (hz : ∀ i, (svd (obsArray A C 1 (q * mo) * ctrlArray A B 1 (p * mc))).S i ≠ 0 →
      1e-13 < (svd (obsArray A C 1 (q * mo) * ctrlArray A B 1 (p * mc))).S i) :
    ∃ steps s, makeSampledFormat id ((List.range (num - 1)).map fun k : Nat => t0 + (k : T) * dt) out.tail tol =
        .ok (steps, s) ∧ s.nt = 2 * (num - 2) ∧
      ∀ self, ∃ o A' B' C', eraModel svd id self (.d3 s) n (some mc) (some mo) = .ok (o, ⟨n, p, q, A', B', C'⟩) ∧
        (∀ k, C' * A' ^ k * B' = C * A ^ k * B) ∧
        ∀ us, lsim A' B' C' (.d2 p us) none = lsim A B C (.d2 p us) none := by
  obtain ⟨nt, no, ni, at_⟩ := out
  dsimp only at hnt hno hni hout
  subst hnt hno hni
  obtain ⟨steps, s, h1, h2, h3⟩ := era_of_markovs svd hsvd A B C t0 dt tol hdt htol (nt - 1) (fun k => at_ (k + 1)) hn
    (fun k hk i j => hout (k + 1) (by omega) i j) mc mo (by omega) (by omega) hO hK hz
  refine ⟨steps, s, h1, by omega, fun self => ?_⟩
  obtain ⟨o, A', B', C', e1, e2⟩ := h3 self
  exact ⟨o, A', B', C', e1, e2, fun us => lsim_of_markovs A B C A' B' C' e2 us⟩

include hlstsq

/-- **C62, several inputs.** A controllable and observable system is simulated from rest, OKID computes Markov
parameters from inputs and outputs, the first of them (zero) is left out, and ERA computes a model from the others.  No
step fails, and from rest the outputs of the model are those of the system, for all inputs. -/
theorem C62_several_inputs {T : Type*} [Field T] [LinearOrder T] [IsStrictOrderedRing T] [FloorRing T] (t0 dt tol : T)
    (hdt : dt ≠ 0) (htol : 0 ≤ tol) (num : Nat) (us : List (Fin p → ℝ)) (hN : num ≤ us.length) (hn : 1 ≤ n) (hnum : n ≤ num)
    (hW : LinearIndependent ℝ (inputsAndState (fun k => us.getD k 0) (restState A B fun k => us.getD k 0) num us.length).row)
    (mc mo : Nat) (hg : mo + mc + 6 ≤ 2 * num) (hd : mo + mc + 1 ≤ num)
    (hO : (obsArray A C 1 (q * mo)).rank = n) (hK : (ctrlArray A B 1 (p * mc)).rank = n)
    (hz : ∀ i, (svd (obsArray A C 1 (q * mo) * ctrlArray A B 1 (p * mc))).S i ≠ 0 →
      1e-13 < (svd (obsArray A C 1 (q * mo) * ctrlArray A B 1 (p * mc))).S i) :
    ∃ ys out steps s, lsim A B C (.d2 p us) none = .ok ys ∧
      okid lstsq id false (signalArray us.length fun k => us.getD k 0) (signalArray us.length fun k => ys.getD k 0) num =
        .ok out ∧
      makeSampledFormat id ((List.range (num - 1)).map fun k : Nat => t0 + (k : T) * dt) out.tail tol = .ok (steps, s) ∧
      ∀ self, ∃ o A' B' C', eraModel svd id self (.d3 s) n (some mc) (some mo) = .ok (o, ⟨n, p, q, A', B', C'⟩) ∧
        (∀ k, C' * A' ^ k * B' = C * A ^ k * B) ∧
        ∀ us, lsim A' B' C' (.d2 p us) none = lsim A B C (.d2 p us) none := by
  obtain ⟨ys, hy, -, hrest⟩ := lsim_rest A B C us (by rintro rfl; simp at hN; omega)
  obtain ⟨out, hout, h1, h2, h3, h4⟩ := C37_independent_inputs lstsq hlstsq A B C 0 (fun k => us.getD k 0) num us.length
    (by omega) hN (fun k => ys.getD k 0) hrest (Or.inl hnum) hW
  obtain ⟨steps, s, hs, -, h⟩ := identified svd hsvd A B C t0 dt tol hdt htol num out h1 h2 h3 h4 hn mc mo hg hd hO hK hz
  exact ⟨ys, out, steps, s, hy, hout, hs, h⟩

/-- **C62, one input.** The same for any input whose first sample is not zero. -/
theorem C62_single_input {T : Type*} [Field T] [LinearOrder T] [IsStrictOrderedRing T] [FloorRing T] (t0 dt tol : T)
    (hdt : dt ≠ 0) (htol : 0 ≤ tol) (B : Matrix (Fin n) (Fin 1) ℝ) (num : Nat) (us : List (Fin 1 → ℝ))
    (hN : num ≤ us.length) (hn : 1 ≤ n) (hu : us.getD 0 0 0 ≠ 0)
    (mc mo : Nat) (hg : mo + mc + 6 ≤ 2 * num) (hd : mo + mc + 1 ≤ num)
    (hO : (obsArray A C 1 (q * mo)).rank = n) (hK : (ctrlArray A B 1 (1 * mc)).rank = n)
    (hz : ∀ i, (svd (obsArray A C 1 (q * mo) * ctrlArray A B 1 (1 * mc))).S i ≠ 0 →
      1e-13 < (svd (obsArray A C 1 (q * mo) * ctrlArray A B 1 (1 * mc))).S i) :
    ∃ ys out steps s, lsim A B C (.d2 1 us) none = .ok ys ∧
      okid lstsq id false (signalArray us.length fun k => us.getD k 0) (signalArray us.length fun k => ys.getD k 0) num =
        .ok out ∧
      makeSampledFormat id ((List.range (num - 1)).map fun k : Nat => t0 + (k : T) * dt) out.tail tol = .ok (steps, s) ∧
      ∀ self, ∃ o A' B' C', eraModel svd id self (.d3 s) n (some mc) (some mo) = .ok (o, ⟨n, 1, q, A', B', C'⟩) ∧
        (∀ k, C' * A' ^ k * B' = C * A ^ k * B) ∧
        ∀ us, lsim A' B' C' (.d2 1 us) none = lsim A B C (.d2 1 us) none := by
  have hnum : n ≤ 1 * mc := hK ▸ Matrix.rank_le_width _
  obtain ⟨ys, hy, -, hrest⟩ := lsim_rest A B C us (by rintro rfl; simp at hN; omega)
  obtain ⟨out, hout, h1, h2, h3, h4⟩ := C37_single_input lstsq hlstsq A C num us.length
    (by omega) hN (fun k => ys.getD k 0) B 0 (fun k => us.getD k 0) hrest (Or.inl (by omega)) hu
  obtain ⟨steps, s, hs, -, h⟩ := identified svd hsvd A B C t0 dt tol hdt htol num out h1 h2 h3 h4 hn mc mo hg hd hO hK hz
  exact ⟨ys, out, steps, s, hy, hout, hs, h⟩

/-- **C62, one input.** The same for `compute_ERA_model`, which uses the default numbers of blocks. -/
theorem C62_compute_ERA_model {T : Type*} [Field T] [LinearOrder T] [IsStrictOrderedRing T] [FloorRing T] (t0 dt tol : T)
    (hdt : dt ≠ 0) (htol : 0 ≤ tol) (B : Matrix (Fin n) (Fin 1) ℝ) (num : Nat) (us : List (Fin 1 → ℝ))
    (hN : num ≤ us.length) (hn : 1 ≤ n) (hu : us.getD 0 0 0 ≠ 0)
    (b : Nat) (hb : num = 2 * b + 3 ∨ num = 2 * b + 4)
    (hO : (obsArray A C 1 (q * b)).rank = n) (hK : (ctrlArray A B 1 (1 * b)).rank = n)
    (hz : ∀ i, (svd (obsArray A C 1 (q * b) * ctrlArray A B 1 (1 * b))).S i ≠ 0 →
      1e-13 < (svd (obsArray A C 1 (q * b) * ctrlArray A B 1 (1 * b))).S i) :
    ∃ ys out steps s, lsim A B C (.d2 1 us) none = .ok ys ∧
      okid lstsq id false (signalArray us.length fun k => us.getD k 0) (signalArray us.length fun k => ys.getD k 0) num =
        .ok out ∧
      makeSampledFormat id ((List.range (num - 1)).map fun k : Nat => t0 + (k : T) * dt) out.tail tol = .ok (steps, s) ∧
      ∃ A' B' C', computeEraModel svd id (.d3 s) n = .ok ⟨n, 1, q, A', B', C'⟩ ∧
        (∀ k, C' * A' ^ k * B' = C * A ^ k * B) ∧
        ∀ us, lsim A' B' C' (.d2 1 us) none = lsim A B C (.d2 1 us) none := by
  have hnum : n ≤ 1 * b := hK ▸ Matrix.rank_le_width _
  obtain ⟨ys, hy, -, hrest⟩ := lsim_rest A B C us (by rintro rfl; simp at hN; omega)
  obtain ⟨out, hout, h1, h2, h3, h4⟩ := C37_single_input lstsq hlstsq A C num us.length
    (by omega) hN (fun k => ys.getD k 0) B 0 (fun k => us.getD k 0) hrest (Or.inl (by omega)) hu
  obtain ⟨steps, s, hs, hnt, h⟩ := identified svd hsvd A B C t0 dt tol hdt htol num out h1 h2 h3 h4 hn b b (by omega)
    (by omega) hO hK hz
  obtain ⟨o, A', B', C', e1, e2⟩ := h (eraInit none none)
  refine ⟨ys, out, steps, s, hy, hout, hs, A', B', C', ?_, e2⟩
  unfold computeEraModel
  rw [eraModel_default svd id _ s b n (by omega), e1]

end Real

/-- The system `x (k + 1) = x k / 2 + u k`, `y k = x k`, identified from 5 samples. -/
example : ∃ (lstsq : ∀ {a b c : Nat}, Matrix (Fin a) (Fin b) ℝ → Matrix (Fin a) (Fin c) ℝ → Matrix (Fin b) (Fin c) ℝ)
    (svd : ∀ {m n : Nat}, Matrix (Fin m) (Fin n) ℝ → SvdOut ℝ m n) (ys : List (Fin 1 → ℝ)) (out s : Markovs ℝ)
    (steps : List Int) (A' B' C' : Matrix (Fin 1) (Fin 1) ℝ),
    lsim !![1 / 2] !![1] !![1] (.d2 1 [1, 2, 0, -1, 5]) none = .ok ys ∧
    okid lstsq id false (signalArray 5 fun k => [1, 2, 0, -1, 5].getD k (0 : Fin 1 → ℝ)) (signalArray 5 fun k => ys.getD k 0) 5 =
      .ok out ∧
    makeSampledFormat id ((List.range 4).map fun k : Nat => 0 + (k : ℚ) * 1) out.tail 0 = .ok (steps, s) ∧
    computeEraModel svd id (.d3 s) 1 = .ok ⟨1, 1, 1, A', B', C'⟩ ∧
    ∀ k, C' * A' ^ k * B' = !![1] * (!![1 / 2] : Matrix (Fin 1) (Fin 1) ℝ) ^ k * !![1] := by
  obtain ⟨lstsq, hlstsq⟩ := exists_lstsq ℝ
  have hex : ∀ (m n : Nat) (X : Matrix (Fin m) (Fin n) ℝ), ∃ s, IsSvd X s := fun m n X => exists_isSvd X
  choose svd hsvd using hex
  have e1 : obsArray (!![1 / 2] : Matrix (Fin 1) (Fin 1) ℝ) (!![1] : Matrix (Fin 1) (Fin 1) ℝ) 1 (1 * 1) = !![1] := by
    ext i j
    simp [obsArray]
  have e2 : ctrlArray (!![1 / 2] : Matrix (Fin 1) (Fin 1) ℝ) (!![1] : Matrix (Fin 1) (Fin 1) ℝ) 1 (1 * 1) = !![1] := by
    ext i j
    simp [ctrlArray]
  have e3 : (!![1] : Matrix (Fin 1) (Fin 1) ℝ) = 1 := by
    ext i j
    fin_cases i
    fin_cases j
    simp
  have hrank : (!![1] : Matrix (Fin 1) (Fin 1) ℝ).rank = 1 := by
    rw [e3, Matrix.rank_one]
    rfl
  obtain ⟨ys, out, steps, s, h1, h2, h3, A', B', C', h4, h5, -⟩ := C62_compute_ERA_model lstsq hlstsq (fun {m n} => svd m n)
    (fun {m n} => hsvd m n) (!![1 / 2] : Matrix (Fin 1) (Fin 1) ℝ) (!![1] : Matrix (Fin 1) (Fin 1) ℝ) (0 : ℚ) 1 0 one_ne_zero
    le_rfl !![1] 5 [1, 2, 0, -1, 5] le_rfl le_rfl (by simp) 1 (Or.inl rfl) ((congrArg Matrix.rank e1).trans hrank)
    ((congrArg Matrix.rank e2).trans hrank) (by
      rw [e1, e2, e3, Matrix.one_mul, ← e3]
      intro i _
      have := svd_one 1 _ (hsvd 1 1 !![1]) i
      have h0 := (hsvd 1 1 !![1]).nonneg i
      have : (svd 1 1 !![1]).S i = 1 := by nlinarith
      have e : (svd (1 * 1) (1 * 1) !![1]).S i = 1 := this
      rw [e]
      norm_num)
  exact ⟨lstsq, fun {m n} => svd m n, ys, out, s, steps, A', B', C', h1, h2, h3, h4, h5⟩

end Modred
