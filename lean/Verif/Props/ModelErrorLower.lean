import Verif.Props.ModelError
import Mathlib.LinearAlgebra.FiniteDimensional.Lemmas

/-!
# No model with as few states is much better (C105)
-/

namespace Modred

open Matrix

variable {𝕜 : Type*} [RCLike 𝕜]

theorem sum_blocks {R : Type*} [AddCommMonoid R] (f : Nat → R) (d b : Nat) :
    ∑ a ∈ Finset.range (d * b), f a = ∑ c ∈ Finset.range b, ∑ j : Fin d, f (c * d + j) := by
  induction b with
  | zero => simp
  | succ b ih =>
    rw [Nat.mul_succ, Finset.sum_range_add, ih, Finset.sum_range_succ, Finset.sum_range (n := d), Nat.mul_comm d b]

/-- Inputs that put the vector `z` into the past. -/
def pastInputs {n : Nat} (d b : Nat) (z : Fin n → 𝕜) (t : Nat) : Fin d → 𝕜 :=
  fun j => if t < b then entryAt z ((b - 1 - t) * d + j) else 0

theorem pastInputs_energy {d b s : Nat} (z : Fin (d * b) → 𝕜) :
    signalEnergy (b + s) (pastInputs d b z) = sumSquares z := by
  unfold signalEnergy
  rw [Finset.sum_range_add]
  have h0 : ∑ x ∈ Finset.range s, sumSquares (pastInputs d b z (b + x)) = 0 := Finset.sum_eq_zero fun x _ => by
    unfold sumSquares pastInputs
    refine Finset.sum_eq_zero fun j _ => ?_
    rw [if_neg (by omega)]
    simp
  rw [h0, add_zero, sumSquares_range z _ le_rfl, sum_blocks, ← Finset.sum_range_reflect]
  refine Finset.sum_congr rfl fun c hc => ?_
  rw [Finset.mem_range] at hc
  unfold sumSquares pastInputs
  refine Finset.sum_congr rfl fun j _ => ?_
  rw [if_pos (by omega), show b - 1 - (b - 1 - c) = c by omega]

/-- States after these inputs. -/
theorem pastInputs_state {r d b : Nat} (A : Matrix (Fin r) (Fin r) 𝕜) (B : Matrix (Fin r) (Fin d) 𝕜) (z : Fin (d * b) → 𝕜)
    (x : Nat → Fin r → 𝕜) (h0 : x 0 = 0) (hx : ∀ t, x (t + 1) = A *ᵥ x t + B *ᵥ pastInputs d b z t) (i : Fin r) :
    x b i = ∑ a : Fin (d * b), (if h : a.val % d < d then (A ^ (a.val / d) * B) i ⟨a % d, h⟩ else 0) * z a := by
  have e1 : ∑ a : Fin (d * b), (if h : a.val % d < d then (A ^ (a.val / d) * B) i ⟨a % d, h⟩ else 0) * z a =
      ∑ a ∈ Finset.range (d * b), (if h : a % d < d then (A ^ (a / d) * B) i ⟨a % d, h⟩ else 0) * entryAt z a := by
    rw [Finset.sum_range]
    exact Finset.sum_congr rfl fun a _ => by rw [entryAt_val]
  rw [e1, sum_blocks, states_closed_form A B x _ b (fun k _ => hx k) b le_rfl, h0, mulVec_zero, zero_add,
    ← Finset.sum_range_reflect, Finset.sum_apply]
  refine Finset.sum_congr rfl fun c hc => ?_
  rw [Finset.mem_range] at hc
  rw [show b - 1 - (b - 1 - c) = c by omega]
  change ∑ j : Fin d, (A ^ c * B) i j * pastInputs d b z (b - 1 - c) j = _
  refine Finset.sum_congr rfl fun j _ => ?_
  have hj := j.isLt
  have hd : (c * d + j.val) / d = c := by
    rw [Nat.add_comm, Nat.add_mul_div_right _ _ (by omega), Nat.div_eq_of_lt hj, Nat.zero_add]
  have hm : (c * d + j.val) % d = j.val := by
    rw [Nat.add_comm, Nat.add_mul_mod_self_right, Nat.mod_eq_of_lt hj]
  simp only [hd, hm, hj, dif_pos, Fin.eta]
  congr 1
  unfold pastInputs
  rw [if_pos (by omega), show b - 1 - (b - 1 - c) = c by omega]

/-- Outputs after these inputs. -/
theorem pastInputs_output {no ni mo mc : Nat} (M : Nat → Nat → Nat → 𝕜) (H : Matrix (Fin (no * mo)) (Fin (ni * mc)) 𝕜)
    (hH : ∀ i j, H i j = M (i / no + j / ni) (i % no) (j % ni)) (z : Fin (ni * mc) → 𝕜) (s : Nat) (hs : s < mo)
    (i : Fin no) : impulseOutput M (pastInputs ni mc z) (mc + s) i = entryAt (H *ᵥ z) (s * no + i) := by
  have hi := i.isLt
  have hlt : s * no + i.val < no * mo := by
    have : no * (s + 1) ≤ no * mo := Nat.mul_le_mul_left _ hs
    have : no * (s + 1) = s * no + no := by ring
    omega
  have hd : (s * no + i.val) / no = s := by
    rw [Nat.add_comm, Nat.add_mul_div_right _ _ (by omega), Nat.div_eq_of_lt hi, Nat.zero_add]
  have hm : (s * no + i.val) % no = i.val := by
    rw [Nat.add_comm, Nat.add_mul_mod_self_right, Nat.mod_eq_of_lt hi]
  have e1 : entryAt (H *ᵥ z) (s * no + i) =
      ∑ a ∈ Finset.range (ni * mc), M (s + a / ni) i (a % ni) * entryAt z a := by
    rw [entryAt, dif_pos hlt, Finset.sum_range]
    change ∑ a : Fin (ni * mc), H ⟨s * no + i, hlt⟩ a * z a = _
    refine Finset.sum_congr rfl fun a _ => ?_
    rw [entryAt_val, hH]
    dsimp only
    rw [hd, hm]
  rw [e1, sum_blocks]
  unfold impulseOutput
  rw [Finset.sum_range_add]
  have h0 : ∑ x ∈ Finset.range s, ∑ j : Fin ni, M (mc + s - 1 - (mc + x)) i j * pastInputs ni mc z (mc + x) j = 0 :=
    Finset.sum_eq_zero fun x _ => Finset.sum_eq_zero fun j _ => by
      unfold pastInputs
      rw [if_neg (by omega), mul_zero]
  rw [h0, add_zero, ← Finset.sum_range_reflect]
  refine Finset.sum_congr rfl fun c hc => ?_
  rw [Finset.mem_range] at hc
  refine Finset.sum_congr rfl fun j _ => ?_
  have hj := j.isLt
  have hd' : (c * ni + j.val) / ni = c := by
    rw [Nat.add_comm, Nat.add_mul_div_right _ _ (by omega), Nat.div_eq_of_lt hj, Nat.zero_add]
  have hm' : (c * ni + j.val) % ni = j.val := by
    rw [Nat.add_comm, Nat.add_mul_mod_self_right, Nat.mod_eq_of_lt hj]
  unfold pastInputs
  rw [hd', hm', if_pos (by omega), show mc - 1 - (mc - 1 - c) = c by omega,
    show mc + s - 1 - (mc - 1 - c) = s + c by omega]

/-- A vector in the span of the first right singular vectors that an array with few rows maps to zero. -/
theorem exists_past {m n N r : Nat} {H : Matrix (Fin m) (Fin n) 𝕜} {U : Matrix (Fin m) (Fin N) 𝕜}
    {V : Matrix (Fin n) (Fin N) 𝕜} {S : Fin N → ℝ} (hS : ∀ i, 0 ≤ S i) (hs : Antitone S) (hU : Uᴴ * U = 1)
    (hV : Vᴴ * V = 1) (hH : H = U * diagPow (𝕜 := 𝕜) S 1 * Vᴴ) (hr : r < N) (R : Matrix (Fin r) (Fin n) 𝕜) :
    ∃ z, R *ᵥ z = 0 ∧ 0 < sumSquares z ∧ S ⟨r, hr⟩ ^ 2 * sumSquares z ≤ sumSquares (H *ᵥ z) := by
  have hker := LinearMap.ker_ne_bot_of_finrank_lt
    (f := (R * V.submatrix id (Fin.castLE (show r + 1 ≤ N from hr))).mulVecLin) (by
      rw [Module.finrank_fin_fun, Module.finrank_fin_fun]; omega)
  obtain ⟨w, hw, hw0⟩ := Submodule.exists_mem_ne_zero_of_ne_bot hker
  rw [LinearMap.mem_ker, mulVecLin_apply, ← mulVec_mulVec] at hw
  have e : V.submatrix id (Fin.castLE (show r + 1 ≤ N from hr)) *ᵥ w = V *ᵥ extendTo N w :=
    funext fun i => (mulVec_extendTo _ V w i).symm
  rw [e] at hw
  have hsq : sumSquares (V *ᵥ extendTo N w) = sumSquares (extendTo N w) := sumSquares_isometry hV _
  refine ⟨_, hw, ?_, ?_⟩
  · rw [hsq]
    have : sumSquares (extendTo N w) = sumSquares w :=
      sum_extendTo (show r + 1 ≤ N from hr) (fun _ y => ‖y‖ ^ 2) (fun _ => by simp) w
    rw [this]
    obtain ⟨i, hi⟩ := Function.ne_iff.mp hw0
    refine Finset.sum_pos' (fun i _ => by positivity) ⟨i, Finset.mem_univ i, ?_⟩
    have := norm_pos_iff.mpr hi
    positivity
  · have h1 : H *ᵥ (V *ᵥ extendTo N w) = U *ᵥ (diagPow (𝕜 := 𝕜) S 1 *ᵥ extendTo N w) := by
      rw [hH, mulVec_mulVec, Matrix.mul_assoc _ Vᴴ, hV, Matrix.mul_one, mulVec_mulVec]
    rw [h1, sumSquares_isometry hU, hsq]
    unfold sumSquares
    rw [Finset.mul_sum]
    refine Finset.sum_le_sum fun i _ => ?_
    rw [diagPow_mulVec, Real.rpow_one, norm_mul, RCLike.norm_ofReal, abs_of_nonneg (hS i), mul_pow]
    by_cases h : i.val < r + 1
    · have h2 : S ⟨r, hr⟩ ≤ S i := hs (Fin.mk_le_of_le_val (by simp; omega) : i ≤ ⟨r, hr⟩)
      exact mul_le_mul_of_nonneg_right (pow_le_pow_left₀ (hS _) h2 2) (by positivity)
    · unfold extendTo
      rw [dif_neg h]
      simp

/-- No model with few states is better than the first singular value that it must neglect. -/
theorem hankel_lower_bound {no ni mo mc r : Nat} (M : Nat → Nat → Nat → 𝕜) (H : Matrix (Fin (no * mo)) (Fin (ni * mc)) 𝕜)
    (hH : ∀ i j, H i j = M (i / no + j / ni) (i % no) (j % ni)) (o : SvdOut 𝕜 (no * mo) (ni * mc)) (hlib : IsSvd H o)
    (hr : r < min (no * mo) (ni * mc)) (A : Matrix (Fin r) (Fin r) 𝕜) (B : Matrix (Fin r) (Fin ni) 𝕜)
    (C : Matrix (Fin no) (Fin r) 𝕜) :
    ∃ (u : Nat → Fin ni → 𝕜) (x : Nat → Fin r → 𝕜), x 0 = 0 ∧ (∀ t, x (t + 1) = A *ᵥ x t + B *ᵥ u t) ∧
      0 < signalEnergy (mc + mo) u ∧ o.S ⟨r, hr⟩ ^ 2 * signalEnergy (mc + mo) u ≤
        signalEnergy (mc + mo) fun t => impulseOutput M u t - C *ᵥ x t := by
  obtain ⟨z, hz1, hz2, hz3⟩ := exists_past (H := H) (U := o.U) (V := o.Vhᴴ) (S := o.S) hlib.nonneg hlib.sorted hlib.left
    (by rw [conjTranspose_conjTranspose]; exact hlib.right)
    (by rw [conjTranspose_conjTranspose, diagPow_one]; exact hlib.product) hr
    (Matrix.of fun i a => if h : a.val % ni < ni then (A ^ (a.val / ni) * B) i ⟨a % ni, h⟩ else 0)
  obtain ⟨x, hx0, hx⟩ := exists_states A B 0 (pastInputs ni mc z)
  have hmc : x mc = 0 := by
    funext i
    rw [pastInputs_state A B z x hx0 hx i]
    exact congrFun hz1 i
  have hlater : ∀ s, x (mc + s) = 0 := by
    intro s
    induction s with
    | zero => exact hmc
    | succ s ih =>
      rw [← Nat.add_assoc, hx, ih, mulVec_zero, zero_add]
      have : pastInputs ni mc z (mc + s) = 0 := by
        funext j
        exact if_neg (by omega)
      rw [this, mulVec_zero]
  refine ⟨pastInputs ni mc z, x, hx0, hx, ?_, ?_⟩
  · rw [pastInputs_energy]; exact hz2
  · rw [pastInputs_energy]
    refine hz3.trans ?_
    unfold signalEnergy
    rw [Finset.sum_range_add, sumSquares_range (H *ᵥ z) _ le_rfl, sum_blocks]
    refine le_trans (le_of_eq ?_) (le_add_of_nonneg_left (Finset.sum_nonneg fun _ _ => sumSquares_nonneg _))
    refine Finset.sum_congr rfl fun s hs => ?_
    rw [Finset.mem_range] at hs
    dsimp only
    rw [hlater, mulVec_zero, sub_zero]
    unfold sumSquares
    exact Finset.sum_congr rfl fun i _ => by rw [pastInputs_output M H hH z s hs i]

section C105
variable (svd : ∀ {m n : Nat}, Matrix (Fin m) (Fin n) 𝕜 → SvdOut 𝕜 m n) (cast : 𝕜 → 𝕜) (self o' : EraObj)
  (markovs : MarkovsIn 𝕜) (m : Markovs 𝕜) (mc mo : Option Int)

/-- **C105, the best that can be expected.** For every model with `r` states, not only those of this library, there is an
input so that the energy of the error is at least that of the input times the square of the first singular value after
the first `r`.  The impulse response need not have died out. -/
theorem C105_lower_bound (hcast : ∀ x, cast x = x) (hm : setMarkovs markovs = .ok m) (M : Nat → Nat → Nat → 𝕜)
    (hM : ∀ k, 2 * k + 1 < m.nt → ∀ i j, i < m.no → j < m.ni → m.at_ (2 * k) i j = M k i j)
    (h : HankelPair 𝕜) (hh : eraHankel cast self markovs mc mo = .ok (o', h)) (hlib : IsSvd h.array (svd h.array))
    {r : Nat} (hr : r < min h.rows h.cols) (A : Matrix (Fin r) (Fin r) 𝕜) (B : Matrix (Fin r) (Fin m.ni) 𝕜)
    (C : Matrix (Fin m.no) (Fin r) 𝕜) :
    ∃ (T : Nat) (u : Nat → Fin m.ni → 𝕜) (x : Nat → Fin r → 𝕜), x 0 = 0 ∧
      (∀ t, x (t + 1) = A *ᵥ x t + B *ᵥ u t) ∧ 0 < signalEnergy T u ∧
      (svd h.array).S ⟨r, hr⟩ ^ 2 * signalEnergy T u ≤ signalEnergy T fun t => impulseOutput M u t - C *ᵥ x t := by
  have hasm : assembleHankel cast m mc mo = .ok h := by
    unfold eraHankel at hh
    rw [hm] at hh
    dsimp only at hh
    split at hh
    · cases hh
    · rename_i h' hh'
      cases hh
      exact hh'
  obtain ⟨mo', mc', hrows, hcols, hblk⟩ := assembleHankel_blocks cast m mc mo h hasm
  have hmod : ∀ {a b x : Nat}, x < a * b → x % a < a ∧ x / a < b := by
    intro a b x hx
    have ha : 0 < a := by
      rcases Nat.eq_zero_or_pos a with rfl | ha
      · rw [Nat.zero_mul] at hx; omega
      · exact ha
    exact ⟨Nat.mod_lt _ ha, Nat.div_lt_of_lt_mul hx⟩
  have hent : ∀ (i : Fin h.rows) (j : Fin h.cols), h.array i j = M (i / m.no + j / m.ni) (i % m.no) (j % m.ni) := by
    intro i j
    obtain ⟨hi1, hi2⟩ := hmod (i.isLt.trans_eq hrows)
    obtain ⟨hj1, hj2⟩ := hmod (j.isLt.trans_eq hcols)
    obtain ⟨hb1, hb2⟩ := hblk _ _ hi2 hj2
    obtain ⟨e1, -⟩ := hb2 _ _ hi1 hj1
    have f1 := hM _ hb1 _ _ hi1 hj1
    rw [Nat.div_add_mod', Nat.div_add_mod', hcast] at e1
    exact e1.trans f1
  obtain ⟨rows, cols, f, f2⟩ := h
  dsimp only at hrows hcols
  subst hrows hcols
  obtain ⟨u, x, h1, h2, h3, h4⟩ := hankel_lower_bound M _ hent _ hlib hr A B C
  exact ⟨mc' + mo', u, x, h1, h2, h3, h4⟩

end C105

/-- No model without states of the impulse response 2, 1 is better than the first singular value, and none with one state
is better than the second. -/
example (svd : ∀ {m n : Nat}, Matrix (Fin m) (Fin n) ℝ → SvdOut ℝ m n)
    (hsvd : ∀ {m n : Nat} (a : Matrix (Fin m) (Fin n) ℝ), IsSvd a (svd a)) :
    ∃ (h : HankelPair ℝ) (hr : 1 < min h.rows h.cols), h.h 0 0 = 2 ∧ h.h 0 1 = 1 ∧
      ∀ a b c : Matrix (Fin 1) (Fin 1) ℝ, ∃ (T : Nat) (u x : Nat → Fin 1 → ℝ), x 0 = 0 ∧
        (∀ t, x (t + 1) = a *ᵥ x t + b *ᵥ u t) ∧ 0 < signalEnergy T u ∧
        (svd h.array).S ⟨1, hr⟩ ^ 2 * signalEnergy T u ≤ signalEnergy T fun t =>
          impulseOutput (fun k _ _ => if k = 0 then 2 else if k = 1 then 1 else 0) u t - c *ᵥ x t := by
  have hset : setMarkovs (.d3 twoSteps) = .ok twoSteps := by simp [setMarkovs, twoSteps]
  obtain ⟨h, hh, h1, h2, h3⟩ := C33_blocks id twoSteps 2 2 (by simp [twoSteps]) (by simp [twoSteps])
  have hh' : eraHankel id (eraInit none none) (.d3 twoSteps) (some 2) (some 2) = .ok (⟨some 2, some 2⟩, h) := by
    unfold eraHankel
    rw [hset]
    dsimp only
    rw [show (some 2 : Option Int) = some ((2 : Nat) : Int) from rfl, hh]
    rfl
  have g1 := h3 0 0 0 0 (by decide) (by decide) (by simp [twoSteps]) (by simp [twoSteps])
  have g2 := h3 0 1 0 0 (by decide) (by decide) (by simp [twoSteps]) (by simp [twoSteps])
  have hrows : h.rows = 2 := by rw [h1]; simp [twoSteps]
  have hcols : h.cols = 2 := by rw [h2]; simp [twoSteps]
  refine ⟨h, by rw [hrows, hcols]; decide, by simpa [twoSteps] using g1.1, by simpa [twoSteps] using g2.1,
    fun a b c => C105_lower_bound svd id (eraInit none none) _ (.d3 twoSteps) twoSteps (some 2) (some 2) (fun _ => rfl) hset _
      ?_ h hh' (hsvd _) _ a b c⟩
  intro k hk i j _ _
  simp only [twoSteps] at hk ⊢
  have hk' : k < 3 := by omega
  interval_cases k <;> simp

end Modred
