import Verif.Props.Pod
import Mathlib.Data.List.Sort
import Mathlib.Data.Multiset.Sort

/-!
# What the retained eigenpairs determine
-/

namespace Modred

open Matrix

variable {𝕜 : Type*} [RCLike 𝕜] {m : Nat}

section Full

variable {A A' Q : Matrix (Fin m) (Fin m) 𝕜} {o o' : EighOut 𝕜 m} {s : ℝ}

/-- Eigenvectors of two similar arrays are orthogonal unless they belong to the same eigenvalue. -/
theorem eigh_overlap (h : IsEigh A o) (h' : IsEigh A' o') (hQ : Q * Qᴴ = 1) (hA : A' = (s : 𝕜) • (Qᴴ * A * Q)) (i j : Fin m) :
    ((s * o.w i : ℝ) : 𝕜) * (o.Vᴴ * Q * o'.V) i j = (o.Vᴴ * Q * o'.V) i j * (o'.w j : 𝕜) := by
  have hV : o.V * o.Vᴴ = 1 := mul_eq_one_comm.mp h.orthonormal
  have h1 : o.Vᴴ * A = diagonal (fun i => (o.w i : 𝕜)) * o.Vᴴ := by
    have := congrArg (fun B => o.Vᴴ * B * o.Vᴴ) h.eigen
    rw [Matrix.mul_assoc, Matrix.mul_assoc, hV, Matrix.mul_one] at this
    rw [this, ← Matrix.mul_assoc, h.orthonormal, Matrix.one_mul]
  have h2 : (s : 𝕜) • (A * Q) = Q * A' := by
    rw [hA, Matrix.mul_smul, Matrix.mul_assoc, ← Matrix.mul_assoc Q, hQ, Matrix.one_mul]
  have h3 : (s : 𝕜) • (diagonal (fun i => (o.w i : 𝕜)) * (o.Vᴴ * Q * o'.V)) =
      (o.Vᴴ * Q * o'.V) * diagonal (fun i => (o'.w i : 𝕜)) := by
    rw [Matrix.mul_assoc (o.Vᴴ * Q), ← h'.eigen, ← Matrix.mul_assoc (diagonal _), ← Matrix.mul_assoc (diagonal _), ← h1,
      Matrix.mul_assoc o.Vᴴ, ← Matrix.smul_mul, ← Matrix.mul_smul, h2]
    simp only [Matrix.mul_assoc]
  have h4 := congrFun (congrFun h3 i) j
  rw [Matrix.smul_apply, diagonal_mul, mul_diagonal, smul_eq_mul] at h4
  rw [RCLike.ofReal_mul, mul_assoc]
  exact h4

theorem eigh_intertwine (h : IsEigh A o) (h' : IsEigh A' o') (hQ : Q * Qᴴ = 1) (hA : A' = (s : 𝕜) • (Qᴴ * A * Q))
    (f g : ℝ → 𝕜) (hfg : ∀ x, g (s * x) = f x) :
    diagonal (fun i => f (o.w i)) * (o.Vᴴ * Q * o'.V) = (o.Vᴴ * Q * o'.V) * diagonal fun i => g (o'.w i) := by
  ext i j
  rw [diagonal_mul, mul_diagonal]
  by_cases h0 : (o.Vᴴ * Q * o'.V) i j = 0
  · rw [h0, mul_zero, zero_mul]
  · have h1 := eigh_overlap h h' hQ hA i j
    rw [mul_comm] at h1
    have h2 : s * o.w i = o'.w j := RCLike.ofReal_inj.mp (mul_left_cancel₀ h0 h1)
    rw [← h2, hfg, mul_comm]

/-- Functions of similar arrays are similar. -/
theorem eigh_functions (h : IsEigh A o) (h' : IsEigh A' o') (hQ : Q * Qᴴ = 1) (hA : A' = (s : 𝕜) • (Qᴴ * A * Q))
    (f g : ℝ → 𝕜) (hfg : ∀ x, g (s * x) = f x) :
    o'.V * diagonal (fun i => g (o'.w i)) * o'.Vᴴ = Qᴴ * (o.V * diagonal (fun i => f (o.w i)) * o.Vᴴ) * Q := by
  have hV : o.V * o.Vᴴ = 1 := mul_eq_one_comm.mp h.orthonormal
  have hV' : o'.V * o'.Vᴴ = 1 := mul_eq_one_comm.mp h'.orthonormal
  have hQ' : Qᴴ * Q = 1 := mul_eq_one_comm.mp hQ
  have h1 := eigh_intertwine h h' hQ hA f g hfg
  have h2 : o'.V * diagonal (fun i => g (o'.w i)) = Qᴴ * o.V * ((o.Vᴴ * Q * o'.V) * diagonal fun i => g (o'.w i)) := by
    rw [← Matrix.mul_assoc, show Qᴴ * o.V * (o.Vᴴ * Q * o'.V) = Qᴴ * (o.V * o.Vᴴ) * Q * o'.V by simp only [Matrix.mul_assoc],
      hV, Matrix.mul_one, hQ', Matrix.one_mul]
  rw [h2, ← h1, show Qᴴ * o.V * (diagonal (fun i => f (o.w i)) * (o.Vᴴ * Q * o'.V)) * o'.Vᴴ =
    Qᴴ * (o.V * diagonal (fun i => f (o.w i)) * o.Vᴴ) * Q * (o'.V * o'.Vᴴ) by simp only [Matrix.mul_assoc], hV', Matrix.mul_one]

/-- The numbers of eigenvalues with a property are the same. -/
theorem eigh_count (h : IsEigh A o) (h' : IsEigh A' o') (hQ : Q * Qᴴ = 1) (hA : A' = (s : 𝕜) • (Qᴴ * A * Q))
    (P P' : ℝ → Prop) [DecidablePred P] [DecidablePred P'] (hP : ∀ x, P' (s * x) ↔ P x) :
    (Finset.univ.filter fun i => P' (o'.w i)).card = (Finset.univ.filter fun i => P (o.w i)).card := by
  have h1 := eigh_functions h h' hQ hA (fun y => if P y then 1 else 0) (fun y => if P' y then 1 else 0) (by
    intro y
    simp only [hP])
  have h2 := congrArg Matrix.trace h1
  have e : ∀ (p : EighOut 𝕜 m) (hp : p.Vᴴ * p.V = 1) (f : Fin m → 𝕜), (p.V * diagonal f * p.Vᴴ).trace = ∑ i, f i := by
    intro p hp f
    rw [Matrix.trace_mul_cycle, hp, Matrix.one_mul, trace_diagonal]
  have hq : ∀ B : Matrix (Fin m) (Fin m) 𝕜, (Qᴴ * B * Q).trace = B.trace := by
    intro B
    rw [Matrix.trace_mul_comm, ← Matrix.mul_assoc, hQ, Matrix.one_mul]
  rw [hq, e o' h'.orthonormal, e o h.orthonormal, Finset.sum_ite, Finset.sum_ite] at h2
  simp only [Finset.sum_const_zero, add_zero, Finset.sum_const, nsmul_eq_mul, mul_one] at h2
  exact_mod_cast h2

/-- The eigenvalues are the same, in some order. -/
theorem eigh_multiset (h : IsEigh A o) (h' : IsEigh A' o') (hQ : Q * Qᴴ = 1) (hA : A' = (s : 𝕜) • (Qᴴ * A * Q)) (hs : s ≠ 0) :
    (Finset.univ.val.map o'.w) = Finset.univ.val.map fun i => s * o.w i := by
  classical
  ext y
  rw [Multiset.count_map, Multiset.count_map]
  have h1 := eigh_count h h' hQ hA (fun x => x = y / s) (fun x => x = y) (fun x => by rw [eq_div_iff hs, mul_comm])
  have e1 : (Finset.univ.filter fun i => o'.w i = y).card = (Multiset.filter (fun a => y = o'.w a) Finset.univ.val).card := by
    rw [Finset.card_def, Finset.filter_val]
    simp only [eq_comm]
  have e2 : (Finset.univ.filter fun i => o.w i = y / s).card = (Multiset.filter (fun a => y = s * o.w a) Finset.univ.val).card := by
    rw [Finset.card_def, Finset.filter_val]
    simp only [eq_div_iff hs, mul_comm s, eq_comm]
  rw [← e1, ← e2, h1]

end Full

/-- Sorted values with the same multiset are the same. -/
theorem antitone_unique {u v : Fin m → ℝ} (hu : Antitone u) (hv : Antitone v)
    (h : Finset.univ.val.map u = Finset.univ.val.map v) : u = v := by
  have hl : (List.ofFn u).Perm (List.ofFn v) := by
    rw [← Multiset.coe_eq_coe, ← Fin.univ_val_map, ← Fin.univ_val_map, h]
  exact List.ofFn_injective (hl.eq_of_pairwise (fun a b _ _ h1 h2 => le_antisymm h2 h1)
    (List.pairwise_ofFn.mpr fun i j hij => hu hij.le) (List.pairwise_ofFn.mpr fun i j hij => hv hij.le))

/-- A sum over the first indices is a sum over all. -/
theorem sum_first {r : Nat} (hr : r ≤ m) (F : Fin m → 𝕜) :
    ∑ i : Fin r, F (Fin.castLE hr i) = ∑ i : Fin m, if i.val < r then F i else 0 := by
  obtain ⟨d, rfl⟩ := Nat.exists_eq_add_of_le hr
  rw [Fin.sum_univ_add]
  simp only [Fin.val_castAdd, Fin.is_lt, if_true, Fin.val_natAdd]
  rw [Finset.sum_eq_zero (s := Finset.univ (α := Fin d)), add_zero]
  · rfl
  · intro i _
    rw [if_neg (by omega)]

section Kept

variable (lib lib' : Matrix (Fin m) (Fin m) 𝕜 → EighOut 𝕜 m) (argsort argsort' : (Fin m → ℝ) → Equiv.Perm (Fin m))
  (A A' Q : Matrix (Fin m) (Fin m) 𝕜) (s t : ℝ) (rtol : Option ℝ)

/-- Which eigenvalues are retained. -/
def KeptValue (w : Fin m → ℝ) (t : ℝ) (rtol : Option ℝ) (x : ℝ) : Prop :=
  t < |x| ∧ (∀ u ∈ rtol, ∃ k, (∀ i, |w i| ≤ |w k|) ∧ u * |w k| < |x|) ∧ ∀ j, w j < 0 → |w j| < |x|

variable {A lib argsort rtol t}

theorem retained_spec (hs : IsArgsort argsort) (hr : ∀ t ∈ rtol, 0 ≤ t) (e : Eigh 𝕜 m)
    (he : utilEigh lib argsort A (some t) rtol true = .ok e) :
    ∃ p : Equiv.Perm (Fin m), (Antitone fun i => |(lib A).w (p i)|) ∧ ∃ hle : e.r ≤ m,
      (∀ i : Fin m, i.val < e.r ↔ KeptValue (lib A).w t rtol ((lib A).w (p i))) ∧
      (∀ i, e.w i = (lib A).w (p (Fin.castLE hle i))) ∧ ∀ k i, e.V k i = (lib A).V k (p (Fin.castLE hle i)) := by
  obtain ⟨p, hp, hle, hk, hv⟩ := C20_kept_iff lib argsort A (some t) rtol true hs hr e he
  refine ⟨p, hp, hle, fun i => ?_, fun i => (hv i _ rfl).1, fun k i => (hv i _ rfl).2 k⟩
  rw [hk]
  unfold Obeys KeptValue
  have h0 : ∀ i, |(lib A).w i| ≤ |(lib A).w (p ⟨0, i.pos⟩)| := by
    intro i
    have := hp ⟨0, i.pos⟩ (p.symm i) (Fin.mk_le_of_le_val (Nat.zero_le _))
    rwa [Equiv.apply_symm_apply] at this
  constructor
  · rintro ⟨⟨h1, h2⟩, h3⟩
    exact ⟨h1 t rfl, fun u hu => ⟨_, h0, h2 u hu⟩, h3 rfl⟩
  · rintro ⟨h1, h2, h3⟩
    refine ⟨⟨fun u hu => by cases hu; exact h1, fun u hu => ?_⟩, fun _ => h3⟩
    obtain ⟨k, hk1, hk2⟩ := h2 u hu
    rwa [le_antisymm (h0 k) (hk1 _)] at hk2

theorem eigh_kept_functions (hs : IsArgsort argsort) (hr : ∀ t ∈ rtol, 0 ≤ t) (e : Eigh 𝕜 m)
    (he : utilEigh lib argsort A (some t) rtol true = .ok e) [DecidablePred (KeptValue (lib A).w t rtol)] (f : ℝ → 𝕜) :
    e.V * diagonal (fun i => f (e.w i)) * e.Vᴴ = (lib A).V *
      diagonal (fun i => if KeptValue (lib A).w t rtol ((lib A).w i) then f ((lib A).w i) else 0) * (lib A).Vᴴ := by
  obtain ⟨p, -, hle, hk, hw, hV⟩ := retained_spec hs hr e he
  ext k l
  rw [Matrix.mul_apply, Matrix.mul_apply]
  simp only [Matrix.mul_diagonal, conjTranspose_apply]
  rw [← Equiv.sum_comp p]
  simp only [hw, hV]
  rw [sum_first hle fun i => (lib A).V k (p i) * f ((lib A).w (p i)) * star ((lib A).V l (p i))]
  refine Finset.sum_congr rfl fun i _ => ?_
  by_cases h : i.val < e.r
  · rw [if_pos h, if_pos ((hk i).mp h)]
  · rw [if_neg h, if_neg (fun h' => h ((hk i).mpr h')), mul_zero, zero_mul]

variable {A' Q s lib' argsort'}

theorem eigh_mem (h : IsEigh A (lib A)) (h' : IsEigh A' (lib' A')) (hQ : Q * Qᴴ = 1) (hA : A' = (s : 𝕜) • (Qᴴ * A * Q))
    (hs0 : s ≠ 0) : (∀ i, ∃ j, (lib' A').w j = s * (lib A).w i) ∧ ∀ j, ∃ i, (lib' A').w j = s * (lib A).w i := by
  have hm := eigh_multiset h h' hQ hA hs0
  constructor
  · intro i
    have h1 : s * (lib A).w i ∈ Finset.univ.val.map (lib' A').w := by
      rw [hm]
      exact Multiset.mem_map.mpr ⟨i, Finset.mem_univ_val i, rfl⟩
    obtain ⟨j, -, hj⟩ := Multiset.mem_map.mp h1
    exact ⟨j, hj⟩
  · intro j
    have h1 : (lib' A').w j ∈ Finset.univ.val.map fun i => s * (lib A).w i := by
      rw [← hm]
      exact Multiset.mem_map.mpr ⟨j, Finset.mem_univ_val j, rfl⟩
    obtain ⟨i, -, hi⟩ := Multiset.mem_map.mp h1
    exact ⟨i, hi.symm⟩

theorem retained_scale {w w' : Fin m → ℝ} (hs0 : 0 < s) (h1 : ∀ i, ∃ j, w' j = s * w i) (h2 : ∀ j, ∃ i, w' j = s * w i)
    (x : ℝ) : KeptValue w' (s * t) rtol (s * x) ↔ KeptValue w t rtol x := by
  have ha : ∀ y : ℝ, |s * y| = s * |y| := fun y => by rw [abs_mul, abs_of_pos hs0]
  unfold KeptValue
  rw [ha x]
  refine and_congr (mul_lt_mul_iff_of_pos_left hs0) (and_congr (forall_congr' fun u => imp_congr_right fun _ => ?_) ?_)
  · constructor
    · rintro ⟨k', hk, hu⟩
      obtain ⟨k, hkk⟩ := h2 k'
      refine ⟨k, fun i => ?_, ?_⟩
      · obtain ⟨j, hj⟩ := h1 i
        have := hk j
        rw [hj, hkk, ha, ha] at this
        exact le_of_mul_le_mul_left this hs0
      · rw [hkk, ha, show u * (s * |w k|) = s * (u * |w k|) by ring] at hu
        exact lt_of_mul_lt_mul_left hu hs0.le
    · rintro ⟨k, hk, hu⟩
      obtain ⟨k', hkk⟩ := h1 k
      refine ⟨k', fun j => ?_, ?_⟩
      · obtain ⟨i, hi⟩ := h2 j
        rw [hi, hkk, ha, ha]
        exact mul_le_mul_of_nonneg_left (hk i) hs0.le
      · rw [hkk, ha, show u * (s * |w k|) = s * (u * |w k|) by ring]
        exact mul_lt_mul_of_pos_left hu hs0
  · constructor
    · intro h i hi
      obtain ⟨j, hj⟩ := h1 i
      have := h j (by rw [hj]; exact mul_neg_of_pos_of_neg hs0 hi)
      rw [hj, ha] at this
      exact lt_of_mul_lt_mul_left this hs0.le
    · intro h j hj
      obtain ⟨i, hi⟩ := h2 j
      rw [hi] at hj
      rw [hi, ha]
      exact mul_lt_mul_of_pos_left (h i (by by_contra hc; exact absurd hj (not_lt.mpr (mul_nonneg hs0.le (not_lt.mp hc))))) hs0

theorem retained_card (hs : IsArgsort argsort) (hr : ∀ t ∈ rtol, 0 ≤ t) (e : Eigh 𝕜 m)
    (he : utilEigh lib argsort A (some t) rtol true = .ok e) [DecidablePred (KeptValue (lib A).w t rtol)] :
    e.r = (Finset.univ.filter fun i => KeptValue (lib A).w t rtol ((lib A).w i)).card := by
  obtain ⟨p, -, hle, hk, hw, hV⟩ := retained_spec hs hr e he
  have h1 : (Finset.univ.filter fun i => KeptValue (lib A).w t rtol ((lib A).w i)).card =
      (Finset.univ.filter fun i : Fin m => i.val < e.r).card := by
    refine Finset.card_bij (fun i _ => p.symm i) (fun i hi => ?_) (fun i _ j _ h => p.symm.injective h) fun i hi => ?_
    · simp only [Finset.mem_filter, Finset.mem_univ, true_and] at hi ⊢
      rw [hk, Equiv.apply_symm_apply]
      exact hi
    · simp only [Finset.mem_filter, Finset.mem_univ, true_and] at hi
      refine ⟨p i, ?_, p.symm_apply_apply i⟩
      simp only [Finset.mem_filter, Finset.mem_univ, true_and]
      exact (hk i).mp hi
  rw [h1, Fin.card_filter_val_lt, min_eq_right hle]

/-- KeptValue eigenpairs of similar arrays: as many, the same eigenvalues, and the same functions. -/
theorem eigh_determined (h : IsEigh A (lib A)) (h' : IsEigh A' (lib' A')) (hQ : Q * Qᴴ = 1)
    (hA : A' = (s : 𝕜) • (Qᴴ * A * Q)) (hs0 : 0 < s) (ht : 0 ≤ t) (hs : IsArgsort argsort) (hs' : IsArgsort argsort')
    (hr : ∀ t ∈ rtol, 0 ≤ t) (e e' : Eigh 𝕜 m) (he : utilEigh lib argsort A (some t) rtol true = .ok e)
    (he' : utilEigh lib' argsort' A' (some (s * t)) rtol true = .ok e') :
    e'.r = e.r ∧ (∀ (i' : Fin e'.r) (i : Fin e.r), i'.val = i.val → e'.w i' = s * e.w i) ∧
    ∀ f g : ℝ → 𝕜, (∀ x, g (s * x) = f x) →
      e'.V * diagonal (fun i => g (e'.w i)) * e'.Vᴴ = Qᴴ * (e.V * diagonal (fun i => f (e.w i)) * e.Vᴴ) * Q := by
  classical
  obtain ⟨m1, m2⟩ := eigh_mem h h' hQ hA hs0.ne'
  have hret := retained_scale (t := t) (rtol := rtol) hs0 m1 m2
  refine ⟨?_, ?_, fun f g hfg => ?_⟩
  · rw [retained_card hs hr e he, retained_card hs' hr e' he']
    exact eigh_count h h' hQ hA _ _ hret
  · intro i' i hi
    obtain ⟨p, hp, hle, -, hw, -⟩ := retained_spec hs hr e he
    obtain ⟨p', hp', hle', -, hw', -⟩ := retained_spec hs' hr e' he'
    have hm := eigh_multiset h h' hQ hA hs0.ne'
    have hu : (fun i => |(lib' A').w (p' i)|) = fun i => s * |(lib A).w (p i)| := by
      refine antitone_unique hp' (fun i j hij => mul_le_mul_of_nonneg_left (hp hij) hs0.le) ?_
      have hm2 := congrArg (Multiset.map abs) hm
      rw [Multiset.map_map, Multiset.map_map] at hm2
      have r1 : ∀ (q : Equiv.Perm (Fin m)) (F : Fin m → ℝ), Finset.univ.val.map (fun i => F (q i)) = Finset.univ.val.map F := by
        intro q F
        conv_rhs => rw [← Multiset.map_univ_val_equiv q, Multiset.map_map]
        rfl
      rw [r1 p' fun i => |(lib' A').w i|, r1 p fun i => s * |(lib A).w i|]
      refine hm2.trans (Multiset.map_congr rfl fun i _ => ?_)
      rw [Function.comp_apply, abs_mul, abs_of_pos hs0]
    have h1 := congrFun hu (Fin.castLE hle i)
    have hcast : Fin.castLE hle i = Fin.castLE hle' i' := Fin.ext hi.symm
    have pos := C20_positive_partial lib argsort A rtol t ht hs hr e he i
    have pos' := C20_positive_partial lib' argsort' A' rtol (s * t) (mul_nonneg hs0.le ht) hs' hr e' he' i'
    rw [← hw i, abs_of_pos pos, hcast, ← hw' i', abs_of_pos pos'] at h1
    exact h1
  · rw [eigh_kept_functions hs hr e he, eigh_kept_functions hs' hr e' he']
    refine eigh_functions h h' hQ hA (fun x => if KeptValue (lib A).w t rtol x then f x else 0)
      (fun x => if KeptValue (lib' A').w (s * t) rtol x then g x else 0) fun x => ?_
    simp only [hret, hfg]

end Kept

end Modred
