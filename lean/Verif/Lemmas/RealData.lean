import Verif.Spec.RealData
import Verif.Props.DeterminedDmd

/-!
# Products and parts of real arrays
-/

namespace Modred

open Matrix
open scoped ComplexOrder

section Arrays

variable {p q s : Type*}

theorem realArr_iff {a : Matrix p q ℂ} : RealArr a ↔ a.map (starRingEnd ℂ) = a := by
  constructor
  · intro h
    ext i j
    exact Complex.conj_eq_iff_im.mpr (h i j)
  · intro h i j
    exact Complex.conj_eq_iff_im.mp (congrFun (congrFun h i) j)

theorem RealArr.mul [Fintype q] {a : Matrix p q ℂ} {b : Matrix q s ℂ} (ha : RealArr a) (hb : RealArr b) : RealArr (a * b) := by
  rw [realArr_iff] at *
  rw [Matrix.map_mul, ha, hb]

theorem RealArr.conjTranspose {a : Matrix p q ℂ} (ha : RealArr a) : RealArr aᴴ := by
  intro i j
  rw [conjTranspose_apply, Complex.star_def, Complex.conj_im, ha, neg_zero]

theorem RealArr.submatrix {t : Type*} {a : Matrix p q ℂ} (ha : RealArr a) (f : s → p) (g : t → q) : RealArr (a.submatrix f g) :=
  fun _ _ => ha _ _

theorem realArr_diagonal [DecidableEq p] {v : p → ℂ} (h : ∀ i, (v i).im = 0) : RealArr (diagonal v) := by
  intro i j
  by_cases hij : i = j
  · subst hij
    rw [diagonal_apply_eq, h]
  · rw [diagonal_apply_ne _ hij, Complex.zero_im]

theorem realArr_one [DecidableEq p] : RealArr (1 : Matrix p p ℂ) := by
  rw [← diagonal_one]
  exact realArr_diagonal fun _ => Complex.one_im

theorem realArr_diagPow {r : Nat} (x : Fin r → ℝ) (e : ℝ) : RealArr (diagPow (𝕜 := ℂ) x e) :=
  realArr_diagonal fun _ => Complex.ofReal_im _

theorem RealArr.inv [Fintype p] [DecidableEq p] {a : Matrix p p ℂ} (ha : RealArr a) (hu : IsUnit a.det) : RealArr a⁻¹ := by
  rw [realArr_iff] at *
  refine (inv_eq_left_inv ?_).symm
  have h : (a⁻¹ * a).map (starRingEnd ℂ) = 1 := by
    rw [nonsing_inv_mul a hu, Matrix.map_one _ (map_zero _) (map_one _)]
  rwa [Matrix.map_mul, ha] at h

end Arrays

theorem RealArr.firstCols {p q k : Nat} {a : Matrix (Fin p) (Fin q) ℂ} (ha : RealArr a) : RealArr (firstCols a k) :=
  fun _ _ => ha _ _

theorem RealArr.chosen {n r : Nat} {a : Matrix (Fin n) (Fin r) ℂ} (ha : RealArr a) {idx : Option (List Int)} {modes : Cols ℂ n}
    (h : Chosen a idx modes) : RealArr modes.a := by
  obtain ⟨sel, h, -⟩ := h
  rw [h]
  exact ha.submatrix _ _

/-- `eigh` of the library returns real eigenvectors. -/
theorem utilEigh_real {m : Nat} {lib : Matrix (Fin m) (Fin m) ℂ → EighOut ℂ m} {argsort : (Fin m → ℝ) → Equiv.Perm (Fin m)}
    {C : Matrix (Fin m) (Fin m) ℂ} {atol rtol : Option ℝ} {b : Bool} {e : Eigh ℂ m} (h : RealArr (lib C).V)
    (he : utilEigh lib argsort C atol rtol b = .ok e) : RealArr e.V := by
  unfold utilEigh at he
  dsimp only at he
  split at he
  · cases he
  split at he
  · cases he
  cases he
  exact (h.submatrix _ _).firstCols

theorem utilSvd_real {p q : Nat} {lib : Matrix (Fin p) (Fin q) ℂ → SvdOut ℂ p q} {a : Matrix (Fin p) (Fin q) ℂ}
    {atol rtol : Option ℝ} {s : Svd ℂ p q} (hU : RealArr (lib a).U) (hV : RealArr (lib a).Vh)
    (hs : utilSvd lib a atol rtol = .ok s) : RealArr s.U ∧ RealArr s.V := by
  unfold utilSvd at hs
  dsimp only at hs
  split at hs
  · cases hs
  cases hs
  exact ⟨hU.firstCols, hV.conjTranspose.firstCols⟩

theorem truncate_real {p q : Nat} {s : Svd ℂ p q} (hV : RealArr s.V) (k : Option Nat) : RealArr (s.truncate k).V := by
  cases k with
  | none => exact hV
  | some k =>
    unfold Svd.truncate
    dsimp only
    by_cases h : k < s.r
    · rw [if_pos h]
      exact hV.firstCols
    · rw [if_neg h]
      exact hV

/-! ### Conjugate pairs -/

section Pairs

variable {n m : Nat} {W : Matrix (Fin n) (Fin n) ℂ} {X Y : Matrix (Fin n) (Fin m) ℂ} {d : DmdDecomp ℂ m}

/-- The decomposition with conjugate eigenvalues and eigenvectors of the approximating map. -/
noncomputable def conjDecomp (d : DmdDecomp ℂ m) : DmdDecomp ℂ m :=
  ⟨d.r, d.w, d.V, fun i => starRingEnd ℂ (d.eigvals i), d.R.map (starRingEnd ℂ), d.L.map (starRingEnd ℂ)⟩

theorem map_conjTranspose {p q : Type*} (a : Matrix p q ℂ) : (a.map (starRingEnd ℂ))ᴴ = aᴴ.map (starRingEnd ℂ) := by
  ext i j
  rfl

theorem map_diagonal {r : Nat} (v : Fin r → ℂ) :
    diagonal (fun i => starRingEnd ℂ (v i)) = (diagonal v).map (starRingEnd ℂ) := by
  rw [Matrix.diagonal_map (map_zero _)]

theorem conjDecomp_core {C K : Matrix (Fin m) (Fin m) ℂ} (hK : RealArr K) (hV : RealArr d.V) (h : DmdCore C K d) :
    DmdCore C K (conjDecomp d) := by
  have hM : RealArr (lowOrderMap (diagPow (𝕜 := ℂ) d.w (-0.5)) d.V K) :=
    (realArr_diagPow _ _).mul (hV.conjTranspose.mul (hK.mul (hV.mul (realArr_diagPow _ _))))
  rw [realArr_iff] at hM
  refine ⟨h.herm, h.orth, h.eigen, h.pos, ?_, ?_, fun i => ?_⟩
  · change lowOrderMap (diagPow (𝕜 := ℂ) d.w (-0.5)) d.V K * d.R.map (starRingEnd ℂ) =
      d.R.map (starRingEnd ℂ) * diagonal (fun i => starRingEnd ℂ (d.eigvals i))
    rw [map_diagonal, ← Matrix.map_mul, ← h.right, Matrix.map_mul, hM]
  · change (d.L.map (starRingEnd ℂ))ᴴ * lowOrderMap (diagPow (𝕜 := ℂ) d.w (-0.5)) d.V K =
      diagonal (fun i => starRingEnd ℂ (d.eigvals i)) * (d.L.map (starRingEnd ℂ))ᴴ
    rw [map_diagonal, map_conjTranspose, ← Matrix.map_mul, ← h.left, Matrix.map_mul, hM]
  · obtain ⟨x, hx, e⟩ := h.eigenvalue i
    refine ⟨fun i => starRingEnd ℂ (x i), fun h => hx (funext fun i => ?_), funext fun j => ?_⟩
    · have h' : starRingEnd ℂ (x i) = 0 := congrFun h i
      simpa using h'
    · have e' : _ = starRingEnd ℂ (d.eigvals i * x j) := congrArg (starRingEnd ℂ) (congrFun e j)
      change (lowOrderMap (diagPow (𝕜 := ℂ) d.w (-0.5)) d.V K *ᵥ fun i => starRingEnd ℂ (x i)) j = starRingEnd ℂ (d.eigvals i) * starRingEnd ℂ (x j)
      rw [map_mul] at e'
      rw [← e']
      simp only [Matrix.mulVec, dotProduct, map_sum]
      refine Finset.sum_congr rfl fun k _ => ?_
      rw [map_mul]
      congr 1
      exact (congrFun (congrFun hM j) k).symm

theorem conj_builds (hV : RealArr d.V) : (conjDecomp d).buildProj = d.buildProj.map (starRingEnd ℂ) ∧
    (conjDecomp d).buildExact = d.buildExact.map (starRingEnd ℂ) ∧
    (conjDecomp d).buildAdjoint = d.buildAdjoint.map (starRingEnd ℂ) := by
  have hV' := realArr_iff.mp hV
  have hD := realArr_iff.mp (realArr_diagPow d.w (-0.5))
  have h1 : (conjDecomp d).buildProj = d.buildProj.map (starRingEnd ℂ) := by
    unfold DmdDecomp.buildProj
    rw [Matrix.map_mul, Matrix.map_mul, hV', hD]
    rfl
  refine ⟨h1, ?_, ?_⟩
  · rw [buildExact_eq, buildExact_eq, Matrix.map_mul, h1]
    congr 1
    rw [Matrix.diagonal_map (map_zero _)]
    congr 1
    ext i
    exact (map_inv₀ (starRingEnd ℂ) (d.eigvals i)).symm
  · unfold DmdDecomp.buildAdjoint
    rw [Matrix.map_mul, Matrix.map_mul, hV', hD]
    rfl

theorem conj_pairs (hW : RealArr W) (hX : RealArr X) (hY : RealArr Y) (hV : RealArr d.V)
    (hc : DmdCore (Xᴴ * W * X) (Xᴴ * W * Y) d) (hLR : d.Lᴴ * d.R = 1) (hinj : Function.Injective d.eigvals) :
    ∃ σ c, ConjugatePairs d.eigvals (Y * d.buildExact) (X * d.buildProj) (X * d.buildAdjoint)
      (d.Lᴴ * (diagPow (𝕜 := ℂ) d.w 0.5 * d.Vᴴ)) (d.Lᴴ * (diagPow (𝕜 := ℂ) d.w (-0.5) * (d.Vᴴ * (Xᴴ * W * Y)))) σ c := by
  have hK : RealArr (Xᴴ * W * Y) := (hX.conjTranspose.mul hW).mul hY
  have hc' := conjDecomp_core hK hV hc
  have hLR' : (conjDecomp d).Lᴴ * (conjDecomp d).R = 1 := by
    change (d.L.map (starRingEnd ℂ))ᴴ * d.R.map (starRingEnd ℂ) = 1
    rw [map_conjTranspose, ← Matrix.map_mul, hLR, Matrix.map_one _ (map_zero _) (map_one _)]
  have hinj' : Function.Injective (conjDecomp d).eigvals := fun i j h => hinj ((starRingEnd ℂ).injective h)
  have hsp : SameSpectrum (‖(1 : ℂ)‖ ^ 2) (1 : Matrix (Fin m) (Fin m) ℂ) d (conjDecomp d) := by
    intro f g hfg
    rw [conjTranspose_one, Matrix.one_mul, Matrix.mul_one]
    change d.V * diagonal (fun i => g (d.w i)) * d.Vᴴ = _
    congr 3
    ext i
    have := hfg (d.w i) (hc.pos i)
    rwa [norm_one, one_pow, one_mul] at this
  have hs := same_dmd (a := (1 : ℂ)) (b := 1) (Q := (1 : Matrix (Fin m) (Fin m) ℂ)) (W := W) (X := X) (Y := Y)
    (by rw [conjTranspose_one, Matrix.mul_one]) one_ne_zero one_ne_zero hc
    (by rw [Matrix.mul_one, Matrix.mul_one, one_smul, one_smul]; exact hc') hLR hLR' hsp
  rw [Matrix.mul_one, Matrix.mul_one, one_smul, one_smul] at hs
  have hdual : ∀ {e : DmdDecomp ℂ m}, DmdCore (Xᴴ * W * X) (Xᴴ * W * Y) e → e.Lᴴ * e.R = 1 →
      (X * e.buildAdjoint)ᴴ * W * (X * e.buildProj) = 1 := by
    intro e he hl
    rw [conjTranspose_mul, ← he.adjoint_proj hl]
    simp only [Matrix.mul_assoc]
  have hone := C95_single_modes W hs one_ne_zero one_ne_zero hinj hinj' (hdual hc hLR) (hdual hc' hLR')
  choose σ h1 c h2 h3 h4 using hone
  obtain ⟨b1, b2, b3⟩ := conj_builds hV
  have hX' := realArr_iff.mp hX
  have hY' := realArr_iff.mp hY
  have hK' := realArr_iff.mp hK
  have hVt := realArr_iff.mp hV.conjTranspose
  have p1 : X * (conjDecomp d).buildProj = (X * d.buildProj).map (starRingEnd ℂ) := by
    rw [b1, Matrix.map_mul, hX']
    rfl
  have p2 : Y * (conjDecomp d).buildExact = (Y * d.buildExact).map (starRingEnd ℂ) := by
    rw [b2, Matrix.map_mul, hY']
    rfl
  have p3 : X * (conjDecomp d).buildAdjoint = (X * d.buildAdjoint).map (starRingEnd ℂ) := by
    rw [b3, Matrix.map_mul, hX']
    rfl
  have p4 : (conjDecomp d).Lᴴ * (diagPow (𝕜 := ℂ) (conjDecomp d).w 0.5 * (conjDecomp d).Vᴴ) =
      (d.Lᴴ * (diagPow (𝕜 := ℂ) d.w 0.5 * d.Vᴴ)).map (starRingEnd ℂ) := by
    rw [Matrix.map_mul, Matrix.map_mul, hVt, realArr_iff.mp (realArr_diagPow d.w 0.5)]
    rfl
  have p5 : (conjDecomp d).Lᴴ * (diagPow (𝕜 := ℂ) (conjDecomp d).w (-0.5) * ((conjDecomp d).Vᴴ * (Xᴴ * W * Y))) =
      (d.Lᴴ * (diagPow (𝕜 := ℂ) d.w (-0.5) * (d.Vᴴ * (Xᴴ * W * Y)))).map (starRingEnd ℂ) := by
    rw [Matrix.map_mul, Matrix.map_mul, Matrix.map_mul, hVt, hK', realArr_iff.mp (realArr_diagPow d.w (-0.5))]
    rfl
  rw [p1, p2, p3] at h3
  rw [p4, p5] at h4
  have hσ : ∀ i, d.eigvals (σ i) = starRingEnd ℂ (d.eigvals i) := by
    intro i
    have h := congrArg (starRingEnd ℂ) (h1 i)
    rw [div_one, one_mul] at h
    rw [← h]
    exact (Complex.conj_conj _).symm
  have flip : ∀ {x y z : ℂ}, starRingEnd ℂ x = y * z → x = starRingEnd ℂ y * starRingEnd ℂ z := by
    intro x y z h
    rw [← map_mul, ← h, Complex.conj_conj]
  have flip' : ∀ {x y z : ℂ}, y * starRingEnd ℂ x = z → starRingEnd ℂ y * x = starRingEnd ℂ z := by
    intro x y z h
    rw [← h, map_mul, Complex.conj_conj]
  refine ⟨σ, fun i => starRingEnd ℂ (c i), fun i => hinj ?_, hσ, fun i => ?_, fun i k => flip (h3 i k).2.1,
    fun i k => flip (h3 i k).1, fun i k => ?_, fun i j => ?_, fun i j => ?_⟩
  · exact (hσ (σ i)).trans ((congrArg _ (hσ i)).trans (Complex.conj_conj _))
  · rw [Ne, map_eq_zero]
    exact h2 i
  · exact flip' (h3 i k).2.2
  · have := (h4 i j).1
    rw [one_mul, Matrix.mul_one] at this
    exact flip' this
  · have := (h4 i j).2
    rw [one_mul, Matrix.mul_one] at this
    exact flip' this

end Pairs

end Modred
