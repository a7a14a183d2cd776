import Verif.Props.RealData

/-!
# Real data give real balanced modes and real models (C107), and examples
-/

namespace Modred

open Matrix
open scoped ComplexOrder

section Bpod

variable {n md ma : Nat} (svd : Matrix (Fin ma) (Fin md) ℂ → SvdOut ℂ ma md) (X : Matrix (Fin n) (Fin md) ℂ)
  (Y : Matrix (Fin n) (Fin ma) ℂ) (p q : Nat) (idxD idxA : Option (List Int)) (weights : Option (NdArray ℂ))
  (ws : Weights ℂ) (atol rtol : Option ℝ)

theorem linCombine_real {n p q : Nat} {X : Matrix (Fin n) (Fin p) ℂ} {b : Matrix (Fin p) (Fin q) ℂ} (hX : RealArr X)
    (hb : RealArr b) {idx : Option (List Int)} {c : Cols ℂ n} (h : linCombineArrays X b idx = .ok c) : RealArr c.a := by
  unfold linCombineArrays at h
  split at h
  · cases h
  rename_i d hd
  cases h
  exact hX.mul (pickCols_real idx hb hd)

/-- The entries of the Hankel array are inner products. -/
theorem bpodHankel_real {k l : Nat} (hk : k = min p md) (hl : l = lastCount q ma) {F : Matrix (Fin ma) (Fin k) ℂ}
    {L : Matrix (Fin l) (Fin md) ℂ} (hF : RealArr F) (hL : RealArr L) (rows : List (List ℂ))
    (h : bpodHankel p q F L = .ok rows) (hshape : shapeOf rows = (ma, md)) : RealArr (ofRows ma md rows) := by
  obtain ⟨hp, hq, hs, ht, hsh⟩ := bpodHankel_shape (p := p) (q := q) hk hl F L rows h
  have hpm : p ≤ md := by
    by_contra hlt
    rw [Nat.div_eq_of_lt (by omega)] at ht
    omega
  rw [lastCount_eq hq hs] at hl
  rw [min_eq_left hpm] at hk
  obtain ⟨rows', h1, h2, h3⟩ := bpodHankel_ok hp hq hs ht hk hl F L
    (fun i j => if h : i < ma ∧ j < k then F ⟨i, h.1⟩ ⟨j, h.2⟩ else 0)
    (fun i j => if h : i < l ∧ j < md then L ⟨i, h.1⟩ ⟨j, h.2⟩ else 0)
    (fun i j => by rw [dif_pos ⟨i.2, j.2⟩]) (fun i j => by rw [dif_pos ⟨i.2, j.2⟩])
  rw [h] at h1
  cases h1
  rw [hshape] at h2
  obtain ⟨e1, e2⟩ := Prod.mk.inj h2
  intro i j
  have := h3 ⟨i, e1 ▸ i.2⟩ ⟨j, e2 ▸ j.2⟩
  have hij : ofRows ma md rows i j = ofRows (ma / q * q) (md / p * p) rows ⟨i, e1 ▸ i.2⟩ ⟨j, e2 ▸ j.2⟩ := rfl
  rw [hij, this]
  dsimp only
  split
  · split
    · exact hF _ _
    · exact Complex.zero_im
  · split
    · exact hL _ _
    · exact Complex.zero_im

/-- **C107.** Balanced proper orthogonal decomposition. -/
theorem C107_bpod (hl : ∀ B, RealArr B → RealArr (svd B).U ∧ RealArr (svd B).Vh) (hws : arraysInit weights = .ok ws)
    (hfit : ws.Fits n) (hW : RealArr (ws.matrix n)) (hX : RealArr X) (hY : RealArr Y) (res : BpodResult ℂ n md ma)
    (hres : bpodArrays svd X Y p q idxD idxA weights atol rtol = .ok res) :
    RealArr res.hankel ∧ RealArr res.directModes.a ∧ RealArr res.adjointModes.a ∧ RealArr res.directProjCoeffs ∧
      RealArr res.adjointProjCoeffs ∧ RealArr res.L ∧ RealArr res.R := by
  obtain ⟨rows, s, dm, am, h1, h2, h3, h4, h5, rfl⟩ := bpodArrays_cases svd X Y p q idxD idxA weights ws atol rtol hws hfit res hres
  have hH : RealArr (ofRows ma md rows) := bpodHankel_real p q rfl rfl ((hY.conjTranspose.mul hW).mul hX.firstCols)
    (RealArr.mul (RealArr.mul (RealArr.conjTranspose fun _ _ => hY _ _) hW) hX) rows h1 h2
  obtain ⟨hU, hV⟩ := utilSvd_real (hl _ hH).1 (hl _ hH).2 h3
  exact ⟨hH, linCombine_real hX (hV.mul (realArr_diagPow _ _)) h4, linCombine_real hY (hU.mul (realArr_diagPow _ _)) h5,
    (realArr_diagPow _ _).mul hV.conjTranspose, (realArr_diagPow _ _).mul hU.conjTranspose, hU, hV⟩

end Bpod

section Era

theorem hankelStep_real {cast : ℂ → ℂ} (hcast : ∀ z, z.im = 0 → (cast z).im = 0) {m : Markovs ℂ}
    (hm : ∀ i j k, (m.at_ i j k).im = 0) {a b : HankelPair ℂ} {rc : Nat × Nat}
    (ha : (∀ i j, (a.h i j).im = 0) ∧ ∀ i j, (a.h2 i j).im = 0) (h : hankelStep cast m (.ok a) rc = .ok b) :
    (∀ i j, (b.h i j).im = 0) ∧ ∀ i j, (b.h2 i j).im = 0 := by
  unfold hankelStep at h
  dsimp only at h
  split at h
  swap
  · cases h
  cases h
  have hset : ∀ {f : Nat → Nat → ℂ} {g : Nat → Nat → ℂ} {r no c ni : Nat}, (∀ i j, (f i j).im = 0) → (∀ i j, (g i j).im = 0) →
      ∀ i j, (setBlock cast f r no c ni g i j).im = 0 := by
    intro f g r no c ni hf hg i j
    unfold setBlock
    split
    · exact hcast _ (hg _ _)
    · exact hf _ _
  exact ⟨hset ha.1 fun _ _ => hm _ _ _, hset ha.2 fun _ _ => hm _ _ _⟩

theorem assembleHankel_real {cast : ℂ → ℂ} (hcast : ∀ z, z.im = 0 → (cast z).im = 0) {m : Markovs ℂ}
    (hm : ∀ i j k, (m.at_ i j k).im = 0) {mc mo : Option Int} {h : HankelPair ℂ} (hh : assembleHankel cast m mc mo = .ok h) :
    (∀ i j, (h.h i j).im = 0) ∧ ∀ i j, (h.h2 i j).im = 0 := by
  have fold : ∀ (l : List (Nat × Nat)) (acc : Except Err (HankelPair ℂ)),
      (∀ a, acc = .ok a → (∀ i j, (a.h i j).im = 0) ∧ ∀ i j, (a.h2 i j).im = 0) →
      ∀ b, l.foldl (hankelStep cast m) acc = .ok b → (∀ i j, (b.h i j).im = 0) ∧ ∀ i j, (b.h2 i j).im = 0 := by
    intro l
    induction l with
    | nil => exact fun acc h b hb => h b hb
    | cons x l ih =>
      intro acc hacc b hb
      refine ih _ ?_ b hb
      intro a ha
      cases acc with
      | error e => cases ha
      | ok a' => exact hankelStep_real hcast hm (hacc a' rfl) ha
  unfold assembleHankel at hh
  dsimp only at hh
  split at hh
  · cases hh
  split at hh
  · cases hh
  refine fold _ _ ?_ _ hh
  intro a ha
  cases ha
  exact ⟨fun _ _ => Complex.zero_im, fun _ _ => Complex.zero_im⟩

/-- **C107.** The eigensystem realization algorithm: real Markov parameters give a real model. -/
theorem C107_era (svd : ∀ {m n : Nat}, Matrix (Fin m) (Fin n) ℂ → SvdOut ℂ m n)
    (hl : ∀ {m n : Nat} (B : Matrix (Fin m) (Fin n) ℂ), RealArr B → RealArr (svd B).U ∧ RealArr (svd B).Vh) (cast : ℂ → ℂ)
    (hcast : ∀ z, z.im = 0 → (cast z).im = 0) (self : EraObj) (markovs : MarkovsIn ℂ) (m : Markovs ℂ)
    (hset : setMarkovs markovs = .ok m) (hm : ∀ i j k, (m.at_ i j k).im = 0) (numStates : Nat) (mc mo : Option Int)
    (obj : EraObj) (model : LtiModel ℂ) (h : eraModel svd cast self markovs numStates mc mo = .ok (obj, model)) :
    RealArr model.A ∧ RealArr model.B ∧ RealArr model.C := by
  unfold eraModel at h
  rw [hset] at h
  dsimp only at h
  split at h
  · cases h
  rename_i self' hp hh
  split at h
  · cases h
  rename_i model' hr
  cases h
  unfold eraHankel at hh
  rw [hset] at hh
  dsimp only at hh
  split at hh
  · cases hh
  rename_i hp' hass
  cases hh
  obtain ⟨r1, r2⟩ := assembleHankel_real hcast hm hass
  have hA : RealArr hp.array := fun i j => r1 _ _
  have hA2 : RealArr hp.array2 := fun i j => r2 _ _
  unfold eraReduce at hr
  split at hr
  · cases hr
  rename_i s hs
  obtain ⟨hU, hV⟩ := utilSvd_real (hl _ hA).1 (hl _ hA).2 hs
  cases hr
  refine ⟨(realArr_diagPow _ _).mul (hU.firstCols.conjTranspose.mul (hA2.mul (hV.firstCols.mul (realArr_diagPow _ _)))),
    (realArr_diagPow _ _).mul hV.firstCols.conjTranspose.firstCols, ?_⟩
  exact RealArr.mul (fun _ _ => hU.firstCols _ _) (realArr_diagPow _ _)

end Era

/-! ### Examples -/

section Library

variable {p q s : Type*}

/-- A real array as a complex one. -/
def toComplex (a : Matrix p q ℝ) : Matrix p q ℂ := a.map (↑)

theorem toComplex_real (a : Matrix p q ℝ) : RealArr (toComplex a) := fun _ _ => Complex.ofReal_im _

theorem toComplex_re {a : Matrix p q ℂ} (h : RealArr a) : toComplex (a.map Complex.re) = a := by
  ext i j
  exact Complex.ext rfl (h i j).symm

theorem toComplex_mul [Fintype q] (a : Matrix p q ℝ) (b : Matrix q s ℝ) : toComplex (a * b) = toComplex a * toComplex b :=
  Matrix.map_mul (f := Complex.ofRealHom)

theorem toComplex_conjTranspose (a : Matrix p q ℝ) : toComplex aᴴ = (toComplex a)ᴴ := by
  ext i j
  exact (Complex.conj_ofReal _).symm

theorem toComplex_diagonal [DecidableEq p] (v : p → ℝ) : toComplex (diagonal v) = diagonal fun i => ((v i : ℝ) : ℂ) :=
  Matrix.diagonal_map Complex.ofReal_zero

theorem toComplex_one [DecidableEq p] : toComplex (1 : Matrix p p ℝ) = 1 :=
  Matrix.map_one _ Complex.ofReal_zero Complex.ofReal_one

theorem svd_toComplex {m n : Nat} {a : Matrix (Fin m) (Fin n) ℝ} {o : SvdOut ℝ m n} (h : IsSvd a o) :
    IsSvd (toComplex a) ⟨toComplex o.U, o.S, toComplex o.Vh⟩ where
  left := by
    change (toComplex o.U)ᴴ * toComplex o.U = 1
    rw [← toComplex_conjTranspose, ← toComplex_mul, h.left, toComplex_one]
  right := by
    change toComplex o.Vh * (toComplex o.Vh)ᴴ = 1
    rw [← toComplex_conjTranspose, ← toComplex_mul, h.right, toComplex_one]
  product := by
    change toComplex a = toComplex o.U * diagonal (fun i => ((o.S i : ℝ) : ℂ)) * toComplex o.Vh
    rw [← toComplex_diagonal, ← toComplex_mul, ← toComplex_mul]
    exact congrArg _ h.product
  nonneg := h.nonneg
  sorted := h.sorted

theorem eigh_toComplex {n : Nat} {a : Matrix (Fin n) (Fin n) ℝ} {o : EighOut ℝ n} (h : IsEigh a o) :
    IsEigh (toComplex a) ⟨o.w, toComplex o.V⟩ where
  orthonormal := by
    change (toComplex o.V)ᴴ * toComplex o.V = 1
    rw [← toComplex_conjTranspose, ← toComplex_mul, h.orthonormal, toComplex_one]
  eigen := by
    change toComplex a * toComplex o.V = toComplex o.V * diagonal (fun i => ((o.w i : ℝ) : ℂ))
    rw [← toComplex_diagonal, ← toComplex_mul, ← toComplex_mul]
    exact congrArg _ h.eigen

/-- There are correct libraries that return real arrays for real arrays. -/
theorem exists_realSvd : ∃ svd : ∀ {m n : Nat}, Matrix (Fin m) (Fin n) ℂ → SvdOut ℂ m n,
    (∀ {m n : Nat} (B : Matrix (Fin m) (Fin n) ℂ), IsSvd B (svd B)) ∧
    ∀ {m n : Nat} (B : Matrix (Fin m) (Fin n) ℂ), RealArr B → RealArr (svd B).U ∧ RealArr (svd B).Vh := by
  have h : ∀ (m n : Nat) (B : Matrix (Fin m) (Fin n) ℂ), ∃ o, IsSvd B o ∧ (RealArr B → RealArr o.U ∧ RealArr o.Vh) := by
    intro m n B
    by_cases hB : RealArr B
    · obtain ⟨o, ho⟩ := exists_isSvd (B.map Complex.re)
      refine ⟨⟨toComplex o.U, o.S, toComplex o.Vh⟩, ?_, fun _ => ⟨toComplex_real _, toComplex_real _⟩⟩
      have := svd_toComplex ho
      rwa [toComplex_re hB] at this
    · obtain ⟨o, ho⟩ := exists_isSvd B
      exact ⟨o, ho, fun h => absurd h hB⟩
  choose svd h1 h2 using h
  exact ⟨fun {m n} B => svd m n B, fun {m n} B => h1 m n B, fun {m n} B => h2 m n B⟩

theorem exists_realLib (n m : Nat) : ∃ lib : PodLib ℂ n m, RealLib lib ∧ (∀ B, IsSvd B (lib.svd B)) ∧
    (∀ C, C.IsHermitian → IsEigh C (lib.eigh C)) ∧ IsArgsort lib.argsort ∧
    ∀ W : Matrix (Fin n) (Fin n) ℂ, W.PosDef → RealArr W → IsCholesky lib.cholesky W := by
  classical
  obtain ⟨svd, s1, s2⟩ := exists_realSvd
  obtain ⟨libR, -, eR, -, cR⟩ := exists_podLib (𝕜 := ℝ) n m
  obtain ⟨libC, -, eC, sC, -⟩ := exists_podLib (𝕜 := ℂ) n m
  have hherm : ∀ {k : Nat} {C : Matrix (Fin k) (Fin k) ℂ}, RealArr C → C.IsHermitian → (C.map Complex.re).IsHermitian := by
    intro k C hC hH
    ext i j
    have := congrArg Complex.re (congrFun (congrFun hH i) j)
    rw [conjTranspose_apply, Complex.star_def, Complex.conj_re] at this
    exact this
  refine ⟨⟨fun C => if RealArr C then ⟨(libR.eigh (C.map Complex.re)).w, toComplex (libR.eigh (C.map Complex.re)).V⟩
    else libC.eigh C, libC.argsort, svd, fun w => if RealArr w then (libR.cholesky (w.map Complex.re)).map toComplex else none⟩,
    ⟨?_, s2, ?_⟩, s1, ?_, sC, ?_⟩
  · intro C hC
    dsimp only
    rw [if_pos hC]
    exact toComplex_real _
  · intro w l hw h
    dsimp only at h
    rw [if_pos hw, Option.map_eq_some_iff] at h
    obtain ⟨l', -, rfl⟩ := h
    exact toComplex_real _
  · intro C hH
    dsimp only
    split
    · rename_i hC
      have := eigh_toComplex (eR _ (hherm hC hH))
      rwa [toComplex_re hC] at this
    · exact eC C hH
  · intro W hW hr
    have hWR : (W.map Complex.re).PosDef := by
      refine PosDef.of_dotProduct_mulVec_pos (hherm hr hW.1) fun x hx => ?_
      have hne : (fun i => ((x i : ℝ) : ℂ)) ≠ 0 := by
        intro h0
        exact hx (funext fun i => Complex.ofReal_eq_zero.mp (congrFun h0 i))
      have h := hW.dotProduct_mulVec_pos hne
      have e : star (fun i => ((x i : ℝ) : ℂ)) ⬝ᵥ W *ᵥ (fun i => ((x i : ℝ) : ℂ)) =
          ((star x ⬝ᵥ W.map Complex.re *ᵥ x : ℝ) : ℂ) := by
        conv_lhs => rw [← toComplex_re hr]
        simp only [dotProduct, mulVec, Pi.star_apply, Complex.star_def, Complex.conj_ofReal, toComplex, Matrix.map_apply,
          Complex.ofReal_sum, Complex.ofReal_mul, star_trivial]
      rw [e] at h
      exact Complex.zero_lt_real.mp h
    obtain ⟨l, h1, h2⟩ := cR _ hWR
    refine ⟨toComplex l, ?_, ?_⟩
    · dsimp only
      rw [if_pos hr, h1]
      rfl
    · rw [← toComplex_conjTranspose, ← toComplex_mul, h2, toComplex_re hr]

end Library

/-- A real library that returns the obvious decomposition of the identity. -/
theorem exists_realExampleLib : ∃ lib : PodLib ℂ 2 2, RealLib lib ∧
    (∀ C, C.IsHermitian → IsEigh C (lib.eigh C)) ∧ IsArgsort lib.argsort ∧
    utilEigh lib.eigh lib.argsort 1 (some (1 / 10)) none true = .ok ⟨2, fun _ => 1, 1⟩ := by
  classical
  obtain ⟨lib, hl, -, heigh, hs, -⟩ := exists_realLib 2 2
  refine ⟨⟨fun a => if a = 1 then ⟨fun _ => 1, 1⟩ else lib.eigh a,
    fun x => if Monotone (x ∘ Fin.revPerm) then Fin.revPerm else lib.argsort x, lib.svd, lib.cholesky⟩,
    ⟨?_, hl.svd, hl.cholesky⟩, ?_, ?_, ?_⟩
  · intro C hC
    dsimp only
    split
    · exact realArr_one
    · exact hl.eigh C hC
  · intro a ha
    dsimp only
    split
    · rename_i h
      subst h
      exact ⟨by simp, by simp⟩
    · exact heigh a ha
  · intro x
    dsimp only
    split
    · rename_i h
      exact h
    · exact hs x
  · have h1 : numRetained (fun _ : Fin 2 => (1 : ℝ)) (some (1 / 10)) none = .ok 2 := by
      simp only [numRetained, numAbove]
      congr 1
      rw [Finset.filter_true_of_mem]
      · rfl
      · intro i _
        norm_num
    have h2 : adjustTol (fun _ : Fin 2 => (1 : ℝ)) (some (1 / 10)) true = .ok (some (1 / 10)) := by
      simp only [adjustTol, npMin, if_true, dif_pos (Nat.zero_lt_two)]
      rw [if_neg]
      exact not_lt.mpr (Finset.le_inf' _ _ fun _ _ => zero_le_one)
    unfold utilEigh
    simp only [if_true]
    have hm : Monotone ((fun _ : Fin 2 => |(1 : ℝ)|) ∘ Fin.revPerm) := fun _ _ _ => le_refl _
    simp only [if_pos hm]
    rw [h2]
    dsimp only
    rw [h1]
    dsimp only
    have h3 : ((1 : Matrix (Fin 2) (Fin 2) ℂ).submatrix id fun i : Fin 2 => Fin.revPerm i.rev) = 1 := by
      ext i j
      simp
      rfl
    rw [h3]
    rfl

/-- Eigenvalues and eigenvectors of a rotation by a quarter of a turn. -/
noncomputable def quarterTurnEig : ∀ {r : Nat}, Matrix (Fin r) (Fin r) ℂ → EigOut ℂ r
  | 2, _ => ⟨![Complex.I, -Complex.I], !![1, 1; -Complex.I, Complex.I], !![1, 1; -Complex.I, Complex.I]⟩
  | _, _ => ⟨0, 0, 0⟩

theorem quarterTurnEig_isEig : IsEig (!![0, -1; 1, 0] : Matrix (Fin 2) (Fin 2) ℂ) (quarterTurnEig !![0, -1; 1, 0]) where
  right := by
    ext i j
    rw [mul_diagonal]
    fin_cases i <;> fin_cases j <;> simp [quarterTurnEig, Matrix.mul_apply, Fin.sum_univ_two]
  left := by
    ext i j
    rw [diagonal_mul]
    fin_cases i <;> fin_cases j <;> simp [quarterTurnEig, Matrix.mul_apply, Fin.sum_univ_two]
  right_nonzero := by
    intro j h
    have h0 := congrFun h 0
    fin_cases j <;> simp [quarterTurnEig] at h0
  left_nonzero := by
    intro j h
    have h0 := congrFun h 0
    fin_cases j <;> simp [quarterTurnEig] at h0

/-- Vectors that are turned by a quarter of a turn: the eigenvalues `i` and `-i` are one pair, and predictions any
number of steps ahead are real. -/
example : ∃ (lib : PodLib ℂ 2 2) (res : DmdResult ℂ 2 2) (corr cross : Matrix (Fin 2) (Fin 2) ℂ),
    dmdSnapsPairs lib quarterTurnEig 1 ⟨2, 2, !![0, -1; 1, 0]⟩ none none (some (1 / 10)) none none = .ok (res, corr, cross) ∧
    res.decomp.r = 2 ∧ (∃ i, res.decomp.eigvals i = Complex.I) ∧ ∃ exact proj adjoint σ c,
      Chosen exact none res.exactModes ∧
      ConjugatePairs (n := 2) res.decomp.eigvals exact proj adjoint res.projCoeffs res.advProjCoeffs σ c ∧ (∀ i, σ i ≠ i) ∧
      ∀ k : Nat, RealArr (exact * diagonal (fun i => res.decomp.eigvals i ^ k) * res.projCoeffs) := by
  obtain ⟨lib, hl, heigh, hs, hu⟩ := exists_realExampleLib
  obtain ⟨⟨res, corr, cross⟩, hres⟩ := (C26_snaps_no_error lib quarterTurnEig (1 / 10) none none Nat.zero_lt_two none .none rfl
    trivial (Matrix.of fun _ _ => 0) 1 !![0, -1; 1, 0]).2
  obtain ⟨h1, h2, hd, -⟩ := dmdSnapsPairs_ok lib quarterTurnEig none none .none _ none none rfl trivial 1 !![0, -1; 1, 0] res
    _ _ hres
  have h1' : corr = 1 := by
    rw [h1, show (Weights.none : Weights ℂ).matrix 2 = 1 from rfl, Matrix.mul_one, conjTranspose_one, Matrix.mul_one]
  have h2' : cross = !![0, -1; 1, 0] := by
    rw [h2, show (Weights.none : Weights ℂ).matrix 2 = 1 from rfl, Matrix.mul_one, conjTranspose_one, Matrix.one_mul]
  have hlow : lowOrderMap (diagPow (𝕜 := ℂ) (fun _ : Fin 2 => (1 : ℝ)) (-0.5)) (1 : Matrix (Fin 2) (Fin 2) ℂ)
      !![0, -1; 1, 0] = !![0, -1; 1, 0] := by
    have hp : diagPow (𝕜 := ℂ) (fun _ : Fin 2 => (1 : ℝ)) (-0.5) = 1 := by
      ext i j
      simp [diagPow, Matrix.one_apply, diagonal_apply]
    unfold lowOrderMap
    rw [hp, conjTranspose_one]
    simp only [Matrix.one_mul, Matrix.mul_one]
  rw [h1', h2'] at hd
  unfold dmdEigendecomp at hd
  rw [hu] at hd
  have hdec := (Except.ok.inj hd).symm
  have heig : EigOfReduced quarterTurnEig ((Weights.none : Weights ℂ).matrix 2) 1 !![0, -1; 1, 0] res.decomp := by
    rw [hdec]
    unfold EigOfReduced
    change IsEig (lowOrderMap (diagPow (𝕜 := ℂ) (fun _ : Fin 2 => (1 : ℝ)) (-0.5)) (1 : Matrix (Fin 2) (Fin 2) ℂ)
      ((1 : Matrix (Fin 2) (Fin 2) ℂ)ᴴ * 1 * !![0, -1; 1, 0])) (quarterTurnEig (lowOrderMap _ _ _))
    rw [conjTranspose_one, Matrix.mul_one, Matrix.one_mul, hlow]
    exact quarterTurnEig_isEig
  have hI : Complex.I ≠ -Complex.I := fun h => by
    have := congrArg Complex.im h
    norm_num at this
  have hinj : Function.Injective res.decomp.eigvals := by
    rw [hdec]
    change Function.Injective (![Complex.I, -Complex.I] : Fin 2 → ℂ)
    intro i j hij
    fin_cases i <;> fin_cases j
    · rfl
    · exact absurd hij hI
    · exact absurd hij.symm hI
    · rfl
  have himag : ∀ i, starRingEnd ℂ (res.decomp.eigvals i) ≠ res.decomp.eigvals i := by
    rw [hdec]
    change ∀ i : Fin 2, starRingEnd ℂ ((![Complex.I, -Complex.I] : Fin 2 → ℂ) i) ≠ (![Complex.I, -Complex.I] : Fin 2 → ℂ) i
    intro i
    fin_cases i
    · simp only [Fin.zero_eta, cons_val_zero, Complex.conj_I]
      exact hI.symm
    · change starRingEnd ℂ (-Complex.I) ≠ -Complex.I
      rw [map_neg, Complex.conj_I, neg_neg]
      exact hI
  have hYr : RealArr (!![0, -1; 1, 0] : Matrix (Fin 2) (Fin 2) ℂ) := by
    intro i j
    fin_cases i <;> fin_cases j <;> simp
  obtain ⟨-, -, exact, proj, adjoint, σ, c, hch, hp⟩ := C107_dmd_snaps_pairs lib quarterTurnEig none (1 / 10) none none hl none .none
    rfl trivial realArr_one isHermitian_one (by norm_num) (by simp) hs heigh 1 !![0, -1; 1, 0] realArr_one hYr res corr cross hres
    heig hinj
  refine ⟨lib, res, corr, cross, hres, by rw [hdec]; rfl, ?_, exact, proj, adjoint, σ, c, hch.1, hp, ?_, fun k => ?_⟩
  · rw [hdec]
    exact ⟨(0 : Fin 2), rfl⟩
  · intro i hi
    have := hp.eigvals i
    rw [hi] at this
    exact himag i this.symm
  · exact (C107_predictions hp (fun z => z ^ k) fun z => (map_pow (starRingEnd ℂ) z k).symm).1

/-- Weighted real vectors, with weights that are no diagonal array: the direct method returns real modes. -/
example : ∃ (lib : PodLib ℂ 2 2) (res : PodResult ℂ 2 2),
    podDirect lib !![1, 2; 0, 1] none (.d2 2 2 fun i j => if i = j then 2 else 1) (some 0) none = .ok res ∧ RealArr res.modes.a := by
  obtain ⟨lib, hl, hsvd, -, -, hch⟩ := exists_realLib 2 2
  have hm : (DirectWeights.d2 2 2 fun i j => if i = j then (2 : ℂ) else 1).matrix 2 = !![2, 1; 1, 2] := by
    ext i j
    fin_cases i <;> fin_cases j <;> simp [DirectWeights.matrix]
  have hp : (!![2, 1; 1, 2] : Matrix (Fin 2) (Fin 2) ℂ).PosDef := by
    have h : (!![2, 1; 1, 2] : Matrix (Fin 2) (Fin 2) ℂ) = 1 + (!![1, 1; 0, 0] : Matrix (Fin 2) (Fin 2) ℂ)ᴴ * !![1, 1; 0, 0] := by
      ext i j
      fin_cases i <;> fin_cases j <;> simp [Matrix.mul_apply, Fin.sum_univ_two] <;> norm_num
    rw [h]
    exact PosDef.one.add_posSemidef (posSemidef_conjTranspose_mul_self _)
  have hr : RealArr (!![2, 1; 1, 2] : Matrix (Fin 2) (Fin 2) ℂ) := by
    intro i j
    fin_cases i <;> fin_cases j <;> simp
  have hX : RealArr (!![1, 2; 0, 1] : Matrix (Fin 2) (Fin 2) ℂ) := by
    intro i j
    fin_cases i <;> fin_cases j <;> simp
  obtain ⟨l, h1, h2⟩ := hch _ hp hr
  have hcase : ∃ res, podDirect lib !![1, 2; 0, 1] none (.d2 2 2 fun i j => if i = j then 2 else 1) (some 0) none = .ok res := by
    unfold podDirect podDirectSvd
    have h1' : lib.cholesky (Matrix.of fun i j : Fin 2 => if i.val = j.val then (2 : ℂ) else 1) = some l := by
      rw [← h1, ← hm]
      rfl
    simp only [ne_eq, not_true_eq_false, if_false, if_true, h1']
    unfold utilSvd
    dsimp only [numRetained, pickCols]
    exact ⟨_, rfl⟩
  obtain ⟨res, hres⟩ := hcase
  refine ⟨lib, res, hres, (C107_pod_direct lib _ none (some 0) none hl _ ?_ ?_ ?_ hX res hres).1⟩
  · rw [← hm] at hp
    exact ⟨rfl, rfl, hp⟩
  · rw [hm]
    exact hr
  · intro p q w _
    rw [hm]
    exact ⟨l, h1, h2⟩

/-- Six real Markov parameters that alternate in sign: a real model. -/
example : ∃ (svd : ∀ {m n : Nat}, Matrix (Fin m) (Fin n) ℂ → SvdOut ℂ m n) (obj : EraObj) (model : LtiModel ℂ),
    (∀ {m n : Nat} (B : Matrix (Fin m) (Fin n) ℂ), IsSvd B (svd B)) ∧
    eraModel svd id (eraInit none none) (.d1 6 fun i => (-1 / 2) ^ i) 1 none none = .ok (obj, model) ∧
    RealArr model.A ∧ RealArr model.B ∧ RealArr model.C := by
  obtain ⟨svd, h1, h2⟩ := exists_realSvd
  have h : ∃ out, eraModel svd id (eraInit none none) (.d1 6 fun i => (-1 / 2) ^ i) 1 none none = .ok out := ⟨_, rfl⟩
  obtain ⟨⟨obj, model⟩, h⟩ := h
  refine ⟨svd, obj, model, h1, h, C107_era svd h2 id (fun _ h => h) _ _ _ rfl (fun i j k => ?_) 1 none none obj model h⟩
  change (((-1 : ℂ) / 2) ^ i).im = 0
  rw [show ((-1 : ℂ) / 2) = ((-1 / 2 : ℝ) : ℂ) by push_cast; ring, ← Complex.ofReal_pow]
  exact Complex.ofReal_im _

end Modred
