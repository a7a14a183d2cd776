import Verif.Props.Methods
import Verif.Props.DeterminedDmdHandles

/-!
# Handles and arrays give the same results (C101)
-/

namespace Modred

open Matrix

variable {𝕜 : Type*} [RCLike 𝕜] {n m : Nat}

/-- The columns of an array as vectors. -/
def columnVecs {k : Nat} (A : Matrix (Fin n) (Fin k) 𝕜) : Fin k → Fin n → 𝕜 := fun j i => A i j

/-- The inner product with weights. -/
def weightedProduct (W : Matrix (Fin n) (Fin n) 𝕜) (x y : Fin n → 𝕜) : 𝕜 := ∑ i, ∑ j, star (x i) * W i j * y j

theorem handlesIp_columns {p q : Nat} (W : Matrix (Fin n) (Fin n) 𝕜) (A : Matrix (Fin n) (Fin p) 𝕜) (B : Matrix (Fin n) (Fin q) 𝕜) :
    handlesIp (weightedProduct W) (columnVecs A) (columnVecs B) = Aᴴ * W * B := by
  ext i j
  simp only [handlesIp, weightedProduct, columnVecs, Matrix.of_apply, Matrix.mul_apply, conjTranspose_apply, Finset.sum_mul]
  exact Finset.sum_comm

theorem handlesLinCombine_columns {p q : Nat} (basis : Matrix (Fin n) (Fin p) 𝕜) (coeff : Matrix (Fin p) (Fin q) 𝕜)
    (idx : Option (List Int)) (c : Cols 𝕜 n) (hp : 0 < p) (h : linCombineArrays basis coeff idx = .ok c) :
    handlesLinCombine c.k (columnVecs basis) coeff idx = .ok ⟨c.k, columnVecs c.a⟩ := by
  unfold linCombineArrays at h
  unfold handlesLinCombine
  split at h
  · cases h
  rename_i d hd
  cases h
  rw [hd]
  dsimp only
  rw [if_neg (by simp), if_neg (by omega)]
  congr 2
  ext k i
  rw [Finset.sum_apply]
  change ∑ l, (d.a l k • columnVecs basis l) i = (basis * d.a) i k
  rw [Matrix.mul_apply]
  exact Finset.sum_congr rfl fun l _ => mul_comm _ _

/-- **C101.** The class `PODHandles` with the columns of an array computes what the method of snapshots computes. -/
theorem C101_pod_handles (lib : PodLib 𝕜 n m) (vecs : Matrix (Fin n) (Fin m) 𝕜) (idx : List Int) (weights : Option (NdArray 𝕜))
    (ws : Weights 𝕜) (atol rtol : Option ℝ) (hws : arraysInit weights = .ok ws) (hfit : ws.Fits n) (hm : 0 < m) (res : PodResult 𝕜 n m)
    (corr : Matrix (Fin m) (Fin m) 𝕜) (hres : podSnaps lib vecs (some idx) weights atol rtol = .ok (res, corr)) :
    ∃ pod, podHandlesDecomp lib.eigh lib.argsort (weightedProduct (ws.matrix n)) (columnVecs vecs) atol rtol = .ok pod ∧
      pod = ⟨columnVecs vecs, corr, res.r, res.eigvals, res.eigvecs⟩ ∧
      podHandlesModes pod idx idx.length = .ok ⟨res.modes.k, columnVecs res.modes.a⟩ ∧
      HEq (podHandlesProjCoeffs pod) res.projCoeffs := by
  unfold podSnaps at hres
  rw [hws] at hres
  dsimp only at hres
  unfold symmIpArray at hres
  rw [C45_formula ws hfit] at hres
  dsimp only at hres
  split at hres
  · cases hres
  rename_i e he
  split at hres
  · cases hres
  rename_i c hc
  cases hres
  unfold podHandlesDecomp handlesSymmIp
  rw [if_neg (by omega), handlesIp_columns]
  dsimp only
  rw [he]
  refine ⟨_, rfl, rfl, ?_, HEq.rfl⟩
  have hk : c.k = idx.length := by
    obtain ⟨sel, -, h2, -⟩ := linCombineArrays_ok _ _ _ _ hc
    exact (h2 _ rfl).1
  rw [← hk]
  exact handlesLinCombine_columns _ _ _ _ hm hc

/-! ### Dynamic mode decomposition -/

section Dmd

variable (lib : DmdLib 𝕜) (svd : ∀ {n m : Nat}, Matrix (Fin n) (Fin m) 𝕜 → SvdOut 𝕜 n m)
  (cholesky : ∀ {n : Nat}, Matrix (Fin n) (Fin n) 𝕜 → Option (Matrix (Fin n) (Fin n) 𝕜))

/-- The same library for the functions for arrays. -/
def DmdLib.pod {n m : Nat} : PodLib 𝕜 n m := ⟨lib.eigh, lib.argsort, svd, cholesky⟩

theorem linCombineSized_columns {p q : Nat} (basis : Matrix (Fin n) (Fin p) 𝕜) (coeff : Matrix (Fin p) (Fin q) 𝕜)
    (idx : List Int) (c : Cols 𝕜 n) (hp : 0 < p) (h : linCombineArrays basis coeff (some idx) = .ok c) :
    linCombineSized idx.length (columnVecs basis) coeff (some idx) = .ok ⟨c.k, columnVecs c.a⟩ := by
  have hk : c.k = idx.length := by
    obtain ⟨sel, -, h2, -⟩ := linCombineArrays_ok _ _ _ _ h
    exact (h2 _ rfl).1
  unfold linCombineSized
  rw [dif_pos rfl, ← hk]
  exact handlesLinCombine_columns _ _ _ _ hp h

/-- What the methods of an object of the class `DMDHandles` return, and what a function for arrays returns. -/
structure DmdAgrees (g : DmdHandles 𝕜 (Fin n → 𝕜)) (idx : List Int) (res : DmdResult 𝕜 n m) (corr cross : Matrix (Fin m) (Fin m) 𝕜) :
    Prop where
  arrays : g.arrays = some ⟨m, corr, cross⟩
  decomp : g.decomp = some ⟨m, res.decomp⟩
  exact : (g.computeExactModes idx idx.length none).1 = .ok ⟨res.exactModes.k, columnVecs res.exactModes.a⟩
  proj : (g.computeProjModes idx idx.length none).1 = .ok ⟨res.projModes.k, columnVecs res.projModes.a⟩
  adjoint : (g.computeAdjointModes idx idx.length none).1 = .ok ⟨res.adjointModes.k, columnVecs res.adjointModes.a⟩
  spectrum : g.computeSpectrum = .ok res.spectralCoeffs
  coeffs : g.computeProjCoeffs = .ok (⟨_, _, res.projCoeffs⟩, ⟨_, _, res.advProjCoeffs⟩)

theorem dmd_spectrum {r : Nat} (w : Fin r → ℝ) (V : Matrix (Fin m) (Fin r) 𝕜) (i : Fin m) :
    star (diagPow (𝕜 := 𝕜) w 0.5 *ᵥ V i) = diagPow (𝕜 := 𝕜) w 0.5 *ᵥ fun j => star (V i j) := by
  unfold diagPow
  ext k
  rw [Pi.star_apply, mulVec_diagonal, mulVec_diagonal, star_mul', RCLike.star_def, RCLike.conj_ofReal]

theorem dmdFinish_parts {d : DmdDecomp 𝕜 m} {sqrtInv : Matrix (Fin d.r) (Fin d.r) 𝕜} {cross : Matrix (Fin m) (Fin m) 𝕜}
    {X Y : Matrix (Fin n) (Fin m) 𝕜} {idx : Option (List Int)} {res : DmdResult 𝕜 n m}
    (hres : dmdFinish d sqrtInv cross X Y idx = .ok res) :
    ∃ (h : 0 < m) (c1 c2 c3 : Cols 𝕜 n),
      linCombineArrays Y (d.V * (sqrtInv * d.R) * diagonal fun i => (d.eigvals i)⁻¹) idx = .ok c1 ∧
      linCombineArrays X (d.V * (sqrtInv * d.R)) idx = .ok c2 ∧ linCombineArrays X (d.V * (sqrtInv * d.L)) idx = .ok c3 ∧
      res = ⟨d, spectralCoeffs d.w d.V d.L ⟨0, h⟩, c1, c2, c3, d.Lᴴ * (diagPow (𝕜 := 𝕜) d.w 0.5 * d.Vᴴ),
        d.Lᴴ * (diagPow (𝕜 := 𝕜) d.w (-0.5) * (d.Vᴴ * cross))⟩ := by
  unfold dmdFinish at hres
  dsimp only at hres
  split at hres
  · split at hres
    · cases hres
    rename_i h _ c1 h1
    split at hres
    · cases hres
    rename_i c2 h2
    split at hres
    · cases hres
    rename_i c3 h3
    cases hres
    exact ⟨h, c1, c2, c3, h1, h2, h3, rfl⟩
  · cases hres

theorem linCombineSized_cast {E : Type*} [AddCommMonoid E] [Module 𝕜 E] {p p' h q : Nat} (k : Nat) (b : Fin p → E) (hp : p' = p)
    (coeff : Matrix (Fin h) (Fin q) 𝕜) (idx : Option (List Int)) :
    linCombineSized k (fun i : Fin p' => b (Fin.cast hp i)) coeff idx = linCombineSized k b coeff idx := by
  subst hp
  rfl

theorem dmd_agrees {g : DmdHandles 𝕜 (Fin n → 𝕜)} {idx : List Int} {d : DmdDecomp 𝕜 m} {res : DmdResult 𝕜 n m}
    {corr cross : Matrix (Fin m) (Fin m) 𝕜} {X Y : Matrix (Fin n) (Fin m) 𝕜}
    (hres : dmdFinish d (diagPow (𝕜 := 𝕜) d.w (-0.5)) cross X Y (some idx) = .ok res) (harr : g.arrays = some ⟨m, corr, cross⟩)
    (hdec : g.decomp = some ⟨m, d⟩)
    (hexact : ∀ build : Matrix (Fin m) (Fin d.r) 𝕜,
      exactModesFrom g.vecs g.adv build idx idx.length = linCombineSized idx.length (columnVecs Y) build (some idx))
    (hspan : ∀ build : Matrix (Fin m) (Fin d.r) 𝕜,
      spanModesFrom g.vecs build idx idx.length = linCombineSized idx.length (columnVecs X) build (some idx)) :
    DmdAgrees g idx res corr cross := by
  obtain ⟨hm, c1, c2, c3, h1, h2, h3, rfl⟩ := dmdFinish_parts hres
  refine ⟨harr, hdec, ?_, ?_, ?_, ?_, ?_⟩
  · unfold DmdHandles.computeExactModes
    simp only [Option.isSome_none, Bool.false_eq_true, if_false]
    rw [hdec]
    dsimp only
    rw [hexact]
    refine linCombineSized_columns _ _ _ _ hm ?_
    rw [← h1]
    unfold DmdDecomp.buildExact
    simp only [Matrix.mul_assoc]
  · unfold DmdHandles.computeProjModes
    simp only [Option.isSome_none, Bool.false_eq_true, if_false]
    rw [hdec]
    dsimp only
    rw [hspan]
    exact linCombineSized_columns _ _ _ _ hm h2
  · unfold DmdHandles.computeAdjointModes
    simp only [Option.isSome_none, Bool.false_eq_true, if_false]
    rw [hdec]
    dsimp only
    rw [hspan]
    exact linCombineSized_columns _ _ _ _ hm h3
  · unfold DmdHandles.computeSpectrum
    rw [hdec]
    dsimp only
    rw [dif_pos hm]
    exact congrArg (fun v : Fin d.r → 𝕜 => Except.ok (NdArray.squeeze ⟨[d.r], fun i => if hi : i < d.r then ‖(d.Lᴴ *ᵥ v) ⟨i, hi⟩‖ else 0⟩))
      (dmd_spectrum d.w d.V ⟨0, hm⟩)
  · unfold DmdHandles.computeProjCoeffs
    rw [hdec, harr]
    dsimp only
    rw [dif_pos rfl]
    rfl

/-- **C101.** The class `DMDHandles` with the columns of two arrays computes what the snapshot method computes; without a relative
tolerance, which the class ignores. -/
theorem C101_dmd_handles_pairs_partial (X Y : List (Fin n → 𝕜)) (hXY : X.length = Y.length) (idx : List Int) (weights : Option (NdArray 𝕜))
    (ws : Weights 𝕜) (atol : Option ℝ) (maxNum : Option Nat) (hws : arraysInit weights = .ok ws) (hfit : ws.Fits n)
    (res : DmdResult 𝕜 n X.length) (corr cross : Matrix (Fin X.length) (Fin X.length) 𝕜)
    (hres : dmdSnapsPairs (lib.pod svd cholesky) lib.eig (Matrix.of fun i j => X.get j i)
      ⟨n, X.length, Matrix.of fun i j => Y.get (Fin.cast hXY j) i⟩ (some idx) weights atol none maxNum = .ok (res, corr, cross)) :
    ∃ g, DmdHandles.new.computeDecomp lib (weightedProduct (ws.matrix n)) X (some Y) atol none maxNum = (.ok (), g) ∧
      DmdAgrees g idx res corr cross := by
  unfold dmdSnapsPairs at hres
  rw [hws] at hres
  simp only [and_self, dite_true] at hres
  unfold symmIpArray at hres
  rw [C45_formula ws hfit] at hres
  dsimp only at hres
  rw [C45_formula ws hfit] at hres
  dsimp only at hres
  split at hres
  · cases hres
  rename_i res' hr
  cases hres
  unfold dmdSnapsRest at hr
  split at hr
  · cases hr
  rename_i d hd
  obtain ⟨hm, -⟩ := dmdFinish_parts hr
  have hne : X ≠ [] := fun h => by
    rw [h] at hm
    exact Nat.lt_irrefl 0 hm
  have harr : dmdArraysPairs (weightedProduct (ws.matrix n)) X Y hXY = ⟨X.length, _, _⟩ :=
    congrArg₂ (DmdArrays.mk X.length)
      (handlesIp_columns (ws.matrix n) (Matrix.of fun i j => X.get j i) (Matrix.of fun i j => X.get j i))
      (handlesIp_columns (ws.matrix n) (Matrix.of fun i j => X.get j i) (Matrix.of fun i j => Y.get (Fin.cast hXY j) i))
  unfold DmdHandles.computeDecomp
  dsimp only
  rw [dif_pos hXY, if_neg hne, harr]
  unfold DmdHandles.computeEigendecomp
  dsimp only
  erw [hd]
  refine ⟨_, rfl, dmd_agrees hr rfl rfl (fun build => ?_) fun build => ?_⟩
  · unfold exactModesFrom
    exact (linCombineSized_cast _ Y.get hXY build _).symm
  · unfold spanModesFrom
    dsimp only
    rw [if_neg (by omega), if_pos rfl]
    rfl

/-- **C101.** The same for a sequence of vectors. -/
theorem C101_dmd_handles_sequential_partial (Z : List (Fin n → 𝕜)) (idx : List Int) (weights : Option (NdArray 𝕜))
    (ws : Weights 𝕜) (atol : Option ℝ) (maxNum : Option Nat) (hws : arraysInit weights = .ok ws) (hfit : ws.Fits n)
    (hlen : Z.length - 1 + 1 = Z.length)
    (res : DmdResult 𝕜 n (Z.length - 1)) (corr cross : Matrix (Fin (Z.length - 1)) (Fin (Z.length - 1)) 𝕜)
    (hres : dmdSnapsSeq (lib.pod svd cholesky) lib.eig (Matrix.of fun i j => Z.get (Fin.cast hlen j) i) (some idx) weights atol none
      maxNum = .ok (res, corr, cross)) :
    ∃ g, DmdHandles.new.computeDecomp lib (weightedProduct (ws.matrix n)) Z none atol none maxNum = (.ok (), g) ∧
      DmdAgrees g idx res corr cross := by
  unfold dmdSnapsSeq at hres
  rw [hws] at hres
  dsimp only at hres
  unfold symmIpArray at hres
  rw [C45_formula ws hfit] at hres
  dsimp only at hres
  split at hres
  · cases hres
  rename_i res' hr
  cases hres
  unfold dmdSnapsRest at hr
  split at hr
  · cases hr
  rename_i d hd
  have hZ : Z ≠ [] := fun h => by
    rw [h] at hlen
    cases hlen
  have harr : dmdArraysSeq (weightedProduct (ws.matrix n)) Z = ⟨Z.length - 1,
      ((Matrix.of fun i j => Z.get (Fin.cast hlen j) i)ᴴ * ws.matrix n *
        (Matrix.of fun i j => Z.get (Fin.cast hlen j) i)).submatrix Fin.castSucc Fin.castSucc,
      ((Matrix.of fun i j => Z.get (Fin.cast hlen j) i)ᴴ * ws.matrix n *
        (Matrix.of fun i j => Z.get (Fin.cast hlen j) i)).submatrix Fin.castSucc Fin.succ⟩ := by
    have := handlesIp_columns (ws.matrix n) (Matrix.of fun i j => Z.get (Fin.cast hlen j) i) (Matrix.of fun i j => Z.get (Fin.cast hlen j) i)
    exact congrArg₂ (DmdArrays.mk (Z.length - 1)) (congrArg (fun M => M.submatrix Fin.castSucc Fin.castSucc) this)
      (congrArg (fun M => M.submatrix Fin.castSucc Fin.succ) this)
  unfold DmdHandles.computeDecomp
  dsimp only
  rw [if_neg hZ, harr]
  unfold DmdHandles.computeEigendecomp
  dsimp only
  erw [hd]
  refine ⟨_, rfl, dmd_agrees hr rfl rfl (fun build => ?_) fun build => ?_⟩
  · unfold exactModesFrom
    change (if Z.length = Z.length - 1 + 1 then _ else _) = _
    rw [if_pos hlen.symm, ← linCombineSized_cast idx.length Z.tail.get (p' := Z.length - 1) (by simp) build]
    congr 1
    ext i j
    simp [columnVecs]
  · unfold spanModesFrom
    dsimp only
    change (if Z.length = Z.length - 1 + 1 then _ else _) = _
    rw [if_pos hlen.symm, ← linCombineSized_cast idx.length Z.dropLast.get (p' := Z.length - 1) (by simp) build]
    congr 1
    ext i j
    simp [columnVecs]

end Dmd

/-! ### Balanced proper orthogonal decomposition -/

theorem bpod_resize {md ma md' ma' : Nat} (ha : ma' = ma) (hd : md' = md) {svd : Matrix (Fin ma) (Fin md) 𝕜 → SvdOut 𝕜 ma md}
    {svd' : Matrix (Fin ma') (Fin md') 𝕜 → SvdOut 𝕜 ma' md'} (hsvd : HEq svd' svd) {rows : List (List 𝕜)} {atol rtol : Option ℝ}
    {s : Svd 𝕜 ma md} (hs : utilSvd svd (ofRows ma md rows) atol rtol = .ok s) {direct : Matrix (Fin n) (Fin md) 𝕜}
    {adjoint : Matrix (Fin n) (Fin ma) 𝕜} {idx idx' : List Int} {c1 c2 : Cols 𝕜 n} (hmd : 0 < md) (hma : 0 < ma)
    (hc1 : linCombineArrays direct (s.V * diagPow (𝕜 := 𝕜) s.S (-0.5)) (some idx) = .ok c1)
    (hc2 : linCombineArrays adjoint (s.U * diagPow (𝕜 := 𝕜) s.S (-0.5)) (some idx') = .ok c2) :
    ∃ s', utilSvd svd' (ofRows ma' md' rows) atol rtol = .ok s' ∧
      ∀ bpod : BpodHandles 𝕜 (Fin n → 𝕜) md ma ma' md',
        bpod = ⟨columnVecs direct, columnVecs adjoint, ofRows ma' md' rows, s'.r, s'.S, s'.U, s'.V⟩ →
        HEq bpod (⟨columnVecs direct, columnVecs adjoint, ofRows ma md rows, s.r, s.S, s.U, s.V⟩ : BpodHandles 𝕜 (Fin n → 𝕜) md ma ma md) ∧
        bpodHandlesDirectModes bpod idx idx.length = .ok ⟨c1.k, columnVecs c1.a⟩ ∧
        bpodHandlesAdjointModes bpod idx' idx'.length = .ok ⟨c2.k, columnVecs c2.a⟩ ∧
        HEq (bpodHandlesDirectProjCoeffs bpod) (diagPow (𝕜 := 𝕜) s.S 0.5 * s.Vᴴ) ∧
        HEq (bpodHandlesAdjointProjCoeffs bpod) (diagPow (𝕜 := 𝕜) s.S 0.5 * s.Uᴴ) := by
  subst ha hd
  cases hsvd
  refine ⟨s, hs, ?_⟩
  rintro _ rfl
  exact ⟨HEq.rfl, linCombineSized_columns _ _ _ _ hmd hc1, linCombineSized_columns _ _ _ _ hma hc2, HEq.rfl, HEq.rfl⟩

/-- **C101.** The class `BPODHandles` with the columns of two arrays computes what the function for arrays computes. -/
theorem C101_bpod_handles {md ma : Nat} (svd : Matrix (Fin ma) (Fin md) 𝕜 → SvdOut 𝕜 ma md) (direct : Matrix (Fin n) (Fin md) 𝕜)
    (adjoint : Matrix (Fin n) (Fin ma) 𝕜) (numInputs numOutputs : Nat) (idx idx' : List Int) (weights : Option (NdArray 𝕜))
    (ws : Weights 𝕜) (atol rtol : Option ℝ) (hws : arraysInit weights = .ok ws) (hfit : ws.Fits n) (hmd : 0 < md) (hma : 0 < ma)
    (ha : ma / numOutputs * numOutputs = ma) (hd : md / numInputs * numInputs = md)
    (svd' : Matrix (Fin (ma / numOutputs * numOutputs)) (Fin (md / numInputs * numInputs)) 𝕜 →
      SvdOut 𝕜 (ma / numOutputs * numOutputs) (md / numInputs * numInputs)) (hsvd : HEq svd' svd)
    (res : BpodResult 𝕜 n md ma)
    (hres : bpodArrays svd direct adjoint numInputs numOutputs (some idx) (some idx') weights atol rtol = .ok res) :
    ∃ bpod, bpodHandlesDecomp (weightedProduct (ws.matrix n)) (columnVecs direct) (columnVecs adjoint) numInputs numOutputs svd' atol rtol =
        .ok bpod ∧
      HEq bpod (⟨columnVecs direct, columnVecs adjoint, res.hankel, res.r, res.singVals, res.L, res.R⟩ : BpodHandles 𝕜 (Fin n → 𝕜) md ma ma md) ∧
      bpodHandlesDirectModes bpod idx idx.length = .ok ⟨res.directModes.k, columnVecs res.directModes.a⟩ ∧
      bpodHandlesAdjointModes bpod idx' idx'.length = .ok ⟨res.adjointModes.k, columnVecs res.adjointModes.a⟩ ∧
      HEq (bpodHandlesDirectProjCoeffs bpod) res.directProjCoeffs ∧ HEq (bpodHandlesAdjointProjCoeffs bpod) res.adjointProjCoeffs := by
  have hni : numInputs ≠ 0 := fun h => by
    rw [h, mul_zero] at hd
    omega
  unfold bpodArrays at hres
  rw [hws] at hres
  dsimp only at hres
  rw [C45_formula ws hfit] at hres
  dsimp only at hres
  rw [C45_formula ws hfit] at hres
  dsimp only at hres
  unfold bpodHandlesDecomp
  rw [if_neg (by omega)]
  have h1 : handlesIp (weightedProduct (ws.matrix n)) (columnVecs adjoint) (firstEntries (columnVecs direct) numInputs) =
    adjointᴴ * ws.matrix n * firstCols direct numInputs := handlesIp_columns _ adjoint (firstCols direct numInputs)
  have h2 : handlesIp (weightedProduct (ws.matrix n)) (lastVecs (columnVecs adjoint) numOutputs) (columnVecs direct) =
    (lastCols adjoint numOutputs)ᴴ * ws.matrix n * direct := handlesIp_columns _ (lastCols adjoint numOutputs) direct
  dsimp only
  rw [h1, h2]
  split at hres
  · cases hres
  rename_i rows hrows
  rw [hrows]
  dsimp only
  split at hres
  · cases hres
  split at hres
  · cases hres
  rename_i s hs
  split at hres
  · cases hres
  rename_i c1 hc1
  split at hres
  · cases hres
  rename_i c2 hc2
  cases hres
  obtain ⟨s', hs', h3⟩ := bpod_resize ha hd hsvd hs hmd hma hc1 hc2
  rw [hs']
  exact ⟨_, rfl, h3 _ rfl⟩

/-! ### Examples -/

/-- Chosen modes of the two unit vectors. -/
example : ∃ (lib : PodLib ℝ 2 2) (pod : PodHandles ℝ (Fin 2 → ℝ) 2) (out : Vecs (Fin 2 → ℝ)),
    podHandlesDecomp lib.eigh lib.argsort (weightedProduct 1) (columnVecs 1) (some (1 / 10)) none = .ok pod ∧ pod.r = 2 ∧
    podHandlesModes pod [1, 0, -1] 3 = .ok out ∧ out.k = 3 := by
  obtain ⟨lib, -, -, -, hu, -⟩ := exists_exampleLib
  have hres : ∃ res corr, podSnaps lib 1 (some [1, 0, -1]) none (some (1 / 10)) none = .ok (res, corr) ∧ res.r = 2 ∧ res.modes.k = 3 := by
    unfold podSnaps
    rw [show arraysInit (none : Option (NdArray ℝ)) = .ok .none from rfl]
    dsimp only
    rw [show symmIpArray (.none : Weights ℝ) (1 : Matrix (Fin 2) (Fin 2) ℝ) = .ok 1 by simp [symmIpArray, ipArray]]
    dsimp only
    rw [hu]
    exact ⟨_, _, rfl, rfl, rfl⟩
  obtain ⟨res, corr, hres, hr, hk⟩ := hres
  obtain ⟨pod, hp, rfl, hm, -⟩ := C101_pod_handles lib 1 [1, 0, -1] none .none _ _ rfl trivial Nat.zero_lt_two res corr hres
  exact ⟨lib, _, _, hp, hr, hm, hk⟩

/-- Chosen modes of the sequence that a map with eigenvalues 1 and 2 generates. -/
example : ∃ (lib : DmdLib ℝ) (g : DmdHandles ℝ (Fin 2 → ℝ)) (res : DmdResult ℝ 2 2) (corr cross : Matrix (Fin 2) (Fin 2) ℝ),
    DmdHandles.new.computeDecomp lib (weightedProduct 1) exampleVecs none (some (1 / 10)) none none = (.ok (), g) ∧
    res.decomp = exampleSeqDecomp ∧ DmdAgrees g [1, -2] res corr cross := by
  classical
  obtain ⟨lib, hlaw, heig, hu⟩ := exists_exampleDmdLib
  obtain ⟨svd, -⟩ : ∃ svd : ∀ {n m : Nat}, Matrix (Fin n) (Fin m) ℝ → SvdOut ℝ n m, True :=
    ⟨fun {_ _} a => (exists_isSvd a).choose, trivial⟩
  have hZ : (Matrix.of fun i j => exampleVecs.get (Fin.cast rfl j) i : Matrix (Fin 2) (Fin 3) ℝ) = exampleSeq := by
    ext i j
    fin_cases i <;> fin_cases j <;> simp [exampleVecs, exampleSeq]
  have hres : ∃ res corr cross, dmdSnapsSeq (lib.pod svd fun _ => none) lib.eig exampleSeq (some [1, -2]) none (some (1 / 10)) none none =
      .ok (res, corr, cross) ∧ res.decomp = exampleSeqDecomp := by
    have hcorr : ∀ C, symmIpArray (.none : Weights ℝ) exampleSeq = .ok C →
        C.submatrix Fin.castSucc Fin.castSucc = 1 ∧ C.submatrix Fin.castSucc Fin.succ = !![0, -2; 1, 3] := by
      intro C hC
      obtain rfl : exampleSeqᴴ * exampleSeq = C := Except.ok.inj hC
      constructor <;> ext i j <;> fin_cases i <;> fin_cases j <;>
        simp [exampleSeq, Matrix.mul_apply, Fin.sum_univ_two]
    unfold dmdSnapsSeq
    obtain ⟨C, hC⟩ : ∃ C, symmIpArray (.none : Weights ℝ) exampleSeq = .ok C := ⟨_, rfl⟩
    obtain ⟨h1, h2⟩ := hcorr C hC
    have h3 : dmdEigendecomp (lib.pod (n := 2) svd fun _ => none).eigh (lib.pod (n := 2) svd fun _ => none).argsort lib.eig
        (1 : Matrix (Fin 2) (Fin 2) ℝ) !![0, -2; 1, 3] (some (1 / 10)) none none = .ok exampleSeqDecomp := by
      unfold dmdEigendecomp
      erw [hu]
      dsimp only
      unfold eigBiorthog
      rw [heig]
      rfl
    simp only [arraysInit, hC, h1, h2]
    unfold dmdSnapsRest
    rw [h3]
    dsimp only
    have h4 : ∃ res, dmdFinish exampleSeqDecomp (diagPow (𝕜 := ℝ) exampleSeqDecomp.w (-0.5)) !![0, -2; 1, 3]
        (exampleSeq.submatrix id Fin.castSucc) (exampleSeq.submatrix id Fin.succ) (some [1, -2]) = .ok res ∧
        res.decomp = exampleSeqDecomp := ⟨_, rfl, rfl⟩
    obtain ⟨res, hr, hd⟩ := h4
    generalize hg : dmdFinish exampleSeqDecomp _ _ _ _ _ = z
    obtain rfl : z = .ok res := hg.symm.trans hr
    exact ⟨_, _, _, rfl, hd⟩
  obtain ⟨res, corr, cross, hres, hd⟩ := hres
  rw [← hZ] at hres
  obtain ⟨g, hg, h⟩ := C101_dmd_handles_sequential_partial lib svd (fun _ => none) exampleVecs [1, -2] none .none _ none rfl trivial rfl
    res corr cross hres
  exact ⟨lib, g, res, corr, cross, hg, hd, h⟩

end Modred
