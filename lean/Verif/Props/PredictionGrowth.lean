import Verif.Spec.PredictionGrowth
import Verif.Props.Growth

/-!
# C127: predictions grow no faster than the data
-/

namespace Modred

open Matrix
open scoped ComplexOrder

variable {𝕜 : Type*} [RCLike 𝕜]

section Vectors

variable {E : Type*} [AddCommGroup E] [Module 𝕜 E] {ip : E →ₗ⋆[𝕜] E →ₗ[𝕜] 𝕜} {m : Nat} {X Y : Fin m → E}

/-- A vector whose inner product with another is that with itself is not longer than the other. -/
theorem energy_le_of_inner (hsym : ∀ x y, ip y x = star (ip x y)) (hnn : ∀ x, 0 ≤ RCLike.re (ip x x)) {x y : E} (h : ip x y = ip x x) :
    ipEnergy ip x ≤ ipEnergy ip y := by
  have h1 := hnn (y - x)
  have h2 : RCLike.re (ip y x) = RCLike.re (ip x x) := by
    rw [hsym x y, h, RCLike.star_def, RCLike.conj_re]
  simp only [map_sub, LinearMap.sub_apply] at h1
  rw [h2, h] at h1
  unfold ipEnergy
  linarith

theorem lift_combine {k r : Nat} (Z : Fin k → E) (B : Matrix (Fin k) (Fin r) 𝕜) (c : Fin r → 𝕜) : lift (combine Z B) c = lift Z (B *ᵥ c) := by
  unfold lift combine
  simp only [Finset.smul_sum, Matrix.mulVec, dotProduct, Finset.sum_smul, smul_smul]
  rw [Finset.sum_comm]
  refine Finset.sum_congr rfl fun i _ => Finset.sum_congr rfl fun j _ => ?_
  rw [mul_comm]

/-- Powers of the eigenvalues are those of the approximating map. -/
theorem DmdCore.powers {C K : Matrix (Fin m) (Fin m) 𝕜} {d : DmdDecomp 𝕜 m} (h : DmdCore C K d) (hLR : d.Lᴴ * d.R = 1) (k : Nat) :
    d.R * diagonal (fun i => d.eigvals i ^ k) * d.Lᴴ = lowOrderMap (diagPow (𝕜 := 𝕜) d.w (-0.5)) d.V K ^ k := by
  induction k with
  | zero =>
    simp only [pow_zero, diagonal_one, Matrix.mul_one]
    exact mul_eq_one_comm.mp hLR
  | succ k ih =>
    have e : (diagonal fun i => d.eigvals i ^ (k + 1)) = diagonal d.eigvals * diagonal fun i => d.eigvals i ^ k := by
      rw [diagonal_mul_diagonal]
      congr 1
      ext i
      rw [pow_succ']
    rw [e, ← Matrix.mul_assoc d.R, ← h.right, pow_succ', ← ih]
    simp only [Matrix.mul_assoc]

theorem DmdCore.predictions (hsym : ∀ x y, ip y x = star (ip x y)) (hnn : ∀ x, 0 ≤ RCLike.re (ip x x)) {d : DmdDecomp 𝕜 m}
    (h : DmdCore (gram ip X X) (gram ip X Y) d) (hLR : d.Lᴴ * d.R = 1) :
    PredictionsBounded ip X Y d.eigvals (combine X d.buildProj) (combine Y d.buildExact) (d.Lᴴ * (diagPow (𝕜 := 𝕜) d.w 0.5 * d.Vᴴ)) := by
  set M := lowOrderMap (diagPow (𝕜 := 𝕜) d.w (-0.5)) d.V (gram ip X Y) with hM
  set B := d.V * diagPow (𝕜 := 𝕜) d.w (-0.5) with hB
  set S := diagPow (𝕜 := 𝕜) d.w 0.5 * d.Vᴴ with hS
  clear_value M B S
  have hBH : Bᴴ = diagPow (𝕜 := 𝕜) d.w (-0.5) * d.Vᴴ := by
    rw [hB, conjTranspose_mul, diagPow_conjTranspose]
  have hBC : Bᴴ * gram ip X X = S := by
    have h1 := congrArg conjTranspose h.eigen
    rw [conjTranspose_mul, conjTranspose_mul, h.herm, diagPow_conjTranspose] at h1
    rw [hBH, Matrix.mul_assoc, h1, ← Matrix.mul_assoc, diagPow_mul _ h.pos, show (-0.5 + 1 : ℝ) = 0.5 by norm_num, hS]
  have hXX : Bᴴ * gram ip X X * B = 1 := by
    rw [hBC, hS, hB, Matrix.mul_assoc, ← Matrix.mul_assoc d.Vᴴ, h.orth, Matrix.one_mul, diagPow_mul _ h.pos,
      show (0.5 + -0.5 : ℝ) = 0 by norm_num]
    simp [diagPow]
  have hXY : Bᴴ * gram ip X Y * B = M := by
    rw [hBH, hB, hM, lowOrderMap]
    simp only [Matrix.mul_assoc]
  have quad : ∀ (Z : Fin m → E) (x z : Fin d.r → 𝕜), ip (lift X (B *ᵥ x)) (lift Z (B *ᵥ z)) = star x ⬝ᵥ ((Bᴴ * gram ip X Z * B) *ᵥ z) := by
    intro Z x z
    rw [ip_lift, star_mulVec, ← dotProduct_mulVec, mulVec_mulVec, mulVec_mulVec, Matrix.mul_assoc]
  have step : ∀ z, ipEnergy ip (lift X (B *ᵥ (M *ᵥ z))) ≤ ipEnergy ip (lift Y (B *ᵥ z)) := fun z =>
    energy_le_of_inner hsym hnn (by rw [quad, quad, hXX, hXY, one_mulVec])
  have first : ∀ j, ipEnergy ip (lift X (B *ᵥ fun i => S i j)) ≤ ipEnergy ip (X j) := by
    intro j
    refine energy_le_of_inner hsym hnn ?_
    rw [quad, hXX, one_mulVec]
    have h1 : X j = lift X (Pi.single j (1 : 𝕜) : Fin m → 𝕜) := by
      unfold lift
      rw [Finset.sum_eq_single j]
      · rw [Pi.single_eq_same, one_smul]
      · intro b _ hb
        rw [Pi.single_eq_of_ne hb, zero_smul]
      · simp
    have h2 : ip (lift X (B *ᵥ fun i => S i j)) (X j) = ip (lift X (B *ᵥ fun i => S i j)) (lift X (Pi.single j (1 : 𝕜) : Fin m → 𝕜)) :=
      congrArg _ h1
    rw [h2, ip_lift, star_mulVec, ← dotProduct_mulVec, mulVec_mulVec, hBC]
    congr 1
    ext i
    rw [mulVec_single_one]
    rfl
  have powers : ∀ q : ℝ, 0 ≤ q → (∀ c : Fin m → 𝕜, ipEnergy ip (lift Y c) ≤ q ^ 2 * ipEnergy ip (lift X c)) →
      ∀ (k : Nat) (j : Fin m), ipEnergy ip (lift X (B *ᵥ (M ^ k *ᵥ fun i => S i j))) ≤ (q ^ k) ^ 2 * ipEnergy ip (X j) := by
    intro q hq hb k j
    induction k with
    | zero =>
      rw [pow_zero, one_mulVec, pow_zero, one_pow, one_mul]
      exact first j
    | succ k ih =>
      rw [pow_succ' M, ← mulVec_mulVec]
      refine (step _).trans ((hb _).trans ?_)
      rw [pow_succ' q k, mul_pow, mul_assoc]
      exact mul_le_mul_of_nonneg_left ih (sq_nonneg q)
  have coords : ∀ (k : Nat) (j : Fin m), d.buildProj *ᵥ (fun i => d.eigvals i ^ k * (d.Lᴴ * S) i j) = B *ᵥ (M ^ k *ᵥ fun i => S i j) := by
    intro k j
    have e : (fun i => d.eigvals i ^ k * (d.Lᴴ * S) i j) = (diagonal fun i => d.eigvals i ^ k) *ᵥ (d.Lᴴ *ᵥ fun i => S i j) := by
      ext i
      rw [mulVec_diagonal]
      rfl
    have hp : d.R * diagonal (fun i => d.eigvals i ^ k) * d.Lᴴ = M ^ k := by
      rw [hM]
      exact h.powers hLR k
    rw [e, ← hp, DmdDecomp.buildProj, hB]
    simp only [mulVec_mulVec, Matrix.mul_assoc]
  refine ⟨fun q hq hb k j => ?_, fun h0 q hq hb k j => ?_⟩
  · have := powers q hq hb k j
    rw [← coords, ← lift_combine] at this
    exact this
  · have e : d.buildExact *ᵥ (fun i => d.eigvals i ^ (k + 1) * (d.Lᴴ * S) i j) =
        d.buildProj *ᵥ (fun i => d.eigvals i ^ k * (d.Lᴴ * S) i j) := by
      rw [← buildExact_mul h0, ← mulVec_mulVec]
      congr 1
      ext i
      rw [mulVec_diagonal, pow_succ', mul_assoc]
    have h1 : ipEnergy ip (lift (combine Y d.buildExact) fun i => d.eigvals i ^ (k + 1) * (d.Lᴴ * S) i j) ≤
        (q ^ (k + 1)) ^ 2 * ipEnergy ip (X j) := by
      rw [lift_combine, e, coords]
      refine (hb _).trans ?_
      rw [pow_succ' q k, mul_pow, mul_assoc]
      exact mul_le_mul_of_nonneg_left (powers q hq hb k j) (sq_nonneg q)
    exact h1

end Vectors

/-! ### Arrays -/

theorem col_mul {n m r : Nat} (X : Matrix (Fin n) (Fin m) 𝕜) (B : Matrix (Fin m) (Fin r) 𝕜) : (X * B).col = combine X.col B := by
  ext i k
  unfold combine
  rw [Finset.sum_apply, Matrix.col_apply, Matrix.mul_apply]
  exact Finset.sum_congr rfl fun j _ => mul_comm (X k j) (B j i)

theorem DmdOutcome.predictions {n m : Nat} {W : Matrix (Fin n) (Fin n) 𝕜} {X Y : Matrix (Fin n) (Fin m) 𝕜}
    {modeIndices : Option (List Int)} {res : DmdResult 𝕜 n m} (h : DmdOutcome W X Y modeIndices res)
    (hc : DmdCore (Xᴴ * W * X) (Xᴴ * W * Y) res.decomp) (hW : W.PosSemidef) (hLR : res.decomp.Lᴴ * res.decomp.R = 1) :
    ∃ proj exact, Chosen proj modeIndices res.projModes ∧ Chosen exact modeIndices res.exactModes ∧
      PredictionsBounded (weightedIp W) X.col Y.col res.decomp.eigvals proj.col exact.col res.projCoeffs := by
  refine ⟨_, _, h.proj, h.exact, ?_⟩
  rw [col_mul, col_mul, h.projCoeffs]
  exact DmdCore.predictions (weightedIp_symm hW) (weightedIp_nonneg hW) (by rw [gram_weighted, gram_weighted]; exact hc) hLR

section Snaps

variable {n m : Nat} (lib : PodLib 𝕜 n m) (eig : ∀ {r : Nat}, Matrix (Fin r) (Fin r) 𝕜 → EigOut 𝕜 r)
  (modeIndices : Option (List Int)) (weights : Option (NdArray 𝕜)) (ws : Weights 𝕜)
  (t : ℝ) (rtol : Option ℝ) (maxNum : Option Nat)

/-- **C127** for the snapshot method and sequential data. -/
theorem C127_snaps_sequential (ht : 0 ≤ t) (hr : ∀ t ∈ rtol, 0 ≤ t) (hs : IsArgsort lib.argsort)
    (hws : arraysInit weights = .ok ws) (hfit : ws.Fits n) (hW : (ws.matrix n).PosSemidef)
    (hlib : ∀ C : Matrix (Fin m) (Fin m) 𝕜, C.IsHermitian → IsEigh C (lib.eigh C)) (Z : Matrix (Fin n) (Fin (m + 1)) 𝕜)
    (res : DmdResult 𝕜 n m) (corr cross : Matrix (Fin m) (Fin m) 𝕜)
    (hres : dmdSnapsSeq lib eig Z modeIndices weights (some t) rtol maxNum = .ok (res, corr, cross))
    (heig : EigOfReduced eig (ws.matrix n) (seqFirst Z) (seqNext Z) res.decomp) (hinj : Function.Injective res.decomp.eigvals) :
    ∃ proj exact, Chosen proj modeIndices res.projModes ∧ Chosen exact modeIndices res.exactModes ∧
      PredictionsBounded (weightedIp (ws.matrix n)) (seqFirst Z).col (seqNext Z).col res.decomp.eigvals proj.col exact.col res.projCoeffs := by
  obtain ⟨rfl, rfl, hd, ho⟩ := dmdSnapsSeq_ok lib eig modeIndices weights ws _ rtol maxNum hws hfit Z res corr cross hres
  obtain ⟨hc, hLR⟩ := dmdEigendecomp_core _ _ eig _ _ t rtol maxNum _ hd ht hr hs (gram_hermitian hW.isHermitian _)
    (hlib _ (gram_hermitian hW.isHermitian _)) heig
  exact ho.predictions hc hW (hLR hinj)

/-- **C127** for the snapshot method and pairs of vectors. -/
theorem C127_snaps_pairs (ht : 0 ≤ t) (hr : ∀ t ∈ rtol, 0 ≤ t) (hs : IsArgsort lib.argsort)
    (hws : arraysInit weights = .ok ws) (hfit : ws.Fits n) (hW : (ws.matrix n).PosSemidef)
    (hlib : ∀ C : Matrix (Fin m) (Fin m) 𝕜, C.IsHermitian → IsEigh C (lib.eigh C)) (X Y : Matrix (Fin n) (Fin m) 𝕜)
    (res : DmdResult 𝕜 n m) (corr cross : Matrix (Fin m) (Fin m) 𝕜)
    (hres : dmdSnapsPairs lib eig X ⟨n, m, Y⟩ modeIndices weights (some t) rtol maxNum = .ok (res, corr, cross))
    (heig : EigOfReduced eig (ws.matrix n) X Y res.decomp) (hinj : Function.Injective res.decomp.eigvals) :
    ∃ proj exact, Chosen proj modeIndices res.projModes ∧ Chosen exact modeIndices res.exactModes ∧
      PredictionsBounded (weightedIp (ws.matrix n)) X.col Y.col res.decomp.eigvals proj.col exact.col res.projCoeffs := by
  obtain ⟨rfl, rfl, hd, ho⟩ := dmdSnapsPairs_ok lib eig modeIndices weights ws _ rtol maxNum hws hfit X Y res corr cross hres
  obtain ⟨hc, hLR⟩ := dmdEigendecomp_core _ _ eig _ _ t rtol maxNum _ hd ht hr hs (gram_hermitian hW.isHermitian _)
    (hlib _ (gram_hermitian hW.isHermitian _)) heig
  exact ho.predictions hc hW (hLR hinj)

end Snaps

section Direct

variable {n m : Nat} (lib : PodLib 𝕜 n m) (eig : ∀ {r : Nat}, Matrix (Fin r) (Fin r) 𝕜 → EigOut 𝕜 r)
  (modeIndices : Option (List Int)) (ws : DirectWeights 𝕜) (t : ℝ) (rtol : Option ℝ) (maxNum : Option Nat)

/-- **C127** for the direct method and sequential data. -/
theorem C127_direct_sequential (ht : 0 ≤ t) (hr : ∀ t ∈ rtol, 0 ≤ t) (hfit : ws.Fits n)
    (hchol : ∀ p q w, ws = .d2 p q w → IsCholesky lib.cholesky (ws.matrix n)) (hlib : ∀ a, IsSvd a (lib.svd a))
    (Z : Matrix (Fin n) (Fin (m + 1)) 𝕜) (res : DmdResult 𝕜 n m)
    (hres : dmdDirectSeq lib eig Z modeIndices ws (some t) rtol maxNum = .ok res)
    (heig : EigOfReduced eig (ws.matrix n) (seqFirst Z) (seqNext Z) res.decomp) (hinj : Function.Injective res.decomp.eigvals) :
    ∃ proj exact, Chosen proj modeIndices res.projModes ∧ Chosen exact modeIndices res.exactModes ∧
      PredictionsBounded (weightedIp (ws.matrix n)) (seqFirst Z).col (seqNext Z).col res.decomp.eigvals proj.col exact.col res.projCoeffs := by
  obtain ⟨hc, hLR, ho⟩ := dmdDirectSeq_ok lib eig modeIndices ws t rtol maxNum hfit hchol ht hr hlib Z res hres _ _ rfl rfl heig
  exact ho.predictions hc (directWeights_posSemidef ws hfit) (hLR hinj)

/-- **C127** for the direct method and pairs of vectors. -/
theorem C127_direct_pairs (ht : 0 ≤ t) (hr : ∀ t ∈ rtol, 0 ≤ t) (hfit : ws.Fits n)
    (hchol : ∀ p q w, ws = .d2 p q w → IsCholesky lib.cholesky (ws.matrix n)) (hlib : ∀ a, IsSvd a (lib.svd a))
    (X Y : Matrix (Fin n) (Fin m) 𝕜) (res : DmdResult 𝕜 n m)
    (hres : dmdDirectPairs lib eig X ⟨n, m, Y⟩ modeIndices ws (some t) rtol maxNum = .ok res)
    (heig : EigOfReduced eig (ws.matrix n) X Y res.decomp) (hinj : Function.Injective res.decomp.eigvals) :
    ∃ proj exact, Chosen proj modeIndices res.projModes ∧ Chosen exact modeIndices res.exactModes ∧
      PredictionsBounded (weightedIp (ws.matrix n)) X.col Y.col res.decomp.eigvals proj.col exact.col res.projCoeffs := by
  obtain ⟨hc, hLR, ho⟩ := dmdDirectPairs_ok lib eig modeIndices ws t rtol maxNum hfit hchol ht hr hlib X Y res hres heig
  exact ho.predictions hc (directWeights_posSemidef ws hfit) (hLR hinj)

end Direct

section Handles

variable {E : Type*} [AddCommGroup E] [Module 𝕜 E] (lib : DmdLib 𝕜) (ip : E →ₗ⋆[𝕜] E →ₗ[𝕜] 𝕜) (t : ℝ) (rtol : Option ℝ)
  (maxNum : Option Nat)

/-- **C127** for `DMDHandles` and a sequence of vectors. -/
theorem C127_handles_sequential (g g' : DmdHandles 𝕜 E) (ht : 0 ≤ t) (hlib : lib.Lawful) (hsym : ∀ x y, ip y x = star (ip x y))
    (hnn : ∀ x, 0 ≤ RCLike.re (ip x x)) (vecs : List E)
    (hrun : g.computeDecomp lib (fun x y => ip x y) vecs none (some t) rtol maxNum = (.ok (), g'))
    (d : DmdDecomp 𝕜 (vecs.length - 1)) (hd : g'.decomp = some ⟨vecs.length - 1, d⟩)
    (heig : EigOfReducedVecs ip lib.eig (seqVecs vecs) (seqAdvVecs vecs) d) (hinj : Function.Injective d.eigvals) :
    ∃ proj exact : Fin d.r → E,
      (∀ l num a out g'', (a = none ∨ a = some vecs) →
        g'.computeProjModes l num a = (.ok out, g'') → ChosenVecs proj l out) ∧
      (∀ l num a out g'', (a = none ∧ g.adv = none ∨ a = some vecs.tail) →
        g'.computeExactModes l num a = (.ok out, g'') → ChosenVecs exact l out) ∧
      ∃ c c', g'.computeProjCoeffs = .ok (⟨d.r, vecs.length - 1, c⟩, ⟨d.r, vecs.length - 1, c'⟩) ∧
        PredictionsBounded ip (seqVecs vecs) (seqAdvVecs vecs) d.eigvals proj exact c := by
  obtain ⟨d', hd', rfl⟩ := computeDecomp_seq lib _ g g' vecs (some t) rtol maxNum hrun
  cases hd
  obtain ⟨hm, hc, hLR⟩ := handles_modes lib ip t maxNum ht hlib hsym hd' heig
  obtain ⟨h1, h2, -⟩ := state_seq vecs (handlesIp (fun x y => ip x y) (seqVecs vecs) (seqVecs vecs))
    (handlesIp (fun x y => ip x y) (seqVecs vecs) (seqAdvVecs vecs)) g.adv d hm
  exact ⟨_, _, h2, h1, _, _, computeProjCoeffs_state _ _ _ _ _, hc.predictions hsym hnn (hLR hinj)⟩

/-- **C127** for `DMDHandles` and pairs of vectors. -/
theorem C127_handles_pairs (g g' : DmdHandles 𝕜 E) (ht : 0 ≤ t) (hlib : lib.Lawful) (hsym : ∀ x y, ip y x = star (ip x y))
    (hnn : ∀ x, 0 ≤ RCLike.re (ip x x)) (vecs adv : List E)
    (hrun : g.computeDecomp lib (fun x y => ip x y) vecs (some adv) (some t) rtol maxNum = (.ok (), g'))
    (d : DmdDecomp 𝕜 vecs.length) (hd : g'.decomp = some ⟨vecs.length, d⟩) (hlen : vecs.length = adv.length)
    (heig : EigOfReducedVecs ip lib.eig vecs.get (fun j => adv.get (Fin.cast hlen j)) d) (hinj : Function.Injective d.eigvals) :
    ∃ proj exact : Fin d.r → E,
      (∀ l num a out g'', (a = none ∨ a = some vecs) →
        g'.computeProjModes l num a = (.ok out, g'') → ChosenVecs proj l out) ∧
      (∀ l num a out g'', (a = none ∨ a = some adv) →
        g'.computeExactModes l num a = (.ok out, g'') → ChosenVecs exact l out) ∧
      ∃ c c', g'.computeProjCoeffs = .ok (⟨d.r, vecs.length, c⟩, ⟨d.r, vecs.length, c'⟩) ∧
        PredictionsBounded ip vecs.get (fun j => adv.get (Fin.cast hlen j)) d.eigvals proj exact c := by
  obtain ⟨_, d', hd', rfl⟩ := computeDecomp_pairs lib _ g g' vecs adv (some t) rtol maxNum hrun
  cases hd
  obtain ⟨hm, hc, hLR⟩ := handles_modes lib ip t maxNum ht hlib hsym hd' heig
  obtain ⟨h1, h2, -⟩ := state_pairs vecs adv hlen (handlesIp (fun x y => ip x y) vecs.get vecs.get)
    (handlesIp (fun x y => ip x y) vecs.get fun j => adv.get (Fin.cast hlen j)) d
  exact ⟨_, _, h2, h1, _, _, computeProjCoeffs_state _ _ _ _ _, hc.predictions hsym hnn (hLR hinj)⟩

end Handles

/-! ### Examples -/

/-- The direct method for a sequence with eigenvalues 1 and 2. -/
example : ∃ (lib : PodLib ℝ 2 2) (res : DmdResult ℝ 2 2) (proj exact : Matrix (Fin 2) (Fin res.decomp.r) ℝ),
    dmdDirectSeq lib exampleSeqEig exampleSeq none .none (some (1 / 10)) none none = .ok res ∧
    Chosen proj none res.projModes ∧ Chosen exact none res.exactModes ∧
    PredictionsBounded (weightedIp 1) (seqFirst exampleSeq).col (seqNext exampleSeq).col res.decomp.eigvals proj.col exact.col res.projCoeffs := by
  obtain ⟨lib, res, hsvd, hres, heig, hi, h0⟩ := exampleSeq_direct
  obtain ⟨proj, exact, h⟩ := C127_direct_sequential lib exampleSeqEig none .none (1 / 10) none none
    (by norm_num) (by simp) trivial (fun _ _ _ h => by cases h) hsvd exampleSeq res hres heig hi
  exact ⟨lib, res, proj, exact, hres, h⟩

/-- The snapshot method. -/
example : ∃ (lib : PodLib ℝ 2 2) (res : DmdResult ℝ 2 2) (corr cross : Matrix (Fin 2) (Fin 2) ℝ)
    (proj exact : Matrix (Fin 2) (Fin res.decomp.r) ℝ),
    dmdSnapsSeq lib exampleSeqEig exampleSeq none none (some (1 / 10)) none none = .ok (res, corr, cross) ∧
    Chosen proj none res.projModes ∧ Chosen exact none res.exactModes ∧
    PredictionsBounded (weightedIp 1) (seqFirst exampleSeq).col (seqNext exampleSeq).col res.decomp.eigvals proj.col exact.col res.projCoeffs := by
  obtain ⟨lib, res, corr, cross, heigh, hs, hres, hd⟩ := exampleSeq_snaps
  obtain ⟨proj, exact, h⟩ := C127_snaps_sequential lib exampleSeqEig none none .none (1 / 10) none none
    (by norm_num) (by simp) hs rfl trivial PosSemidef.one heigh exampleSeq res corr cross hres
    (by rw [hd]; exact exampleSeqDecomp_eig) (by rw [hd]; exact exampleSeqDecomp_distinct.1)
  exact ⟨lib, res, corr, cross, proj, exact, hres, h⟩

/-- Handles. -/
example : ∃ (lib : DmdLib ℝ) (g' : DmdHandles ℝ (Fin 2 → ℝ)) (proj exact : Fin exampleSeqDecomp.r → Fin 2 → ℝ) (c : Matrix (Fin exampleSeqDecomp.r) (Fin 2) ℝ),
    DmdHandles.new.computeDecomp lib (fun x y => dotIp x y) exampleVecs none (some (1 / 10)) none none = (.ok (), g') ∧
    PredictionsBounded dotIp (seqVecs exampleVecs) (seqAdvVecs exampleVecs) exampleSeqDecomp.eigvals proj exact c := by
  obtain ⟨lib, hlaw, heig, hu⟩ := exists_exampleDmdLib
  obtain ⟨g', hrun, hd⟩ := exampleVecs_decomp lib heig hu DmdHandles.new
  obtain ⟨proj, exact, -, -, c, c', -, h⟩ := C127_handles_sequential lib dotIp (1 / 10) none none DmdHandles.new g' (by norm_num) hlaw dotIp_symm
    (fun x => by rw [dotIp_apply]; exact add_nonneg (mul_self_nonneg (x 0)) (mul_self_nonneg (x 1))) exampleVecs hrun
    exampleSeqDecomp hd (exampleVecs_eig lib heig) exampleSeqDecomp_distinct.1
  exact ⟨lib, g', proj, exact, c, hrun, h⟩

end Modred
