import Verif.Spec.Duality
import Verif.Props.DeterminedBpod

/-!
# C125: exchange of direct and adjoint
-/

namespace Modred

open Matrix

variable {𝕜 : Type*} [RCLike 𝕜]

/-- Left and right singular vectors exchanged. -/
def Svd.exchange {n m : Nat} (e : Svd 𝕜 n m) : Svd 𝕜 m n := ⟨e.r, e.V, e.S, e.U⟩

/-- An answer of a library with another number for the number of singular values. -/
def SvdOut.ofNumber {n m k : Nat} (hk : min n m = k) (U : Matrix (Fin n) (Fin k) 𝕜) (S : Fin k → ℝ) (Vh : Matrix (Fin k) (Fin m) 𝕜) :
    SvdOut 𝕜 n m :=
  ⟨U.submatrix id (Fin.cast hk), fun i => S (Fin.cast hk i), Vh.submatrix (Fin.cast hk) id⟩

theorem SvdOut.ofNumber_isSvd {n m k : Nat} (hk : min n m = k) {U : Matrix (Fin n) (Fin k) 𝕜} {S : Fin k → ℝ}
    {Vh : Matrix (Fin k) (Fin m) 𝕜} {a : Matrix (Fin n) (Fin m) 𝕜} (h1 : Uᴴ * U = 1) (h2 : Vh * Vhᴴ = 1)
    (h3 : a = U * diagonal (fun i => (S i : 𝕜)) * Vh) (h4 : ∀ i, 0 ≤ S i) (h5 : Antitone S) : IsSvd a (SvdOut.ofNumber hk U S Vh) := by
  subst hk
  exact ⟨h1, h2, h3, h4, h5⟩

theorem SvdOut.ofNumber_util {n m k : Nat} (hk : min n m = k) {U : Matrix (Fin n) (Fin k) 𝕜} {S : Fin k → ℝ}
    {Vh : Matrix (Fin k) (Fin m) 𝕜} (a : Matrix (Fin n) (Fin m) 𝕜) (atol rtol : Option ℝ) (num : Nat)
    (h : numRetained S atol rtol = .ok num) : utilSvd (fun _ => SvdOut.ofNumber hk U S Vh) a atol rtol =
      .ok ⟨min num k, firstCols U num, firstEntries S num, firstCols Vhᴴ num⟩ := by
  subst hk
  unfold utilSvd SvdOut.ofNumber
  dsimp only [Fin.cast_eq_self, submatrix_id_id]
  rw [h]
  rfl

/-- A singular value decomposition of the conjugate transpose is one of the array, with left and right exchanged. -/
theorem utilSvd_exchange {n m : Nat} {lib' : Matrix (Fin m) (Fin n) 𝕜 → SvdOut 𝕜 m n} {a : Matrix (Fin m) (Fin n) 𝕜}
    (h : IsSvd a (lib' a)) {atol rtol : Option ℝ} {e' : Svd 𝕜 m n} (he' : utilSvd lib' a atol rtol = .ok e') :
    ∃ lib : Matrix (Fin n) (Fin m) 𝕜 → SvdOut 𝕜 n m, IsSvd aᴴ (lib aᴴ) ∧ utilSvd lib aᴴ atol rtol = .ok e'.exchange := by
  unfold utilSvd at he'
  dsimp only at he'
  split at he'
  · cases he'
  rename_i num hnum
  cases he'
  refine ⟨fun _ => SvdOut.ofNumber (min_comm n m) (lib' a).Vhᴴ (lib' a).S (lib' a).Uᴴ, SvdOut.ofNumber_isSvd _ ?_ ?_ ?_ h.nonneg h.sorted, ?_⟩
  · rw [conjTranspose_conjTranspose]
    exact h.right
  · rw [conjTranspose_conjTranspose]
    exact h.left
  · have h1 := congrArg conjTranspose h.product
    rw [conjTranspose_mul, conjTranspose_mul, diagonal_conjTranspose, ← Matrix.mul_assoc] at h1
    refine h1.trans ?_
    congr 3
    ext i
    simp
  · rw [SvdOut.ofNumber_util _ _ _ _ num hnum, conjTranspose_conjTranspose]
    rfl

/-- Modes and coefficients from two decompositions of the same Hankel array. -/
theorem arrays_balanced {n md ma : Nat} {svd svd' : Matrix (Fin ma) (Fin md) 𝕜 → SvdOut 𝕜 ma md} (X : Matrix (Fin n) (Fin md) 𝕜)
    (Y : Matrix (Fin n) (Fin ma) 𝕜) {rtol : Option ℝ} {t : ℝ} {H : Matrix (Fin ma) (Fin md) 𝕜} (ht : 0 ≤ t) (hr : ∀ t ∈ rtol, 0 ≤ t)
    (hlib : IsSvd H (svd H)) (hlib' : IsSvd H (svd' H)) (e e' : Svd 𝕜 ma md) (he : utilSvd svd H (some t) rtol = .ok e)
    (he' : utilSvd svd' H (some t) rtol = .ok e') :
    SameBalanced (1 : 𝕜) 1 1 1
      ⟨e.r, e.S, X * (e.V * diagPow (𝕜 := 𝕜) e.S (-0.5)), Y * (e.U * diagPow (𝕜 := 𝕜) e.S (-0.5)), diagPow (𝕜 := 𝕜) e.S 0.5 * e.Vᴴ,
        diagPow (𝕜 := 𝕜) e.S 0.5 * e.Uᴴ⟩
      ⟨e'.r, e'.S, X * (e'.V * diagPow (𝕜 := 𝕜) e'.S (-0.5)), Y * (e'.U * diagPow (𝕜 := 𝕜) e'.S (-0.5)),
        diagPow (𝕜 := 𝕜) e'.S 0.5 * e'.Vᴴ, diagPow (𝕜 := 𝕜) e'.S 0.5 * e'.Uᴴ⟩ := by
  have hB : H = (star 1 * 1 : 𝕜) • ((1 : Matrix (Fin ma) (Fin ma) 𝕜)ᴴ * H * (1 : Matrix (Fin md) (Fin md) 𝕜)) := by simp
  have hone : (‖(1 : 𝕜)‖ * ‖(1 : 𝕜)‖ * t) = t := by simp
  rw [← hone] at he'
  obtain ⟨k1, k2, -⟩ := balance_determined hlib hlib' (by simp) (by simp) hB one_ne_zero one_ne_zero ht hr e e' he he'
  have k3 := balance_determined_first hlib hlib' (by simp) (by simp) hB one_ne_zero one_ne_zero ht hr e e' he he'
  simp only [one_smul, Matrix.one_mul] at k1 k2 k3
  have out : ∀ {u v s : Nat} (Z : Matrix (Fin n) (Fin u) 𝕜) (T : Matrix (Fin n) (Fin v) 𝕜) (M : Matrix (Fin u) (Fin s) 𝕜)
      (D : Matrix (Fin s) (Fin s) 𝕜) (N : Matrix (Fin v) (Fin s) 𝕜), Z * M * D * (T * N)ᴴ = Z * (M * D * Nᴴ) * Tᴴ := by
    intro u v s Z T M D N
    rw [conjTranspose_mul]
    simp only [Matrix.mul_assoc]
  refine ⟨k1, k2, fun f g hfg => ?_, fun f g hfg => ?_, fun f g hfg => ?_, fun f g hfg => ?_, fun f g hfg => ?_⟩
  · dsimp only
    rw [out, out, (k3 f g hfg).1]
  · dsimp only
    rw [out, out, (k3 f g hfg).2.1, Matrix.mul_smul, Matrix.smul_mul]
  · dsimp only
    rw [out, out, (k3 f g hfg).2.2.1, Matrix.mul_smul, Matrix.smul_mul]
  · dsimp only
    have h := congrArg (X * ·) (k3 f g hfg).2.2.2.1
    simp only [Matrix.mul_assoc, Matrix.mul_one, one_smul] at h ⊢
    exact h
  · dsimp only
    have h := congrArg (Y * ·) (k3 f g hfg).2.2.2.2
    simp only [Matrix.mul_assoc, Matrix.mul_one, one_smul] at h ⊢
    exact h

/-- **C125.** If direct and adjoint vectors are exchanged, direct and adjoint modes and coefficients are exchanged, and singular
values are the same. -/
theorem C125_arrays {n md ma : Nat} (svd : Matrix (Fin ma) (Fin md) 𝕜 → SvdOut 𝕜 ma md)
    (svd' : Matrix (Fin md) (Fin ma) 𝕜 → SvdOut 𝕜 md ma) (X : Matrix (Fin n) (Fin md) 𝕜) (Y : Matrix (Fin n) (Fin ma) 𝕜) (p q p' q' : Nat)
    (weights : Option (NdArray 𝕜)) (ws : Weights 𝕜) (rtol : Option ℝ) (t : ℝ) (idxD idxA idxD' idxA' : Option (List Int))
    (ht : 0 ≤ t) (hr : ∀ t ∈ rtol, 0 ≤ t) (hws : arraysInit weights = .ok ws) (hfit : ws.Fits n) (hW : (ws.matrix n).IsHermitian)
    (res : BpodResult 𝕜 n md ma) (res' : BpodResult 𝕜 n ma md)
    (hres : bpodArrays svd X Y p q idxD idxA weights (some t) rtol = .ok res)
    (hres' : bpodArrays svd' Y X p' q' idxD' idxA' weights (some t) rtol = .ok res')
    (hlib : IsSvd res.hankel (svd res.hankel)) (hlib' : IsSvd res'.hankel (svd' res'.hankel))
    (hH : res.hankel = Yᴴ * ws.matrix n * X) (hH' : res'.hankel = Xᴴ * ws.matrix n * Y) :
    res'.hankel = res.hankelᴴ ∧ ∃ (Φ Ψ : Matrix (Fin n) (Fin res.r) 𝕜) (Φ' Ψ' : Matrix (Fin n) (Fin res'.r) 𝕜),
      Chosen Φ idxD res.directModes ∧ Chosen Ψ idxA res.adjointModes ∧
      Chosen Φ' idxD' res'.directModes ∧ Chosen Ψ' idxA' res'.adjointModes ∧
      SameBalanced (1 : 𝕜) 1 1 1 ⟨res.r, res.singVals, Φ, Ψ, res.directProjCoeffs, res.adjointProjCoeffs⟩
        (BalancedSet.exchange ⟨res'.r, res'.singVals, Φ', Ψ', res'.directProjCoeffs, res'.adjointProjCoeffs⟩) := by
  have hT : res'.hankel = res.hankelᴴ := by
    rw [hH, hH', conjTranspose_mul, conjTranspose_mul, conjTranspose_conjTranspose, hW.eq, Matrix.mul_assoc]
  refine ⟨hT, ?_⟩
  obtain ⟨rows, e, dm, am, -, -, he, hdm, ham, rfl⟩ :=
    bpodArrays_cases svd X Y p q idxD idxA weights ws _ _ hws hfit res hres
  obtain ⟨rows', e', dm', am', -, -, he', hdm', ham', rfl⟩ :=
    bpodArrays_cases svd' Y X p' q' idxD' idxA' weights ws _ _ hws hfit res' hres'
  dsimp only at hlib hlib' hH hH' hT ⊢
  generalize ofRows ma md rows = H at *
  generalize ofRows md ma rows' = H' at *
  subst hT
  obtain ⟨svd'', hlib'', he''⟩ := utilSvd_exchange hlib' he'
  rw [conjTranspose_conjTranspose] at hlib'' he''
  refine ⟨X * (e.V * diagPow (𝕜 := 𝕜) e.S (-0.5)), Y * (e.U * diagPow (𝕜 := 𝕜) e.S (-0.5)),
    Y * (e'.V * diagPow (𝕜 := 𝕜) e'.S (-0.5)), X * (e'.U * diagPow (𝕜 := 𝕜) e'.S (-0.5)),
    linCombineArrays_ok _ _ _ _ hdm, linCombineArrays_ok _ _ _ _ ham, linCombineArrays_ok _ _ _ _ hdm',
    linCombineArrays_ok _ _ _ _ ham', arrays_balanced X Y ht hr hlib hlib'' e e'.exchange he he''⟩

/-- **C125** for handles. -/
theorem C125_handles {E : Type*} [AddCommGroup E] [Module 𝕜 E] {md ma : Nat} (ip : E →ₗ⋆[𝕜] E →ₗ[𝕜] 𝕜)
    (hsym : ∀ x y, ip y x = star (ip x y)) (X : Fin md → E) (Y : Fin ma → E) (rtol : Option ℝ) (t : ℝ)
    (p q p' q' : Nat) (hmd : md / p * p = md) (hma : ma / q * q = ma) (hma' : ma / p' * p' = ma) (hmd' : md / q' * q' = md)
    (svd : Matrix (Fin (ma / q * q)) (Fin (md / p * p)) 𝕜 → SvdOut 𝕜 (ma / q * q) (md / p * p))
    (svd' : Matrix (Fin (md / q' * q')) (Fin (ma / p' * p')) 𝕜 → SvdOut 𝕜 (md / q' * q') (ma / p' * p'))
    (ht : 0 ≤ t) (hr : ∀ t ∈ rtol, 0 ≤ t)
    (bpod : BpodHandles 𝕜 E md ma (ma / q * q) (md / p * p)) (bpod' : BpodHandles 𝕜 E ma md (md / q' * q') (ma / p' * p'))
    (hres : bpodHandlesDecomp (fun x y => ip x y) X Y p q svd (some t) rtol = .ok bpod)
    (hres' : bpodHandlesDecomp (fun x y => ip x y) Y X p' q' svd' (some t) rtol = .ok bpod')
    (hlib : IsSvd bpod.hankel (svd bpod.hankel)) (hlib' : IsSvd bpod'.hankel (svd' bpod'.hankel))
    (hH : ∀ i j, bpod.hankel i j = ip (Y (Fin.cast hma i)) (X (Fin.cast hmd j)))
    (hH' : ∀ i j, bpod'.hankel i j = ip (X (Fin.cast hmd' i)) (Y (Fin.cast hma' j))) :
    ∃ (Φ Ψ : Fin bpod.r → E) (Φ' Ψ' : Fin bpod'.r → E),
      (∀ l k out, bpodHandlesDirectModes bpod l k = .ok out → ChosenVecs Φ l out) ∧
      (∀ l k out, bpodHandlesAdjointModes bpod l k = .ok out → ChosenVecs Ψ l out) ∧
      (∀ l k out, bpodHandlesDirectModes bpod' l k = .ok out → ChosenVecs Φ' l out) ∧
      (∀ l k out, bpodHandlesAdjointModes bpod' l k = .ok out → ChosenVecs Ψ' l out) ∧
      SameBalancedOf ip (1 : 𝕜) 1 1 1
        ⟨bpod.r, bpod.singVals, Φ, Ψ, (bpodHandlesDirectProjCoeffs bpod).submatrix id (Fin.cast hmd.symm),
          (bpodHandlesAdjointProjCoeffs bpod).submatrix id (Fin.cast hma.symm)⟩
        (BalancedSetOf.exchange ⟨bpod'.r, bpod'.singVals, Φ', Ψ', (bpodHandlesDirectProjCoeffs bpod').submatrix id (Fin.cast hma'.symm),
          (bpodHandlesAdjointProjCoeffs bpod').submatrix id (Fin.cast hmd'.symm)⟩) := by
  obtain ⟨rows, e, -, he, rfl⟩ := bpodHandlesDecomp_cases X Y p q svd _ rtol _ bpod hres
  obtain ⟨rows', e', -, he', rfl⟩ := bpodHandlesDecomp_cases Y X p' q' svd' _ rtol _ bpod' hres'
  obtain ⟨svd'', hlib'', he''⟩ := utilSvd_exchange hlib' he'
  have hone : (‖(1 : 𝕜)‖ * ‖(1 : 𝕜)‖ * t) = t := by simp
  rw [← hone] at he''
  refine ⟨combine (fun k => X (Fin.cast hmd k)) (e.V * diagPow (𝕜 := 𝕜) e.S (-0.5)),
    combine (fun k => Y (Fin.cast hma k)) (e.U * diagPow (𝕜 := 𝕜) e.S (-0.5)),
    combine (fun k => Y (Fin.cast hma' k)) (e'.V * diagPow (𝕜 := 𝕜) e'.S (-0.5)),
    combine (fun k => X (Fin.cast hmd' k)) (e'.U * diagPow (𝕜 := 𝕜) e'.S (-0.5)),
    fun l k out h => ?_, fun l k out h => ?_, fun l k out h => ?_, fun l k out h => ?_,
    handles_balanced ip X X Y Y 1 1 1 1 rtol t hma hmd hma' hmd' svd svd'' _ _ e e'.exchange (fun j => by simp [Matrix.one_apply])
      (fun j => by simp [Matrix.one_apply]) one_ne_zero one_ne_zero (by simp) (by simp) ht hr hlib hlib'' hH (fun i j => ?_) he he''⟩
  case refine_5 =>
    rw [conjTranspose_apply, hsym]
    exact congrArg star (hH' j i)
  all_goals
    obtain ⟨hc, h1, sel, h2, h3⟩ := linCombineSized_ok _ _ _ _ _ h
    exact ⟨h1, sel, h2, h3⟩

/-- **C125.** The adjoint system, whose impulse responses are the adjoint vectors, has the balanced modes of the system exchanged. -/
theorem C125_adjoint_system {n md ma : Nat} (svd : Matrix (Fin ma) (Fin md) 𝕜 → SvdOut 𝕜 ma md)
    (svd' : Matrix (Fin md) (Fin ma) 𝕜 → SvdOut 𝕜 md ma) (X : Matrix (Fin n) (Fin md) 𝕜) (Y : Matrix (Fin n) (Fin ma) 𝕜) (p q : Nat)
    (weights : Option (NdArray 𝕜)) (ws : Weights 𝕜) (rtol : Option ℝ) (t : ℝ) (hp : 1 ≤ p) (hq : 1 ≤ q)
    (ht : 0 ≤ t) (hr : ∀ t ∈ rtol, 0 ≤ t) (hws : arraysInit weights = .ok ws) (hfit : ws.Fits n) (hW : (ws.matrix n).IsHermitian)
    (A Aadj : Matrix (Fin n) (Fin n) 𝕜) (B : Matrix (Fin n) (Fin p) 𝕜) (C : Matrix (Fin n) (Fin q) 𝕜)
    (hadj : Aadjᴴ * ws.matrix n = ws.matrix n * A)
    (hX : ∀ i j, X i j = (A ^ (j.val / p) * B) i ⟨j % p, Nat.mod_lt _ hp⟩)
    (hY : ∀ i j, Y i j = (Aadj ^ (j.val / q) * C) i ⟨j % q, Nat.mod_lt _ hq⟩)
    (hlib : ∀ H, IsSvd H (svd H)) (hlib' : ∀ H, IsSvd H (svd' H)) (res : BpodResult 𝕜 n md ma)
    (hres : bpodArrays svd X Y p q none none weights (some t) rtol = .ok res) :
    ∃ (res' : BpodResult 𝕜 n ma md) (Φ Ψ : Matrix (Fin n) (Fin res.r) 𝕜) (Φ' Ψ' : Matrix (Fin n) (Fin res'.r) 𝕜),
      bpodArrays svd' Y X q p none none weights (some t) rtol = .ok res' ∧ res'.hankel = res.hankelᴴ ∧
      Chosen Φ none res.directModes ∧ Chosen Ψ none res.adjointModes ∧
      Chosen Φ' none res'.directModes ∧ Chosen Ψ' none res'.adjointModes ∧
      SameBalanced (1 : 𝕜) 1 1 1 ⟨res.r, res.singVals, Φ, Ψ, res.directProjCoeffs, res.adjointProjCoeffs⟩
        (BalancedSet.exchange ⟨res'.r, res'.singVals, Φ', Ψ', res'.directProjCoeffs, res'.adjointProjCoeffs⟩) := by
  obtain ⟨-, -, hmd, hma, h1, h2⟩ := C25_complete_chunks svd X Y p q none none weights ws _ _ hws hfit res hres
  obtain ⟨res', hres'⟩ := C25_no_error svd' Y X q p weights ws (some t) rtol hq hp hma hmd h2 h1 hws hfit
  have hadj' : Aᴴ * ws.matrix n = ws.matrix n * Aadj := by
    have h := congrArg conjTranspose hadj
    rw [conjTranspose_mul, conjTranspose_mul, conjTranspose_conjTranspose, hW.eq] at h
    exact h.symm
  have hH := (C25_arrays svd X Y p q none none weights ws _ _ hp hq hws hfit A Aadj B C hadj hX hY res hres).1
  have hH' := (C25_arrays svd' Y X q p none none weights ws _ _ hq hp hws hfit Aadj A C B hadj' hY hX res' hres').1
  obtain ⟨h3, Φ, Ψ, Φ', Ψ', h4⟩ := C125_arrays svd svd' X Y p q q p weights ws rtol t none none none none ht hr hws hfit hW res res' hres hres'
    (hlib _) (hlib' _) hH hH'
  exact ⟨res', Φ, Ψ, Φ', Ψ', hres', h3, h4⟩

/-- **C125** for the adjoint system of handles. -/
theorem C125_handles_adjoint_system {E : Type*} [AddCommGroup E] [Module 𝕜 E] {md ma : Nat} (ip : E →ₗ⋆[𝕜] E →ₗ[𝕜] 𝕜)
    (hsym : ∀ x y, ip y x = star (ip x y)) (X : Fin md → E) (Y : Fin ma → E) (rtol : Option ℝ) (t : ℝ)
    (p q : Nat) (hp : 1 ≤ p) (hq : 1 ≤ q) (hmd : md / p * p = md) (hma : ma / q * q = ma)
    (svd : Matrix (Fin (ma / q * q)) (Fin (md / p * p)) 𝕜 → SvdOut 𝕜 (ma / q * q) (md / p * p))
    (svd' : Matrix (Fin (md / p * p)) (Fin (ma / q * q)) 𝕜 → SvdOut 𝕜 (md / p * p) (ma / q * q))
    (ht : 0 ≤ t) (hr : ∀ t ∈ rtol, 0 ≤ t) (A Aadj : E → E) (hadj : ∀ u v, ip (Aadj u) v = ip u (A v)) (B : Fin p → E)
    (C : Fin q → E) (hX : ∀ j, X j = A^[j.val / p] (B ⟨j % p, Nat.mod_lt _ hp⟩))
    (hY : ∀ j, Y j = Aadj^[j.val / q] (C ⟨j % q, Nat.mod_lt _ hq⟩))
    (hlib : ∀ H, IsSvd H (svd H)) (hlib' : ∀ H, IsSvd H (svd' H)) (bpod : BpodHandles 𝕜 E md ma (ma / q * q) (md / p * p))
    (hres : bpodHandlesDecomp (fun x y => ip x y) X Y p q svd (some t) rtol = .ok bpod) :
    ∃ (bpod' : BpodHandles 𝕜 E ma md (md / p * p) (ma / q * q)) (Φ Ψ : Fin bpod.r → E) (Φ' Ψ' : Fin bpod'.r → E),
      bpodHandlesDecomp (fun x y => ip x y) Y X q p svd' (some t) rtol = .ok bpod' ∧ bpod'.hankel = bpod.hankelᴴ ∧
      (∀ l k out, bpodHandlesDirectModes bpod l k = .ok out → ChosenVecs Φ l out) ∧
      (∀ l k out, bpodHandlesAdjointModes bpod l k = .ok out → ChosenVecs Ψ l out) ∧
      (∀ l k out, bpodHandlesDirectModes bpod' l k = .ok out → ChosenVecs Φ' l out) ∧
      (∀ l k out, bpodHandlesAdjointModes bpod' l k = .ok out → ChosenVecs Ψ' l out) ∧
      SameBalancedOf ip (1 : 𝕜) 1 1 1
        ⟨bpod.r, bpod.singVals, Φ, Ψ, (bpodHandlesDirectProjCoeffs bpod).submatrix id (Fin.cast hmd.symm),
          (bpodHandlesAdjointProjCoeffs bpod).submatrix id (Fin.cast hma.symm)⟩
        (BalancedSetOf.exchange ⟨bpod'.r, bpod'.singVals, Φ', Ψ', (bpodHandlesDirectProjCoeffs bpod').submatrix id (Fin.cast hma.symm),
          (bpodHandlesAdjointProjCoeffs bpod').submatrix id (Fin.cast hmd.symm)⟩) := by
  have dma : q ∣ ma := Dvd.intro_left _ hma
  have dmd : p ∣ md := Dvd.intro_left _ hmd
  obtain ⟨rows, e, hrows, -⟩ := bpodHandlesDecomp_cases X Y p q svd _ rtol _ bpod hres
  obtain ⟨-, -, h1, h2, -⟩ := bpodHankel_shape p q rfl rfl _ _ rows hrows
  have l1 : p ≤ md := by
    have := Nat.mul_le_mul_right p h2
    omega
  have l2 : q ≤ ma := by
    have := Nat.mul_le_mul_right q h1
    omega
  obtain ⟨bpod', hres'⟩ := C25_handles_no_error Y X q p svd' (some t) rtol (fun x y => ip x y) hq hp l2 l1
  have hadj' : ∀ u v, ip (A u) v = ip u (Aadj v) := by
    intro u v
    rw [hsym v (A u), hsym (Aadj v) u, hadj]
  have hH := C25_handles X Y p q svd _ rtol (fun x y => ip x y) A Aadj hadj hp hq dma B C hX hY bpod hres
  have hH' := C25_handles Y X q p svd' _ rtol (fun x y => ip x y) Aadj A hadj' hq hp dmd C B hY hX bpod' hres'
  obtain ⟨Φ, Ψ, Φ', Ψ', h3⟩ := C125_handles ip hsym X Y rtol t p q q p hmd hma hma hmd svd svd' ht hr bpod bpod' hres hres' (hlib _)
    (hlib' _) (fun i j => hH i j _ _ rfl rfl) (fun i j => hH' i j _ _ rfl rfl)
  refine ⟨bpod', Φ, Ψ, Φ', Ψ', hres', ?_, h3⟩
  ext i j
  rw [conjTranspose_apply, hH j i (Fin.cast hma j) (Fin.cast hmd i) rfl rfl, hH' i j (Fin.cast hmd i) (Fin.cast hma j) rfl rfl]
  exact hsym _ _

/-- Two inputs and one output: the state is doubled at every step. -/
example : ∃ (svd : Matrix (Fin 2) (Fin 4) ℝ → SvdOut ℝ 2 4) (svd' : Matrix (Fin 4) (Fin 2) ℝ → SvdOut ℝ 4 2) (res : BpodResult ℝ 1 4 2)
    (res' : BpodResult ℝ 1 2 4) (Φ Ψ : Matrix (Fin 1) (Fin res.r) ℝ) (Φ' Ψ' : Matrix (Fin 1) (Fin res'.r) ℝ),
    bpodArrays svd !![1, 3, 2, 6] !![1, 2] 2 1 none none none (some (1 / 10)) none = .ok res ∧
    bpodArrays svd' !![1, 2] !![1, 3, 2, 6] 1 2 none none none (some (1 / 10)) none = .ok res' ∧ res'.hankel = res.hankelᴴ ∧
    SameBalanced (1 : ℝ) 1 1 1 ⟨res.r, res.singVals, Φ, Ψ, res.directProjCoeffs, res.adjointProjCoeffs⟩
      (BalancedSet.exchange ⟨res'.r, res'.singVals, Φ', Ψ', res'.directProjCoeffs, res'.adjointProjCoeffs⟩) := by
  choose svd hsvd using fun a : Matrix (Fin 2) (Fin 4) ℝ => exists_isSvd a
  choose svd' hsvd' using fun a : Matrix (Fin 4) (Fin 2) ℝ => exists_isSvd a
  obtain ⟨res, hres⟩ := C25_no_error svd !![1, 3, 2, 6] !![1, 2] 2 1 none .none (some (1 / 10)) none
    (by decide) (by decide) (by decide) (by decide) (by decide) (by decide) rfl trivial
  obtain ⟨res', Φ, Ψ, Φ', Ψ', hres', hT, -, -, -, -, h⟩ := C125_adjoint_system svd svd' !![1, 3, 2, 6] !![1, 2] 2 1 none .none none (1 / 10)
    (by decide) (by decide) (by norm_num) (by simp) rfl trivial (by simp [Weights.matrix]) !![2] !![2] !![1, 3] !![1]
    (by ext i j; fin_cases i; fin_cases j; simp [Weights.matrix])
    (by intro i j; fin_cases i; fin_cases j <;> norm_num)
    (by intro i j; fin_cases i; fin_cases j <;> norm_num)
    hsvd hsvd' res hres
  exact ⟨svd, svd', res, res', Φ, Ψ, Φ', Ψ', hres, hres', hT, h⟩

/-- Handles of numbers that are doubled at every step, from one input and to one output. -/
example : ∃ (svd : Matrix (Fin 2) (Fin 3) ℝ → SvdOut ℝ 2 3) (svd' : Matrix (Fin 3) (Fin 2) ℝ → SvdOut ℝ 3 2) (bpod : BpodHandles ℝ ℝ 3 2 2 3)
    (bpod' : BpodHandles ℝ ℝ 2 3 3 2) (Φ Ψ : Fin bpod.r → ℝ) (Φ' Ψ' : Fin bpod'.r → ℝ),
    bpodHandlesDecomp (fun x y => LinearMap.mul ℝ ℝ x y) ![3, 6, 12] ![1, 2] 1 1 svd (some (1 / 10)) none = .ok bpod ∧
    bpodHandlesDecomp (fun x y => LinearMap.mul ℝ ℝ x y) ![1, 2] ![3, 6, 12] 1 1 svd' (some (1 / 10)) none = .ok bpod' ∧
    bpod'.hankel = bpod.hankelᴴ ∧
    SameBalancedOf (LinearMap.mul ℝ ℝ : ℝ →ₗ⋆[ℝ] ℝ →ₗ[ℝ] ℝ) (1 : ℝ) 1 1 1
      ⟨bpod.r, bpod.singVals, Φ, Ψ, bpodHandlesDirectProjCoeffs bpod, bpodHandlesAdjointProjCoeffs bpod⟩
      (BalancedSetOf.exchange ⟨bpod'.r, bpod'.singVals, Φ', Ψ', bpodHandlesDirectProjCoeffs bpod', bpodHandlesAdjointProjCoeffs bpod'⟩) := by
  choose svd hsvd using fun a : Matrix (Fin 2) (Fin 3) ℝ => exists_isSvd a
  choose svd' hsvd' using fun a : Matrix (Fin 3) (Fin 2) ℝ => exists_isSvd a
  let ip : ℝ →ₗ⋆[ℝ] ℝ →ₗ[ℝ] ℝ := LinearMap.mul ℝ ℝ
  obtain ⟨bpod, hres⟩ := C25_handles_no_error (𝕜 := ℝ) (E := ℝ) (md := 3) (ma := 2) ![3, 6, 12] ![1, 2] 1 1 svd (some (1 / 10)) none
    (fun x y => ip x y) (by decide) (by decide) (by decide) (by decide)
  obtain ⟨bpod', Φ, Ψ, Φ', Ψ', hres', hT, -, -, -, -, h⟩ := C125_handles_adjoint_system (md := 3) (ma := 2) ip (fun x y => mul_comm y x)
    ![3, 6, 12] ![1, 2] none (1 / 10) 1 1 (by decide) (by decide) rfl rfl svd svd' (by norm_num) (by simp) (fun x => 2 * x) (fun x => 2 * x)
    (fun u v => show 2 * u * v = u * (2 * v) by ring) ![3] ![1]
    (by intro j; fin_cases j <;> norm_num [Function.iterate_succ]) (by intro j; fin_cases j <;> norm_num [Function.iterate_succ])
    hsvd hsvd' bpod hres
  exact ⟨svd, svd', bpod, bpod', Φ, Ψ, Φ', Ψ', hres, hres', hT, h⟩

end Modred
