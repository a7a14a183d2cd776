import Verif.Props.DeterminedEra
import Verif.Props.Wide

/-!
# Inputs and outputs that are zero or repeated (C117)
-/

namespace Modred

open Matrix

variable {𝕜 : Type*} [RCLike 𝕜]

/-! ### Balanced modes of arrays -/

section Arrays

variable {n md ma md' ma' : Nat} (svd : Matrix (Fin ma) (Fin md) 𝕜 → SvdOut 𝕜 ma md)
  (svd' : Matrix (Fin ma') (Fin md') 𝕜 → SvdOut 𝕜 ma' md') (X : Matrix (Fin n) (Fin md) 𝕜) (X' : Matrix (Fin n) (Fin md') 𝕜)
  (Y : Matrix (Fin n) (Fin ma) 𝕜) (Y' : Matrix (Fin n) (Fin ma') 𝕜) (p q p' q' : Nat) (weights : Option (NdArray 𝕜))
  (ws : Weights 𝕜) (rtol : Option ℝ) (t : ℝ)

/-- **C117.** Inputs and outputs that are zero, anywhere among the others, do not change balanced modes, so neither singular values
nor projections change. -/
theorem C117_bpod_zero (hp : 1 ≤ p) (hq : 1 ≤ q) (hp' : 1 ≤ p') (hq' : 1 ≤ q') (hmd' : md' = md / p * p')
    (hma' : ma' = ma / q * q') (ι : Fin p → Fin p') (κ : Fin q → Fin q') (hι : Function.Injective ι) (hκ : Function.Injective κ)
    (ht : 0 ≤ t) (hr : ∀ t ∈ rtol, 0 ≤ t) (hws : arraysInit weights = .ok ws) (hfit : ws.Fits n)
    (A Aadj : Matrix (Fin n) (Fin n) 𝕜) (B : Matrix (Fin n) (Fin p) 𝕜) (C : Matrix (Fin n) (Fin q) 𝕜)
    (B' : Matrix (Fin n) (Fin p') 𝕜) (C' : Matrix (Fin n) (Fin q') 𝕜) (hadj : Aadjᴴ * ws.matrix n = ws.matrix n * A)
    (hB1 : ∀ i, B'ᵀ (ι i) = Bᵀ i) (hB0 : ∀ j, (∀ i, ι i ≠ j) → B'ᵀ j = 0)
    (hC1 : ∀ i, C'ᵀ (κ i) = Cᵀ i) (hC0 : ∀ j, (∀ i, κ i ≠ j) → C'ᵀ j = 0)
    (hX : ∀ i j, X i j = (A ^ (j.val / p) * B) i ⟨j % p, Nat.mod_lt _ hp⟩)
    (hY : ∀ i j, Y i j = (Aadj ^ (j.val / q) * C) i ⟨j % q, Nat.mod_lt _ hq⟩)
    (hX' : ∀ i j, X' i j = (A ^ (j.val / p') * B') i ⟨j % p', Nat.mod_lt _ hp'⟩)
    (hY' : ∀ i j, Y' i j = (Aadj ^ (j.val / q') * C') i ⟨j % q', Nat.mod_lt _ hq'⟩)
    (hlib : ∀ H, IsSvd H (svd H)) (hlib' : ∀ H, IsSvd H (svd' H)) (res : BpodResult 𝕜 n md ma)
    (hres : bpodArrays svd X Y p q none none weights (some t) rtol = .ok res) :
    ∃ (res' : BpodResult 𝕜 n md' ma') (Φ Ψ : Matrix (Fin n) (Fin res.r) 𝕜) (Φ' Ψ' : Matrix (Fin n) (Fin res'.r) 𝕜),
      bpodArrays svd' X' Y' p' q' none none weights (some t) rtol = .ok res' ∧
      Chosen Φ none res.directModes ∧ Chosen Ψ none res.adjointModes ∧
      Chosen Φ' none res'.directModes ∧ Chosen Ψ' none res'.adjointModes ∧
      SameBalanced (1 : 𝕜) 1 (stepMix hp hp' (placeRows 𝕜 ι)) (stepMix hq hq' (placeRows 𝕜 κ))
        ⟨res.r, res.singVals, Φ, Ψ, res.directProjCoeffs, res.adjointProjCoeffs⟩
        ⟨res'.r, res'.singVals, Φ', Ψ', res'.directProjCoeffs, res'.adjointProjCoeffs⟩ := by
  have eB : B' = (1 : 𝕜) • (B * placeRows 𝕜 ι) := columns_of_sum fun j => by
    rw [one_smul]
    exact placeRows_sum ι hι _ _ hB1 hB0 j
  have eC : C' = (1 : 𝕜) • (C * placeRows 𝕜 κ) := columns_of_sum fun j => by
    rw [one_smul]
    exact placeRows_sum κ hκ _ _ hC1 hC0 j
  have h := C97_inputs_outputs svd svd' X X' Y Y' p q p' q' weights ws rtol t 1 1 hp hq hp' hq' hmd' hma' one_ne_zero one_ne_zero
    _ _ (placeRows_orthonormal ι hι) (placeRows_orthonormal κ hκ) ht hr hws hfit A Aadj B C hadj hX hY
    (fun i j => by rw [← eB]; exact hX' i j) (fun i j => by rw [← eC]; exact hY' i j) hlib hlib' res hres
  rwa [norm_one, one_mul, one_mul] at h

/-- **C117.** If each input is there `u` times and each output `v` times, in any order, singular values are multiplied by the square
root of `u v`, projections do not change, and modes change by a factor only. -/
theorem C117_bpod_repeated (hp : 1 ≤ p) (hq : 1 ≤ q) (hp' : 1 ≤ p') (hq' : 1 ≤ q') (hmd' : md' = md / p * p')
    (hma' : ma' = ma / q * q') (σ : Fin p' → Fin p) (τ : Fin q' → Fin q) {u v : Nat} (hu : 0 < u) (hv : 0 < v)
    (hσ : ∀ i, (Finset.univ.filter fun j => σ j = i).card = u) (hτ : ∀ i, (Finset.univ.filter fun j => τ j = i).card = v)
    (ht : 0 ≤ t) (hr : ∀ t ∈ rtol, 0 ≤ t) (hws : arraysInit weights = .ok ws) (hfit : ws.Fits n)
    (A Aadj : Matrix (Fin n) (Fin n) 𝕜) (B : Matrix (Fin n) (Fin p) 𝕜) (C : Matrix (Fin n) (Fin q) 𝕜)
    (hadj : Aadjᴴ * ws.matrix n = ws.matrix n * A)
    (hX : ∀ i j, X i j = (A ^ (j.val / p) * B) i ⟨j % p, Nat.mod_lt _ hp⟩)
    (hY : ∀ i j, Y i j = (Aadj ^ (j.val / q) * C) i ⟨j % q, Nat.mod_lt _ hq⟩)
    (hX' : ∀ i j, X' i j = (A ^ (j.val / p') * B) i (σ ⟨j % p', Nat.mod_lt _ hp'⟩))
    (hY' : ∀ i j, Y' i j = (Aadj ^ (j.val / q') * C) i (τ ⟨j % q', Nat.mod_lt _ hq'⟩))
    (hlib : ∀ H, IsSvd H (svd H)) (hlib' : ∀ H, IsSvd H (svd' H)) (res : BpodResult 𝕜 n md ma)
    (hres : bpodArrays svd X Y p q none none weights (some t) rtol = .ok res) :
    ∃ (res' : BpodResult 𝕜 n md' ma') (Φ Ψ : Matrix (Fin n) (Fin res.r) 𝕜) (Φ' Ψ' : Matrix (Fin n) (Fin res'.r) 𝕜),
      bpodArrays svd' X' Y' p' q' none none weights (some (Real.sqrt u * Real.sqrt v * t)) rtol = .ok res' ∧
      Chosen Φ none res.directModes ∧ Chosen Ψ none res.adjointModes ∧
      Chosen Φ' none res'.directModes ∧ Chosen Ψ' none res'.adjointModes ∧
      SameBalanced ((Real.sqrt u : ℝ) : 𝕜) ((Real.sqrt v : ℝ) : 𝕜) (stepMix hp hp' (repeatRows 𝕜 σ u))
        (stepMix hq hq' (repeatRows 𝕜 τ v))
        ⟨res.r, res.singVals, Φ, Ψ, res.directProjCoeffs, res.adjointProjCoeffs⟩
        ⟨res'.r, res'.singVals, Φ', Ψ', res'.directProjCoeffs, res'.adjointProjCoeffs⟩ := by
  have eB : B.submatrix id σ = ((Real.sqrt u : ℝ) : 𝕜) • (B * repeatRows 𝕜 σ u) :=
    columns_of_sum fun j => repeatRows_sum σ hu Bᵀ j
  have eC : C.submatrix id τ = ((Real.sqrt v : ℝ) : 𝕜) • (C * repeatRows 𝕜 τ v) :=
    columns_of_sum fun j => repeatRows_sum τ hv Cᵀ j
  have sub : ∀ {w w' : Nat} (M : Matrix (Fin n) (Fin n) 𝕜) (Z : Matrix (Fin n) (Fin w) 𝕜) (f : Fin w' → Fin w) i j,
      (M * Z.submatrix id f) i j = (M * Z) i (f j) := by
    intro w w' M Z f i j
    rfl
  have h := C97_inputs_outputs svd svd' X X' Y Y' p q p' q' weights ws rtol t _ _ hp hq hp' hq' hmd' hma' (sqrt_nat_ne hu)
    (sqrt_nat_ne hv) _ _ (repeatRows_orthonormal σ hu hσ) (repeatRows_orthonormal τ hv hτ) ht hr hws hfit A Aadj B C hadj hX hY
    (fun i j => by rw [← eB, sub]; exact hX' i j) (fun i j => by rw [← eC, sub]; exact hY' i j) hlib hlib' res hres
  rwa [RCLike.norm_ofReal, RCLike.norm_ofReal, abs_of_nonneg (Real.sqrt_nonneg _), abs_of_nonneg (Real.sqrt_nonneg _)] at h

end Arrays

/-! ### Balanced modes of handles -/

section Handles

variable {E : Type*} [AddCommGroup E] [Module 𝕜 E] {md ma md' ma' : Nat} (ip : E →ₗ⋆[𝕜] E →ₗ[𝕜] 𝕜) (X : Fin md → E)
  (X' : Fin md' → E) (Y : Fin ma → E) (Y' : Fin ma' → E) (rtol : Option ℝ) (t : ℝ) (p q p' q' : Nat)

/-- **C117.** Handles, inputs and outputs that are zero. -/
theorem C117_handles_zero (hp : 1 ≤ p) (hq : 1 ≤ q) (hp' : 1 ≤ p') (hq' : 1 ≤ q')
    (hmd : md / p * p = md) (hma : ma / q * q = ma) (hmd' : md' / p' * p' = md') (hma' : ma' / q' * q' = ma')
    (kd : md' / p' = md / p) (ka : ma' / q' = ma / q)
    (svd : Matrix (Fin (ma / q * q)) (Fin (md / p * p)) 𝕜 → SvdOut 𝕜 (ma / q * q) (md / p * p))
    (svd' : Matrix (Fin (ma' / q' * q')) (Fin (md' / p' * p')) 𝕜 → SvdOut 𝕜 (ma' / q' * q') (md' / p' * p'))
    (ι : Fin p → Fin p') (κ : Fin q → Fin q') (hι : Function.Injective ι) (hκ : Function.Injective κ)
    (ht : 0 ≤ t) (hr : ∀ t ∈ rtol, 0 ≤ t) (A Aadj : E →ₗ[𝕜] E) (hadj : ∀ u v, ip (Aadj u) v = ip u (A v)) (B : Fin p → E)
    (C : Fin q → E) (B' : Fin p' → E) (C' : Fin q' → E)
    (hB1 : ∀ i, B' (ι i) = B i) (hB0 : ∀ j, (∀ i, ι i ≠ j) → B' j = 0)
    (hC1 : ∀ i, C' (κ i) = C i) (hC0 : ∀ j, (∀ i, κ i ≠ j) → C' j = 0)
    (hX : ∀ j, X j = A^[j.val / p] (B ⟨j % p, Nat.mod_lt _ hp⟩))
    (hY : ∀ j, Y j = Aadj^[j.val / q] (C ⟨j % q, Nat.mod_lt _ hq⟩))
    (hX' : ∀ j, X' j = A^[j.val / p'] (B' ⟨j % p', Nat.mod_lt _ hp'⟩))
    (hY' : ∀ j, Y' j = Aadj^[j.val / q'] (C' ⟨j % q', Nat.mod_lt _ hq'⟩))
    (hlib : ∀ H, IsSvd H (svd H)) (hlib' : ∀ H, IsSvd H (svd' H)) (bpod : BpodHandles 𝕜 E md ma (ma / q * q) (md / p * p))
    (hres : bpodHandlesDecomp (fun x y => ip x y) X Y p q svd (some t) rtol = .ok bpod) :
    ∃ (bpod' : BpodHandles 𝕜 E md' ma' (ma' / q' * q') (md' / p' * p')) (Φ Ψ : Fin bpod.r → E) (Φ' Ψ' : Fin bpod'.r → E),
      bpodHandlesDecomp (fun x y => ip x y) X' Y' p' q' svd' (some t) rtol = .ok bpod' ∧
      (∀ l k out, bpodHandlesDirectModes bpod l k = .ok out → ChosenVecs Φ l out) ∧
      (∀ l k out, bpodHandlesAdjointModes bpod l k = .ok out → ChosenVecs Ψ l out) ∧
      (∀ l k out, bpodHandlesDirectModes bpod' l k = .ok out → ChosenVecs Φ' l out) ∧
      (∀ l k out, bpodHandlesAdjointModes bpod' l k = .ok out → ChosenVecs Ψ' l out) ∧
      SameBalancedOf ip 1 1 (stepMix hp hp' (placeRows 𝕜 ι)) (stepMix hq hq' (placeRows 𝕜 κ))
        ⟨bpod.r, bpod.singVals, Φ, Ψ, (bpodHandlesDirectProjCoeffs bpod).submatrix id (Fin.cast hmd.symm),
          (bpodHandlesAdjointProjCoeffs bpod).submatrix id (Fin.cast hma.symm)⟩
        ⟨bpod'.r, bpod'.singVals, Φ', Ψ', (bpodHandlesDirectProjCoeffs bpod').submatrix id (Fin.cast hmd'.symm),
          (bpodHandlesAdjointProjCoeffs bpod').submatrix id (Fin.cast hma'.symm)⟩ := by
  have h := C97_handles_inputs_outputs ip X X' Y Y' 1 1 rtol t p q p' q' hp hq hp' hq' hmd hma hmd' hma' kd ka svd svd' one_ne_zero
    one_ne_zero _ _ (placeRows_orthonormal ι hι) (placeRows_orthonormal κ hκ) ht hr A Aadj hadj B C hX hY
    (fun j => by rw [one_smul, ← placeRows_sum ι hι _ _ hB1 hB0]; exact hX' j)
    (fun j => by rw [one_smul, ← placeRows_sum κ hκ _ _ hC1 hC0]; exact hY' j) hlib hlib' bpod hres
  rwa [norm_one, one_mul, one_mul] at h

/-- **C117.** Handles, inputs and outputs that are repeated. -/
theorem C117_handles_repeated (hp : 1 ≤ p) (hq : 1 ≤ q) (hp' : 1 ≤ p') (hq' : 1 ≤ q')
    (hmd : md / p * p = md) (hma : ma / q * q = ma) (hmd' : md' / p' * p' = md') (hma' : ma' / q' * q' = ma')
    (kd : md' / p' = md / p) (ka : ma' / q' = ma / q)
    (svd : Matrix (Fin (ma / q * q)) (Fin (md / p * p)) 𝕜 → SvdOut 𝕜 (ma / q * q) (md / p * p))
    (svd' : Matrix (Fin (ma' / q' * q')) (Fin (md' / p' * p')) 𝕜 → SvdOut 𝕜 (ma' / q' * q') (md' / p' * p'))
    (σ : Fin p' → Fin p) (τ : Fin q' → Fin q) {u v : Nat} (hu : 0 < u) (hv : 0 < v)
    (hσ : ∀ i, (Finset.univ.filter fun j => σ j = i).card = u) (hτ : ∀ i, (Finset.univ.filter fun j => τ j = i).card = v)
    (ht : 0 ≤ t) (hr : ∀ t ∈ rtol, 0 ≤ t) (A Aadj : E →ₗ[𝕜] E) (hadj : ∀ u v, ip (Aadj u) v = ip u (A v)) (B : Fin p → E)
    (C : Fin q → E) (hX : ∀ j, X j = A^[j.val / p] (B ⟨j % p, Nat.mod_lt _ hp⟩))
    (hY : ∀ j, Y j = Aadj^[j.val / q] (C ⟨j % q, Nat.mod_lt _ hq⟩))
    (hX' : ∀ j, X' j = A^[j.val / p'] (B (σ ⟨j % p', Nat.mod_lt _ hp'⟩)))
    (hY' : ∀ j, Y' j = Aadj^[j.val / q'] (C (τ ⟨j % q', Nat.mod_lt _ hq'⟩)))
    (hlib : ∀ H, IsSvd H (svd H)) (hlib' : ∀ H, IsSvd H (svd' H)) (bpod : BpodHandles 𝕜 E md ma (ma / q * q) (md / p * p))
    (hres : bpodHandlesDecomp (fun x y => ip x y) X Y p q svd (some t) rtol = .ok bpod) :
    ∃ (bpod' : BpodHandles 𝕜 E md' ma' (ma' / q' * q') (md' / p' * p')) (Φ Ψ : Fin bpod.r → E) (Φ' Ψ' : Fin bpod'.r → E),
      bpodHandlesDecomp (fun x y => ip x y) X' Y' p' q' svd' (some (Real.sqrt u * Real.sqrt v * t)) rtol = .ok bpod' ∧
      (∀ l k out, bpodHandlesDirectModes bpod l k = .ok out → ChosenVecs Φ l out) ∧
      (∀ l k out, bpodHandlesAdjointModes bpod l k = .ok out → ChosenVecs Ψ l out) ∧
      (∀ l k out, bpodHandlesDirectModes bpod' l k = .ok out → ChosenVecs Φ' l out) ∧
      (∀ l k out, bpodHandlesAdjointModes bpod' l k = .ok out → ChosenVecs Ψ' l out) ∧
      SameBalancedOf ip ((Real.sqrt u : ℝ) : 𝕜) ((Real.sqrt v : ℝ) : 𝕜) (stepMix hp hp' (repeatRows 𝕜 σ u))
        (stepMix hq hq' (repeatRows 𝕜 τ v))
        ⟨bpod.r, bpod.singVals, Φ, Ψ, (bpodHandlesDirectProjCoeffs bpod).submatrix id (Fin.cast hmd.symm),
          (bpodHandlesAdjointProjCoeffs bpod).submatrix id (Fin.cast hma.symm)⟩
        ⟨bpod'.r, bpod'.singVals, Φ', Ψ', (bpodHandlesDirectProjCoeffs bpod').submatrix id (Fin.cast hmd'.symm),
          (bpodHandlesAdjointProjCoeffs bpod').submatrix id (Fin.cast hma'.symm)⟩ := by
  have h := C97_handles_inputs_outputs ip X X' Y Y' ((Real.sqrt u : ℝ) : 𝕜) ((Real.sqrt v : ℝ) : 𝕜) rtol t p q p' q' hp hq hp' hq'
    hmd hma hmd' hma' kd ka svd svd' (sqrt_nat_ne hu) (sqrt_nat_ne hv) _ _ (repeatRows_orthonormal σ hu hσ)
    (repeatRows_orthonormal τ hv hτ) ht hr A Aadj hadj B C hX hY
    (fun j => by rw [← repeatRows_sum σ hu]; exact hX' j)
    (fun j => by rw [← repeatRows_sum τ hv]; exact hY' j) hlib hlib' bpod hres
  rwa [RCLike.norm_ofReal, RCLike.norm_ofReal, abs_of_nonneg (Real.sqrt_nonneg _), abs_of_nonneg (Real.sqrt_nonneg _)] at h

end Handles

/-! ### Models -/

section Models

theorem placed_entries {q p q' p' : Nat} (κ : Fin q → Fin q') (ι : Fin p → Fin p') (hκ : Function.Injective κ)
    (hι : Function.Injective ι) (M : Matrix (Fin q) (Fin p) 𝕜) :
    (∀ i j, ((placeRows 𝕜 κ)ᴴ * M * placeRows 𝕜 ι) (κ i) (ι j) = M i j) ∧
    ∀ i' j', (∀ i, κ i ≠ i') ∨ (∀ j, ι j ≠ j') → ((placeRows 𝕜 κ)ᴴ * M * placeRows 𝕜 ι) i' j' = 0 := by
  have e : ∀ i' j', ((placeRows 𝕜 κ)ᴴ * M * placeRows 𝕜 ι) i' j' =
      ∑ j, (∑ i, star (if κ i = i' then (1 : 𝕜) else 0) * M i j) * (if ι j = j' then 1 else 0) := by
    intro i' j'
    rw [Matrix.mul_apply]
    refine Finset.sum_congr rfl fun j _ => ?_
    rw [Matrix.mul_apply]
    rfl
  refine ⟨fun i j => ?_, fun i' j' h => ?_⟩
  · rw [e, Finset.sum_eq_single j, Finset.sum_eq_single i]
    · simp
    · intro x _ hx
      rw [if_neg fun h => hx (hκ h), star_zero, zero_mul]
    · exact fun h => absurd (Finset.mem_univ _) h
    · intro x _ hx
      rw [if_neg fun h => hx (hι h), mul_zero]
    · exact fun h => absurd (Finset.mem_univ _) h
  · rw [e]
    refine Finset.sum_eq_zero fun j _ => ?_
    rcases h with h | h
    · rw [Finset.sum_eq_zero fun i _ => by rw [if_neg (h i), star_zero, zero_mul], zero_mul]
    · rw [if_neg (h j), mul_zero]

theorem repeated_entries {q p q' p' : Nat} (τ : Fin q' → Fin q) (σ : Fin p' → Fin p) {u v : Nat} (hu : 0 < u) (hv : 0 < v)
    (M : Matrix (Fin q) (Fin p) 𝕜) :
    ((Real.sqrt v * Real.sqrt u : ℝ) : 𝕜) • ((repeatRows 𝕜 τ v)ᴴ * M * repeatRows 𝕜 σ u) = M.submatrix τ σ := by
  ext i' j'
  have h1 := sqrt_nat_ne (𝕜 := 𝕜) hu
  have h2 := sqrt_nat_ne (𝕜 := 𝕜) hv
  have e : ((repeatRows 𝕜 τ v)ᴴ * M * repeatRows 𝕜 σ u) i' j' =
      ∑ j, (∑ i, star (if τ i' = i then ((Real.sqrt v : ℝ) : 𝕜)⁻¹ else 0) * M i j) *
        (if σ j' = j then ((Real.sqrt u : ℝ) : 𝕜)⁻¹ else 0) := by
    rw [Matrix.mul_apply]
    refine Finset.sum_congr rfl fun j _ => ?_
    rw [Matrix.mul_apply]
    rfl
  rw [Matrix.smul_apply, e, Finset.sum_eq_single (σ j'), Finset.sum_eq_single (τ i'), if_pos rfl, if_pos rfl, submatrix_apply]
  · have h3 : star (((Real.sqrt v : ℝ) : 𝕜)⁻¹) = ((Real.sqrt v : ℝ) : 𝕜)⁻¹ := by
      rw [star_inv₀]
      exact congrArg _ (RCLike.conj_ofReal _)
    rw [h3, smul_eq_mul, RCLike.ofReal_mul]
    field_simp
  · intro x _ hx
    rw [if_neg fun h => hx h.symm, star_zero, zero_mul]
  · exact fun h => absurd (Finset.mem_univ _) h
  · intro x _ hx
    rw [if_neg fun h => hx h.symm, mul_zero]
  · exact fun h => absurd (Finset.mem_univ _) h

variable (svd svd' : ∀ {m n : Nat}, Matrix (Fin m) (Fin n) 𝕜 → SvdOut 𝕜 m n)

/-- **C117.** Inputs and outputs whose Markov parameters are zero: the model of ERA has as many states, the same Markov parameters for
the other inputs and outputs, and zeros for these. -/
theorem C117_era_zero (hlib : ∀ {m n : Nat} (a : Matrix (Fin m) (Fin n) 𝕜), IsSvd a (svd a))
    (hlib' : ∀ {m n : Nat} (a : Matrix (Fin m) (Fin n) 𝕜), IsSvd a (svd' a)) (cast : 𝕜 → 𝕜) (hcast : ∀ x, cast x = x)
    (self self' o : EraObj) (markovs markovs' : MarkovsIn 𝕜) (m m' : Markovs 𝕜) (mc mo : Option Int)
    (hm : setMarkovs markovs = .ok m) (hm' : setMarkovs markovs' = .ok m') (hnt : m'.nt = m.nt) (hno : 1 ≤ m.no) (hni : 1 ≤ m.ni)
    (hno' : 1 ≤ m'.no) (hni' : 1 ≤ m'.ni) (κ : Fin m.no → Fin m'.no) (ι : Fin m.ni → Fin m'.ni) (hκ : Function.Injective κ)
    (hι : Function.Injective ι) (h1 : ∀ t < m.nt, ∀ i j, m'.at_ t (κ i) (ι j) = m.at_ t i j)
    (h0 : ∀ t < m.nt, ∀ (i' : Fin m'.no) (j' : Fin m'.ni), (∀ i, κ i ≠ i') ∨ (∀ j, ι j ≠ j') → m'.at_ t i' j' = 0)
    (h : HankelPair 𝕜) (hh : eraHankel cast self markovs mc mo = .ok (o, h)) (ns : Nat)
    (gap : ∀ i j : Fin (min h.rows h.cols), i.val < ns → ns ≤ j.val → 1e-13 < (svd h.array).S j →
      (svd h.array).S j < (svd h.array).S i)
    (model : LtiModel 𝕜) (hres : eraModel svd cast self markovs ns mc mo = .ok (o, model)) (hr : 1 ≤ model.r) :
    ∃ (o' : EraObj) (model' : LtiModel 𝕜) (hq : m.no = model.q) (hp : m.ni = model.p) (hq' : m'.no = model'.q)
        (hp' : m'.ni = model'.p),
      eraModel svd' cast self' markovs' ns mc mo = .ok (o', model') ∧ model'.r = model.r ∧ ∀ k : Nat,
        (∀ i j, (model'.C * model'.A ^ k * model'.B) (Fin.cast hq' (κ i)) (Fin.cast hp' (ι j)) =
          (model.C * model.A ^ k * model.B) (Fin.cast hq i) (Fin.cast hp j)) ∧
        ∀ i' j', (∀ i, κ i ≠ i') ∨ (∀ j, ι j ≠ j') →
          (model'.C * model'.A ^ k * model'.B) (Fin.cast hq' i') (Fin.cast hp' j') = 0 := by
  obtain ⟨o', model', hres', H⟩ := C98_response_partial svd svd' hlib hlib' cast hcast self self' o markovs markovs' m m' mc mo hm hm'
    hnt hno hni hno' hni' (placeRows_orthonormal κ hκ) (placeRows_orthonormal ι hι) (one_ne_zero (α := 𝕜)) (fun t ht => by
      obtain ⟨e1, e0⟩ := placed_entries κ ι hκ hι (of fun i j => m.at_ t i j : Matrix (Fin m.no) (Fin m.ni) 𝕜)
      rw [one_smul]
      ext i' j'
      by_cases hi : ∃ i, κ i = i'
      · by_cases hj : ∃ j, ι j = j'
        · obtain ⟨i, rfl⟩ := hi
          obtain ⟨j, rfl⟩ := hj
          rw [e1]
          exact h1 t ht i j
        · rw [e0 i' j' (.inr fun j hc => hj ⟨j, hc⟩)]
          exact h0 t ht i' j' (.inr fun j hc => hj ⟨j, hc⟩)
      · rw [e0 i' j' (.inl fun i hc => hi ⟨i, hc⟩)]
        exact h0 t ht i' j' (.inl fun i hc => hi ⟨i, hc⟩)) h hh ns (fun i => by rw [norm_one, one_mul]) gap model hres hr
  refine ⟨o', model', H.outputs.symm, H.inputs.symm, H.outputs'.symm, H.inputs'.symm, hres', H.states, fun k => ?_⟩
  have e := H.response k
  rw [one_smul] at e
  obtain ⟨e1, e0⟩ := placed_entries κ ι hκ hι
    ((model.C * model.A ^ k * model.B).submatrix (Fin.cast H.outputs.symm) (Fin.cast H.inputs.symm))
  rw [← e] at e1 e0
  exact ⟨e1, e0⟩

/-- **C117.** Inputs that are there `u` times and outputs that are there `v` times: the Markov parameters of the model are repeated like
those of the system.  Singular values are multiplied by the square root of `u v`, and the tolerance of `util.svd` must keep as many. -/
theorem C117_era_repeated (hlib : ∀ {m n : Nat} (a : Matrix (Fin m) (Fin n) 𝕜), IsSvd a (svd a))
    (hlib' : ∀ {m n : Nat} (a : Matrix (Fin m) (Fin n) 𝕜), IsSvd a (svd' a)) (cast : 𝕜 → 𝕜) (hcast : ∀ x, cast x = x)
    (self self' o : EraObj) (markovs markovs' : MarkovsIn 𝕜) (m m' : Markovs 𝕜) (mc mo : Option Int)
    (hm : setMarkovs markovs = .ok m) (hm' : setMarkovs markovs' = .ok m') (hnt : m'.nt = m.nt) (hno : 1 ≤ m.no) (hni : 1 ≤ m.ni)
    (hno' : 1 ≤ m'.no) (hni' : 1 ≤ m'.ni) (τ : Fin m'.no → Fin m.no) (σ : Fin m'.ni → Fin m.ni) {u v : Nat} (hu : 0 < u)
    (hv : 0 < v) (hσ : ∀ i, (Finset.univ.filter fun j => σ j = i).card = u)
    (hτ : ∀ i, (Finset.univ.filter fun j => τ j = i).card = v)
    (hM : ∀ t < m.nt, ∀ (i : Fin m'.no) (j : Fin m'.ni), m'.at_ t i j = m.at_ t (τ i) (σ j))
    (h : HankelPair 𝕜) (hh : eraHankel cast self markovs mc mo = .ok (o, h)) (ns : Nat)
    (htol : ∀ i, (svd h.array).S i ≤ 1e-13 → Real.sqrt v * Real.sqrt u * (svd h.array).S i ≤ 1e-13)
    (gap : ∀ i j : Fin (min h.rows h.cols), i.val < ns → ns ≤ j.val → 1e-13 < (svd h.array).S j →
      (svd h.array).S j < (svd h.array).S i)
    (model : LtiModel 𝕜) (hres : eraModel svd cast self markovs ns mc mo = .ok (o, model)) (hr : 1 ≤ model.r) :
    ∃ (o' : EraObj) (model' : LtiModel 𝕜) (hq : m.no = model.q) (hp : m.ni = model.p) (hq' : m'.no = model'.q)
        (hp' : m'.ni = model'.p),
      eraModel svd' cast self' markovs' ns mc mo = .ok (o', model') ∧ model'.r = model.r ∧
      ∀ (k : Nat) i j, (model'.C * model'.A ^ k * model'.B) (Fin.cast hq' i) (Fin.cast hp' j) =
        (model.C * model.A ^ k * model.B) (Fin.cast hq (τ i)) (Fin.cast hp (σ j)) := by
  have one_le : ∀ {x : Nat}, 0 < x → 1 ≤ Real.sqrt x := by
    intro x hx
    rw [Real.one_le_sqrt]
    exact_mod_cast hx
  have c1 : 1 ≤ Real.sqrt v * Real.sqrt u := one_le_mul_of_one_le_of_one_le (one_le hv) (one_le hu)
  have c0 : (0 : ℝ) < Real.sqrt v * Real.sqrt u := lt_of_lt_of_le one_pos c1
  have hc : ((Real.sqrt v * Real.sqrt u : ℝ) : 𝕜) ≠ 0 := RCLike.ofReal_ne_zero.mpr c0.ne'
  obtain ⟨o', model', hres', H⟩ := C98_response_partial svd svd' hlib hlib' cast hcast self self' o markovs markovs' m m' mc mo hm hm'
    hnt hno hni hno' hni' (repeatRows_orthonormal τ hv hτ) (repeatRows_orthonormal σ hu hσ) hc (fun t ht => by
      rw [repeated_entries τ σ hu hv]
      ext i j
      exact hM t ht i j) h hh ns (fun i => by
        rw [RCLike.norm_ofReal, abs_of_pos c0]
        constructor
        · intro hi
          exact lt_of_lt_of_le hi (le_mul_of_one_le_left (((by norm_num : (0 : ℝ) ≤ 1e-13)).trans hi.le) c1)
        · intro hi
          by_contra hn
          exact absurd (htol i (not_lt.mp hn)) (not_le.mpr hi)) gap model hres hr
  refine ⟨o', model', H.outputs.symm, H.inputs.symm, H.outputs'.symm, H.inputs'.symm, hres', H.states, fun k i j => ?_⟩
  have e := H.response k
  rw [repeated_entries τ σ hu hv] at e
  exact congrFun (congrFun e i) j

end Models

/-! ### Examples -/

/-- The system of `C97` with a third input, between the others, that does nothing. -/
example : ∃ (svd : Matrix (Fin 2) (Fin 4) ℝ → SvdOut ℝ 2 4) (svd' : Matrix (Fin 2) (Fin 6) ℝ → SvdOut ℝ 2 6)
    (res : BpodResult ℝ 1 4 2) (res' : BpodResult ℝ 1 6 2)
    (Φ Ψ : Matrix (Fin 1) (Fin res.r) ℝ) (Φ' Ψ' : Matrix (Fin 1) (Fin res'.r) ℝ),
    bpodArrays svd !![1, 3, 2, 6] !![1, 2] 2 1 none none none (some (1 / 10)) none = .ok res ∧
    bpodArrays svd' !![1, 0, 3, 2, 0, 6] !![1, 2] 3 1 none none none (some (1 / 10)) none = .ok res' ∧
    SameBalanced (1 : ℝ) 1 (stepMix (p := 2) (p' := 3) (by decide) (by decide) (placeRows ℝ ![0, 2]))
      (stepMix (p := 1) (p' := 1) (by decide) (by decide) (placeRows ℝ id))
      ⟨res.r, res.singVals, Φ, Ψ, res.directProjCoeffs, res.adjointProjCoeffs⟩
      ⟨res'.r, res'.singVals, Φ', Ψ', res'.directProjCoeffs, res'.adjointProjCoeffs⟩ := by
  choose svd hsvd using fun a : Matrix (Fin 2) (Fin 4) ℝ => exists_isSvd a
  choose svd' hsvd' using fun a : Matrix (Fin 2) (Fin 6) ℝ => exists_isSvd a
  obtain ⟨res, hres⟩ := C25_no_error svd !![1, 3, 2, 6] !![1, 2] 2 1 none .none (some (1 / 10)) none
    (by decide) (by decide) (by decide) (by decide) (by decide) (by decide) rfl trivial
  obtain ⟨res', Φ, Ψ, Φ', Ψ', hres', -, -, -, -, h⟩ := C117_bpod_zero svd svd' !![1, 3, 2, 6] !![1, 0, 3, 2, 0, 6] !![1, 2]
    !![1, 2] 2 1 3 1 none .none none (1 / 10) (by decide) (by decide) (by decide) (by decide) rfl rfl ![0, 2] id (by decide)
    Function.injective_id (by norm_num) (by simp) rfl trivial !![2] !![2] !![1, 3] !![1] !![1, 0, 3] !![1]
    (by ext i j; fin_cases i; fin_cases j; simp [Weights.matrix])
    (by intro i; ext j; fin_cases i <;> fin_cases j <;> rfl)
    (by
      intro j hj
      fin_cases j
      · exact absurd rfl (hj 0)
      · ext i; fin_cases i; rfl
      · exact absurd rfl (hj 1))
    (fun _ => rfl) (fun j hj => absurd rfl (hj j))
    (by intro i j; fin_cases i; fin_cases j <;> norm_num)
    (by intro i j; fin_cases i; fin_cases j <;> norm_num)
    (by intro i j; fin_cases i; fin_cases j <;> norm_num [Matrix.mul_apply])
    (by intro i j; fin_cases i; fin_cases j <;> norm_num)
    hsvd hsvd' res hres
  exact ⟨svd, svd', res, res', Φ, Ψ, Φ', Ψ', hres, hres', h⟩

theorem twoHalves_two (svd : ∀ {m n : Nat}, Matrix (Fin m) (Fin n) ℝ → SvdOut ℝ m n)
    (hsvd : ∀ {m n : Nat} (a : Matrix (Fin m) (Fin n) ℝ), IsSvd a (svd a)) :
    ∃ o f f2 model, eraHankel id (eraInit none none) (.d3 twoHalves) none none = .ok (o, ⟨2, 2, f, f2⟩) ∧
      eraModel svd id (eraInit none none) (.d3 twoHalves) 2 none none = .ok (o, model) ∧ model.r = 2 ∧
      ∀ i, (svd (HankelPair.array ⟨2, 2, f, f2⟩)).S i = 1 := by
  obtain ⟨o, f2, f, hh, ha⟩ := twoHalves_hankel
  obtain ⟨model, hmodel⟩ := C36_no_error svd id (eraInit none none) o (.d3 twoHalves) none none 2 _ hh
  obtain ⟨h', hh', -, hred⟩ := eraModel_cases svd id (eraInit none none) o _ twoHalves none none 2 model twoHalves_set hmodel
  rw [hh] at hh'
  obtain ⟨-, rfl⟩ := Prod.mk.inj (Except.ok.inj hh')
  have hS : ∀ i, (svd (1 : Matrix (Fin 2) (Fin 2) ℝ)).S i = 1 := fun i =>
    values_of_one (svd (1 : Matrix (Fin 2) (Fin 2) ℝ)).U (svd (1 : Matrix (Fin 2) (Fin 2) ℝ)).Vh (svd (1 : Matrix (Fin 2) (Fin 2) ℝ)).S
      (hsvd _).left (hsvd _).right (hsvd _).product (fun i => (hsvd (1 : Matrix (Fin 2) (Fin 2) ℝ)).nonneg i) i
  have hS' : ∀ i, (svd (HankelPair.array ⟨2, 2, f, f2⟩)).S i = 1 := by
    rw [ha]
    exact hS
  refine ⟨o, f, f2, model, hh, hmodel, ?_, hS'⟩
  unfold eraReduce at hred
  split at hred
  · cases hred
  rename_i s hs
  cases hred
  dsimp only
  obtain ⟨k1, k2, -⟩ := C19_kept_iff svd _ _ _ (hsvd _) (by simp) s hs
  have := (k2 (1 : Fin 2)).mpr ⟨fun t ht => ?_, fun t ht => by cases ht⟩
  · exact Nat.min_eq_left this
  · cases ht
    refine lt_of_lt_of_eq ?_ (congrArg abs (hS' (1 : Fin 2))).symm
    norm_num [svdAtol]

/-- `twoHalves` with a third output that measures nothing. -/
noncomputable def twoHalvesZero : Markovs ℝ := ⟨6, 3, 2, fun k i j => if i = j then (1 / 2) ^ k else 0⟩

example (svd svd' : ∀ {m n : Nat}, Matrix (Fin m) (Fin n) ℝ → SvdOut ℝ m n)
    (hsvd : ∀ {m n : Nat} (a : Matrix (Fin m) (Fin n) ℝ), IsSvd a (svd a))
    (hsvd' : ∀ {m n : Nat} (a : Matrix (Fin m) (Fin n) ℝ), IsSvd a (svd' a)) :
    ∃ o model, eraModel svd' id (eraInit none none) (.d3 twoHalvesZero) 2 none none = .ok (o, model) ∧ model.r = 2 := by
  obtain ⟨o, f, f2, model, hh, hmodel, hr, hS⟩ := twoHalves_two svd hsvd
  obtain ⟨o', model', -, -, -, -, h1, h2, -⟩ := C117_era_zero svd svd' hsvd hsvd' id (fun _ => rfl) (eraInit none none)
    (eraInit none none) o (.d3 twoHalves) (.d3 twoHalvesZero) twoHalves twoHalvesZero none none twoHalves_set
    (by simp [setMarkovs, twoHalvesZero]) rfl (by simp [twoHalves]) (by simp [twoHalves]) (by simp [twoHalvesZero])
    (by simp [twoHalvesZero]) (Fin.castLE (by simp [twoHalves, twoHalvesZero])) id (Fin.castLE_injective _) Function.injective_id
    (fun t _ i j => rfl) (fun t _ i' j' h => by
      rcases h with h | h
      · refine if_neg fun hc => ?_
        exact h ⟨i', hc ▸ j'.isLt⟩ rfl
      · exact absurd rfl (h j')) _ hh 2 (fun i j _ h2 => absurd (lt_min_iff.mp j.isLt).1 (not_lt.mpr h2)) model hmodel
    (by rw [hr]; decide)
  exact ⟨o', model', h1, h2.trans hr⟩

/-- The index of an input that is there twice. -/
def halfIndex (j : Fin 4) : Fin 2 := ⟨j / 2, by omega⟩

theorem halfIndex_card : ∀ i, (Finset.univ.filter fun j => halfIndex j = i).card = 2 := by decide

/-- `twoHalves` with all inputs and outputs twice. -/
noncomputable def twoHalvesTwice : Markovs ℝ := ⟨6, 4, 4, fun k i j => if i / 2 = j / 2 then (1 / 2) ^ k else 0⟩

example (svd svd' : ∀ {m n : Nat}, Matrix (Fin m) (Fin n) ℝ → SvdOut ℝ m n)
    (hsvd : ∀ {m n : Nat} (a : Matrix (Fin m) (Fin n) ℝ), IsSvd a (svd a))
    (hsvd' : ∀ {m n : Nat} (a : Matrix (Fin m) (Fin n) ℝ), IsSvd a (svd' a)) :
    ∃ o model, eraModel svd' id (eraInit none none) (.d3 twoHalvesTwice) 2 none none = .ok (o, model) ∧ model.r = 2 := by
  obtain ⟨o, f, f2, model, hh, hmodel, hr, hS⟩ := twoHalves_two svd hsvd
  obtain ⟨o', model', -, -, -, -, h1, h2, -⟩ := C117_era_repeated svd svd' hsvd hsvd' id (fun _ => rfl) (eraInit none none)
    (eraInit none none) o (.d3 twoHalves) (.d3 twoHalvesTwice) twoHalves twoHalvesTwice none none twoHalves_set
    (by simp [setMarkovs, twoHalvesTwice]) rfl (by simp [twoHalves]) (by simp [twoHalves]) (by simp [twoHalvesTwice])
    (by simp [twoHalvesTwice]) halfIndex halfIndex
    (u := 2) (v := 2) (by decide) (by decide) halfIndex_card halfIndex_card (fun t _ i j => rfl) _ hh 2
    (fun i hi => by rw [hS] at hi; norm_num at hi)
    (fun i j _ h2 => absurd (lt_min_iff.mp j.isLt).1 (not_lt.mpr h2)) model hmodel (by rw [hr]; decide)
  exact ⟨o', model', h1, h2.trans hr⟩

end Modred
