import Verif.Props.NearlyBest
import Verif.Props.ModesFound

/-!
# Examples for C119, C120 and C122

The methods of snapshots and of handles for data with errors.
-/

namespace Modred

open Matrix
open scoped ComplexOrder

/-- The method of snapshots without weights raises nothing if there are vectors and an absolute tolerance is given. -/
theorem snaps_runs {n m : Nat} (lib : PodLib ℝ n m) (X : Matrix (Fin n) (Fin m) ℝ) (t : ℝ) (hm : 0 < m) :
    ∃ res corr, podSnaps lib X none none (some t) none = .ok (res, corr) := by
  obtain ⟨e, he⟩ := C20_no_error lib.eigh lib.argsort (Xᴴ * Weights.matrix n (Weights.none : Weights ℝ) * X) none true t hm
  refine ⟨⟨e.r, e.w, ⟨e.r, X * (e.V * diagPow e.w (-0.5))⟩, diagPow e.w 0.5 * e.Vᴴ, e.V⟩,
    Xᴴ * Weights.matrix n (Weights.none : Weights ℝ) * X, ?_⟩
  unfold podSnaps
  rw [show arraysInit (none : Option (NdArray ℝ)) = .ok .none from rfl]
  dsimp only
  unfold symmIpArray
  rw [C45_formula _ (by trivial)]
  dsimp only
  rw [he]
  rfl

/-- Three vectors, of which one has an error of length 5: eigenvalues, what the modes miss, and the modes themselves. -/
example : ∃ (lib : PodLib ℝ 2 3) (res res' : PodResult ℝ 2 3) (corr corr' : Matrix (Fin 3) (Fin 3) ℝ),
    podSnaps lib exampleData none none (some (1 / 10)) none = .ok (res, corr) ∧
    podSnaps lib (exampleData - !![0, 3, 0; 0, 4, 0]) none none (some (1 / 10)) none = .ok (res', corr') ∧
    CloseValues 5 (1 / 10) (1 / 10) res.eigvals res'.eigvals ∧
    NearlyBestInWorstCase (fun x y => weightedIp (1 : Matrix (Fin 2) (Fin 2) ℝ) x y) (exampleData - !![0, 3, 0; 0, 4, 0])ᵀ
      res.modes.aᵀ (2 * 5) ∧
    ∃ (M : Matrix (Fin 2) (Fin res.r) ℝ) (M' : Matrix (Fin 2) (Fin res'.r) ℝ),
      SelectedFrom none res.modes M ∧ SelectedFrom none res'.modes M' ∧
      ModesFound ℝ (weightedLength (1 : Matrix (Fin 2) (Fin 2) ℝ)) Mᵀ res.eigvals M'ᵀ res'.eigvals 5 (1 / 10) := by
  obtain ⟨lib, -, heigh, hs, -⟩ := exists_podLib (𝕜 := ℝ) 2 3
  obtain ⟨res, corr, hres⟩ := snaps_runs lib exampleData (1 / 10) (by norm_num)
  obtain ⟨res', corr', hres'⟩ := snaps_runs lib (exampleData - !![0, 3, 0; 0, 4, 0]) (1 / 10) (by norm_num)
  have h1 : Weights.matrix 2 (Weights.none : Weights ℝ) = 1 := rfl
  have hW : (Weights.matrix 2 (Weights.none : Weights ℝ)).PosSemidef := by
    rw [h1]
    exact Matrix.PosSemidef.one
  have hC : ∀ X : Matrix (Fin 2) (Fin 3) ℝ, (Xᴴ * Weights.matrix 2 (Weights.none : Weights ℝ) * X).IsHermitian := fun X =>
    (hW.conjTranspose_mul_mul_same X).isHermitian
  have hδ : SmallChange ℝ (weightedLength (Weights.matrix 2 (Weights.none : Weights ℝ)))
      (fun j => (exampleData - (exampleData - !![0, 3, 0; 0, 4, 0]))ᵀ j) 5 := by
    have h := C119_change (weightedIp (1 : Matrix (Fin 2) (Fin 2) ℝ)) (weightedIp_symm Matrix.PosSemidef.one)
      (weightedIp_nonneg Matrix.PosSemidef.one) fun j : Fin 3 => (!![0, 3, 0; 0, 4, 0] : Matrix (Fin 2) (Fin 3) ℝ)ᵀ j
    rw [h1, sub_sub_cancel]
    have h5 : √(∑ j : Fin 3, RCLike.re (weightedIp (1 : Matrix (Fin 2) (Fin 2) ℝ) ((!![0, 3, 0; 0, 4, 0] : Matrix (Fin 2) (Fin 3) ℝ)ᵀ j)
        ((!![0, 3, 0; 0, 4, 0] : Matrix (Fin 2) (Fin 3) ℝ)ᵀ j))) = 5 := by
      rw [Real.sqrt_eq_iff_mul_self_eq_of_pos (by norm_num), Fin.sum_univ_three]
      simp [weightedIp, dotProduct, Fin.sum_univ_two]
      norm_num
    rw [h5] at h
    exact h
  refine ⟨lib, res, res', corr, corr', hres, hres', ?_, ?_, ?_⟩
  · exact C119_snaps lib exampleData none none none .none none none _ _ lib _ (by norm_num) (by norm_num) (by simp) (by simp) hs hs rfl trivial hW
      (heigh _ (hC _)) (heigh _ (hC _)) res res' corr corr' hres hres' hδ ⟨by norm_num, by simp, by simp⟩ ⟨by norm_num, by simp, by simp⟩
  · exact (C120_snaps lib exampleData _ none .none none _ (by norm_num) (by simp) hs rfl trivial hW (heigh _ (hC _)) res corr hres).2 5 hδ
  · exact (C122_snaps lib lib exampleData _ none none none .none none none _ _ (by norm_num) (by norm_num) (by simp) (by simp) hs hs rfl trivial
      hW (heigh _ (hC _)) (heigh _ (hC _)) res res' corr corr' hres hres' hδ ⟨by norm_num, by simp, by simp⟩).2

/-- Handles of the numbers 3 and 4, of which the second should have been 5. -/
example : ∃ (eigh : Matrix (Fin 2) (Fin 2) ℝ → EighOut ℝ 2) (pod pod' : PodHandles ℝ ℝ 2),
    podHandlesDecomp eigh (fun x => Tuple.sort x) (fun x y => LinearMap.mul ℝ ℝ x y) ![3, 5] (some (1 / 10)) none = .ok pod ∧
    podHandlesDecomp eigh (fun x => Tuple.sort x) (fun x y => LinearMap.mul ℝ ℝ x y) ![3, 4] (some (1 / 10)) none = .ok pod' ∧
    CloseValues 1 (1 / 10) (1 / 10) pod.eigvals pod'.eigvals ∧
    ∃ (M : Fin pod.r → ℝ) (M' : Fin pod'.r → ℝ), ModesFound ℝ (fun v => v * v) M pod.eigvals M' pod'.eigvals 1 (1 / 10) := by
  obtain ⟨lib, -, heigh, -, -⟩ := exists_podLib (𝕜 := ℝ) 2 2
  let ip : ℝ →ₗ⋆[ℝ] ℝ →ₗ[ℝ] ℝ := LinearMap.mul ℝ ℝ
  have hrun : ∀ v : Fin 2 → ℝ, ∃ pod, podHandlesDecomp lib.eigh (fun x => Tuple.sort x) (fun x y => ip x y) v (some (1 / 10)) none = .ok pod := by
    intro v
    obtain ⟨e, he⟩ := C20_no_error lib.eigh (fun x => Tuple.sort x) (handlesSymmIp (fun x y => ip x y) v) none true (1 / 10) (by norm_num)
    refine ⟨⟨v, handlesSymmIp (fun x y => ip x y) v, e.r, e.w, e.V⟩, ?_⟩
    unfold podHandlesDecomp
    rw [if_neg (by norm_num)]
    dsimp only
    rw [he]
  obtain ⟨pod, hpod⟩ := hrun ![3, 5]
  obtain ⟨pod', hpod'⟩ := hrun ![3, 4]
  have hsymm : ∀ x y : ℝ, ip y x = star (ip x y) := fun x y => mul_comm y x
  have hnn : ∀ x : ℝ, 0 ≤ RCLike.re (ip x x) := fun x => mul_self_nonneg (x : ℝ)
  have hC : ∀ v : Fin 2 → ℝ, (gram ip v v).IsHermitian := fun v => (handlesIp_posSemidef ip hsymm hnn v).isHermitian
  have hδ : SmallChange ℝ (fun v => RCLike.re (ip v v)) (fun j => (![3, 5] : Fin 2 → ℝ) j - (![3, 4] : Fin 2 → ℝ) j) 1 := by
    have h := C119_change ip hsymm hnn fun j => (![3, 5] : Fin 2 → ℝ) j - (![3, 4] : Fin 2 → ℝ) j
    have h5 : √(∑ j, RCLike.re (ip ((![3, 5] : Fin 2 → ℝ) j - (![3, 4] : Fin 2 → ℝ) j) ((![3, 5] : Fin 2 → ℝ) j - (![3, 4] : Fin 2 → ℝ) j))) = 1 := by
      rw [Real.sqrt_eq_iff_mul_self_eq_of_pos (by norm_num), Fin.sum_univ_two]
      change (1 : ℝ) * 1 = (3 - 3) * (3 - 3) + (5 - 4) * (5 - 4)
      norm_num
    rw [h5] at h
    exact h
  refine ⟨lib.eigh, pod, pod', hpod, hpod', ?_, ?_⟩
  · exact C119_handles lib.eigh _ ip _ none none _ _ lib.eigh _ _ (by norm_num) (by norm_num) (by simp) (by simp) (sort_isArgsort 2)
      (sort_isArgsort 2) hsymm hnn (heigh _ (hC _)) (heigh _ (hC _)) pod pod' hpod hpod' hδ ⟨by norm_num, by simp, by simp⟩
      ⟨by norm_num, by simp, by simp⟩
  · obtain ⟨-, M, M', -, -, h⟩ := C122_handles lib.eigh lib.eigh _ _ ip _ _ none none _ _ (by norm_num) (by norm_num) (by simp) (by simp)
      (sort_isArgsort 2) (sort_isArgsort 2) hsymm hnn (heigh _ (hC _)) (heigh _ (hC _)) pod pod' hpod hpod' hδ (b' := 1 / 10)
      ⟨by norm_num, by simp, by simp⟩
    exact ⟨M, M', h⟩

end Modred
