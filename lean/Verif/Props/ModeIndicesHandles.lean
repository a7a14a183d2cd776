import Verif.Props.ModeIndices

/-!
# C109 for the classes with handles
-/

namespace Modred

open Matrix

variable {𝕜 : Type*} [RCLike 𝕜] {E : Type*} [AddCommMonoid E] [Module 𝕜 E]

/-- The indices of all of `r` modes. -/
def allIndices (r : Nat) : List Int := (List.range r).map Int.ofNat

omit [AddCommMonoid E] in
theorem Vecs.ext_entries {a b : Vecs E} (hk : a.k = b.k)
    (h : ∀ (k : Nat) (ha : k < a.k) (hb : k < b.k), a.v ⟨k, ha⟩ = b.v ⟨k, hb⟩) : a = b := by
  obtain ⟨k, a⟩ := a
  obtain ⟨k', b⟩ := b
  dsimp only at hk
  subst hk
  congr 1
  funext j
  exact h j j.2 j.2

theorem allIndices_inRange (r : Nat) : InRange r (allIndices r) := by
  intro i hi
  obtain ⟨k, hk, rfl⟩ := List.mem_map.1 hi
  have := List.mem_range.1 hk
  simp only [Int.ofNat_eq_natCast]
  omega

theorem handlesLinCombine_choose {p q : Nat} (basis : Fin p → E) (coeff : Matrix (Fin p) (Fin q) 𝕜) (idx : List Int)
    (hp : p ≠ 0) :
    handlesLinCombine idx.length basis coeff (some idx) = chooseVecs idx ⟨q, fun k => ∑ i, coeff i k • basis i⟩ := by
  rw [handlesLinCombine, pickCols_choose, chooseCols, chooseVecs]
  by_cases h : InRange q idx
  · rw [dif_pos h, dif_pos h]
    dsimp only
    rw [if_neg (fun h => h rfl), if_neg hp]
    rfl
  · rw [dif_neg h, dif_neg h]

theorem chooseVecs_all (r : Nat) (v : Fin r → E) : chooseVecs (allIndices r) ⟨r, v⟩ = .ok ⟨r, v⟩ := by
  rw [chooseVecs, dif_pos (allIndices_inRange r)]
  refine congrArg Except.ok (Vecs.ext_entries (by simp [allIndices]) fun k ha hb => ?_)
  dsimp only
  congr 1
  ext
  dsimp only at ha hb ⊢
  simp only [allIndices, Fin.getElem_fin, List.getElem_map, List.getElem_range, Int.ofNat_eq_natCast]
  rw [Int.emod_eq_of_lt (by omega) (by omega)]
  omega

theorem combine_chosen_among {p h r : Nat} (basis : Fin p → E) (coeff : Matrix (Fin h) (Fin r) 𝕜) (all : Vecs E)
    (ha : linCombineSized r basis coeff (some (allIndices r)) = .ok all) (idx : List Int) :
    linCombineSized idx.length basis coeff (some idx) = chooseVecs idx all := by
  by_cases hp : p = h
  · subst hp
    rw [linCombineSized, dif_pos rfl] at ha ⊢
    have hp0 : p ≠ 0 := by
      rintro rfl
      rw [handlesLinCombine] at ha
      revert ha
      cases pickCols (coeff.submatrix (Fin.cast rfl) id) (some (allIndices r)) with
      | error e => intro ha; cases ha
      | ok c =>
        dsimp only
        rw [if_pos rfl]
        split_ifs <;> intro ha <;> cases ha
    have hlen : (allIndices r).length = r := by simp [allIndices]
    have h1 := handlesLinCombine_choose basis (coeff.submatrix (Fin.cast rfl) id) (allIndices r) hp0
    rw [hlen, ha, chooseVecs_all] at h1
    rw [handlesLinCombine_choose basis _ idx hp0, Except.ok.inj h1]
  · rw [linCombineSized, dif_neg hp] at ha
    revert ha
    cases pickCols coeff (some (allIndices r)) <;> intro ha <;> cases ha

/-- `PODHandles.compute_modes`: the modes that are put for indices are those among all modes. -/
theorem C109_pod_handles (g : PodObj 𝕜 E) (d : PodSized 𝕜) (hd : g.decomp = some d) (vecs : Option (List E))
    (all : Vecs E) (ha : (g.computeModes (allIndices d.r) d.r vecs).1 = .ok all) (idx : List Int) :
    (g.computeModes idx idx.length vecs).1 = chooseVecs idx all := by
  have hd' : (if vecs.isSome then { g with vecs := vecs } else g).decomp = some d := by split_ifs <;> exact hd
  simp only [PodObj.computeModes, hd'] at ha ⊢
  revert ha
  cases (if vecs.isSome then { g with vecs := vecs } else g).vecs with
  | none =>
    simp only [combineAttr]
    cases pickCols (d.eigvecs * diagPow (𝕜 := 𝕜) d.eigvals (-0.5)) (some (allIndices d.r)) with
    | error e => intro ha; cases ha
    | ok c =>
      dsimp only
      split_ifs <;> intro ha <;> cases ha
  | some l => exact fun ha => combine_chosen_among _ _ all ha idx

/-- `BPODHandles.compute_direct_modes`. -/
theorem C109_bpod_direct_handles (g : BpodObj 𝕜 E) (d : BpodSized 𝕜) (hd : g.decomp = some d) (vecs : Option (List E))
    (all : Vecs E) (ha : (g.computeDirectModes (allIndices d.r) d.r vecs).1 = .ok all) (idx : List Int) :
    (g.computeDirectModes idx idx.length vecs).1 = chooseVecs idx all := by
  have hd' : (if vecs.isSome then { g with directVecs := vecs } else g).decomp = some d := by split_ifs <;> exact hd
  simp only [BpodObj.computeDirectModes, hd'] at ha ⊢
  revert ha
  cases (if vecs.isSome then { g with directVecs := vecs } else g).directVecs with
  | none => intro ha; cases ha
  | some l => exact fun ha => combine_chosen_among _ _ all ha idx

/-- `BPODHandles.compute_adjoint_modes`. -/
theorem C109_bpod_adjoint_handles (g : BpodObj 𝕜 E) (d : BpodSized 𝕜) (hd : g.decomp = some d) (vecs : Option (List E))
    (all : Vecs E) (ha : (g.computeAdjointModes (allIndices d.r) d.r vecs).1 = .ok all) (idx : List Int) :
    (g.computeAdjointModes idx idx.length vecs).1 = chooseVecs idx all := by
  have hd' : (if vecs.isSome then { g with adjointVecs := vecs } else g).decomp = some d := by split_ifs <;> exact hd
  simp only [BpodObj.computeAdjointModes, hd'] at ha ⊢
  revert ha
  cases (if vecs.isSome then { g with adjointVecs := vecs } else g).adjointVecs with
  | none => intro ha; cases ha
  | some l => exact fun ha => combine_chosen_among _ _ all ha idx

theorem exactModesFrom_chosen {m r : Nat} (vecs adv : Option (List E)) (build : Matrix (Fin m) (Fin r) 𝕜) (all : Vecs E)
    (ha : exactModesFrom vecs adv build (allIndices r) r = .ok all) (idx : List Int) :
    exactModesFrom vecs adv build idx idx.length = chooseVecs idx all := by
  cases adv with
  | some adv => exact combine_chosen_among _ _ all ha idx
  | none =>
    cases vecs with
    | none => cases ha
    | some vecs =>
      simp only [exactModesFrom] at ha ⊢
      by_cases h : vecs.length = m + 1
      · rw [if_pos h] at ha ⊢
        exact combine_chosen_among _ _ all ha idx
      · rw [if_neg h] at ha
        cases ha

theorem spanModesFrom_chosen {m r : Nat} (vecs : Option (List E)) (build : Matrix (Fin m) (Fin r) 𝕜) (all : Vecs E)
    (ha : spanModesFrom vecs build (allIndices r) r = .ok all) (idx : List Int) :
    spanModesFrom vecs build idx idx.length = chooseVecs idx all := by
  cases vecs with
  | none => cases ha
  | some vecs =>
    simp only [spanModesFrom] at ha ⊢
    by_cases h : vecs.length = m + 1
    · rw [if_pos h] at ha ⊢
      exact combine_chosen_among _ _ all ha idx
    · rw [if_neg h] at ha ⊢
      by_cases h' : vecs.length = m
      · rw [if_pos h'] at ha ⊢
        exact combine_chosen_among _ _ all ha idx
      · rw [if_neg h'] at ha
        cases ha

/-- The three kinds of modes of `DMDHandles`. -/
theorem C109_dmd_handles (g : DmdHandles 𝕜 E) (s : DmdSized 𝕜) (hd : g.decomp = some s) (vecs : Option (List E))
    (all : Vecs E) (idx : List Int) :
    ((g.computeExactModes (allIndices s.d.r) s.d.r vecs).1 = .ok all →
      (g.computeExactModes idx idx.length vecs).1 = chooseVecs idx all) ∧
    ((g.computeProjModes (allIndices s.d.r) s.d.r vecs).1 = .ok all →
      (g.computeProjModes idx idx.length vecs).1 = chooseVecs idx all) ∧
    ((g.computeAdjointModes (allIndices s.d.r) s.d.r vecs).1 = .ok all →
      (g.computeAdjointModes idx idx.length vecs).1 = chooseVecs idx all) := by
  have h1 : (if vecs.isSome then { g with adv := vecs } else g).decomp = some s := by split_ifs <;> exact hd
  have h2 : (if vecs.isSome then { g with vecs := vecs } else g).decomp = some s := by split_ifs <;> exact hd
  simp only [DmdHandles.computeExactModes, DmdHandles.computeProjModes, DmdHandles.computeAdjointModes, h1, h2]
  exact ⟨fun ha => exactModesFrom_chosen _ _ _ all ha idx, fun ha => spanModesFrom_chosen _ _ all ha idx,
    fun ha => spanModesFrom_chosen _ _ all ha idx⟩

/-- The three kinds of modes of `TLSqrDMDHandles`. -/
theorem C109_tls_handles (g : TlsHandles 𝕜 E) (s : TlsSized 𝕜) (hd : g.decomp = some s) (vecs : Option (List E))
    (all : Vecs E) (idx : List Int) :
    ((g.computeExactModes (allIndices s.t.d.r) s.t.d.r vecs).1 = .ok all →
      (g.computeExactModes idx idx.length vecs).1 = chooseVecs idx all) ∧
    ((g.computeProjModes (allIndices s.t.d.r) s.t.d.r vecs).1 = .ok all →
      (g.computeProjModes idx idx.length vecs).1 = chooseVecs idx all) ∧
    ((g.computeAdjointModes (allIndices s.t.d.r) s.t.d.r vecs).1 = .ok all →
      (g.computeAdjointModes idx idx.length vecs).1 = chooseVecs idx all) := by
  have h1 : (if vecs.isSome then { g with adv := vecs } else g).decomp = some s := by split_ifs <;> exact hd
  have h2 : (if vecs.isSome then { g with vecs := vecs } else g).decomp = some s := by split_ifs <;> exact hd
  simp only [TlsHandles.computeExactModes, TlsHandles.computeProjModes, TlsHandles.computeAdjointModes, h1, h2]
  exact ⟨fun ha => exactModesFrom_chosen _ _ _ all ha idx, fun ha => spanModesFrom_chosen _ _ all ha idx,
    fun ha => spanModesFrom_chosen _ _ all ha idx⟩

/-- Of three columns, the last, the first and the last again. -/
example : ∃ c, chooseCols [-1, 0, 2] (⟨3, !![(5 : ℝ), 6, 7]⟩ : Cols ℝ 1) = .ok c ∧ ∃ h : c.k = 3,
    c.a 0 ⟨0, by omega⟩ = 7 ∧ c.a 0 ⟨1, by omega⟩ = 5 ∧ c.a 0 ⟨2, by omega⟩ = 7 := by
  have hr : InRange 3 [-1, 0, 2] := by intro i hi; fin_cases hi <;> simp
  rw [chooseCols, dif_pos hr]
  exact ⟨_, rfl, rfl, rfl, rfl, rfl⟩

/-- An index outside. -/
example : chooseCols [3] (⟨3, !![(5 : ℝ), 6, 7]⟩ : Cols ℝ 1) = .error .indexError :=
  (C109_chosen [3] _).1 fun h => by have := (h 3 (by simp)).2; simp at this

/-- All modes of an object with one mode can be computed. -/
example : ∃ all, ((⟨some [(3 : ℝ)], none, some ⟨1, 1, fun _ => 1, 1⟩, none⟩ : PodObj ℝ ℝ).computeModes (allIndices 1) 1
    none).1 = .ok all := ⟨_, rfl⟩

end Modred
