import Verif.Model.Bpod
import Verif.Lemmas.Balance
import Verif.Lemmas.HandlesLA
import Verif.Lemmas.SvdExists
import Verif.Props.Arrays
import Verif.Props.Hankel
import Mathlib.Algebra.Module.LinearMap.End

/-!
# Balanced proper orthogonal decomposition (C24, C25)
-/

namespace Modred

open Matrix

variable {𝕜 : Type*} [RCLike 𝕜]

/-! ### The Hankel array -/

section Hankel

omit [RCLike 𝕜]

theorem sliceRows_length {m n : Nat} (a : Matrix (Fin m) (Fin n) 𝕜) (r0 r1 c0 c1 : Nat) (hr : r1 ≤ m) :
    (sliceRows a r0 r1 c0 c1).length = r1 - r0 := by
  unfold sliceRows
  rw [List.length_map, List.length_take, List.length_drop, List.length_ofFn]
  omega

theorem sliceRows_row_length {m n : Nat} (a : Matrix (Fin m) (Fin n) 𝕜) (r0 r1 c0 c1 : Nat) (hc : c1 ≤ n) :
    ∀ row ∈ sliceRows a r0 r1 c0 c1, row.length = c1 - c0 := by
  intro row hrow
  unfold sliceRows at hrow
  obtain ⟨x, hx, rfl⟩ := List.mem_map.mp hrow
  have hx := List.mem_of_mem_drop (List.mem_of_mem_take hx)
  obtain ⟨i, rfl⟩ := (List.mem_ofFn' _ _).mp hx
  rw [List.length_take, List.length_drop, List.length_ofFn]
  omega

theorem sliceRows_entry {m n : Nat} (a : Matrix (Fin m) (Fin n) 𝕜) (r0 r1 c0 c1 i j : Nat)
    (hi : i < r1 - r0) (hj : j < c1 - c0) (hr : r0 + i < m) (hc : c0 + j < n) :
    (((sliceRows a r0 r1 c0 c1)[i]?).bind fun row => row[j]?) = some (a ⟨r0 + i, hr⟩ ⟨c0 + j, hc⟩) := by
  unfold sliceRows
  rw [List.getElem?_map, List.getElem?_take_of_lt hi, List.getElem?_drop]
  rw [List.getElem?_eq_getElem (by simpa using hr)]
  simp only [Option.map_some, Option.bind_some, List.getElem_ofFn]
  rw [List.getElem?_take_of_lt hj, List.getElem?_drop]
  rw [List.getElem?_eq_getElem (by simpa using hc)]
  simp

variable [Zero 𝕜]

theorem ofRows_entry {m n : Nat} (a : List (List 𝕜)) (i : Fin m) (j : Fin n) :
    ofRows m n a i j = ((a[i.val]?).bind fun row => row[j.val]?).getD 0 := by
  unfold ofRows
  rw [Matrix.of_apply]
  simp only [List.getD_eq_getElem?_getD]
  cases a[i.val]? with
  | none => rfl
  | some row => rfl

/-- Shape and entries of the assembled array: chunk number `I + J` at block position `(I, J)`, where the
chunks are those of the first column followed by those of the last row without the first one. -/
theorem bpodHankel_ok {ma md k l p q : Nat} (hp : 1 ≤ p) (hq : 1 ≤ q) (hs : 1 ≤ ma / q) (ht : 1 ≤ md / p)
    (hk : k = p) (hl : l = q) (F : Matrix (Fin ma) (Fin k) 𝕜) (L : Matrix (Fin l) (Fin md) 𝕜)
    (f g : Nat → Nat → 𝕜) (hF : ∀ i j, F i j = f i j) (hL : ∀ i j, L i j = g i j) :
    ∃ rows, bpodHankel p q F L = .ok rows ∧ shapeOf rows = (ma / q * q, md / p * p) ∧
      ∀ i j, ofRows (ma / q * q) (md / p * p) rows i j =
        if i / q + j / p < ma / q then f ((i / q + j / p) * q + i % q) (j % p)
        else g (i % q) ((i / q + j / p - ma / q + 1) * p + j % p) := by
  subst hk hl
  have hma : ma / l * l ≤ ma := Nat.div_mul_le_self ma l
  have hmd : md / k * k ≤ md := Nat.div_mul_le_self md k
  have hmul : ∀ a b c : Nat, a < b → (a + 1) * c ≤ b * c := fun a b c h => Nat.mul_le_mul_right c h
  obtain ⟨out, h1, h2, h3, h4⟩ := C18_hankel_chunks l k hq
    ((List.range (ma / l)).map fun i => sliceRows F (i * l) ((i + 1) * l) 0 k)
    ((List.range (md / k)).map fun j => sliceRows L 0 l (j * k) ((j + 1) * k))
    (by intro h; rw [List.map_eq_nil_iff, List.range_eq_nil] at h; omega)
    (by intro h; rw [List.map_eq_nil_iff, List.range_eq_nil] at h; omega)
    (by
      intro d hd
      obtain ⟨i, hi, rfl⟩ := List.mem_map.mp hd
      have := hmul i _ l (List.mem_range.mp hi)
      refine ⟨?_, fun row hrow => ?_⟩
      · rw [sliceRows_length _ _ _ _ _ (by omega), Nat.add_mul]; omega
      · rw [sliceRows_row_length _ _ _ _ _ (le_refl k) row hrow]; omega)
    (by
      intro d hd
      obtain ⟨i, hi, rfl⟩ := List.mem_map.mp hd
      have := hmul i _ k (List.mem_range.mp hi)
      refine ⟨?_, fun row hrow => ?_⟩
      · rw [sliceRows_length _ _ _ _ _ (le_refl l)]; omega
      · rw [sliceRows_row_length _ _ _ _ _ (by omega) row hrow, Nat.add_mul]; omega)
  rw [List.length_map, List.length_range] at h2 h3 h4
  rw [List.length_map, List.length_range] at h4
  refine ⟨out, ?_, ?_, fun i j => ?_⟩
  · unfold bpodHankel
    rw [if_neg (by omega)]
    exact h1
  · unfold shapeOf
    rw [h2]
    congr 1
    have hne : out ≠ [] := by
      intro h
      rw [h] at h2
      have : 1 * 1 ≤ ma / l * l := Nat.mul_le_mul hs hq
      rw [List.length_nil] at h2
      omega
    obtain ⟨row, rest, rfl⟩ := List.exists_cons_of_ne_nil hne
    exact h3 row (by simp)
  · have hi : i.val / l < ma / l := Nat.div_lt_of_lt_mul (Nat.mul_comm (ma / l) l ▸ i.isLt)
    have hj : j.val / k < md / k := Nat.div_lt_of_lt_mul (Nat.mul_comm (md / k) k ▸ j.isLt)
    have ha : i.val % l < l := Nat.mod_lt _ hq
    have hb : j.val % k < k := Nat.mod_lt _ hp
    have h5 := h4 (i / l) hi (j / k) hj (i % l) ha (j % k) hb
    rw [Nat.div_add_mod' , Nat.div_add_mod'] at h5
    have h6 : ofRows (ma / l * l) (md / k * k) out i j = (((out[i.val]?).bind fun row => row[j.val]?).getD 0) := by
      exact ofRows_entry _ _ _
    rw [h6, h5]
    split
    · rename_i hlt
      have hm := hmul _ _ l hlt
      rw [List.getElem?_map, List.getElem?_range hlt]
      simp only [Option.map_some, Option.bind_some]
      rw [sliceRows_entry _ _ _ _ _ _ _ (by rw [Nat.add_mul (i.val / l + j.val / k)]; omega) (by omega)
        (by rw [Nat.add_mul (i.val / l + j.val / k)] at hm; omega) (by omega)]
      rw [Option.getD_some, hF]
      simp
    · rename_i hge
      have hlt : i.val / l + j.val / k - ma / l + 1 < md / k := by omega
      have hm := hmul _ _ k hlt
      rw [List.getElem?_map, List.getElem?_range hlt]
      simp only [Option.map_some, Option.bind_some]
      rw [sliceRows_entry _ _ _ _ _ _ _ (by omega) (by rw [Nat.add_mul (_ + 1)]; omega)
        (by omega) (by rw [Nat.add_mul (_ + 1)] at hm; omega)]
      rw [Option.getD_some, hL]
      simp

theorem mapM_error {α β : Type*} (f : α → Except Err β) (e : Err) (hf : ∀ x, f x = .error e) (l : List α)
    (hl : l ≠ []) : l.mapM f = .error e := by
  obtain ⟨x, xs, rfl⟩ := List.exists_cons_of_ne_nil hl
  rw [List.mapM_cons, hf]
  rfl

/-- Without one complete chunk, an exception is raised. -/
theorem bpodHankel_error {ma md k l p q : Nat} (F : Matrix (Fin ma) (Fin k) 𝕜) (L : Matrix (Fin l) (Fin md) 𝕜)
    (h : p = 0 ∨ q = 0 ∨ ma / q = 0 ∨ md / p = 0) : ∃ e, bpodHankel p q F L = .error e := by
  unfold bpodHankel
  split
  · exact ⟨_, rfl⟩
  · rename_i h0
    dsimp only
    unfold hankelChunks
    dsimp only
    simp only [List.length_map, List.length_range]
    by_cases hs : ma / q = 0
    · rw [hs]
      exact ⟨.valueError, rfl⟩
    · have ht : md / p = 0 := by omega
      rw [ht]
      have : (List.range (ma / q)) ≠ [] := by
        intro h; rw [List.range_eq_nil] at h; omega
      rw [mapM_error _ .valueError (fun x => by rw [List.take_zero]; rfl) _ this]
      exact ⟨_, rfl⟩

/-- If the inner products depend only on the sum of the block indices, all of them are in the array. -/
theorem bpodHankel_markov {ma md k l p q : Nat} (hp : 1 ≤ p) (hq : 1 ≤ q) (hs : 1 ≤ ma / q) (ht : 1 ≤ md / p)
    (hk : k = p) (hl : l = q) (F : Matrix (Fin ma) (Fin k) 𝕜) (L : Matrix (Fin l) (Fin md) 𝕜)
    (M : Nat → Nat → Nat → 𝕜) (hF : ∀ i j, F i j = M (i / q) (i % q) j)
    (hL : ∀ i j, L i j = M (ma / q - 1 + j / p) i (j % p)) :
    ∃ rows, bpodHankel p q F L = .ok rows ∧ shapeOf rows = (ma / q * q, md / p * p) ∧
      ∀ i j, ofRows (ma / q * q) (md / p * p) rows i j = M (i / q + j / p) (i % q) (j % p) := by
  obtain ⟨rows, h1, h2, h3⟩ := bpodHankel_ok hp hq hs ht hk hl F L (fun i j => M (i / q) (i % q) j)
    (fun i j => M (ma / q - 1 + j / p) i (j % p)) hF hL
  refine ⟨rows, h1, h2, fun i j => ?_⟩
  rw [h3]
  have hdiv : ∀ x y z : Nat, z < y → (x * y + z) / y = x := fun x y z h => by
    rw [Nat.add_comm, Nat.add_mul_div_right _ _ (by omega), Nat.div_eq_of_lt h, Nat.zero_add]
  have hmod : ∀ x y z : Nat, z < y → (x * y + z) % y = z := fun x y z h => by
    rw [Nat.add_comm, Nat.add_mul_mod_self_right, Nat.mod_eq_of_lt h]
  have ha : i.val % q < q := Nat.mod_lt _ hq
  have hb : j.val % p < p := Nat.mod_lt _ hp
  split
  · rw [hdiv _ _ _ ha, hmod _ _ _ ha]
  · rw [hdiv _ _ _ hb, hmod _ _ _ hb]
    congr 1
    omega

end Hankel

/-! ### Arrays -/

/-- Columns that `lin_combine` of arrays returns. -/
theorem linCombineArrays_ok {n p q : Nat} (basis : Matrix (Fin n) (Fin p) 𝕜) (coeff : Matrix (Fin p) (Fin q) 𝕜)
    (idx : Option (List Int)) (c : Cols 𝕜 n) (h : linCombineArrays basis coeff idx = .ok c) :
    ∃ sel : Fin c.k → Fin q, c.a = (basis * coeff).submatrix id sel ∧
      (∀ l, idx = some l → c.k = l.length ∧
        ∀ (i : Fin c.k) (j : Int), l[i.val]? = some j → npAxisIndex q j = .ok (sel i)) ∧
      (idx = none → c.k = q ∧ ∀ i : Fin c.k, (sel i).val = i.val) := by
  unfold linCombineArrays at h
  split at h
  · cases h
  · rename_i d hd
    cases h
    obtain ⟨sel, h1, h2, h3⟩ := pickCols_ok _ _ _ hd
    refine ⟨sel, ?_, h2, h3⟩
    rw [h1, mul_submatrix_cols]

section Arrays

variable {n md ma : Nat} (svd : Matrix (Fin ma) (Fin md) 𝕜 → SvdOut 𝕜 ma md) (X : Matrix (Fin n) (Fin md) 𝕜)
  (Y : Matrix (Fin n) (Fin ma) 𝕜) (p q : Nat) (idxD idxA : Option (List Int)) (weights : Option (NdArray 𝕜))
  (ws : Weights 𝕜) (atol rtol : Option ℝ)

theorem bpodArrays_cases (hws : arraysInit weights = .ok ws) (hfit : ws.Fits n) (res : BpodResult 𝕜 n md ma)
    (hres : bpodArrays svd X Y p q idxD idxA weights atol rtol = .ok res) :
    ∃ rows s dm am, bpodHankel p q (Yᴴ * ws.matrix n * firstCols X p) ((lastCols Y q)ᴴ * ws.matrix n * X) =
        .ok rows ∧ shapeOf rows = (ma, md) ∧ utilSvd svd (ofRows ma md rows) atol rtol = .ok s ∧
      linCombineArrays X (s.V * diagPow (𝕜 := 𝕜) s.S (-0.5)) idxD = .ok dm ∧
      linCombineArrays Y (s.U * diagPow (𝕜 := 𝕜) s.S (-0.5)) idxA = .ok am ∧
      res = ⟨s.r, s.S, dm, am, diagPow (𝕜 := 𝕜) s.S 0.5 * s.Vᴴ, diagPow (𝕜 := 𝕜) s.S 0.5 * s.Uᴴ, s.U, s.V,
        ofRows ma md rows⟩ := by
  unfold bpodArrays at hres
  rw [hws] at hres
  dsimp only at hres
  rw [C45_formula ws hfit, C45_formula ws hfit] at hres
  dsimp only at hres
  split at hres
  · cases hres
  rename_i rows hrows
  split at hres
  · cases hres
  rename_i hshape
  split at hres
  · cases hres
  rename_i s hs
  split at hres
  · cases hres
  rename_i dm hdm
  split at hres
  · cases hres
  rename_i am ham
  cases hres
  exact ⟨rows, s, dm, am, hrows, not_not.mp hshape, hs, hdm, ham, rfl⟩

/-- **C24.** If the Hankel array is the array of inner products of adjoint with direct vectors, the direct
modes are the chosen columns of an array, the adjoint modes are the chosen columns of another array, these
two are biorthonormal, and the projection coefficients are the inner products of the vectors with the modes
of the other kind. -/
theorem C24_arrays (hws : arraysInit weights = .ok ws) (hfit : ws.Fits n) (res : BpodResult 𝕜 n md ma)
    (hres : bpodArrays svd X Y p q idxD idxA weights atol rtol = .ok res)
    (hlib : IsSvd res.hankel (svd res.hankel)) (hS : ∀ i, 0 < res.singVals i) (hH : res.hankel = Yᴴ * ws.matrix n * X) :
    ∃ Φ Ψ : Matrix (Fin n) (Fin res.r) 𝕜, Chosen Φ idxD res.directModes ∧ Chosen Ψ idxA res.adjointModes ∧
      Ψᴴ * ws.matrix n * Φ = 1 ∧ res.directProjCoeffs = Ψᴴ * ws.matrix n * X ∧
      ((ws.matrix n).IsHermitian → res.adjointProjCoeffs = Φᴴ * ws.matrix n * Y) := by
  obtain ⟨rows, s, dm, am, -, -, hs, hdm, ham, rfl⟩ :=
    bpodArrays_cases svd X Y p q idxD idxA weights ws _ _ hws hfit res hres
  dsimp only at hlib hH hS ⊢
  generalize ofRows ma md rows = H at *
  obtain ⟨-, hV, hHV, hHU⟩ := utilSvd_triples svd H _ _ hlib s hs
  refine ⟨X * (s.V * diagPow (𝕜 := 𝕜) s.S (-0.5)), Y * (s.U * diagPow (𝕜 := 𝕜) s.S (-0.5)),
    linCombineArrays_ok _ _ _ _ hdm, linCombineArrays_ok _ _ _ _ ham, ?_, ?_, fun hW => ?_⟩
  · rw [← balance_one hS hV hHU, hH, conjTranspose_mul Y]
    simp only [Matrix.mul_assoc]
  · rw [← balance_left hS hHU, hH, conjTranspose_mul Y]
    simp only [Matrix.mul_assoc]
  · rw [← balance_right hS hHV, hH, conjTranspose_mul X]
    rw [conjTranspose_mul (Yᴴ * ws.matrix n), conjTranspose_mul Yᴴ, conjTranspose_conjTranspose, hW.eq]
    simp only [Matrix.mul_assoc]

/-- **C24.** With an absolute tolerance that is not negative, such as the default, only positive singular
values are retained, as the other theorems assume. -/
theorem C24_positive (t : ℝ) (hr : ∀ t ∈ rtol, 0 ≤ t) (hws : arraysInit weights = .ok ws)
    (hfit : ws.Fits n) (res : BpodResult 𝕜 n md ma)
    (hres : bpodArrays svd X Y p q idxD idxA weights (some t) rtol = .ok res)
    (hlib : IsSvd res.hankel (svd res.hankel)) : ∀ i, t < res.singVals i := by
  obtain ⟨rows, s, dm, am, -, -, hs, hdm, ham, rfl⟩ :=
    bpodArrays_cases svd X Y p q idxD idxA weights ws _ _ hws hfit res hres
  exact utilSvd_positive svd _ rtol t hr hlib s hs

/-- **C24.** The modes balance: in coordinates of the modes, direct and adjoint vectors have the same,
diagonal correlation array, with the singular values on its diagonal. -/
theorem C24_balanced (hws : arraysInit weights = .ok ws) (hfit : ws.Fits n) (res : BpodResult 𝕜 n md ma)
    (hres : bpodArrays svd X Y p q idxD idxA weights atol rtol = .ok res)
    (hlib : IsSvd res.hankel (svd res.hankel)) (hS : ∀ i, 0 < res.singVals i) :
    res.directProjCoeffs * res.directProjCoeffsᴴ = diagonal (fun i => (res.singVals i : 𝕜)) ∧
    res.adjointProjCoeffs * res.adjointProjCoeffsᴴ = diagonal (fun i => (res.singVals i : 𝕜)) := by
  obtain ⟨rows, s, dm, am, -, -, hs, hdm, ham, rfl⟩ :=
    bpodArrays_cases svd X Y p q idxD idxA weights ws _ _ hws hfit res hres
  dsimp only at hlib hS ⊢
  generalize ofRows ma md rows = H at *
  obtain ⟨hU, hV, -⟩ := utilSvd_triples svd H _ _ hlib s hs
  refine ⟨?_, ?_⟩
  · rw [proj_energy hS hV, diagPow_one]
  · rw [proj_energy hS hU, diagPow_one]

theorem pow_adjoint (W A Aadj : Matrix (Fin n) (Fin n) 𝕜) (h : Aadjᴴ * W = W * A) (k : Nat) :
    (Aadj ^ k)ᴴ * W = W * A ^ k := by
  induction k with
  | zero => simp
  | succ k ih =>
    rw [pow_succ, conjTranspose_mul, Matrix.mul_assoc, ih, ← Matrix.mul_assoc, h, Matrix.mul_assoc, ← pow_succ']

theorem lastCount_eq {q ma : Nat} (hq : 1 ≤ q) (h : 1 ≤ ma / q) : lastCount q ma = q := by
  have : q ≤ ma := by
    by_contra hlt
    rw [Nat.div_eq_of_lt (by omega)] at h
    omega
  unfold lastCount
  rw [if_neg (by omega)]
  omega

theorem min_div_eq {p md : Nat} (h : 1 ≤ md / p) : min p md = p := by
  have : p ≤ md := by
    by_contra hlt
    rw [Nat.div_eq_of_lt (by omega)] at h
    omega
  omega

/-- Whenever an array is assembled, there is a complete chunk, and the array has all complete chunks. -/
theorem bpodHankel_shape {k l : Nat} (hk : k = min p md) (hl : l = lastCount q ma)
    (F : Matrix (Fin ma) (Fin k) 𝕜) (L : Matrix (Fin l) (Fin md) 𝕜) (rows : List (List 𝕜))
    (h : bpodHankel p q F L = .ok rows) :
    1 ≤ p ∧ 1 ≤ q ∧ 1 ≤ ma / q ∧ 1 ≤ md / p ∧ shapeOf rows = (ma / q * q, md / p * p) := by
  have h0 : ¬ (p = 0 ∨ q = 0 ∨ ma / q = 0 ∨ md / p = 0) := by
    intro h0
    obtain ⟨e, he⟩ := bpodHankel_error F L h0
    rw [h] at he
    cases he
  have hp : 1 ≤ p := by omega
  have hq : 1 ≤ q := by omega
  have hs : 1 ≤ ma / q := Nat.one_le_iff_ne_zero.mpr fun h => h0 (Or.inr (Or.inr (Or.inl h)))
  have ht : 1 ≤ md / p := Nat.one_le_iff_ne_zero.mpr fun h => h0 (Or.inr (Or.inr (Or.inr h)))
  refine ⟨hp, hq, hs, ht, ?_⟩
  obtain ⟨out, h1, h2, -⟩ := bpodHankel_ok hp hq hs ht (hk.trans (min_div_eq ht))
    (hl.trans (lastCount_eq hq hs)) F L
    (fun i j => if h : i < ma ∧ j < k then F ⟨i, h.1⟩ ⟨j, h.2⟩ else 0)
    (fun i j => if h : i < l ∧ j < md then L ⟨i, h.1⟩ ⟨j, h.2⟩ else 0)
    (fun i j => by rw [dif_pos ⟨i.isLt, j.isLt⟩]) (fun i j => by rw [dif_pos ⟨i.isLt, j.isLt⟩])
  rw [h] at h1
  cases h1
  exact h2

/-- **C25.** Vectors that do not fill complete chunks are refused. -/
theorem C25_complete_chunks (hws : arraysInit weights = .ok ws) (hfit : ws.Fits n) (res : BpodResult 𝕜 n md ma)
    (hres : bpodArrays svd X Y p q idxD idxA weights atol rtol = .ok res) :
    1 ≤ p ∧ 1 ≤ q ∧ p ∣ md ∧ q ∣ ma ∧ p ≤ md ∧ q ≤ ma := by
  obtain ⟨rows, s, dm, am, hrows, hshape, -⟩ :=
    bpodArrays_cases svd X Y p q idxD idxA weights ws _ _ hws hfit res hres
  obtain ⟨hp, hq, h1, h2, h3⟩ := bpodHankel_shape p q rfl rfl _ _ rows hrows
  rw [hshape] at h3
  obtain ⟨h4, h5⟩ := Prod.mk.inj h3
  have h6 := min_div_eq h2
  have h7 := lastCount_eq hq h1
  have h8 := lastCount_le q ma
  exact ⟨hp, hq, Dvd.intro_left _ h5.symm, Dvd.intro_left _ h4.symm, by omega, by omega⟩

/-- Inner products of impulse responses. -/
theorem markov_entry (W A Aadj : Matrix (Fin n) (Fin n) 𝕜) (hadj : Aadjᴴ * W = W * A)
    (B : Matrix (Fin n) (Fin p) 𝕜) (C : Matrix (Fin n) (Fin q) 𝕜) (hp : 1 ≤ p) (hq : 1 ≤ q)
    (hX : ∀ i j, X i j = (A ^ (j.val / p) * B) i ⟨j % p, Nat.mod_lt _ hp⟩)
    (hY : ∀ i j, Y i j = (Aadj ^ (j.val / q) * C) i ⟨j % q, Nat.mod_lt _ hq⟩) (i : Fin ma) (j : Fin md) :
    (Yᴴ * W * X) i j = (Cᴴ * W * A ^ (i.val / q + j.val / p) * B) ⟨i % q, Nat.mod_lt _ hq⟩
      ⟨j % p, Nat.mod_lt _ hp⟩ := by
  have h : (Yᴴ * W * X) i j = ((Aadj ^ (i.val / q) * C)ᴴ * W * (A ^ (j.val / p) * B))
      ⟨i % q, Nat.mod_lt _ hq⟩ ⟨j % p, Nat.mod_lt _ hp⟩ := by
    rw [Matrix.mul_apply, Matrix.mul_apply]
    refine Finset.sum_congr rfl fun k _ => ?_
    rw [hX]
    congr 1
    rw [Matrix.mul_apply, Matrix.mul_apply]
    refine Finset.sum_congr rfl fun l _ => ?_
    rw [conjTranspose_apply, conjTranspose_apply, hY]
  rw [h, conjTranspose_mul, Matrix.mul_assoc Cᴴ, pow_adjoint W A Aadj hadj, pow_add]
  simp only [Matrix.mul_assoc]

/-- **C25.** If the direct vectors are the impulse responses of `A` to the inputs `B` and the adjoint vectors
those of the adjoint system, the assembled array is the array of all inner products of adjoint with direct
vectors; block `(I, J)` is the Markov parameter number `I + J`. -/
theorem C25_arrays (hp : 1 ≤ p) (hq : 1 ≤ q) (hws : arraysInit weights = .ok ws) (hfit : ws.Fits n)
    (A Aadj : Matrix (Fin n) (Fin n) 𝕜) (B : Matrix (Fin n) (Fin p) 𝕜) (C : Matrix (Fin n) (Fin q) 𝕜)
    (hadj : Aadjᴴ * ws.matrix n = ws.matrix n * A)
    (hX : ∀ i j, X i j = (A ^ (j.val / p) * B) i ⟨j % p, Nat.mod_lt _ hp⟩)
    (hY : ∀ i j, Y i j = (Aadj ^ (j.val / q) * C) i ⟨j % q, Nat.mod_lt _ hq⟩)
    (res : BpodResult 𝕜 n md ma) (hres : bpodArrays svd X Y p q idxD idxA weights atol rtol = .ok res) :
    res.hankel = Yᴴ * ws.matrix n * X ∧
    ∀ i j, res.hankel i j = (Cᴴ * ws.matrix n * A ^ (i.val / q + j.val / p) * B)
      ⟨i % q, Nat.mod_lt _ hq⟩ ⟨j % p, Nat.mod_lt _ hp⟩ := by
  obtain ⟨-, -, hmd, hma, -, -⟩ :=
    C25_complete_chunks svd X Y p q idxD idxA weights ws _ _ hws hfit res hres
  obtain ⟨rows, s, dm, am, hrows, -, hs, hdm, ham, rfl⟩ :=
    bpodArrays_cases svd X Y p q idxD idxA weights ws _ _ hws hfit res hres
  dsimp only
  have hent := markov_entry X Y p q (ws.matrix n) A Aadj hadj B C hp hq hX hY
  suffices h : ∀ i j, ofRows ma md rows i j = (Cᴴ * ws.matrix n * A ^ (i.val / q + j.val / p) * B)
      ⟨i % q, Nat.mod_lt _ hq⟩ ⟨j % p, Nat.mod_lt _ hp⟩ by
    refine ⟨?_, h⟩
    ext i j
    rw [h, hent]
  obtain ⟨-, -, h1, h2, -⟩ := bpodHankel_shape p q rfl rfl _ _ rows hrows
  have hl := lastCount_eq hq h1
  have hk := min_div_eq h2
  obtain ⟨out, k1, k2, k3⟩ := bpodHankel_markov hp hq h1 h2 hk hl (Yᴴ * ws.matrix n * firstCols X p)
    ((lastCols Y q)ᴴ * ws.matrix n * X)
    (fun k a b => if h : a < q ∧ b < p then (Cᴴ * ws.matrix n * A ^ k * B) ⟨a, h.1⟩ ⟨b, h.2⟩ else 0)
    (fun i j => by
      have hj : j.val < p := by omega
      have : (Yᴴ * ws.matrix n * firstCols X p) i j =
        (Yᴴ * ws.matrix n * X) i (Fin.castLE (Nat.min_le_right p md) j) := rfl
      rw [this, hent, dif_pos ⟨Nat.mod_lt _ hq, hj⟩]
      simp only [Fin.val_castLE, Nat.div_eq_of_lt hj, Nat.mod_eq_of_lt hj, Nat.add_zero])
    (fun i j => by
      have hi : i.val < q := by omega
      have hle := lastCount_le q ma
      have : ((lastCols Y q)ᴴ * ws.matrix n * X) i j =
        (Yᴴ * ws.matrix n * X) ⟨ma - lastCount q ma + i, by omega⟩ j := rfl
      rw [this, hent, dif_pos ⟨hi, Nat.mod_lt _ hp⟩]
      obtain ⟨b, rfl⟩ := hma
      have h3 : q * b / q = b := Nat.mul_div_cancel_left b hq
      have h4 : ∀ x, q * b - lastCount q (q * b) + x = x + q * (b - 1) := by
        intro x
        rw [hl, Nat.mul_sub, Nat.mul_one]
        rw [h3] at h1
        have := Nat.mul_le_mul_left q h1
        omega
      have h5 : (i.val + q * (b - 1)) / q = b - 1 := by
        rw [Nat.add_mul_div_left _ _ hq, Nat.div_eq_of_lt hi, Nat.zero_add]
      have h6 : (i.val + q * (b - 1)) % q = i.val := by
        rw [Nat.add_mul_mod_self_left, Nat.mod_eq_of_lt hi]
      simp only [h3, h4, h5, h6])
  rw [hrows] at k1
  cases k1
  intro i j
  rw [Nat.div_mul_cancel hmd, Nat.div_mul_cancel hma] at k3
  rw [k3, dif_pos ⟨Nat.mod_lt _ hq, Nat.mod_lt _ hp⟩]

/-- **C25.** If the vectors fill complete chunks and the weights fit, and a complete chunk exists, nothing is
raised. -/
theorem C25_no_error (hp : 1 ≤ p) (hq : 1 ≤ q) (hmd : p ∣ md) (hma : q ∣ ma) (hlmd : p ≤ md) (hlma : q ≤ ma)
    (hws : arraysInit weights = .ok ws) (hfit : ws.Fits n) :
    ∃ res, bpodArrays svd X Y p q none none weights atol rtol = .ok res := by
  have h1 : 1 ≤ ma / q := Nat.div_pos hlma hq
  have h2 : 1 ≤ md / p := Nat.div_pos hlmd hp
  have hk := min_div_eq h2
  have hl := lastCount_eq hq h1
  obtain ⟨rows, k1, k2, -⟩ := bpodHankel_ok hp hq h1 h2 hk hl (Yᴴ * ws.matrix n * firstCols X p)
    ((lastCols Y q)ᴴ * ws.matrix n * X)
    (fun i j => if h : i < ma ∧ j < min p md then (Yᴴ * ws.matrix n * firstCols X p) ⟨i, h.1⟩ ⟨j, h.2⟩ else 0)
    (fun i j => if h : i < lastCount q ma ∧ j < md then
      ((lastCols Y q)ᴴ * ws.matrix n * X) ⟨i, h.1⟩ ⟨j, h.2⟩ else 0)
    (fun i j => by rw [dif_pos ⟨i.isLt, j.isLt⟩]) (fun i j => by rw [dif_pos ⟨i.isLt, j.isLt⟩])
  rw [Nat.div_mul_cancel hmd, Nat.div_mul_cancel hma] at k2
  unfold bpodArrays
  rw [hws]
  dsimp only
  rw [C45_formula ws hfit, C45_formula ws hfit]
  dsimp only
  rw [k1]
  dsimp only
  rw [if_neg (not_not.mpr k2)]
  cases hs : utilSvd svd (ofRows ma md rows) atol rtol with
  | error e =>
    obtain ⟨-, -, h0⟩ := (C19_error_iff _ _ _ _ _).mp hs
    omega
  | ok s => exact ⟨_, rfl⟩

end Arrays

/-! ### Handles -/

section Handles

variable {E : Type*} {md ma : Nat} (X : Fin md → E) (Y : Fin ma → E) (p q : Nat)
  (svd : Matrix (Fin (ma / q * q)) (Fin (md / p * p)) 𝕜 → SvdOut 𝕜 (ma / q * q) (md / p * p))
  (atol rtol : Option ℝ)

theorem bpodHandlesDecomp_cases (ip : E → E → 𝕜) (b : BpodHandles 𝕜 E md ma (ma / q * q) (md / p * p))
    (hb : bpodHandlesDecomp ip X Y p q svd atol rtol = .ok b) :
    ∃ rows s, bpodHankel p q (handlesIp ip Y (firstEntries X p)) (handlesIp ip (lastVecs Y q) X) = .ok rows ∧
      utilSvd svd (ofRows _ _ rows) atol rtol = .ok s ∧
      b = ⟨X, Y, ofRows _ _ rows, s.r, s.S, s.U, s.V⟩ := by
  unfold bpodHandlesDecomp at hb
  split at hb
  · cases hb
  dsimp only at hb
  split at hb
  · cases hb
  rename_i rows hrows
  split at hb
  · cases hb
  rename_i s hs
  cases hb
  exact ⟨rows, s, hrows, hs, rfl⟩

/-- **C25.** If the direct vectors are impulse responses `A^k B`, the adjoint vectors are impulse responses of
the adjoint system, and the adjoint vectors fill complete chunks, the array assembled by `compute_decomp` has
all inner products of adjoint with direct vectors. -/
theorem C25_handles (ip : E → E → 𝕜) (A Aadj : E → E) (hadj : ∀ u v, ip (Aadj u) v = ip u (A v))
    (hp : 1 ≤ p) (hq : 1 ≤ q) (hma : q ∣ ma) (B : Fin p → E) (C : Fin q → E)
    (hX : ∀ j, X j = A^[j.val / p] (B ⟨j % p, Nat.mod_lt _ hp⟩))
    (hY : ∀ i, Y i = Aadj^[i.val / q] (C ⟨i % q, Nat.mod_lt _ hq⟩))
    (b : BpodHandles 𝕜 E md ma (ma / q * q) (md / p * p))
    (hb : bpodHandlesDecomp ip X Y p q svd atol rtol = .ok b) :
    ∀ (i : Fin (ma / q * q)) (j : Fin (md / p * p)) (i' : Fin ma) (j' : Fin md), i'.val = i.val →
      j'.val = j.val → b.hankel i j = ip (Y i') (X j') := by
  obtain ⟨rows, s, hrows, hs, rfl⟩ := bpodHandlesDecomp_cases X Y p q svd atol rtol ip b hb
  obtain ⟨-, -, h1, h2, -⟩ := bpodHankel_shape p q rfl rfl _ _ rows hrows
  have hl := lastCount_eq hq h1
  have hk := min_div_eq h2
  have hpow : ∀ (k : Nat) (u v : E), ip (Aadj^[k] u) v = ip u (A^[k] v) := by
    intro k
    induction k with
    | zero => intro u v; rfl
    | succ k ih => intro u v; rw [Function.iterate_succ', Function.comp, hadj, ih, Function.iterate_succ]; rfl
  have hent : ∀ (i : Fin ma) (j : Fin md), ip (Y i) (X j) =
      ip (C ⟨i % q, Nat.mod_lt _ hq⟩) (A^[i.val / q + j.val / p] (B ⟨j % p, Nat.mod_lt _ hp⟩)) := by
    intro i j
    rw [hX, hY, hpow, Function.iterate_add]
    rfl
  obtain ⟨out, k1, k2, k3⟩ := bpodHankel_markov hp hq h1 h2 hk hl (handlesIp ip Y (firstEntries X p))
    (handlesIp ip (lastVecs Y q) X)
    (fun k a b => if h : a < q ∧ b < p then ip (C ⟨a, h.1⟩) (A^[k] (B ⟨b, h.2⟩)) else 0)
    (fun i j => by
      have hj : j.val < p := by omega
      have : handlesIp ip Y (firstEntries X p) i j = ip (Y i) (X (Fin.castLE (Nat.min_le_right p md) j)) := rfl
      rw [this, hent, dif_pos ⟨Nat.mod_lt _ hq, hj⟩]
      simp only [Fin.val_castLE, Nat.div_eq_of_lt hj, Nat.mod_eq_of_lt hj, Nat.add_zero])
    (fun i j => by
      have hi : i.val < q := by omega
      have hle := lastCount_le q ma
      have : handlesIp ip (lastVecs Y q) X i j = ip (Y ⟨ma - lastCount q ma + i, by omega⟩) (X j) := rfl
      rw [this, hent, dif_pos ⟨hi, Nat.mod_lt _ hp⟩]
      obtain ⟨b, rfl⟩ := hma
      have h3 : q * b / q = b := Nat.mul_div_cancel_left b hq
      have h4 : ∀ x, q * b - lastCount q (q * b) + x = x + q * (b - 1) := by
        intro x
        rw [hl, Nat.mul_sub, Nat.mul_one]
        rw [h3] at h1
        have := Nat.mul_le_mul_left q h1
        omega
      have h5 : (i.val + q * (b - 1)) / q = b - 1 := by
        rw [Nat.add_mul_div_left _ _ hq, Nat.div_eq_of_lt hi, Nat.zero_add]
      have h6 : (i.val + q * (b - 1)) % q = i.val := by
        rw [Nat.add_mul_mod_self_left, Nat.mod_eq_of_lt hi]
      simp only [h3, h4, h5, h6])
  rw [hrows] at k1
  cases k1
  intro i j i' j' hi hj
  dsimp only
  rw [k3, dif_pos ⟨Nat.mod_lt _ hq, Nat.mod_lt _ hp⟩, hent]
  simp only [hi, hj]

variable [AddCommGroup E] [Module 𝕜 E]

/-- Vectors put by `lin_combine`: chosen linear combinations, if there are as many coefficients as handles. -/
theorem linCombineSized_ok {p h r : Nat} (numSums : Nat) (basis : Fin p → E) (coeff : Matrix (Fin h) (Fin r) 𝕜)
    (l : List Int) (out : Vecs E) (hout : linCombineSized numSums basis coeff (some l) = .ok out) :
    ∃ hp : h = p, out.k = l.length ∧ ∃ sel : Fin out.k → Fin r,
      (∀ (i : Fin out.k) (j : Int), l[i.val]? = some j → npAxisIndex r j = .ok (sel i)) ∧
      ∀ i, out.v i = combine (fun k => basis (Fin.cast hp k)) coeff (sel i) := by
  unfold linCombineSized at hout
  split at hout
  · rename_i hp
    subst hp
    obtain ⟨c, hc, -, -, rfl⟩ := handlesLinCombine_ok _ _ _ _ _ hout
    obtain ⟨sel, h1, h2, -⟩ := pickCols_ok _ _ _ hc
    obtain ⟨h3, h4⟩ := h2 l rfl
    refine ⟨rfl, h3, sel, h4, fun i => ?_⟩
    dsimp only
    rw [h1]
    rfl
  · split at hout <;> cases hout

/-- **C24.** If the Hankel array has the inner products of adjoint with direct vectors, the modes put by
`compute_direct_modes` and `compute_adjoint_modes` are biorthonormal, for any choice of modes. -/
theorem C24_handles (ip : E →ₗ⋆[𝕜] E →ₗ[𝕜] 𝕜)
    (b : BpodHandles 𝕜 E md ma (ma / q * q) (md / p * p))
    (hb : bpodHandlesDecomp (fun x y => ip x y) X Y p q svd atol rtol = .ok b)
    (hlib : IsSvd b.hankel (svd b.hankel)) (hS : ∀ i, 0 < b.singVals i)
    (hH : ∀ (i : Fin (ma / q * q)) (j : Fin (md / p * p)) (i' : Fin ma) (j' : Fin md), i'.val = i.val →
      j'.val = j.val → b.hankel i j = ip (Y i') (X j'))
    (lD lA : List Int) (kD kA : Nat) (direct adjoint : Vecs E)
    (hD : bpodHandlesDirectModes b lD kD = .ok direct) (hA : bpodHandlesAdjointModes b lA kA = .ok adjoint) :
    direct.k = lD.length ∧ adjoint.k = lA.length ∧ p ∣ md ∧ q ∣ ma ∧
    ∃ (selD : Fin direct.k → Fin b.r) (selA : Fin adjoint.k → Fin b.r),
      (∀ (i : Fin direct.k) (j : Int), lD[i.val]? = some j → npAxisIndex b.r j = .ok (selD i)) ∧
      (∀ (i : Fin adjoint.k) (j : Int), lA[i.val]? = some j → npAxisIndex b.r j = .ok (selA i)) ∧
      (∀ i j, ip (adjoint.v i) (direct.v j) = if selA i = selD j then 1 else 0) ∧
      (∀ i j j', j'.val = j.val → bpodHandlesDirectProjCoeffs b (selA i) j = ip (adjoint.v i) (X j')) ∧
      ((∀ x y, ip y x = star (ip x y)) →
        ∀ i j j', j'.val = j.val → bpodHandlesAdjointProjCoeffs b (selD i) j = ip (direct.v i) (Y j')) := by
  obtain ⟨hmd, h1, selD, h2, h3⟩ := linCombineSized_ok _ _ _ _ _ hD
  obtain ⟨hma, h4, selA, h5, h6⟩ := linCombineSized_ok _ _ _ _ _ hA
  obtain ⟨rows, s, hrows, hs, rfl⟩ := bpodHandlesDecomp_cases X Y p q svd _ rtol _ b hb
  dsimp only at *
  generalize ofRows (ma / q * q) (md / p * p) rows = H at *
  have hH' : H = handlesIp (fun x y => ip x y) (fun k => Y (Fin.cast hma k)) (fun k => X (Fin.cast hmd k)) := by
    ext i j
    exact hH i j _ _ rfl rfl
  obtain ⟨-, hV, hHV, hHU⟩ := utilSvd_triples svd H _ _ hlib s hs
  refine ⟨h1, h4, Dvd.intro_left _ hmd, Dvd.intro_left _ hma, selD, selA, h2, h5, fun i j => ?_,
    fun i j j' hj => ?_, fun hsymm i j j' hj => ?_⟩
  · have key := balance_one hS hV hHU
    conv at key => enter [1, 1, 2]; rw [hH']
    rw [← handlesIp_combine] at key
    have hij := congrFun (congrFun key (selA i)) (selD j)
    rw [Matrix.one_apply] at hij
    rw [← hij, h6, h3]
    rfl
  · have key := balance_left hS hHU
    conv at key => enter [1, 2]; rw [hH']
    rw [← handlesIp_combine_left] at key
    have hij := congrFun (congrFun key (selA i)) j
    unfold bpodHandlesDirectProjCoeffs
    dsimp only
    rw [← hij, h6]
    have : j' = Fin.cast hmd j := Fin.ext hj
    rw [this]
    rfl
  · have key := balance_right hS hHV
    have hHs : Hᴴ = handlesIp (fun x y => ip x y) (fun k => X (Fin.cast hmd k)) (fun k => Y (Fin.cast hma k)) := by
      rw [hH']
      ext i j
      exact (hsymm _ _).symm
    conv at key => enter [1, 2]; rw [hHs]
    rw [← handlesIp_combine_left] at key
    have hij := congrFun (congrFun key (selD i)) j
    unfold bpodHandlesAdjointProjCoeffs
    dsimp only
    rw [← hij, h3]
    have : j' = Fin.cast hma j := Fin.ext hj
    rw [this]
    rfl

omit [AddCommGroup E] [Module 𝕜 E] in
/-- **C24.** With an absolute tolerance that is not negative, only positive singular values are retained. -/
theorem C24_handles_positive (ip : E → E → 𝕜) (t : ℝ) (hr : ∀ t ∈ rtol, 0 ≤ t)
    (b : BpodHandles 𝕜 E md ma (ma / q * q) (md / p * p))
    (hb : bpodHandlesDecomp ip X Y p q svd (some t) rtol = .ok b)
    (hlib : IsSvd b.hankel (svd b.hankel)) : ∀ i, t < b.singVals i := by
  obtain ⟨rows, s, hrows, hs, rfl⟩ := bpodHandlesDecomp_cases X Y p q svd _ rtol _ b hb
  exact utilSvd_positive svd _ rtol t hr hlib s hs

omit [AddCommGroup E] [Module 𝕜 E] in
/-- **C25.** If there is a complete chunk, `compute_decomp` raises nothing, complete or not. -/
theorem C25_handles_no_error (ip : E → E → 𝕜) (hp : 1 ≤ p) (hq : 1 ≤ q) (hlmd : p ≤ md) (hlma : q ≤ ma) :
    ∃ b, bpodHandlesDecomp ip X Y p q svd atol rtol = .ok b := by
  have h1 : 1 ≤ ma / q := Nat.div_pos hlma hq
  have h2 : 1 ≤ md / p := Nat.div_pos hlmd hp
  have hk := min_div_eq h2
  have hl := lastCount_eq hq h1
  obtain ⟨rows, k1, k2, -⟩ := bpodHankel_ok hp hq h1 h2 hk hl (handlesIp ip Y (firstEntries X p))
    (handlesIp ip (lastVecs Y q) X)
    (fun i j => if h : i < ma ∧ j < min p md then handlesIp ip Y (firstEntries X p) ⟨i, h.1⟩ ⟨j, h.2⟩ else 0)
    (fun i j => if h : i < lastCount q ma ∧ j < md then handlesIp ip (lastVecs Y q) X ⟨i, h.1⟩ ⟨j, h.2⟩ else 0)
    (fun i j => by rw [dif_pos ⟨i.isLt, j.isLt⟩]) (fun i j => by rw [dif_pos ⟨i.isLt, j.isLt⟩])
  unfold bpodHandlesDecomp
  rw [if_neg (by omega)]
  dsimp only
  rw [k1]
  dsimp only
  cases hs : utilSvd svd (ofRows _ _ rows) atol rtol with
  | error e =>
    obtain ⟨-, -, h0⟩ := (C19_error_iff _ _ _ _ _).mp hs
    have h3 := Nat.mul_le_mul h1 hq
    have h4 := Nat.mul_le_mul h2 hp
    omega
  | ok s => exact ⟨_, rfl⟩

end Handles

/-! ### Incomplete chunks -/

/-- **C25 fails** for `BPODHandles` if the adjoint vectors do not fill complete chunks: `compute_decomp`
raises nothing, but takes the last row of the array from the wrong adjoint vectors.  Here the system
multiplies by 2, with input 1 and outputs 1 and 5; an inner product that is 2 is 10 in the array. -/
theorem C25_incomplete_chunks_violation
    (svd : Matrix (Fin (3 / 2 * 2)) (Fin (2 / 1 * 1)) ℝ → SvdOut ℝ (3 / 2 * 2) (2 / 1 * 1))
    (atol rtol : Option ℝ) :
    ∃ b, bpodHandlesDecomp (fun x y : ℝ => x * y) ![1, 2] ![1, 5, 2] 1 2 svd atol rtol = .ok b ∧
      b.hankel ⟨0, by decide⟩ ⟨1, by decide⟩ = 10 ∧
      (![1, 5, 2] : Fin 3 → ℝ) 0 * (![1, 2] : Fin 2 → ℝ) 1 = 2 := by
  obtain ⟨b, hb⟩ := C25_handles_no_error ![1, 2] ![1, 5, 2] 1 2 svd atol rtol (fun x y : ℝ => x * y)
    (by decide) (by decide) (by decide) (by decide)
  refine ⟨b, hb, ?_, by simp⟩
  obtain ⟨rows, s, hrows, -, rfl⟩ := bpodHandlesDecomp_cases _ _ _ _ _ _ _ _ b hb
  have : bpodHankel 1 2 (handlesIp (fun x y : ℝ => x * y) ![1, 5, 2] (firstEntries ![1, 2] 1))
      (handlesIp (fun x y : ℝ => x * y) (lastVecs ![1, 5, 2] 2) ![1, 2]) =
      .ok [[1 * 1, 5 * 2], [5 * 1, 2 * 2]] := rfl
  rw [this] at hrows
  cases hrows
  norm_num [ofRows]

/-! ### Examples -/

/-- Results for the system that multiplies by 2: all singular value decompositions are as assumed, and the
Hankel array has all inner products. -/
example : ∃ (svd : Matrix (Fin 2) (Fin 2) ℝ → SvdOut ℝ 2 2) (res : BpodResult ℝ 1 2 2),
    (∀ a, IsSvd a (svd a)) ∧
    bpodArrays svd !![1, 2] !![1, 2] 1 1 none none none (some (1 / 10)) none = .ok res ∧
    (∀ i, 0 < res.singVals i) ∧
    res.hankel = (!![1, 2] : Matrix (Fin 1) (Fin 2) ℝ)ᴴ * Weights.none.matrix 1 *
      (!![1, 2] : Matrix (Fin 1) (Fin 2) ℝ) := by
  choose svd hsvd using fun a : Matrix (Fin 2) (Fin 2) ℝ => exists_isSvd a
  obtain ⟨res, hres⟩ := C25_no_error svd !![1, 2] !![1, 2] 1 1 none .none (some (1 / 10)) none
    (by decide) (by decide) (by decide) (by decide) (by decide) (by decide) rfl trivial
  refine ⟨svd, res, hsvd, hres, fun i => lt_trans (by norm_num)
    (C24_positive svd _ _ 1 1 none none none .none none (1 / 10) (by simp) rfl trivial res hres (hsvd _) i), ?_⟩
  refine (C25_arrays svd _ _ 1 1 none none none .none _ _ le_rfl le_rfl rfl trivial !![2] !![2] !![1] !![1]
    ?_ ?_ ?_ res hres).1
  · ext i j
    fin_cases i; fin_cases j
    simp [Weights.matrix]
  · intro i j
    fin_cases i; fin_cases j <;> simp
  · intro i j
    fin_cases i; fin_cases j <;> simp

/-- Both kinds of modes are computed from handles of impulse responses with two inputs and one output. -/
example : ∃ (svd : Matrix (Fin (2 / 1 * 1)) (Fin (4 / 2 * 2)) ℝ → SvdOut ℝ (2 / 1 * 1) (4 / 2 * 2)) (b : _),
    (∀ a, IsSvd a (svd a)) ∧
    bpodHandlesDecomp (fun x y : ℝ => LinearMap.mul ℝ ℝ x y) ![1, 3, 2, 6] ![1, 2] 2 1 svd (some (1 / 10)) none =
      .ok b ∧
    ∀ (i : Fin (2 / 1 * 1)) (j : Fin (4 / 2 * 2)) (i' : Fin 2) (j' : Fin 4), i'.val = i.val →
      j'.val = j.val → b.hankel i j =
        LinearMap.mul ℝ ℝ ((![1, 2] : Fin 2 → ℝ) i') ((![1, 3, 2, 6] : Fin 4 → ℝ) j') := by
  choose svd hsvd using fun a : Matrix (Fin (2 / 1 * 1)) (Fin (4 / 2 * 2)) ℝ => exists_isSvd a
  obtain ⟨b, hb⟩ := C25_handles_no_error ![1, 3, 2, 6] ![1, 2] 2 1 svd (some (1 / 10)) none
    (fun x y : ℝ => LinearMap.mul ℝ ℝ x y) (by decide) (by decide) (by decide) (by decide)
  refine ⟨svd, b, hsvd, hb, ?_⟩
  refine C25_handles _ _ 2 1 svd _ _ (fun x y : ℝ => LinearMap.mul ℝ ℝ x y) (fun x => 2 * x) (fun x => 2 * x)
    (fun u v => ?_) (by decide) (by decide) (by decide) ![1, 3] ![1] ?_ ?_ b hb
  · simp only [LinearMap.mul_apply']
    ring
  · intro j
    fin_cases j <;> norm_num
  · intro i
    fin_cases i <;> norm_num

end Modred
