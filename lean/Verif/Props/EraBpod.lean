import Verif.Props.Bpod
import Verif.Props.DmdHandles
import Verif.Props.EraModel
import Verif.Props.Galerkin

/-!
# C61: the eigensystem realization algorithm is projection onto balanced modes
-/

namespace Modred

open Matrix

variable {𝕜 : Type*} [RCLike 𝕜]

/-- Equality of models whose sizes are equal, entry by entry. -/
theorem LtiModel.eq_of {r p q r' p' q' : Nat} (hr : r' = r) (hp : p' = p) (hq : q' = q)
    (A : Matrix (Fin r') (Fin r') 𝕜) (B : Matrix (Fin r') (Fin p') 𝕜) (C : Matrix (Fin q') (Fin r') 𝕜)
    (a : Matrix (Fin r) (Fin r) 𝕜) (b : Matrix (Fin r) (Fin p) 𝕜) (c : Matrix (Fin q) (Fin r) 𝕜)
    (hA : ∀ i j i' j', i.val = i'.val → j.val = j'.val → A i j = a i' j')
    (hB : ∀ i j i' j', i.val = i'.val → j.val = j'.val → B i j = b i' j')
    (hC : ∀ i j i' j', i.val = i'.val → j.val = j'.val → C i j = c i' j') :
    (⟨r', p', q', A, B, C⟩ : LtiModel 𝕜) = ⟨r, p, q, a, b, c⟩ := by
  subst hr hp hq
  have h1 : A = a := by ext i j; exact hA i j i j rfl rfl
  have h2 : B = b := by ext i j; exact hB i j i j rfl rfl
  have h3 : C = c := by ext i j; exact hC i j i j rfl rfl
  rw [h1, h2, h3]

theorem firstCols_mul_diagPow {m n : Nat} (U : Matrix (Fin m) (Fin n) 𝕜) (S : Fin n → ℝ) (k : Nat) (e : ℝ) :
    firstCols U k * diagPow (𝕜 := 𝕜) (firstEntries S k) e = firstCols (U * diagPow (𝕜 := 𝕜) S e) k := by
  ext i j
  simp [firstCols, firstEntries, diagPow, Matrix.mul_diagonal]

/-- The first `r` columns, chosen by `[0, ..., r-1]`. -/
theorem linCombineArrays_range {n p q r : Nat} (basis : Matrix (Fin n) (Fin p) 𝕜) (coeff : Matrix (Fin p) (Fin q) 𝕜)
    (c : Cols 𝕜 n) (h : linCombineArrays basis coeff (some ((List.range r).map Int.ofNat)) = .ok c) :
    ∃ (hr : r ≤ q), c = ⟨r, basis * coeff.submatrix id (Fin.castLE hr)⟩ := by
  obtain ⟨sel, hsel, h2, -⟩ := linCombineArrays_ok basis coeff _ c h
  obtain ⟨hk, hidx⟩ := h2 _ rfl
  obtain ⟨k, a⟩ := c
  dsimp only at sel hsel hk hidx
  rw [List.length_map, List.length_range] at hk
  subst hk
  have hval : ∀ i : Fin k, (sel i).val = i.val := by
    intro i
    have h3 := hidx i (i.val : Int) (by simp)
    unfold npAxisIndex at h3
    split at h3
    · cases h4 : sel i
      rw [h4] at h3
      cases h3
      rfl
    · rw [dif_neg (by omega)] at h3
      cases h3
  have hr : k ≤ q := by
    by_contra hlt
    push Not at hlt
    have := (sel ⟨q, hlt⟩).isLt
    rw [hval] at this
    exact lt_irrefl _ this
  refine ⟨hr, ?_⟩
  have : sel = Fin.castLE hr := funext fun i => Fin.ext (hval i)
  rw [hsel, this]
  rfl

/-- The reduced model of `eraReduce` in terms of vectors whose inner products are the entries of the Hankel arrays. -/
theorem eraReduce_eq (svd : ∀ {m n : Nat}, Matrix (Fin m) (Fin n) 𝕜 → SvdOut 𝕜 m n) {n md ma p q r : Nat}
    (h : HankelPair 𝕜) (hrows : h.rows = ma) (hcols : h.cols = md)
    (X : Matrix (Fin n) (Fin md) 𝕜) (Y : Matrix (Fin n) (Fin ma) 𝕜) (W A : Matrix (Fin n) (Fin n) 𝕜)
    (h1 : ∀ i j, h.h i.val j.val = (Yᴴ * W * X) i j) (h2 : ∀ i j, h.h2 i.val j.val = (Yᴴ * W * (A * X)) i j)
    (hlib : IsSvd (Yᴴ * W * X) (svd (Yᴴ * W * X))) (s : Svd 𝕜 ma md)
    (hs : utilSvd svd (Yᴴ * W * X) (some svdAtol) none = .ok s) (hr : r ≤ s.r) (hp : p ≤ md) (hq : q ≤ ma)
    (B : Matrix (Fin n) (Fin p) 𝕜) (C : Matrix (Fin n) (Fin q) 𝕜)
    (hB : ∀ i j, B i j = X i (Fin.castLE hp j)) (hC : ∀ i j, C i j = Y i (Fin.castLE hq j)) :
    let Φ := X * (s.V * diagPow (𝕜 := 𝕜) s.S (-0.5)).submatrix id (Fin.castLE hr)
    let Ψ := Y * (s.U * diagPow (𝕜 := 𝕜) s.S (-0.5)).submatrix id (Fin.castLE hr)
    Ψᴴ * W * Φ = 1 ∧
    eraReduce svd h q p r = .ok ⟨r, p, q, Ψᴴ * W * (A * Φ), Ψᴴ * W * B, Cᴴ * W * Φ⟩ := by
  obtain ⟨rows, cols, f, g⟩ := h
  dsimp only at hrows hcols h1 h2
  subst hrows hcols
  intro Φ Ψ
  obtain ⟨-, hV, hHV, hHU⟩ := utilSvd_triples svd _ _ _ hlib s hs
  have hS : ∀ i, 0 < s.S i := fun i =>
    lt_trans (by norm_num [svdAtol]) (utilSvd_positive svd _ none svdAtol (by simp) hlib s hs i)
  have hone := balance_one hS hV hHU
  have hleft := balance_left hS hHU
  have hright : Yᴴ * W * X * (s.V * diagPow (𝕜 := 𝕜) s.S (-0.5)) = s.U * diagPow (𝕜 := 𝕜) s.S 0.5 := by
    rw [← Matrix.mul_assoc, hHV, Matrix.mul_assoc, diagPow_mul _ hS, show (1 + -0.5 : ℝ) = 0.5 by norm_num]
  have ha : HankelPair.array ⟨rows, cols, f, g⟩ = Yᴴ * W * X := by ext i j; exact h1 i j
  have ha2 : HankelPair.array2 ⟨rows, cols, f, g⟩ = Yᴴ * W * (A * X) := by ext i j; exact h2 i j
  have hΨ : ∀ {k : Nat} (M : Matrix (Fin n) (Fin k) 𝕜), Ψᴴ * W * M =
      ((s.U * diagPow (𝕜 := 𝕜) s.S (-0.5))ᴴ * (Yᴴ * W * M)).submatrix (Fin.castLE hr) id := by
    intro k M
    change (Y * (s.U * diagPow (𝕜 := 𝕜) s.S (-0.5)).submatrix id (Fin.castLE hr))ᴴ * W * M = _
    rw [conjTranspose_mul]
    simp only [Matrix.mul_assoc]
    rfl
  have hΦ : ∀ {k l : Nat} (M : Matrix (Fin k) (Fin n) 𝕜) (f : Fin l → Fin k), (M * Φ).submatrix f id =
      (M * X * (s.V * diagPow (𝕜 := 𝕜) s.S (-0.5))).submatrix f (Fin.castLE hr) := by
    intro k l M f
    change (M * (X * _)).submatrix f id = _
    rw [← Matrix.mul_assoc]
    rfl
  constructor
  · rw [hΨ]
    rw [← Matrix.mul_assoc, hΦ, Matrix.mul_assoc _ _ X, hone]
    ext i j
    simp [Matrix.one_apply, Fin.ext_iff]
  · unfold eraReduce
    rw [ha, hs]
    dsimp only
    congr 1
    rw [ha2]
    refine LtiModel.eq_of (Nat.min_eq_left hr) (Nat.min_eq_left hp) (Nat.min_eq_left hq) _ _ _ _ _ _ ?_ ?_ ?_
    · intro i j i' j' hi hj
      have e1 : Ψᴴ * W * (A * Φ) = ((s.U * diagPow (𝕜 := 𝕜) s.S (-0.5))ᴴ * (Yᴴ * W * (A * X) *
          (s.V * diagPow (𝕜 := 𝕜) s.S (-0.5)))).submatrix (Fin.castLE hr) (Fin.castLE hr) := by
        rw [hΨ, show (s.U * diagPow (𝕜 := 𝕜) s.S (-0.5))ᴴ * (Yᴴ * W * (A * Φ)) =
          (s.U * diagPow (𝕜 := 𝕜) s.S (-0.5))ᴴ * (Yᴴ * W * A) * Φ by simp only [Matrix.mul_assoc], hΦ]
        simp only [Matrix.mul_assoc]
      have e2 : diagPow (𝕜 := 𝕜) (firstEntries s.S r) (-0.5) * ((firstCols s.U r)ᴴ * (Yᴴ * W * (A * X) *
          (firstCols s.V r * diagPow (𝕜 := 𝕜) (firstEntries s.S r) (-0.5)))) =
          (firstCols (s.U * diagPow (𝕜 := 𝕜) s.S (-0.5)) r)ᴴ * (Yᴴ * W * (A * X) *
            firstCols (s.V * diagPow (𝕜 := 𝕜) s.S (-0.5)) r) := by
        rw [← firstCols_mul_diagPow, ← firstCols_mul_diagPow, conjTranspose_mul, diagPow_conjTranspose]
        simp only [Matrix.mul_assoc]
      rw [e1, e2]
      change ((s.U * diagPow (𝕜 := 𝕜) s.S (-0.5))ᴴ * (Yᴴ * W * (A * X) * (s.V * diagPow (𝕜 := 𝕜) s.S (-0.5))))
        (Fin.castLE _ i) (Fin.castLE _ j) = _
      rw [Matrix.submatrix_apply]
      exact congrArg₂ _ (Fin.ext hi) (Fin.ext hj)
    · intro i j i' j' hi hj
      have e1 : ∀ i' j', (Ψᴴ * W * B) i' j' = (Ψᴴ * W * X) i' (Fin.castLE hp j') := by
        intro i' j'
        rw [Matrix.mul_apply, Matrix.mul_apply]
        simp only [hB]
      rw [e1, hΨ, hleft]
      have e2 : diagPow (𝕜 := 𝕜) (firstEntries s.S r) 0.5 * firstCols (firstCols s.V r)ᴴ p =
          (diagPow (𝕜 := 𝕜) s.S 0.5 * s.Vᴴ).submatrix (Fin.castLE (Nat.min_le_right _ _))
            (Fin.castLE (Nat.min_le_right _ _)) := by
        ext a b
        simp [firstCols, firstEntries, diagPow, Matrix.diagonal_mul]
      rw [e2, Matrix.submatrix_apply, Matrix.submatrix_apply]
      exact congrArg₂ _ (Fin.ext hi) (Fin.ext hj)
    · intro i j i' j' hi hj
      have e1 : (Cᴴ * W * Φ) i' j' = (Yᴴ * W * Φ) (Fin.castLE hq i') j' := by
        rw [Matrix.mul_assoc, Matrix.mul_assoc, Matrix.mul_apply, Matrix.mul_apply]
        simp only [conjTranspose_apply, hC]
      rw [e1]
      have e2 := congrFun (congrFun (hΦ (Yᴴ * W) id) (Fin.castLE hq i')) j'
      rw [hright] at e2
      have e3 : firstRows (firstCols s.U r) q * diagPow (𝕜 := 𝕜) (firstEntries s.S r) 0.5 =
          (s.U * diagPow (𝕜 := 𝕜) s.S 0.5).submatrix (Fin.castLE (Nat.min_le_right _ _))
            (Fin.castLE (Nat.min_le_right _ _)) := by
        ext a b
        simp [firstRows, firstCols, firstEntries, diagPow, Matrix.mul_diagonal]
      refine Eq.trans ?_ e2.symm
      rw [e3, Matrix.submatrix_apply, Matrix.submatrix_apply]
      exact congrArg₂ _ (Fin.ext hi) (Fin.ext hj)

/-- **C61.** For a linear system with inputs `B` and outputs `Cᴴ W`, the model of the eigensystem realization algorithm
from Markov parameters is the Galerkin projection of the system onto the direct and adjoint modes of balanced proper
orthogonal decomposition of its impulse responses: all three arrays are equal, not only up to coordinates.  The basis
may be declared orthonormal or not. -/
theorem C61_era_is_bpod_projection (svd : ∀ {m n : Nat}, Matrix (Fin m) (Fin n) 𝕜 → SvdOut 𝕜 m n)
    (hlib : ∀ {m n : Nat} (a : Matrix (Fin m) (Fin n) 𝕜), IsSvd a (svd a)) {n md ma p q r : Nat}
    (X : Matrix (Fin n) (Fin md) 𝕜) (Y : Matrix (Fin n) (Fin ma) 𝕜) (hp : 1 ≤ p) (hq : 1 ≤ q)
    (weights : Option (NdArray 𝕜)) (ws : Weights 𝕜) (hws : arraysInit weights = .ok ws) (hfit : ws.Fits n)
    (A Aadj : Matrix (Fin n) (Fin n) 𝕜) (B : Matrix (Fin n) (Fin p) 𝕜) (C : Matrix (Fin n) (Fin q) 𝕜)
    (hadj : Aadjᴴ * ws.matrix n = ws.matrix n * A)
    (hX : ∀ i j, X i j = (A ^ (j.val / p) * B) i ⟨j % p, Nat.mod_lt _ hp⟩)
    (hY : ∀ i j, Y i j = (Aadj ^ (j.val / q) * C) i ⟨j % q, Nat.mod_lt _ hq⟩) (res : BpodResult 𝕜 n md ma)
    (hres : bpodArrays svd X Y p q (some ((List.range r).map Int.ofNat)) (some ((List.range r).map Int.ofNat)) weights
      (some svdAtol) none = .ok res)
    (self : EraObj) (cast : 𝕜 → 𝕜) (nt : Nat) (at_ : Nat → Nat → Nat → 𝕜) (heven : nt % 2 = 0)
    (h0 : ∀ k (i : Fin q) (j : Fin p), at_ (2 * k) i j = (Cᴴ * ws.matrix n * A ^ k * B) i j)
    (h1 : ∀ k (i : Fin q) (j : Fin p), at_ (2 * k + 1) i j = (Cᴴ * ws.matrix n * A ^ (k + 1) * B) i j)
    (hcast : ∀ k i j, cast (at_ k i j) = at_ k i j)
    (hg : ma / q + md / p + 2 ≤ nt) (hd : 2 * (ma / q + md / p) ≤ nt + 2) :
    ∃ (Φ Ψ : Matrix (Fin n) (Fin r) 𝕜) (a : Matrix (Fin r) (Fin r) 𝕜) (b : Matrix (Fin r) (Fin p) 𝕜)
      (c : Matrix (Fin q) (Fin r) 𝕜),
      res.directModes = ⟨r, Φ⟩ ∧ res.adjointModes = ⟨r, Ψ⟩ ∧
      (∃ o, eraModel svd cast self (.d3 ⟨nt, q, p, at_⟩) r (some ((md / p : Nat) : Int)) (some ((ma / q : Nat) : Int)) =
        .ok (o, ⟨r, p, q, a, b, c⟩)) ∧
      ∀ flag, ∃ g, galerkinArraysInit false Φ (some ⟨n, r, Ψ⟩) flag weights = .ok g ∧
        (galerkinModelArrays g (A * Φ) B (.rows q r fun i j => (Cᴴ * ws.matrix n * Φ) i j)).1 =
          .ok (some ⟨r, a⟩, some ⟨p, b⟩, some ⟨q, r, c⟩) := by
  obtain ⟨-, -, hmd, hma, hpd, hqa⟩ := C25_complete_chunks svd X Y p q _ _ weights ws _ _ hws hfit res hres
  obtain ⟨hH, hHent⟩ := C25_arrays svd X Y p q _ _ weights ws _ _ hp hq hws hfit A Aadj B C hadj hX hY res hres
  obtain ⟨rows, s, dm, am, hrows, -, hs, hdm, ham, rfl⟩ := bpodArrays_cases svd X Y p q _ _ weights ws _ _ hws hfit res hres
  dsimp only at hH hHent ⊢
  rw [hH] at hs hHent
  obtain ⟨hr, rfl⟩ := linCombineArrays_range _ _ _ hdm
  obtain ⟨hr', rfl⟩ := linCombineArrays_range _ _ _ ham
  obtain ⟨b, hb, hbr, hbc, hent⟩ := C33_blocks cast ⟨nt, q, p, at_⟩ (md / p) (ma / q) hg hd
  dsimp only at hbr hbc hent
  rw [Nat.mul_div_cancel' hma] at hbr
  rw [Nat.mul_div_cancel' hmd] at hbc
  have hdec : ∀ (i : Fin ma) (j : Fin md), b.h i.val j.val = at_ (2 * (i.val / q + j.val / p)) (i.val % q) (j.val % p) ∧
      b.h2 i.val j.val = at_ (2 * (i.val / q + j.val / p) + 1) (i.val % q) (j.val % p) := by
    intro i j
    have := hent (i.val / q) (j.val / p) (i.val % q) (j.val % p)
      (Nat.div_lt_div_of_lt_of_dvd hma i.isLt) (Nat.div_lt_div_of_lt_of_dvd hmd j.isLt) (Nat.mod_lt _ hq) (Nat.mod_lt _ hp)
    rw [hcast, hcast, Nat.div_add_mod', Nat.div_add_mod'] at this
    exact this
  have hAX : ∀ i j, (Yᴴ * ws.matrix n * (A * X)) i j = (Cᴴ * ws.matrix n * A ^ (i.val / q + j.val / p + 1) * B)
      ⟨i.val % q, Nat.mod_lt _ hq⟩ ⟨j.val % p, Nat.mod_lt _ hp⟩ := by
    intro i j
    have h := markov_entry (A * X) Y p q (ws.matrix n) A Aadj hadj (A * B) C hp hq (fun i j => by
      rw [← Matrix.mul_assoc, ← pow_succ, pow_succ', Matrix.mul_assoc, Matrix.mul_apply, Matrix.mul_apply]
      simp only [hX]) hY i j
    rw [h, ← Matrix.mul_assoc, Matrix.mul_assoc (Cᴴ * ws.matrix n) _ A, ← pow_succ]
  have hB : ∀ i j, B i j = X i (Fin.castLE hpd j) := by
    intro i j
    rw [hX]
    simp only [Fin.val_castLE, Nat.div_eq_of_lt j.isLt, pow_zero, Matrix.one_mul, Nat.mod_eq_of_lt j.isLt]
  have hC : ∀ i j, C i j = Y i (Fin.castLE hqa j) := by
    intro i j
    rw [hY]
    simp only [Fin.val_castLE, Nat.div_eq_of_lt j.isLt, pow_zero, Matrix.one_mul, Nat.mod_eq_of_lt j.isLt]
  obtain ⟨hone, hera⟩ := eraReduce_eq svd b hbr hbc X Y (ws.matrix n) A
    (fun i j => by rw [(hdec i j).1, hHent]; exact h0 _ ⟨_, _⟩ ⟨_, _⟩)
    (fun i j => by rw [(hdec i j).2, hAX]; exact h1 _ ⟨_, _⟩ ⟨_, _⟩)
    (hlib _) s hs hr hpd hqa B C hB hC
  have hmod : (if (⟨nt, q, p, at_⟩ : Markovs 𝕜).nt % 2 ≠ 0 then nt - 1 else nt) = nt := by simp [heven]
  have hset : setMarkovs (.d3 ⟨nt, q, p, at_⟩) = .ok (⟨nt, q, p, at_⟩ : Markovs 𝕜) := by
    unfold setMarkovs
    dsimp only
    rw [hmod]
  generalize X * (s.V * diagPow (𝕜 := 𝕜) s.S (-0.5)).submatrix id (Fin.castLE hr) = Φ at hone hera ⊢
  generalize Y * (s.U * diagPow (𝕜 := 𝕜) s.S (-0.5)).submatrix id (Fin.castLE hr) = Ψ at hone hera ⊢
  refine ⟨Φ, Ψ, Ψᴴ * ws.matrix n * (A * Φ), Ψᴴ * ws.matrix n * B, Cᴴ * ws.matrix n * Φ, rfl, rfl,
    ⟨⟨some ((md / p : Nat) : Int), some ((ma / q : Nat) : Int)⟩, ?_⟩, fun flag => ?_⟩
  · unfold eraModel eraHankel
    rw [hset]
    dsimp only
    rw [hb]
    dsimp only
    rw [hera]
    rfl
  · obtain ⟨g, hg'⟩ := (C38_arrays_constructor Φ (some Ψ) flag weights ws ⟨n, r, Ψ⟩).2.2 hws
    refine ⟨g, hg', ?_⟩
    obtain ⟨k1, k2, k3, -⟩ := C38_arrays Φ (some Ψ) flag weights ws g [] hws hfit hg'
    have key : ∀ {l : Nat} (M : Matrix (Fin n) (Fin l) 𝕜) (e : Except Err (Matrix (Fin r) (Fin l) 𝕜)),
        GalerkinResult flag (Ψᴴ * ws.matrix n * Φ) (Ψᴴ * ws.matrix n * M) e → e = .ok (Ψᴴ * ws.matrix n * M) := by
      intro l M e h
      cases hf : flag with
      | true => exact h.orthonormal hf
      | false => rw [h.regular hf (by rw [hone]; simp), hone]; simp
    exact (C38_arrays_model Φ (some Ψ) flag weights ws g [] hws hfit hg' (A * Φ) B _).1 _ _ (key _ _ (k1 _ _))
      (key _ _ (k2 _ _))

/-- **C61.** Every number of modes up to the number of retained singular values can be asked for. -/
theorem C61_number_of_modes {n md ma p q r : Nat} (svd : Matrix (Fin ma) (Fin md) 𝕜 → SvdOut 𝕜 ma md)
    (X : Matrix (Fin n) (Fin md) 𝕜) (Y : Matrix (Fin n) (Fin ma) 𝕜) (weights : Option (NdArray 𝕜)) (ws : Weights 𝕜)
    (hws : arraysInit weights = .ok ws) (hfit : ws.Fits n) (atol rtol : Option ℝ) (res : BpodResult 𝕜 n md ma)
    (hres : bpodArrays svd X Y p q none none weights atol rtol = .ok res) :
    (∃ res', bpodArrays svd X Y p q (some ((List.range r).map Int.ofNat)) (some ((List.range r).map Int.ofNat)) weights
      atol rtol = .ok res') ↔ r ≤ res.r := by
  obtain ⟨rows, s, dm, am, hrows, hshape, hs, -, -, rfl⟩ := bpodArrays_cases svd X Y p q _ _ weights ws _ _ hws hfit res hres
  dsimp only
  constructor
  · rintro ⟨res', hres'⟩
    obtain ⟨rows', s', dm', am', hrows', -, hs', hdm, -, -⟩ :=
      bpodArrays_cases svd X Y p q _ _ weights ws _ _ hws hfit res' hres'
    rw [hrows] at hrows'
    cases hrows'
    rw [hs] at hs'
    cases hs'
    exact (linCombineArrays_range _ _ _ hdm).1
  · intro hr
    obtain ⟨l, hl, -⟩ := npAxisIndices_ok (n := s.r) ((List.range r).map Int.ofNat) (by
      intro i hi
      obtain ⟨k, hk, rfl⟩ := List.mem_map.mp hi
      have := List.mem_range.mp hk
      simp only [Int.ofNat_eq_natCast]
      omega)
    unfold bpodArrays
    rw [hws]
    dsimp only
    rw [C45_formula ws hfit, C45_formula ws hfit]
    dsimp only
    rw [hrows]
    dsimp only
    rw [if_neg (not_not.mpr hshape), hs]
    unfold linCombineArrays pickCols
    dsimp only
    rw [hl]
    exact ⟨_, rfl⟩

theorem conjTranspose_one_one (x : ℝ) : (!![x] : Matrix (Fin 1) (Fin 1) ℝ)ᴴ = !![x] := by
  ext i j
  fin_cases i; fin_cases j
  simp

/-- The scalar system `x' = x / 2`. -/
example : ∃ (svd : ∀ {m n : Nat}, Matrix (Fin m) (Fin n) ℝ → SvdOut ℝ m n) (res : BpodResult ℝ 1 1 1)
    (Φ Ψ a b c : Matrix (Fin 1) (Fin 1) ℝ),
    bpodArrays svd !![1] !![1] 1 1 (some [0]) (some [0]) none (some svdAtol) none = .ok res ∧
    res.directModes = ⟨1, Φ⟩ ∧ res.adjointModes = ⟨1, Ψ⟩ ∧
    (∃ o, eraModel svd id (eraInit none none) (.d3 ⟨4, 1, 1, fun k _ _ => (1 / 2 : ℝ) ^ (k / 2 + k % 2)⟩) 1 (some 1)
      (some 1) = .ok (o, ⟨1, 1, 1, a, b, c⟩)) ∧
    ∀ flag, ∃ g, galerkinArraysInit false Φ (some ⟨1, 1, Ψ⟩) flag none = .ok g ∧
      (galerkinModelArrays g (!![1 / 2] * Φ) !![1] (.rows 1 1 fun i j => ((!![1] : Matrix (Fin 1) (Fin 1) ℝ)ᴴ *
        (Weights.none : Weights ℝ).matrix 1 * Φ : Matrix (Fin 1) (Fin 1) ℝ) i j)).1 =
        .ok (some ⟨1, a⟩, some ⟨1, b⟩, some ⟨1, 1, c⟩) := by
  choose svd hsvd using fun (m n : Nat) (a : Matrix (Fin m) (Fin n) ℝ) => exists_isSvd a
  have hpow : ∀ k, (!![1 / 2] ^ k : Matrix (Fin 1) (Fin 1) ℝ) = !![(1 / 2) ^ k] := by
    intro k
    induction k with
    | zero => ext i j; fin_cases i; fin_cases j; simp
    | succ k ih => rw [pow_succ, ih]; ext i j; fin_cases i; fin_cases j; simp [pow_succ]
  obtain ⟨res0, h0⟩ := C25_no_error (svd 1 1) !![1] !![1] 1 1 none .none (some svdAtol) none le_rfl le_rfl (dvd_refl _)
    (dvd_refl _) le_rfl le_rfl rfl trivial
  have hr : 1 ≤ res0.r := by
    obtain ⟨rows, s, dm, am, hrows, -, hs, -, -, rfl⟩ := bpodArrays_cases (svd 1 1) _ _ 1 1 _ _ none .none _ _ rfl trivial res0 h0
    have hH := (C25_arrays (svd 1 1) _ _ 1 1 none none none .none _ _ le_rfl le_rfl rfl trivial !![1 / 2] !![1 / 2] !![1] !![1]
      (by rw [conjTranspose_one_one]; simp [Weights.matrix]) (by intro i j; fin_cases i; fin_cases j; simp) (by intro i j; fin_cases i; fin_cases j; simp)
      _ h0).1
    dsimp only at hH ⊢
    rw [hH] at hs
    have hone : (!![1]ᴴ * Weights.none.matrix 1 * !![1] : Matrix (Fin 1) (Fin 1) ℝ) = !![1] := by
      ext i j; fin_cases i; fin_cases j; rw [conjTranspose_one_one]; simp [Weights.matrix]
    rw [hone] at hs
    have hS := fun i => svd_one 1 (svd 1 1 !![1]) (hsvd 1 1 _) i
    rw [utilSvd_rank (svd 1 1) _ svdAtol (by norm_num [svdAtol]) (hsvd 1 1 _) (fun i _ => by
      have h1 := hS i
      have h2 := (hsvd 1 1 !![1]).nonneg i
      have h3 : (svd 1 1 !![1]).S i = 1 := by nlinarith
      rw [h3]
      norm_num [svdAtol]) s hs]
    have : (!![1] : Matrix (Fin 1) (Fin 1) ℝ) = 1 := by ext i j; fin_cases i; fin_cases j; simp
    rw [this, Matrix.rank_one]
    rfl
  obtain ⟨res, hres⟩ := (C61_number_of_modes (r := 1) (svd 1 1) _ _ none .none rfl trivial _ _ res0 h0).mpr hr
  obtain ⟨Φ, Ψ, a, b, c, h1, h2, h3, h4⟩ := C61_era_is_bpod_projection (r := 1) (fun {m n} => svd m n) (fun a => hsvd _ _ a)
    !![1] !![1] le_rfl le_rfl none .none rfl trivial !![1 / 2] !![1 / 2] !![1] !![1] (by rw [conjTranspose_one_one]; simp [Weights.matrix])
    (by intro i j; fin_cases i; fin_cases j; simp) (by intro i j; fin_cases i; fin_cases j; simp)
    res hres (eraInit none none) id 4 (fun k _ _ => (1 / 2 : ℝ) ^ (k / 2 + k % 2)) rfl
    (by intro k i j; fin_cases i; fin_cases j; rw [hpow, conjTranspose_one_one]; simp [Weights.matrix])
    (by
      intro k i j; fin_cases i; fin_cases j
      have e1 : (2 * k + 1) / 2 = k := by omega
      have e2 : (2 * k + 1) % 2 = 1 := by omega
      rw [hpow, e1, e2, conjTranspose_one_one]; simp [Weights.matrix])
    (fun _ _ _ => rfl) (by decide) (by decide)
  exact ⟨fun {m n} => svd m n, res, Φ, Ψ, a, b, c, hres, h1, h2, h3, h4⟩

end Modred
