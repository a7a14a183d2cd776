import Verif.Props.EraBpod

/-!
# C61 for handles: the eigensystem realization algorithm is projection onto balanced modes in memory or files
-/

namespace Modred

open Matrix

variable {𝕜 : Type*} [RCLike 𝕜]

/-- The reduced model of `eraReduce` in terms of the two Hankel arrays. -/
theorem eraReduce_hankel (svd : ∀ {m n : Nat}, Matrix (Fin m) (Fin n) 𝕜 → SvdOut 𝕜 m n) {md ma p q r : Nat}
    (h : HankelPair 𝕜) (hrows : h.rows = ma) (hcols : h.cols = md) (H H2 : Matrix (Fin ma) (Fin md) 𝕜)
    (h1 : ∀ i j, h.h i.val j.val = H i j) (h2 : ∀ i j, h.h2 i.val j.val = H2 i j) (hlib : IsSvd H (svd H)) (s : Svd 𝕜 ma md)
    (hs : utilSvd svd H (some svdAtol) none = .ok s) (hr : r ≤ s.r) (hp : p ≤ md) (hq : q ≤ ma) :
    let P := (s.V * diagPow (𝕜 := 𝕜) s.S (-0.5)).submatrix id (Fin.castLE hr)
    let Q := (s.U * diagPow (𝕜 := 𝕜) s.S (-0.5)).submatrix id (Fin.castLE hr)
    Qᴴ * H * P = 1 ∧
    eraReduce svd h q p r = .ok ⟨r, p, q, Qᴴ * H2 * P, (Qᴴ * H).submatrix id (Fin.castLE hp), (H * P).submatrix (Fin.castLE hq) id⟩ := by
  obtain ⟨rows, cols, f, g⟩ := h
  dsimp only at hrows hcols h1 h2
  subst hrows hcols
  intro P Q
  obtain ⟨-, hV, hHV, hHU⟩ := utilSvd_triples svd _ _ _ hlib s hs
  have hS : ∀ i, 0 < s.S i := fun i =>
    lt_trans (by norm_num [svdAtol]) (utilSvd_positive svd _ none svdAtol (by simp) hlib s hs i)
  have hone := balance_one hS hV hHU
  have hleft := balance_left hS hHU
  have hright : H * (s.V * diagPow (𝕜 := 𝕜) s.S (-0.5)) = s.U * diagPow (𝕜 := 𝕜) s.S 0.5 := by
    rw [← Matrix.mul_assoc, hHV, Matrix.mul_assoc, diagPow_mul _ hS, show (1 + -0.5 : ℝ) = 0.5 by norm_num]
  have ha : HankelPair.array ⟨rows, cols, f, g⟩ = H := by ext i j; exact h1 i j
  have ha2 : HankelPair.array2 ⟨rows, cols, f, g⟩ = H2 := by ext i j; exact h2 i j
  have hQP : ∀ M : Matrix (Fin rows) (Fin cols) 𝕜, Qᴴ * M * P =
      ((s.U * diagPow (𝕜 := 𝕜) s.S (-0.5))ᴴ * M * (s.V * diagPow (𝕜 := 𝕜) s.S (-0.5))).submatrix (Fin.castLE hr) (Fin.castLE hr) :=
    fun M => rfl
  constructor
  · rw [hQP, hone]
    ext i j
    simp [Matrix.one_apply, Fin.ext_iff]
  · unfold eraReduce
    rw [ha, hs]
    dsimp only
    congr 1
    rw [ha2]
    refine LtiModel.eq_of (Nat.min_eq_left hr) (Nat.min_eq_left hp) (Nat.min_eq_left hq) _ _ _ _ _ _ ?_ ?_ ?_
    · intro i j i' j' hi hj
      have e2 : diagPow (𝕜 := 𝕜) (firstEntries s.S r) (-0.5) * ((firstCols s.U r)ᴴ * (H2 *
          (firstCols s.V r * diagPow (𝕜 := 𝕜) (firstEntries s.S r) (-0.5)))) =
          (firstCols (s.U * diagPow (𝕜 := 𝕜) s.S (-0.5)) r)ᴴ * H2 *
            firstCols (s.V * diagPow (𝕜 := 𝕜) s.S (-0.5)) r := by
        rw [← firstCols_mul_diagPow, ← firstCols_mul_diagPow, conjTranspose_mul, diagPow_conjTranspose]
        simp only [Matrix.mul_assoc]
      rw [hQP, e2]
      change ((s.U * diagPow (𝕜 := 𝕜) s.S (-0.5))ᴴ * H2 * (s.V * diagPow (𝕜 := 𝕜) s.S (-0.5)))
        (Fin.castLE _ i) (Fin.castLE _ j) = _
      rw [Matrix.submatrix_apply]
      exact congrArg₂ _ (Fin.ext hi) (Fin.ext hj)
    · intro i j i' j' hi hj
      have e1 : Qᴴ * H = (diagPow (𝕜 := 𝕜) s.S 0.5 * s.Vᴴ).submatrix (Fin.castLE hr) id := by
        rw [← hleft]
        rfl
      have e2 : diagPow (𝕜 := 𝕜) (firstEntries s.S r) 0.5 * firstCols (firstCols s.V r)ᴴ p =
          (diagPow (𝕜 := 𝕜) s.S 0.5 * s.Vᴴ).submatrix (Fin.castLE (Nat.min_le_right _ _))
            (Fin.castLE (Nat.min_le_right _ _)) := by
        ext a b
        simp [firstCols, firstEntries, diagPow, Matrix.diagonal_mul]
      rw [e2, e1, Matrix.submatrix_apply, Matrix.submatrix_apply, Matrix.submatrix_apply]
      exact congrArg₂ _ (Fin.ext hi) (Fin.ext hj)
    · intro i j i' j' hi hj
      have e1 : H * P = (s.U * diagPow (𝕜 := 𝕜) s.S 0.5).submatrix id (Fin.castLE hr) := by
        rw [← hright]
        rfl
      have e3 : firstRows (firstCols s.U r) q * diagPow (𝕜 := 𝕜) (firstEntries s.S r) 0.5 =
          (s.U * diagPow (𝕜 := 𝕜) s.S 0.5).submatrix (Fin.castLE (Nat.min_le_right _ _))
            (Fin.castLE (Nat.min_le_right _ _)) := by
        ext a b
        simp [firstRows, firstCols, firstEntries, diagPow, Matrix.mul_diagonal]
      rw [e3, e1, Matrix.submatrix_apply, Matrix.submatrix_apply, Matrix.submatrix_apply]
      exact congrArg₂ _ (Fin.ext hi) (Fin.ext hj)

/-- The first `r` of computed vectors, chosen by `[0, ..., r-1]`. -/
theorem ChosenVecs.range {E : Type*} {s r : Nat} {all : Fin s → E} {out : Vecs E}
    (h : ChosenVecs all ((List.range r).map Int.ofNat) out) : ∃ hr : r ≤ s, out = ⟨r, fun i => all (Fin.castLE hr i)⟩ := by
  obtain ⟨hk, sel, h1, h2⟩ := h
  obtain ⟨k, v⟩ := out
  simp only [List.length_map, List.length_range] at hk
  subst hk
  dsimp only at sel h1 h2
  have hval : ∀ i : Fin k, (sel i).val = i.val := by
    intro i
    have h3 := h1 i (i.val : Int) (by simp)
    unfold npAxisIndex at h3
    split at h3
    · cases h4 : sel i
      rw [h4] at h3
      cases h3
      rfl
    · rw [dif_neg (by omega)] at h3
      cases h3
  have hr : k ≤ s := by
    by_contra hlt
    push Not at hlt
    have := (sel ⟨s, hlt⟩).isLt
    rw [hval] at this
    exact lt_irrefl _ this
  refine ⟨hr, ?_⟩
  have : sel = Fin.castLE hr := funext fun i => Fin.ext (hval i)
  rw [← this]
  congr 1
  funext i
  exact h2 i

variable {E : Type*} [AddCommGroup E] [Module 𝕜 E]

/-- **C61** for handles: the model of the eigensystem realization algorithm is what `LTIGalerkinProjectionHandles`
computes for the modes of `BPODHandles`. -/
theorem C61_handles (svd : ∀ {m n : Nat}, Matrix (Fin m) (Fin n) 𝕜 → SvdOut 𝕜 m n)
    (hlib : ∀ {m n : Nat} (a : Matrix (Fin m) (Fin n) 𝕜), IsSvd a (svd a)) {md ma p q r : Nat} (hr0 : 0 < r)
    (X : Fin md → E) (Y : Fin ma → E) (hp : 1 ≤ p) (hq : 1 ≤ q) (ip : E →ₗ⋆[𝕜] E →ₗ[𝕜] 𝕜)
    (A Aadj : E →ₗ[𝕜] E) (B : Fin p → E) (C : Fin q → E) (hadj : ∀ u v, ip (Aadj u) v = ip u (A v))
    (hX : ∀ j, X j = A^[j.val / p] (B ⟨j % p, Nat.mod_lt _ hp⟩))
    (hY : ∀ i, Y i = Aadj^[i.val / q] (C ⟨i % q, Nat.mod_lt _ hq⟩))
    (bpod : BpodHandles 𝕜 E md ma (ma / q * q) (md / p * p))
    (hb : bpodHandlesDecomp (fun x y => ip x y) X Y p q svd (some svdAtol) none = .ok bpod) (kd ka : Nat) (dm am : Vecs E)
    (hdm : bpodHandlesDirectModes bpod ((List.range r).map Int.ofNat) kd = .ok dm)
    (ham : bpodHandlesAdjointModes bpod ((List.range r).map Int.ofNat) ka = .ok am)
    (self : EraObj) (cast : 𝕜 → 𝕜) (nt : Nat) (at_ : Nat → Nat → Nat → 𝕜) (heven : nt % 2 = 0)
    (h0 : ∀ k (i : Fin q) (j : Fin p), at_ (2 * k) i j = ip (C i) (A^[k] (B j)))
    (h1 : ∀ k (i : Fin q) (j : Fin p), at_ (2 * k + 1) i j = ip (C i) (A^[k + 1] (B j)))
    (hcast : ∀ k i j, cast (at_ k i j) = at_ k i j)
    (hg : ma / q + md / p + 2 ≤ nt) (hd : 2 * (ma / q + md / p) ≤ nt + 2) :
    ∃ (Φ Ψ : Fin r → E) (a : Matrix (Fin r) (Fin r) 𝕜) (b : Matrix (Fin r) (Fin p) 𝕜) (c : Matrix (Fin q) (Fin r) 𝕜),
      dm = ⟨r, Φ⟩ ∧ am = ⟨r, Ψ⟩ ∧
      (∃ o, eraModel svd cast self (.d3 ⟨nt, q, p, at_⟩) r (some ((md / p : Nat) : Int)) (some ((ma / q : Nat) : Int)) =
        .ok (o, ⟨r, p, q, a, b, c⟩)) ∧
      ∀ flag, ∃ g, galerkinHandlesInit (fun x y => ip x y) Φ (some Ψ) flag = .ok g ∧
        (galerkinModelHandles g (fun i => A (Φ i)) B (.rows r q fun j i => ip (C i) (Φ j))).1 =
          .ok (some ⟨r, a⟩, some ⟨p, b⟩, some ⟨q, r, c⟩) := by
  obtain ⟨hmd, -⟩ := linCombineSized_ok _ _ _ _ _ hdm
  obtain ⟨hma, -⟩ := linCombineSized_ok _ _ _ _ _ ham
  have hqa : q ∣ ma := ⟨ma / q, by rw [mul_comm]; exact hma.symm⟩
  have hH := C25_handles X Y p q svd _ _ (fun x y => ip x y) A Aadj hadj hp hq hqa B C hX hY bpod hb
  have hpow : ∀ (k : Nat) (u v : E), ip (Aadj^[k] u) v = ip u (A^[k] v) := by
    intro k
    induction k with
    | zero => intro u v; rfl
    | succ k ih => intro u v; rw [Function.iterate_succ', Function.comp, hadj, ih, Function.iterate_succ]; rfl
  obtain ⟨rows, s, hrows, hs, rfl⟩ := bpodHandlesDecomp_cases X Y p q svd _ none _ bpod hb
  obtain ⟨-, -, hma1, hmd1, -⟩ := bpodHankel_shape p q rfl rfl _ _ rows hrows
  dsimp only at hH hdm ham
  generalize ofRows (ma / q * q) (md / p * p) rows = H at *
  have hH' : H = gram ip (fun k => Y (Fin.cast hma k)) (fun k => X (Fin.cast hmd k)) := by
    ext i j
    exact hH i j _ _ rfl rfl
  have hpd : p ≤ md / p * p := le_mul_of_one_le_left (Nat.zero_le _) hmd1
  have hqd : q ≤ ma / q * q := le_mul_of_one_le_left (Nat.zero_le _) hma1
  obtain ⟨hr, rfl⟩ := (linCombineSized_chosen _ _ _ _ _ hdm (fun k => X (Fin.cast hmd k)) fun _ _ => rfl).range
  obtain ⟨hr', rfl⟩ := (linCombineSized_chosen _ _ _ _ _ ham (fun k => Y (Fin.cast hma k)) fun _ _ => rfl).range
  obtain ⟨b, hbl, hbr, hbc, hent⟩ := C33_blocks cast ⟨nt, q, p, at_⟩ (md / p) (ma / q) hg hd
  dsimp only at hbr hbc hent hr hr' ⊢
  set X' : Fin (md / p * p) → E := fun k => X (Fin.cast hmd k) with hX'
  set Y' : Fin (ma / q * q) → E := fun k => Y (Fin.cast hma k) with hY'
  have hdec : ∀ (i : Fin (ma / q * q)) (j : Fin (md / p * p)),
      b.h i.val j.val = gram ip Y' X' i j ∧ b.h2 i.val j.val = gram ip Y' (fun k => A (X' k)) i j := by
    intro i j
    have h := hent (i.val / q) (j.val / p) (i.val % q) (j.val % p)
      (Nat.div_lt_of_lt_mul (lt_of_lt_of_eq i.isLt (mul_comm _ _))) (Nat.div_lt_of_lt_mul (lt_of_lt_of_eq j.isLt (mul_comm _ _)))
      (Nat.mod_lt _ hq) (Nat.mod_lt _ hp)
    rw [hcast, hcast, Nat.div_add_mod', Nat.div_add_mod'] at h
    have e0 := h0 (i.val / q + j.val / p) ⟨i.val % q, Nat.mod_lt _ hq⟩ ⟨j.val % p, Nat.mod_lt _ hp⟩
    have e1 := h1 (i.val / q + j.val / p) ⟨i.val % q, Nat.mod_lt _ hq⟩ ⟨j.val % p, Nat.mod_lt _ hp⟩
    refine ⟨h.1.trans (e0.trans ?_), h.2.trans (e1.trans ?_)⟩
    · change _ = ip (Y _) (X _)
      rw [hX, hY, hpow, Function.iterate_add]
      rfl
    · change _ = ip (Y _) (A (X _))
      rw [hX, hY, hpow, ← Function.iterate_succ_apply' A, ← Function.iterate_add_apply]
      rfl
  obtain ⟨hone, hera⟩ := eraReduce_hankel svd b (hbr.trans (mul_comm _ _)) (hbc.trans (mul_comm _ _)) H (gram ip Y' (fun k => A (X' k)))
    (fun i j => by rw [(hdec i j).1, hH']) (fun i j => (hdec i j).2) (hlib _) s hs hr hpd hqd
  set P := (s.V * diagPow (𝕜 := 𝕜) s.S (-0.5)).submatrix id (Fin.castLE hr) with hP
  set Q := (s.U * diagPow (𝕜 := 𝕜) s.S (-0.5)).submatrix id (Fin.castLE hr) with hQ
  have eΦ : (fun i => combine X' (s.V * diagPow (𝕜 := 𝕜) s.S (-0.5)) (Fin.castLE hr i)) = combine X' P := rfl
  have eΨ : (fun i => combine Y' (s.U * diagPow (𝕜 := 𝕜) s.S (-0.5)) (Fin.castLE hr' i)) = combine Y' Q := rfl
  rw [eΦ, eΨ]
  have hAΦ : (fun i => A (combine X' P i)) = combine (fun k => A (X' k)) P := by
    funext i
    unfold combine
    rw [map_sum]
    exact Finset.sum_congr rfl fun k _ => map_smul _ _ _
  have hB : ∀ j, B j = X' (Fin.castLE hpd j) := by
    intro j
    change _ = X _
    rw [hX]
    simp only [Fin.val_cast, Fin.val_castLE, Nat.div_eq_of_lt j.isLt, Nat.mod_eq_of_lt j.isLt]
    rfl
  have hC : ∀ j, C j = Y' (Fin.castLE hqd j) := by
    intro j
    change _ = Y _
    rw [hY]
    simp only [Fin.val_cast, Fin.val_castLE, Nat.div_eq_of_lt j.isLt, Nat.mod_eq_of_lt j.isLt]
    rfl
  have g1 : gram ip (combine Y' Q) (combine X' P) = 1 := by
    rw [gram_combine, ← hH', hone]
  have g2 : gram ip (combine Y' Q) (fun i => A (combine X' P i)) = Qᴴ * gram ip Y' (fun k => A (X' k)) * P := by
    rw [hAΦ, gram_combine]
  have g3 : gram ip (combine Y' Q) B = (Qᴴ * H).submatrix id (Fin.castLE hpd) := by
    rw [hH', ← gram_combine_left]
    ext i j
    change ip _ (B j) = ip _ (X' _)
    rw [hB]
    rfl
  have g4 : (fun i j => ip (C i) (combine X' P j)) = (H * P).submatrix (Fin.castLE hqd) id := by
    rw [hH', ← gram_combine_right]
    ext i j
    change ip (C i) _ = ip (Y' _) _
    rw [hC]
    rfl
  have hmod : (if (⟨nt, q, p, at_⟩ : Markovs 𝕜).nt % 2 ≠ 0 then nt - 1 else nt) = nt := by simp [heven]
  have hset : setMarkovs (.d3 ⟨nt, q, p, at_⟩) = .ok (⟨nt, q, p, at_⟩ : Markovs 𝕜) := by
    unfold setMarkovs
    dsimp only
    rw [hmod]
  refine ⟨_, _, Qᴴ * gram ip Y' (fun k => A (X' k)) * P, (Qᴴ * H).submatrix id (Fin.castLE hpd),
    (H * P).submatrix (Fin.castLE hqd) id, rfl, rfl, ⟨⟨some ((md / p : Nat) : Int), some ((ma / q : Nat) : Int)⟩, ?_⟩, fun flag => ?_⟩
  · unfold eraModel eraHankel
    rw [hset]
    dsimp only
    rw [hbl]
    dsimp only
    rw [hera]
    rfl
  · obtain ⟨g, hg'⟩ := (C38_handles_constructor (fun x y => ip x y) (combine X' P) (some (combine Y' Q)) flag (combine Y' Q)).2
    refine ⟨g, hg', ?_⟩
    obtain ⟨k1, k2, k3, -⟩ := C38_handles (fun x y => ip x y) (combine X' P) (some (combine Y' Q)) flag g [] hr0 hg'
    have key : ∀ {l : Nat} (M : Fin l → E) (e : Except Err (Matrix (Fin r) (Fin l) 𝕜)),
        GalerkinResult flag (gram ip (combine Y' Q) (combine X' P)) (gram ip (combine Y' Q) M) e → e = .ok (gram ip (combine Y' Q) M) := by
      intro l M e h
      cases hf : flag with
      | true => exact h.orthonormal hf
      | false => rw [h.regular hf (by rw [g1]; simp), g1]; simp
    have e1 := key _ _ (k1 _ (fun i => A (combine X' P i)) hr0)
    have e2 := key _ _ (k2 _ B hp)
    rw [g2] at e1
    rw [g3] at e2
    have e3 := (C38_handles_model (fun x y => ip x y) (combine X' P) (some (combine Y' Q)) flag g [] hr0 hg' hp (fun i => A (combine X' P i)) B
      (.rows r q fun j i => ip (C i) (combine X' P j))).1 _ _ e1 e2
    refine e3.trans ?_
    rw [k3, ← g4]

/-- A system with one input and one output whose state is halved in every step. -/
example : ∃ (svd : ∀ {m n : Nat}, Matrix (Fin m) (Fin n) ℝ → SvdOut ℝ m n) (bpod : BpodHandles ℝ (Fin 2 → ℝ) 1 1 (1 / 1 * 1) (1 / 1 * 1))
    (Φ Ψ : Fin 1 → Fin 2 → ℝ) (a b c : Matrix (Fin 1) (Fin 1) ℝ),
    bpodHandlesDecomp (fun x y => dotIp x y) (fun _ => ![1, 0]) (fun _ => ![1, 0]) 1 1 svd (some svdAtol) none = .ok bpod ∧
    bpodHandlesDirectModes bpod [0] 1 = .ok ⟨1, Φ⟩ ∧ bpodHandlesAdjointModes bpod [0] 1 = .ok ⟨1, Ψ⟩ ∧
    (∃ o, eraModel svd id (eraInit none none) (.d3 ⟨4, 1, 1, fun k _ _ => (1 / 2 : ℝ) ^ (k / 2 + k % 2)⟩) 1 (some 1)
      (some 1) = .ok (o, ⟨1, 1, 1, a, b, c⟩)) ∧
    ∀ flag, ∃ g, galerkinHandlesInit (fun x y => dotIp x y) Φ (some Ψ) flag = .ok g ∧
      (galerkinModelHandles g (fun i => (1 / 2 : ℝ) • Φ i) (fun _ : Fin 1 => ![1, 0])
        (.rows 1 1 fun j _ => dotIp ![1, 0] (Φ j))).1 = .ok (some ⟨1, a⟩, some ⟨1, b⟩, some ⟨1, 1, c⟩) := by
  choose svd hsvd using fun (m n : Nat) (a : Matrix (Fin m) (Fin n) ℝ) => exists_isSvd a
  have hone : dotIp ![1, 0] ![1, 0] = 1 := by
    rw [dotIp_apply]
    norm_num
  have hit : ∀ (k : Nat) (v : Fin 2 → ℝ), ((1 / 2 : ℝ) • LinearMap.id : (Fin 2 → ℝ) →ₗ[ℝ] (Fin 2 → ℝ))^[k] v = (1 / 2 : ℝ) ^ k • v := by
    intro k
    induction k with
    | zero => intro v; simp
    | succ k ih =>
      intro v
      rw [Function.iterate_succ_apply, ih, LinearMap.smul_apply, LinearMap.id_apply, smul_smul, pow_succ]
  have hadj : ∀ u v : Fin 2 → ℝ, dotIp (((1 / 2 : ℝ) • LinearMap.id : (Fin 2 → ℝ) →ₗ[ℝ] (Fin 2 → ℝ)) u) v =
      dotIp u (((1 / 2 : ℝ) • LinearMap.id : (Fin 2 → ℝ) →ₗ[ℝ] (Fin 2 → ℝ)) v) := by
    intro u v
    simp [dotIp_apply]
  obtain ⟨bpod, hb⟩ := C25_handles_no_error (𝕜 := ℝ) (fun _ : Fin 1 => (![1, 0] : Fin 2 → ℝ)) (fun _ : Fin 1 => (![1, 0] : Fin 2 → ℝ)) 1 1
    (svd _ _) (some svdAtol) none (fun x y => dotIp x y) le_rfl le_rfl le_rfl le_rfl
  have hX : ∀ j : Fin 1, (![1, 0] : Fin 2 → ℝ) = ((1 / 2 : ℝ) • LinearMap.id : (Fin 2 → ℝ) →ₗ[ℝ] (Fin 2 → ℝ))^[j.val / 1] ![1, 0] := by
    intro j
    rw [hit]
    simp
  have hH := C25_handles (fun _ : Fin 1 => (![1, 0] : Fin 2 → ℝ)) (fun _ : Fin 1 => (![1, 0] : Fin 2 → ℝ)) 1 1 (svd _ _) (some svdAtol) none
    (fun x y => dotIp x y) _ _ hadj le_rfl le_rfl (dvd_refl _) (fun _ => ![1, 0]) (fun _ => ![1, 0]) hX hX bpod hb
  have hr : 1 ≤ bpod.r := by
    obtain ⟨rows, s, hrows, hs, rfl⟩ := bpodHandlesDecomp_cases (𝕜 := ℝ) _ _ 1 1 (svd _ _) _ none _ bpod hb
    dsimp only at hH ⊢
    have hm : (ofRows 1 1 rows : Matrix (Fin 1) (Fin 1) ℝ) = !![1] := by
      ext i j
      have := hH i j 0 0 (by have := i.isLt; omega) (by have := j.isLt; omega)
      refine this.trans (hone.trans ?_)
      fin_cases i; fin_cases j; rfl
    have hs' : utilSvd (svd 1 1) (ofRows 1 1 rows : Matrix (Fin 1) (Fin 1) ℝ) (some svdAtol) none = .ok s := hs
    rw [hm] at hs'
    have hS := fun i => svd_one 1 (svd 1 1 !![1]) (hsvd 1 1 _) i
    rw [utilSvd_rank (svd 1 1) _ svdAtol (by norm_num [svdAtol]) (hsvd 1 1 _) (fun i _ => by
      have h1 := hS i
      have h2 := (hsvd 1 1 !![1]).nonneg i
      have h3 : (svd 1 1 !![1]).S i = 1 := by nlinarith
      rw [h3]
      norm_num [svdAtol]) s hs']
    have : (!![1] : Matrix (Fin 1) (Fin 1) ℝ) = 1 := by ext i j; fin_cases i; fin_cases j; simp
    rw [this, Matrix.rank_one]
    rfl
  obtain ⟨dm, hdm⟩ : ∃ dm, bpodHandlesDirectModes bpod [0] 1 = .ok dm :=
    linCombineSized_all bpod.directVecs (bpod.R * diagPow (𝕜 := ℝ) bpod.singVals (-0.5)) [0] (by simp; omega) Nat.one_pos rfl
  obtain ⟨am, ham⟩ : ∃ am, bpodHandlesAdjointModes bpod [0] 1 = .ok am :=
    linCombineSized_all bpod.adjointVecs (bpod.L * diagPow (𝕜 := ℝ) bpod.singVals (-0.5)) [0] (by simp; omega) Nat.one_pos rfl
  obtain ⟨Φ, Ψ, a, b, c, rfl, rfl, h3, h4⟩ := C61_handles (r := 1) (fun {m n} => svd m n) (fun a => hsvd _ _ a) Nat.one_pos
    (fun _ : Fin 1 => (![1, 0] : Fin 2 → ℝ)) (fun _ : Fin 1 => (![1, 0] : Fin 2 → ℝ)) le_rfl le_rfl dotIp _ _ (fun _ => ![1, 0])
    (fun _ => ![1, 0]) hadj hX hX bpod hb 1 1 dm am hdm ham (eraInit none none) id 4 (fun k _ _ => (1 / 2 : ℝ) ^ (k / 2 + k % 2)) rfl
    (by intro k i j; rw [hit, map_smul, hone]; simp)
    (by
      intro k i j
      have e1 : (2 * k + 1) / 2 = k := by omega
      have e2 : (2 * k + 1) % 2 = 1 := by omega
      rw [hit, map_smul, hone, e1, e2]; simp)
    (fun _ _ _ => rfl) (by decide) (by decide)
  exact ⟨fun {m n} => svd m n, bpod, Φ, Ψ, a, b, c, hb, hdm, ham, h3, h4⟩

end Modred
