import Verif.Props.ModelError
import Verif.Props.EraBpodHandles

/-!
# C105 for handles: errors of models from the modes of `BPODHandles`
-/

namespace Modred

open Matrix

variable {𝕜 : Type*} [RCLike 𝕜] {E : Type*} [AddCommGroup E] [Module 𝕜 E]

/-- **C105.** Galerkin projections with handles onto the modes of `BPODHandles`, for impulse responses that have died
out: the same bounds with the singular values of the Hankel array. -/
theorem C105_bpod_handles (svd : ∀ {m n : Nat}, Matrix (Fin m) (Fin n) 𝕜 → SvdOut 𝕜 m n)
    (hlib : ∀ {m n : Nat} (a : Matrix (Fin m) (Fin n) 𝕜), IsSvd a (svd a)) {md ma p q r : Nat} (hr0 : 0 < r)
    (X : Fin md → E) (Y : Fin ma → E) (hp : 1 ≤ p) (hq : 1 ≤ q) (ip : E →ₗ⋆[𝕜] E →ₗ[𝕜] 𝕜)
    (A Aadj : E →ₗ[𝕜] E) (B : Fin p → E) (C : Fin q → E) (hadj : ∀ u v, ip (Aadj u) v = ip u (A v))
    (hX : ∀ j, X j = A^[j.val / p] (B ⟨j % p, Nat.mod_lt _ hp⟩))
    (hY : ∀ i, Y i = Aadj^[i.val / q] (C ⟨i % q, Nat.mod_lt _ hq⟩))
    (bpod : BpodHandles 𝕜 E md ma (ma / q * q) (md / p * p))
    (hb : bpodHandlesDecomp (fun x y => ip x y) X Y p q svd (some svdAtol) none = .ok bpod) (kd ka : Nat) (dm am : Vecs E)
    (hdm : bpodHandlesDirectModes bpod ((List.range r).map Int.ofNat) kd = .ok dm)
    (ham : bpodHandlesAdjointModes bpod ((List.range r).map Int.ofNat) ka = .ok am)
    (hdecay : ∀ k, ma ≤ q * k ∨ md ≤ p * k → ∀ i j, ip (C i) (A^[k] (B j)) = 0) (N : Nat) (hN : ma ≤ q * N) :
    ∃ (Φ Ψ : Fin r → E) (a : Matrix (Fin r) (Fin r) 𝕜) (b : Matrix (Fin r) (Fin p) 𝕜) (c : Matrix (Fin q) (Fin r) 𝕜),
      dm = ⟨r, Φ⟩ ∧ am = ⟨r, Ψ⟩ ∧
      (∀ flag, ∃ g, galerkinHandlesInit (fun x y => ip x y) Φ (some Ψ) flag = .ok g ∧
        (galerkinModelHandles g (fun i => A (Φ i)) B (.rows r q fun j i => ip (C i) (Φ j))).1 =
          .ok (some ⟨r, a⟩, some ⟨p, b⟩, some ⟨q, r, c⟩)) ∧
      ∃ hr : r ≤ min (ma / q * q) (md / p * p),
        IsAccurateModel (entries fun k => Matrix.of fun i j => ip (C i) (A^[k] (B j)))
          (fun i => (svd bpod.hankel).S (Fin.castLE hr i))
          (2 * ∑ i : Fin (min (ma / q * q) (md / p * p)), if r ≤ i.val then (svd bpod.hankel).S i else 0) N a b c := by
  obtain ⟨hmd, -⟩ := linCombineSized_ok _ _ _ _ _ hdm
  obtain ⟨hma, -⟩ := linCombineSized_ok _ _ _ _ _ ham
  have hqa : q ∣ ma := ⟨ma / q, by rw [mul_comm]; exact hma.symm⟩
  have hH := C25_handles X Y p q svd _ _ (fun x y => ip x y) A Aadj hadj hp hq hqa B C hX hY bpod hb
  have hpow : ∀ (k : Nat) (u v : E), ip (Aadj^[k] u) v = ip u (A^[k] v) := by
    intro k
    induction k with
    | zero => intro u v; rfl
    | succ k ih => intro u v; rw [Function.iterate_succ', Function.comp, hadj, ih, Function.iterate_succ]; rfl
  set M : Nat → Matrix (Fin q) (Fin p) 𝕜 := fun k => Matrix.of fun i j => ip (C i) (A^[k] (B j)) with hM
  have h0 : ∀ k (i : Fin q) (j : Fin p), entries M k i j = ip (C i) (A^[k] (B j)) := fun k i j => dif_pos ⟨i.isLt, j.isLt⟩
  obtain ⟨nt, heven, hg, hd⟩ : ∃ nt : Nat, nt % 2 = 0 ∧ ma / q + md / p + 2 ≤ nt ∧ 2 * (ma / q + md / p) ≤ nt + 2 :=
    ⟨2 * (ma / q + md / p + 2), by omega, by omega, by omega⟩
  obtain ⟨Φ, Ψ, a, b, c, hΦ, hΨ, ⟨o, hera⟩, hgal⟩ := C61_handles svd hlib hr0 X Y hp hq ip A Aadj B C hadj hX hY bpod hb kd ka
    dm am hdm ham (eraInit none none) id nt (fun k i j => entries M (k / 2 + k % 2) i j) heven
    (fun k i j => by
      rw [show 2 * k / 2 + 2 * k % 2 = k by omega, h0])
    (fun k i j => by
      rw [show (2 * k + 1) / 2 + (2 * k + 1) % 2 = k + 1 by omega, h0]) (fun _ _ _ => rfl) hg hd
  refine ⟨Φ, Ψ, a, b, c, hΦ, hΨ, hgal, ?_⟩
  have hset : setMarkovs (.d3 ⟨nt, q, p, fun k i j => entries M (k / 2 + k % 2) i j⟩) =
      .ok (⟨nt, q, p, fun k i j => entries M (k / 2 + k % 2) i j⟩ : Markovs 𝕜) := by
    simp only [setMarkovs]
    rw [if_neg (by omega)]
  obtain ⟨h, hh, hasm, -⟩ := eraModel_cases svd id (eraInit none none) o _ _ _ _ r _ hset hera
  obtain ⟨h', hh', hrows, hcols, hblk⟩ := C33_blocks id (⟨nt, q, p, fun k i j => entries M (k / 2 + k % 2) i j⟩ : Markovs 𝕜)
    (md / p) (ma / q) hg hd
  rw [hasm] at hh'
  cases hh'
  dsimp only at hrows hcols hblk
  replace hrows := hrows.trans (mul_comm _ _)
  replace hcols := hcols.trans (mul_comm _ _)
  have harr : ∀ (i : Fin (ma / q * q)) (j : Fin (md / p * p)), h.h i j = bpod.hankel i j := by
    intro i j
    have := (hblk (i.val / q) (j.val / p) (i.val % q) (j.val % p)
      (Nat.div_lt_of_lt_mul (lt_of_lt_of_eq i.isLt (mul_comm _ _))) (Nat.div_lt_of_lt_mul (lt_of_lt_of_eq j.isLt (mul_comm _ _)))
      (Nat.mod_lt _ hq) (Nat.mod_lt _ hp)).1
    rw [Nat.div_add_mod', Nat.div_add_mod'] at this
    rw [this, hH i j (Fin.cast hma i) (Fin.cast hmd j) rfl rfl,
      show 2 * (i.val / q + j.val / p) / 2 + 2 * (i.val / q + j.val / p) % 2 = i.val / q + j.val / p by omega]
    refine (h0 _ ⟨_, Nat.mod_lt _ hq⟩ ⟨_, Nat.mod_lt _ hp⟩).trans ?_
    rw [hX, hY, hpow, Function.iterate_add]
    rfl
  obtain ⟨rows, cols, f, f2⟩ := h
  dsimp only at hrows hcols harr
  subst hrows hcols
  have ha : HankelPair.array (⟨_, _, f, f2⟩ : HankelPair 𝕜) = bpod.hankel := by
    ext i j
    exact harr i j
  obtain ⟨hr, key⟩ := C105_error_bound svd id (eraInit none none) o o _ _ _ _ (fun _ => rfl) hset
    (entries M) (fun k _ i j _ _ => by
      dsimp only
      rw [show 2 * k / 2 + 2 * k % 2 = k by omega, show (2 * k + 1) / 2 + (2 * k + 1) % 2 = k + 1 by omega]
      exact ⟨rfl, rfl⟩) ⟨_, _, f, f2⟩ hh (fun k i j hk hi hj => by
      dsimp only at hk hi hj
      rw [hma, hmd] at hk
      unfold entries
      rw [dif_pos ⟨hi, hj⟩]
      exact hdecay k hk _ _) (hlib _) r _ hera N (by dsimp only; rw [hma]; exact hN)
  rw [ha] at key
  exact ⟨hr, key⟩

/-- A system that moves the first entry to the second, with input and output in the first: one mode gives its impulse
response, which is 1, 0, 0, ... -/
example : ∃ (svd : ∀ {m n : Nat}, Matrix (Fin m) (Fin n) ℝ → SvdOut ℝ m n) (bpod : BpodHandles ℝ (Fin 2 → ℝ) 1 1 (1 / 1 * 1) (1 / 1 * 1))
    (Φ Ψ : Fin 1 → Fin 2 → ℝ) (a b c : Matrix (Fin 1) (Fin 1) ℝ),
    bpodHandlesDecomp (fun x y => dotIp x y) (fun _ => ![1, 0]) (fun _ => ![1, 0]) 1 1 svd (some svdAtol) none = .ok bpod ∧
    bpodHandlesDirectModes bpod [0] 1 = .ok ⟨1, Φ⟩ ∧ bpodHandlesAdjointModes bpod [0] 1 = .ok ⟨1, Ψ⟩ ∧
    (∀ flag, ∃ g, galerkinHandlesInit (fun x y => dotIp x y) Φ (some Ψ) flag = .ok g ∧
      (galerkinModelHandles g (fun i => (!![0, 0; 1, 0] : Matrix (Fin 2) (Fin 2) ℝ).mulVecLin (Φ i)) (fun _ : Fin 1 => ![1, 0])
        (.rows 1 1 fun j _ => dotIp ![1, 0] (Φ j))).1 = .ok (some ⟨1, a⟩, some ⟨1, b⟩, some ⟨1, 1, c⟩)) ∧
    ∃ hr : 1 ≤ min (1 / 1 * 1) (1 / 1 * 1),
      IsAccurateModel (entries fun k => Matrix.of fun (_ _ : Fin 1) =>
          dotIp ![1, 0] ((!![0, 0; 1, 0] : Matrix (Fin 2) (Fin 2) ℝ).mulVecLin^[k] ![1, 0]))
        (fun i => (svd bpod.hankel).S (Fin.castLE hr i)) 0 1 a b c := by
  choose svd hsvd using fun (m n : Nat) (a : Matrix (Fin m) (Fin n) ℝ) => exists_isSvd a
  have hone : dotIp ![1, 0] ![1, 0] = 1 := by
    rw [dotIp_apply]
    norm_num
  have hadj : ∀ u v : Fin 2 → ℝ, dotIp ((!![0, 1; 0, 0] : Matrix (Fin 2) (Fin 2) ℝ).mulVecLin u) v =
      dotIp u ((!![0, 0; 1, 0] : Matrix (Fin 2) (Fin 2) ℝ).mulVecLin v) := by
    intro u v
    simp [dotIp_apply, Matrix.mulVec, dotProduct, Fin.sum_univ_two]
  obtain ⟨bpod, hb⟩ := C25_handles_no_error (𝕜 := ℝ) (fun _ : Fin 1 => (![1, 0] : Fin 2 → ℝ)) (fun _ : Fin 1 => (![1, 0] : Fin 2 → ℝ)) 1 1
    (svd _ _) (some svdAtol) none (fun x y => dotIp x y) le_rfl le_rfl le_rfl le_rfl
  have hX : ∀ (T : (Fin 2 → ℝ) →ₗ[ℝ] (Fin 2 → ℝ)) (j : Fin 1), (![1, 0] : Fin 2 → ℝ) = T^[j.val / 1] ![1, 0] := by
    intro T j
    rw [show j.val / 1 = 0 by omega]
    rfl
  have hH := C25_handles (fun _ : Fin 1 => (![1, 0] : Fin 2 → ℝ)) (fun _ : Fin 1 => (![1, 0] : Fin 2 → ℝ)) 1 1 (svd _ _) (some svdAtol) none
    (fun x y => dotIp x y) _ _ hadj le_rfl le_rfl (dvd_refl _) (fun _ => ![1, 0]) (fun _ => ![1, 0]) (hX _) (hX _) bpod hb
  have hr : 1 ≤ bpod.r := by
    obtain ⟨rows, s, hrows, hs, rfl⟩ := bpodHandlesDecomp_cases (𝕜 := ℝ) _ _ 1 1 (svd _ _) _ none _ bpod hb
    dsimp only at hH ⊢
    have hm : (ofRows 1 1 rows : Matrix (Fin 1) (Fin 1) ℝ) = !![1] := by
      ext i j
      have := hH i j 0 0 (by have := i.isLt; omega) (by have := j.isLt; omega)
      refine this.trans (hone.trans ?_)
      fin_cases i; fin_cases j; rfl
    have hs' : utilSvd (svd 1 1) (ofRows 1 1 rows : Matrix (Fin 1) (Fin 1) ℝ) (some svdAtol) none = .ok s := hs
    rw [hm] at hs'
    have hS := fun i => svd_one 1 (svd 1 1 !![1]) (hsvd 1 1 _) i
    rw [utilSvd_rank (svd 1 1) _ svdAtol (by norm_num [svdAtol]) (hsvd 1 1 _) (fun i _ => by
      have h1 := hS i
      have h2 := (hsvd 1 1 !![1]).nonneg i
      have h3 : (svd 1 1 !![1]).S i = 1 := by nlinarith
      rw [h3]
      norm_num [svdAtol]) s hs']
    have : (!![1] : Matrix (Fin 1) (Fin 1) ℝ) = 1 := by ext i j; fin_cases i; fin_cases j; simp
    rw [this, Matrix.rank_one]
    rfl
  obtain ⟨dm, hdm⟩ : ∃ dm, bpodHandlesDirectModes bpod [0] 1 = .ok dm :=
    linCombineSized_all bpod.directVecs (bpod.R * diagPow (𝕜 := ℝ) bpod.singVals (-0.5)) [0] (by simp; omega) Nat.one_pos rfl
  obtain ⟨am, ham⟩ : ∃ am, bpodHandlesAdjointModes bpod [0] 1 = .ok am :=
    linCombineSized_all bpod.adjointVecs (bpod.L * diagPow (𝕜 := ℝ) bpod.singVals (-0.5)) [0] (by simp; omega) Nat.one_pos rfl
  obtain ⟨Φ, Ψ, a, b, c, rfl, rfl, h3, hr', h4⟩ := C105_bpod_handles (r := 1) (fun {m n} => svd m n) (fun a => hsvd _ _ a) Nat.one_pos
    (fun _ : Fin 1 => (![1, 0] : Fin 2 → ℝ)) (fun _ : Fin 1 => (![1, 0] : Fin 2 → ℝ)) le_rfl le_rfl dotIp _ _ (fun _ => ![1, 0])
    (fun _ => ![1, 0]) hadj (hX _) (hX _) bpod hb 1 1 dm am hdm ham
    (by
      intro k hk _ _
      obtain ⟨l, rfl⟩ : ∃ l, k = l + 1 := ⟨k - 1, by omega⟩
      rw [Function.iterate_succ_apply', dotIp_apply]
      simp [Matrix.mulVec, dotProduct, Fin.sum_univ_two])
    1 le_rfl
  refine ⟨fun {m n} => svd m n, bpod, Φ, Ψ, a, b, c, hb, hdm, ham, h3, hr', ?_⟩
  have hz : (2 * ∑ i : Fin (min (1 / 1 * 1) (1 / 1 * 1)), if 1 ≤ i.val then (svd _ _ bpod.hankel).S i else 0) = 0 := by
    rw [Finset.sum_eq_zero, mul_zero]
    intro i _
    rw [if_neg]
    have := i.isLt
    simp only [Nat.div_one, mul_one, min_self] at this
    omega
  rw [hz] at h4
  exact h4

end Modred
