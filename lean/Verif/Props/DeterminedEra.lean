import Verif.Spec.DeterminedEra
import Verif.Lemmas.DeterminedEra
import Verif.Props.DeterminedBpod
import Verif.Props.EraModel

/-!
# Models of ERA do not depend on the order and units of inputs and outputs (C98)
-/

namespace Modred

open Matrix

variable {𝕜 : Type*} [RCLike 𝕜]

/-! ### Singular values -/

section Values

variable {n m n' m' : Nat} {B : Matrix (Fin n) (Fin m) 𝕜} {B' : Matrix (Fin n') (Fin m') 𝕜}
  {lib : Matrix (Fin n) (Fin m) 𝕜 → SvdOut 𝕜 n m} {lib' : Matrix (Fin n') (Fin m') 𝕜 → SvdOut 𝕜 n' m'}
  {R : Matrix (Fin n) (Fin n') 𝕜} {Q : Matrix (Fin m) (Fin m') 𝕜} {c : 𝕜}

/-- All singular values, also those that are zero.  There may be more zeros than before. -/
theorem svd_values_determined (h : IsSvd B (lib B)) (h' : IsSvd B' (lib' B')) (hR : R * Rᴴ = 1) (hQ : Q * Qᴴ = 1)
    (hB : B' = c • (Rᴴ * B * Q)) (hc : c ≠ 0) (i' : Fin (min n' m')) :
    (lib' B').S i' = if hi : i'.val < min n m then ‖c‖ * (lib B).S ⟨i', hi⟩ else 0 := by
  have hr : ∀ t ∈ (none : Option ℝ), 0 ≤ t := by simp
  have ok : ∀ {u v : Nat} (l : Matrix (Fin u) (Fin v) 𝕜 → SvdOut 𝕜 u v) (b : Matrix (Fin u) (Fin v) 𝕜), ∃ e, utilSvd l b (some 0) none = .ok e := by
    intro u v l b
    cases hs : utilSvd l b (some 0) none with
    | error e =>
      obtain ⟨-, h0, -⟩ := (C19_error_iff _ _ _ _ _).mp hs
      exact absurd rfl h0
    | ok s => exact ⟨s, rfl⟩
  obtain ⟨e, he⟩ := ok lib B
  obtain ⟨e', he'⟩ := ok lib' B'
  obtain ⟨k1, k2, -⟩ := svd_wide h h' (T := Rᴴ) (by rw [conjTranspose_conjTranspose]; exact hR) hQ hB hc le_rfl hr e e' he
    (by rw [mul_zero]; exact he')
  obtain ⟨a0, a1, a2⟩ := C19_kept_iff lib B _ _ h hr e he
  obtain ⟨-, b1, b2⟩ := C19_kept_iff lib' B' _ _ h' hr e' he'
  have zero : ∀ {u : Nat} (S : Fin u → ℝ) (i : Fin u), 0 ≤ S i → ¬ Obeys S (some 0) none i → S i = 0 := by
    intro u S i h0 hn
    by_contra hne
    refine hn ⟨fun t ht => ?_, fun t ht => by cases ht⟩
    cases ht
    exact abs_pos.mpr hne
  by_cases hi : i'.val < e.r
  · rw [dif_pos (lt_of_lt_of_le hi a0), ← (a2 ⟨i', hi⟩ ⟨i', lt_of_lt_of_le hi a0⟩ rfl).1, ← (b2 ⟨i', k1 ▸ hi⟩ i' rfl).1]
    exact k2 _ _ rfl
  · rw [zero _ _ (h'.nonneg i') fun ho => hi (k1 ▸ (b1 i').mpr ho)]
    split
    · rename_i hj
      rw [zero _ _ (h.nonneg ⟨i', hj⟩) fun ho => hi ((a1 ⟨i', hj⟩).mpr ho), mul_zero]
    · rfl

/-- Tolerances that keep the same values give the same result. -/
theorem utilSvd_tolerance (h' : IsSvd B' (lib' B')) (s t : ℝ) (hst : ∀ i, s < (lib' B').S i ↔ t < (lib' B').S i) :
    utilSvd lib' B' (some s) none = utilSvd lib' B' (some t) none := by
  unfold utilSvd numRetained numAbove
  dsimp only
  have : (Finset.univ.filter fun i => s < |(lib' B').S i|) = Finset.univ.filter fun i => t < |(lib' B').S i| := by
    refine Finset.ext fun i => ?_
    rw [Finset.mem_filter, Finset.mem_filter, abs_of_nonneg (h'.nonneg i), hst]
  rw [this]

end Values

/-! ### Hankel arrays -/

/-- Entries of arrays of which the rows and columns of each step are mixed. -/
theorem mix_entry {N M N' M' k l q p q' p' : Nat} (hN : N = k * q) (hM : M = l * p) (hN' : N' = k * q') (hM' : M' = l * p')
    (hq : 1 ≤ q) (hp : 1 ≤ p) (hq' : 1 ≤ q') (hp' : 1 ≤ p') (R : Matrix (Fin q) (Fin q') 𝕜) (T : Matrix (Fin p) (Fin p') 𝕜)
    (O : Matrix (Fin N) (Fin M) 𝕜) (g : Nat → Nat → 𝕜) (hO : ∀ i j, O i j = g i j) (i : Fin N') (j : Fin M') :
    ((stepMix hq hq' R : Matrix (Fin N) (Fin N') 𝕜)ᴴ * O * (stepMix hp hp' T : Matrix (Fin M) (Fin M') 𝕜)) i j =
      ∑ t : Fin p, ∑ s : Fin q, star (R s ⟨i % q', Nat.mod_lt _ hq'⟩) * g (i / q' * q + s) (j / p' * p + t) *
        T t ⟨j % p', Nat.mod_lt _ hp'⟩ := by
  subst hN hM hN' hM'
  have h1 := sum_stepMix (k := l) hp hp' T
    (fun x => ((stepMix hq hq' R : Matrix (Fin (k * q)) (Fin (k * q')) 𝕜)ᴴ * O) i x) j
  simp only [smul_eq_mul] at h1
  rw [Matrix.mul_apply, Finset.sum_congr rfl fun x _ => mul_comm _ _, h1]
  refine Finset.sum_congr rfl fun t _ => ?_
  rw [Matrix.mul_apply, mul_comm, Finset.sum_mul]
  have h2 := sum_stepMix (k := k) hq hq' R (fun x => star (g x (j / p' * p + t)) * star (T t ⟨j % p', Nat.mod_lt _ hp'⟩)) i
  simp only [smul_eq_mul] at h2
  have h3 := congrArg star h2
  rw [star_sum, star_sum] at h3
  simp only [star_mul', star_star] at h3
  simp only [conjTranspose_apply, hO, mul_assoc]
  exact h3

/-- Both arrays of both decompositions. -/
theorem assembleHankel_two {K : Type*} [Zero K] (cast : K → K) (m m' : Markovs K) (hnt : m'.nt = m.nt) (hno : 1 ≤ m.no) (hni : 1 ≤ m.ni)
    (mc mo : Option Int) (b : HankelPair K) (hb : assembleHankel cast m mc mo = .ok b) :
    ∃ (mo' mc' : Nat) (b' : HankelPair K), b.rows = m.no * mo' ∧ b.cols = m.ni * mc' ∧
      assembleHankel cast m' mc mo = .ok b' ∧ b'.rows = m'.no * mo' ∧ b'.cols = m'.ni * mc' ∧
      ∀ r c, r < mo' → c < mc' → 2 * (r + c) + 1 < m.nt ∧ (∀ i j, i < m.no → j < m.ni →
        b.h (r * m.no + i) (c * m.ni + j) = cast (m.at_ (2 * (r + c)) i j) ∧
          b.h2 (r * m.no + i) (c * m.ni + j) = cast (m.at_ (2 * (r + c) + 1) i j)) ∧
        ∀ i j, i < m'.no → j < m'.ni → b'.h (r * m'.no + i) (c * m'.ni + j) = cast (m'.at_ (2 * (r + c)) i j) ∧
          b'.h2 (r * m'.no + i) (c * m'.ni + j) = cast (m'.at_ (2 * (r + c) + 1) i j) := by
  obtain ⟨nt', no', ni', at'⟩ := m'
  dsimp only at hnt
  subst hnt
  unfold assembleHankel at hb ⊢
  dsimp only at hb ⊢
  split at hb
  · cases hb
  rename_i c1
  split at hb
  · cases hb
  rename_i c2
  have c3 : ¬ ((no' : Int) * (blockCounts m.nt mc mo).1 < 0 ∨ (ni' : Int) * (blockCounts m.nt mc mo).2 < 0) := by
    push Not at c2 ⊢
    have z1 : (0 : Int) < m.no := by exact_mod_cast hno
    have z2 : (0 : Int) < m.ni := by exact_mod_cast hni
    exact ⟨mul_nonneg (Int.natCast_nonneg _) (nonneg_of_mul_nonneg_right c2.1 z1),
      mul_nonneg (Int.natCast_nonneg _) (nonneg_of_mul_nonneg_right c2.2 z2)⟩
  rw [if_neg c1, if_neg c3]
  generalize (blockCounts m.nt mc mo).1.toNat = mo' at hb
  generalize (blockCounts m.nt mc mo).2.toNat = mc' at hb
  have hok : ∀ p ∈ (List.range mo').flatMap (fun row => (List.range mc').map fun col => (row, col)),
      2 * (p.1 + p.2) + 1 < m.nt := by
    by_contra hc
    push Not at hc
    rw [hankel_fold_index _ _ _ hc] at hb
    cases hb
  obtain ⟨d, hd, h1, h2, h3⟩ := hankel_fold_ok cast m _ hok
    ⟨m.no * mo', m.ni * mc', fun _ _ => 0, fun _ _ => 0⟩
  rw [hb] at hd
  cases hd
  obtain ⟨b', hb', h1', h2', h3'⟩ := hankel_fold_ok cast ⟨m.nt, no', ni', at'⟩ _ hok
    ⟨no' * mo', ni' * mc', fun _ _ => 0, fun _ _ => 0⟩
  refine ⟨mo', mc', b', h1, h2, hb', h1', h2', fun r c hr hc =>
    ⟨hok (r, c) (mem_positions.mpr ⟨hr, hc⟩), fun i j hi hj => ?_, fun i j hi hj => ?_⟩⟩
  · obtain ⟨e1, e2⟩ := h3 r c i j hi hj
    rw [if_pos (mem_positions.mpr ⟨hr, hc⟩)] at e1 e2
    exact ⟨e1, e2⟩
  · obtain ⟨f1, f2⟩ := h3' r c i j hi hj
    rw [if_pos (mem_positions.mpr ⟨hr, hc⟩)] at f1 f2
    exact ⟨f1, f2⟩

/-- An array of blocks that are mixed is mixed. -/
theorem mixed_array {N M N' M' k l q p q' p' : Nat} (hN : N = k * q) (hM : M = l * p) (hN' : N' = k * q') (hM' : M' = l * p')
    (hq : 1 ≤ q) (hp : 1 ≤ p) (hq' : 1 ≤ q') (hp' : 1 ≤ p') (R : Matrix (Fin q) (Fin q') 𝕜) (T : Matrix (Fin p) (Fin p') 𝕜) (c : 𝕜)
    (g g' : Nat → Nat → 𝕜) (G : Nat → Nat → Matrix (Fin q) (Fin p) 𝕜) (G' : Nat → Nat → Matrix (Fin q') (Fin p') 𝕜)
    (hG : ∀ r s, r < k → s < l → G' r s = c • (Rᴴ * G r s * T))
    (hg : ∀ r s, r < k → s < l → ∀ (i : Fin q) (j : Fin p), g (r * q + i) (s * p + j) = G r s i j)
    (hg' : ∀ r s, r < k → s < l → ∀ (i : Fin q') (j : Fin p'), g' (r * q' + i) (s * p' + j) = G' r s i j) :
    (of fun i j => g' i j : Matrix (Fin N') (Fin M') 𝕜) =
      c • ((stepMix hq hq' R : Matrix (Fin N) (Fin N') 𝕜)ᴴ * (of fun i j => g i j : Matrix (Fin N) (Fin M) 𝕜) *
        (stepMix hp hp' T : Matrix (Fin M) (Fin M') 𝕜)) := by
  ext i j
  have hi : i.val / q' < k := Nat.div_lt_of_lt_mul (by rw [Nat.mul_comm]; exact i.isLt.trans_eq hN')
  have hj : j.val / p' < l := Nat.div_lt_of_lt_mul (by rw [Nat.mul_comm]; exact j.isLt.trans_eq hM')
  have h1 := hg' _ _ hi hj ⟨i % q', Nat.mod_lt _ hq'⟩ ⟨j % p', Nat.mod_lt _ hp'⟩
  rw [Nat.div_add_mod', Nat.div_add_mod', hG _ _ hi hj] at h1
  rw [Matrix.smul_apply, mix_entry hN hM hN' hM' hq hp hq' hp' R T (of fun i j => g i j) g (fun _ _ => rfl) i j]
  refine h1.trans ?_
  rw [Matrix.smul_apply, Matrix.mul_apply]
  congr 1
  refine Finset.sum_congr rfl fun t _ => ?_
  rw [Matrix.mul_apply, Finset.sum_mul]
  refine Finset.sum_congr rfl fun s _ => ?_
  rw [hg _ _ hi hj, conjTranspose_apply]

/-- The first block of an array whose blocks are mixed. -/
theorem mixed_first {N M N' M' k l q p q' p' : Nat} (hN : N = k * q) (hM : M = l * p) (hN' : N' = k * q') (hM' : M' = l * p')
    (hq : 1 ≤ q) (hp : 1 ≤ p) (hq' : 1 ≤ q') (hp' : 1 ≤ p') (R : Matrix (Fin q) (Fin q') 𝕜) (T : Matrix (Fin p) (Fin p') 𝕜)
    (O : Matrix (Fin N) (Fin M) 𝕜) (hqN : q ≤ N) (hpM : p ≤ M) (hqN' : q' ≤ N') (hpM' : p' ≤ M') :
    ((stepMix hq hq' R : Matrix (Fin N) (Fin N') 𝕜)ᴴ * O * (stepMix hp hp' T : Matrix (Fin M) (Fin M') 𝕜)).submatrix
        (Fin.castLE hqN') (Fin.castLE hpM') =
      Rᴴ * O.submatrix (Fin.castLE hqN) (Fin.castLE hpM) * T := by
  ext i j
  have h1 := mix_entry hN hM hN' hM' hq hp hq' hp' R T O (fun x y => if h : x < N ∧ y < M then O ⟨x, h.1⟩ ⟨y, h.2⟩ else 0)
    (fun i j => by rw [dif_pos ⟨i.isLt, j.isLt⟩]) (Fin.castLE hqN' i) (Fin.castLE hpM' j)
  rw [submatrix_apply]
  refine h1.trans ?_
  rw [Matrix.mul_apply]
  refine Finset.sum_congr rfl fun t _ => ?_
  rw [Matrix.mul_apply, Finset.sum_mul]
  refine Finset.sum_congr rfl fun s _ => ?_
  have ei : (⟨(Fin.castLE hqN' i).val % q', Nat.mod_lt _ hq'⟩ : Fin q') = i := Fin.ext (Nat.mod_eq_of_lt i.isLt)
  have ej : (⟨(Fin.castLE hpM' j).val % p', Nat.mod_lt _ hp'⟩ : Fin p') = j := Fin.ext (Nat.mod_eq_of_lt j.isLt)
  have di : (Fin.castLE hqN' i).val / q' * q + s.val = s.val := by
    rw [Fin.val_castLE, Nat.div_eq_of_lt i.isLt, Nat.zero_mul, Nat.zero_add]
  have dj : (Fin.castLE hpM' j).val / p' * p + t.val = t.val := by
    rw [Fin.val_castLE, Nat.div_eq_of_lt j.isLt, Nat.zero_mul, Nat.zero_add]
  rw [ei, ej, di, dj, dif_pos ⟨lt_of_lt_of_le s.isLt hqN, lt_of_lt_of_le t.isLt hpM⟩]
  rfl

/-! ### Models -/

section Models

variable (svd svd' : ∀ {m n : Nat}, Matrix (Fin m) (Fin n) 𝕜 → SvdOut 𝕜 m n)

/-- Models of two pairs of arrays of which one is the other one with inputs and outputs mixed. -/
theorem eraReduce_determined {k l no ni no' ni' : Nat} (hno : 1 ≤ no) (hni : 1 ≤ ni) (hno' : 1 ≤ no') (hni' : 1 ≤ ni')
    (g g2 g' g2' : Nat → Nat → 𝕜) {rows cols rows' cols' : Nat} (hrows : rows = no * k) (hcols : cols = ni * l)
    (hrows' : rows' = no' * k) (hcols' : cols' = ni' * l)
    (hlib : ∀ {m n : Nat} (a : Matrix (Fin m) (Fin n) 𝕜), IsSvd a (svd a))
    (hlib' : ∀ {m n : Nat} (a : Matrix (Fin m) (Fin n) 𝕜), IsSvd a (svd' a))
    {R : Matrix (Fin no) (Fin no') 𝕜} {T : Matrix (Fin ni) (Fin ni') 𝕜} {c : 𝕜} (hR : R * Rᴴ = 1) (hT : T * Tᴴ = 1) (hc : c ≠ 0)
    (G G2 : Nat → Nat → Matrix (Fin no) (Fin ni) 𝕜) (G' G2' : Nat → Nat → Matrix (Fin no') (Fin ni') 𝕜)
    (hG : ∀ r s, r < k → s < l → G' r s = c • (Rᴴ * G r s * T) ∧ G2' r s = c • (Rᴴ * G2 r s * T))
    (hg : ∀ r s, r < k → s < l → ∀ (i : Fin no) (j : Fin ni),
      g (r * no + i) (s * ni + j) = G r s i j ∧ g2 (r * no + i) (s * ni + j) = G2 r s i j)
    (hg' : ∀ r s, r < k → s < l → ∀ (i : Fin no') (j : Fin ni'),
      g' (r * no' + i) (s * ni' + j) = G' r s i j ∧ g2' (r * no' + i) (s * ni' + j) = G2' r s i j) (ns : Nat)
    (htol : ∀ i, 1e-13 < (svd (HankelPair.array ⟨rows, cols, g, g2⟩)).S i ↔
      1e-13 < ‖c‖ * (svd (HankelPair.array ⟨rows, cols, g, g2⟩)).S i)
    (gap : ∀ i j : Fin (min rows cols), i.val < ns → ns ≤ j.val →
      1e-13 < (svd (HankelPair.array ⟨rows, cols, g, g2⟩)).S j →
      (svd (HankelPair.array ⟨rows, cols, g, g2⟩)).S j < (svd (HankelPair.array ⟨rows, cols, g, g2⟩)).S i)
    (model model' : LtiModel 𝕜) (hres : eraReduce svd ⟨rows, cols, g, g2⟩ no ni ns = .ok model)
    (hres' : eraReduce svd' ⟨rows', cols', g', g2'⟩ no' ni' ns = .ok model') (hr : 1 ≤ model.r) :
    SameResponse c R T model model' := by
  subst hrows hcols hrows' hcols'
  have hH : (HankelPair.array ⟨no' * k, ni' * l, g', g2'⟩ : Matrix (Fin (no' * k)) (Fin (ni' * l)) 𝕜) =
      c • ((stepMix hno hno' R : Matrix (Fin (no * k)) (Fin (no' * k)) 𝕜)ᴴ *
        (HankelPair.array ⟨no * k, ni * l, g, g2⟩ : Matrix (Fin (no * k)) (Fin (ni * l)) 𝕜) *
        (stepMix hni hni' T : Matrix (Fin (ni * l)) (Fin (ni' * l)) 𝕜)) :=
    mixed_array (Nat.mul_comm _ _) (Nat.mul_comm _ _) (Nat.mul_comm _ _) (Nat.mul_comm _ _) hno hni hno' hni' R T c g g' G G' (fun r s a b => (hG r s a b).1)
      (fun r s a b i j => (hg r s a b i j).1) fun r s a b i j => (hg' r s a b i j).1
  have hH2 : (HankelPair.array2 ⟨no' * k, ni' * l, g', g2'⟩ : Matrix (Fin (no' * k)) (Fin (ni' * l)) 𝕜) =
      c • ((stepMix hno hno' R : Matrix (Fin (no * k)) (Fin (no' * k)) 𝕜)ᴴ *
        (HankelPair.array2 ⟨no * k, ni * l, g, g2⟩ : Matrix (Fin (no * k)) (Fin (ni * l)) 𝕜) *
        (stepMix hni hni' T : Matrix (Fin (ni * l)) (Fin (ni' * l)) 𝕜)) :=
    mixed_array (Nat.mul_comm _ _) (Nat.mul_comm _ _) (Nat.mul_comm _ _) (Nat.mul_comm _ _) hno hni hno' hni' R T c g2 g2' G2 G2' (fun r s a b => (hG r s a b).2)
      (fun r s a b i j => (hg r s a b i j).2) fun r s a b i j => (hg' r s a b i j).2
  unfold eraReduce at hres hres'
  generalize HankelPair.array ⟨no * k, ni * l, g, g2⟩ = H at *
  generalize HankelPair.array ⟨no' * k, ni' * l, g', g2'⟩ = H' at *
  generalize HankelPair.array2 ⟨no * k, ni * l, g, g2⟩ = K at *
  generalize HankelPair.array2 ⟨no' * k, ni' * l, g', g2'⟩ = K' at *
  dsimp only at H H' K K' hH hH2 hres hres' htol
  split at hres
  · cases hres
  rename_i e he
  cases hres
  split at hres'
  · cases hres'
  rename_i e' he'
  cases hres'
  dsimp only at hr
  have hR' := stepMix_unitary hno hno' R (m := no * k) (m' := no' * k) (Nat.mul_comm _ _) (Nat.mul_comm _ _) hR
  have hT' := stepMix_unitary hni hni' T (m := ni * l) (m' := ni' * l) (Nat.mul_comm _ _) (Nat.mul_comm _ _) hT
  have hS := svd_values_determined (lib := svd) (lib' := svd') (hlib H) (hlib' H') hR' hT' hH hc
  have n0 : 0 < ‖c‖ := norm_pos_iff.mpr hc
  have t0 : (0 : ℝ) ≤ svdAtol := by norm_num [svdAtol]
  have he2 : utilSvd svd' H' (some (‖c‖ * svdAtol)) none = .ok e' := by
    rw [← he']
    refine utilSvd_tolerance (hlib' H') _ _ fun i => ?_
    rw [hS]
    split
    · rw [mul_lt_mul_iff_right₀ n0]
      exact htol _
    · exact iff_of_false (not_lt.mpr (mul_nonneg n0.le t0)) (not_lt.mpr t0)
  have hr0 : ∀ t ∈ (none : Option ℝ), 0 ≤ t := by simp
  obtain ⟨-, a1, a2⟩ := C19_kept_iff svd H _ _ (hlib H) hr0 e he
  have ler : e.r ≤ min (no * k) (ni * l) := by
    have := C19_kept_iff svd H _ _ (hlib H) hr0 e he
    exact this.1
  have gap' : ∀ i j : Fin e.r, i.val < ns → ns ≤ j.val → e.S j < e.S i := by
    intro i j hi hj
    rw [(a2 i (Fin.castLE ler i) rfl).1, (a2 j (Fin.castLE ler j) rfl).1]
    refine gap _ _ hi hj ?_
    have := ((a1 (Fin.castLE ler j)).mp j.isLt).1 svdAtol rfl
    rwa [abs_of_nonneg ((hlib H).nonneg _)] at this
  have main := eraOutputs_determined (hlib H) (hlib' H') hR' hT' hH hc t0 e e' he he2 K K' hH2 ns gap'
  have pos : 1 ≤ no * k ∧ 1 ≤ ni * l := by
    have h1 : 1 ≤ e.r := le_trans hr (Nat.min_le_right _ _)
    have h2 := le_trans h1 ler
    omega
  have big : ∀ a b : Nat, 1 ≤ a * b → a ≤ a * b := by
    intro a b hab
    refine Nat.le_mul_of_pos_right a ?_
    rcases Nat.eq_zero_or_pos b with rfl | hb
    · simp at hab
    · exact hb
  have pn := big _ _ pos.1
  have pi := big _ _ pos.2
  have pos' : 1 ≤ k ∧ 1 ≤ l := ⟨Nat.pos_of_mul_pos_left pos.1, Nat.pos_of_mul_pos_left pos.2⟩
  have pn' : no' ≤ no' * k := Nat.le_mul_of_pos_right no' pos'.1
  have pi' : ni' ≤ ni' * l := Nat.le_mul_of_pos_right ni' pos'.2
  refine ⟨?_, Nat.min_eq_left pi, Nat.min_eq_left pi', Nat.min_eq_left pn, Nat.min_eq_left pn', fun k' => ?_⟩
  · dsimp only
    rw [(main 0).1]
  · have h1 := congrArg (fun M => M.submatrix (Fin.castLE pn') (Fin.castLE pi')) (main k').2
    rw [submatrix_smul, Pi.smul_apply, Pi.smul_apply, mixed_first (Nat.mul_comm _ _) (Nat.mul_comm _ _)
      (Nat.mul_comm _ _) (Nat.mul_comm _ _) hno hni hno' hni' R T _ pn pi pn' pi'] at h1
    exact h1

/-- **C98.** Markov parameters of the model do not depend on the singular vectors that the library returns.  If outputs and inputs
are permuted or mixed by `R` and `T` and their units changed by `c`, Markov parameters of the model are those of the first model,
permuted or mixed and with units changed.  There may be more outputs and inputs than before, if rows of `R` and `T` are
orthonormal.  The number of states must not separate equal singular values, and the tolerance
of `util.svd` must keep as many singular values in the new units as in the old ones. -/
theorem C98_response_partial (hlib : ∀ {m n : Nat} (a : Matrix (Fin m) (Fin n) 𝕜), IsSvd a (svd a))
    (hlib' : ∀ {m n : Nat} (a : Matrix (Fin m) (Fin n) 𝕜), IsSvd a (svd' a)) (cast : 𝕜 → 𝕜) (hcast : ∀ x, cast x = x)
    (self self' o : EraObj) (markovs markovs' : MarkovsIn 𝕜) (m m' : Markovs 𝕜) (mc mo : Option Int)
    (hm : setMarkovs markovs = .ok m) (hm' : setMarkovs markovs' = .ok m') (hnt : m'.nt = m.nt) (hno : 1 ≤ m.no) (hni : 1 ≤ m.ni)
    (hno' : 1 ≤ m'.no) (hni' : 1 ≤ m'.ni) {R : Matrix (Fin m.no) (Fin m'.no) 𝕜} {T : Matrix (Fin m.ni) (Fin m'.ni) 𝕜} {c : 𝕜}
    (hR : R * Rᴴ = 1) (hT : T * Tᴴ = 1) (hc : c ≠ 0)
    (hM : ∀ t < m.nt, (of fun i j => m'.at_ t i j : Matrix (Fin m'.no) (Fin m'.ni) 𝕜) =
      c • (Rᴴ * (of fun i j => m.at_ t i j : Matrix (Fin m.no) (Fin m.ni) 𝕜) * T))
    (h : HankelPair 𝕜) (hh : eraHankel cast self markovs mc mo = .ok (o, h)) (ns : Nat)
    (htol : ∀ i, 1e-13 < (svd h.array).S i ↔ 1e-13 < ‖c‖ * (svd h.array).S i)
    (gap : ∀ i j : Fin (min h.rows h.cols), i.val < ns → ns ≤ j.val → 1e-13 < (svd h.array).S j →
      (svd h.array).S j < (svd h.array).S i)
    (model : LtiModel 𝕜) (hres : eraModel svd cast self markovs ns mc mo = .ok (o, model)) (hr : 1 ≤ model.r) :
    ∃ o' model', eraModel svd' cast self' markovs' ns mc mo = .ok (o', model') ∧ SameResponse c R T model model' := by
  obtain ⟨h0, hh0, hasm, hred⟩ := eraModel_cases svd cast self o markovs m mc mo ns model hm hres
  rw [hh] at hh0
  obtain ⟨-, rfl⟩ := Prod.mk.inj (Except.ok.inj hh0)
  obtain ⟨mo', mc', b', hr1, hc1, hb', hr1', hc1', ent⟩ := assembleHankel_two cast m m' hnt hno hni mc mo h hasm
  have hh' : ∃ o', eraHankel cast self' markovs' mc mo = .ok (o', b') := by
    unfold eraHankel
    rw [hm']
    dsimp only
    rw [hb']
    exact ⟨_, rfl⟩
  obtain ⟨o', hh'⟩ := hh'
  obtain ⟨model', hmodel'⟩ := C36_no_error svd' cast self' o' markovs' mc mo ns b' hh'
  refine ⟨o', model', hmodel', ?_⟩
  obtain ⟨h1, hh1, -, hred'⟩ := eraModel_cases svd' cast self' o' markovs' _ mc mo ns model' hm' hmodel'
  rw [hh'] at hh1
  obtain ⟨-, rfl⟩ := Prod.mk.inj (Except.ok.inj hh1)
  refine eraReduce_determined svd svd' hno hni hno' hni' h.h h.h2 b'.h b'.h2 hr1 hc1 hr1' hc1' hlib hlib' hR hT hc
    (fun r s => of fun i j => m.at_ (2 * (r + s)) i j) (fun r s => of fun i j => m.at_ (2 * (r + s) + 1) i j)
    (fun r s => of fun i j => m'.at_ (2 * (r + s)) i j) (fun r s => of fun i j => m'.at_ (2 * (r + s) + 1) i j)
    (fun r s hr hs => ?_) (fun r s hr hs i j => ?_) (fun r s hr hs i j => ?_) ns htol gap model model' hred hred' hr
  · have := (ent r s hr hs).1
    exact ⟨hM _ (by omega), hM _ this⟩
  · have := (ent r s hr hs).2.1 i j i.isLt j.isLt
    rw [hcast, hcast] at this
    exact this
  · have := (ent r s hr hs).2.2 i j i.isLt j.isLt
    rw [hcast, hcast] at this
    exact this

end Models

/-! ### Singular values that are equal -/

/-- Two inputs and two outputs that do not interact, each of them like `halves`. -/
noncomputable def twoHalves : Markovs ℝ := ⟨6, 2, 2, fun k i j => if i = j then (1 / 2) ^ k else 0⟩

theorem twoHalves_set : setMarkovs (.d3 twoHalves) = .ok twoHalves := by
  simp [setMarkovs, twoHalves]

theorem twoHalves_hankel : ∃ o f2, ∃ f : Nat → Nat → ℝ, eraHankel id (eraInit none none) (.d3 twoHalves) none none =
      .ok (o, ⟨2, 2, f, f2⟩) ∧ (HankelPair.array ⟨2, 2, f, f2⟩ : Matrix (Fin 2) (Fin 2) ℝ) = 1 := by
  unfold eraHankel
  rw [twoHalves_set]
  dsimp only [eraInit]
  have hnt : twoHalves.nt = 6 := by simp [twoHalves]
  rw [assembleHankel_none id twoHalves (by rw [hnt]; decide) none none (Or.inl rfl)]
  obtain ⟨h, hh, h1, h2, h3⟩ := C33_blocks id twoHalves 1 1 (by rw [hnt]; decide) (by rw [hnt]; decide)
  have e : ((twoHalves.nt - 2) / 4 : Nat) = 1 := by rw [hnt]
  rw [e, hh]
  obtain ⟨rows, cols, f, f2⟩ := h
  have h1' : rows = 2 := h1
  have h2' : cols = 2 := h2
  subst h1' h2'
  refine ⟨_, f2, f, rfl, ?_⟩
  ext i j
  have := (h3 0 0 i j (by decide) (by decide) i.isLt j.isLt).1
  simp only [twoHalves, Nat.zero_mul, Nat.zero_add, Nat.mul_zero, pow_zero, id] at this
  rw [one_apply]
  simp only [Fin.ext_iff]
  exact this

/-- The first Markov parameter of the model with one state is given by the first singular vector. -/
theorem twoHalves_model (svd : ∀ {m n : Nat}, Matrix (Fin m) (Fin n) ℝ → SvdOut ℝ m n)
    (hsvd : ∀ {m n : Nat} (a : Matrix (Fin m) (Fin n) ℝ), IsSvd a (svd a)) (P : Matrix (Fin 2) (Fin 2) ℝ)
    (h2 : svd (1 : Matrix (Fin 2) (Fin 2) ℝ) = ⟨P, fun _ => 1, Pᴴ⟩) :
    ∃ (model : LtiModel ℝ) (hp : model.p = 2) (hq : model.q = 2), computeEraModel svd id (.d3 twoHalves) 1 = .ok model ∧
      model.r = 1 ∧
      ∀ i j : Fin 2, (model.C * model.A ^ 0 * model.B).submatrix (Fin.cast hq.symm) (Fin.cast hp.symm) i j = P i 0 * P j 0 := by
  obtain ⟨o, f2, f, hh, ha⟩ := twoHalves_hankel
  obtain ⟨model, hmodel⟩ := C36_no_error svd id (eraInit none none) o (.d3 twoHalves) none none 1 _ hh
  obtain ⟨h', hh', -, hred⟩ := eraModel_cases svd id (eraInit none none) o _ twoHalves none none 1 model twoHalves_set hmodel
  rw [hh] at hh'
  obtain ⟨-, rfl⟩ := Prod.mk.inj (Except.ok.inj hh')
  have hcomp : computeEraModel svd id (.d3 twoHalves) 1 = .ok model := by
    unfold computeEraModel
    rw [hmodel]
  unfold eraReduce at hred
  generalize HankelPair.array2 ⟨2, 2, f, f2⟩ = K at hred
  rw [ha] at hred
  dsimp only at hred
  split at hred
  · cases hred
  rename_i s hs
  have hr0 : ∀ t ∈ (none : Option ℝ), 0 ≤ t := by simp
  obtain ⟨ler, a1, a2⟩ := C19_kept_iff svd (1 : Matrix (Fin 2) (Fin 2) ℝ) _ _ (hsvd _) hr0 s hs
  rw [h2] at a1 a2
  have hk : s.r = 2 := by
    refine le_antisymm ler ?_
    have := (a1 ⟨1, by decide⟩).mpr ⟨fun t ht => by cases ht; norm_num [svdAtol], fun t ht => by cases ht⟩
    exact this
  obtain ⟨r, U, S, V⟩ := s
  dsimp only at hk
  subst hk
  have aU := a2 (0 : Fin 2) (0 : Fin 2) rfl
  cases hred
  refine ⟨_, by rfl, by rfl, hcomp, by rfl, fun i j => ?_⟩
  have h3 := congrFun (congrFun (eraOutputs_zero ⟨2, U, S, V⟩ K 1 (fun i => by
    rw [(a2 i i rfl).1]; exact one_pos)) i) j
  refine Eq.trans h3 ?_
  obtain ⟨b1, b2, b3⟩ := aU
  have h4 : (firstCols U 1 * diagonal (fun i => ((firstEntries S 1 i : ℝ) : ℝ)) * (firstCols V 1)ᴴ) i j =
      ∑ x : Fin 1, U i 0 * S 0 * V j 0 := by
    rw [Matrix.mul_apply]
    refine Finset.sum_congr rfl fun x _ => ?_
    have hx : x = (0 : Fin 1) := Subsingleton.elim (α := Fin 1) x 0
    subst hx
    rw [Matrix.mul_diagonal, conjTranspose_apply]
    rfl
  refine h4.trans ?_
  have c2 : U i 0 = P i 0 := b2 i
  have c3 : V j 0 = P j 0 := by
    refine (b3 j).trans ?_
    simp [conjTranspose_apply]
  have c1 : S 0 = 1 := b1
  rw [Fin.sum_univ_one, c1, c2, c3, mul_one]

/-- A correct library, which for the array `1` returns the columns of `P`. -/
theorem library_with (P : Matrix (Fin 2) (Fin 2) ℝ) (hP : P * Pᴴ = 1) :
    ∃ svd : ∀ m n : Nat, Matrix (Fin m) (Fin n) ℝ → SvdOut ℝ m n,
      (∀ m n (a : Matrix (Fin m) (Fin n) ℝ), IsSvd a (svd m n a)) ∧ svd 2 2 1 = ⟨P, fun _ => 1, Pᴴ⟩ := by
  classical
  have hP' : Pᴴ * P = 1 := mul_eq_one_comm.mp hP
  have main : ∀ (m n : Nat) (a : Matrix (Fin m) (Fin n) ℝ), ∃ o, IsSvd a o ∧
      ∀ (hm : m = 2) (hn : n = 2), a = (1 : Matrix (Fin 2) (Fin 2) ℝ).submatrix (Fin.cast hm) (Fin.cast hn) →
        HEq o (⟨P, fun _ => 1, Pᴴ⟩ : SvdOut ℝ 2 2) := by
    intro m n a
    by_cases h : ∃ (hm : m = 2) (hn : n = 2), a = (1 : Matrix (Fin 2) (Fin 2) ℝ).submatrix (Fin.cast hm) (Fin.cast hn)
    · obtain ⟨rfl, rfl, rfl⟩ := h
      refine ⟨⟨P, fun _ => 1, Pᴴ⟩, ⟨hP', ?_, ?_, fun _ => zero_le_one, fun _ _ _ => le_rfl⟩, fun _ _ _ => HEq.rfl⟩
      · show Pᴴ * Pᴴᴴ = 1
        rw [conjTranspose_conjTranspose]
        exact hP'
      · have : P * (diagonal fun _ => ((1 : ℝ) : ℝ) : Matrix (Fin 2) (Fin 2) ℝ) * Pᴴ = 1 := by
          rw [diagonal_one, Matrix.mul_one, hP]
        exact this.symm
    · obtain ⟨o, ho⟩ := exists_isSvd a
      exact ⟨o, ho, fun hm hn ha => absurd ⟨hm, hn, ha⟩ h⟩
  choose svd h1 h2 using main
  exact ⟨svd, h1, eq_of_heq (h2 2 2 1 rfl rfl rfl)⟩

/-- **C98 fails** if equal singular values are separated: for two equal outputs the model with one state has whichever of them
the library returns first, so that Markov parameters of the models of two correct libraries differ.  So do those of one library if
inputs and outputs are exchanged, which leaves the data as they are. -/
theorem C98_equal_values_violation : ∃ svd svd' : ∀ {m n : Nat}, Matrix (Fin m) (Fin n) ℝ → SvdOut ℝ m n,
    (∀ {m n : Nat} (a : Matrix (Fin m) (Fin n) ℝ), IsSvd a (svd a)) ∧ (∀ {m n : Nat} (a : Matrix (Fin m) (Fin n) ℝ), IsSvd a (svd' a)) ∧
    ∃ model model', computeEraModel svd id (.d3 twoHalves) 1 = .ok model ∧ computeEraModel svd' id (.d3 twoHalves) 1 = .ok model' ∧
      ¬ SameResponse 1 (1 : Matrix (Fin 2) (Fin 2) ℝ) (1 : Matrix (Fin 2) (Fin 2) ℝ) model model' ∧
      ¬ SameResponse 1 !![0, 1; 1, 0] !![0, 1; 1, 0] model model := by
  obtain ⟨svd, h1, h2⟩ := library_with 1 (by simp)
  obtain ⟨svd', h1', h2'⟩ := library_with !![0, 1; 1, 0] (by ext i j; fin_cases i <;> fin_cases j <;> simp [Matrix.mul_apply])
  obtain ⟨model, hp, hq, hm, -, hk⟩ := twoHalves_model (fun {m n} => svd m n) (fun a => h1 _ _ a) _ h2
  obtain ⟨model', hp', hq', hm', -, hk'⟩ := twoHalves_model (fun {m n} => svd' m n) (fun a => h1' _ _ a) _ h2'
  refine ⟨fun {m n} => svd m n, fun {m n} => svd' m n, fun a => h1 _ _ a, fun a => h1' _ _ a, model, model', hm, hm',
    fun h => ?_, fun h => ?_⟩
  · have h3 := congrFun (congrFun (h.response 0) 0) 0
    rw [one_smul, conjTranspose_one, Matrix.one_mul, Matrix.mul_one, hk 0 0, hk' 0 0] at h3
    norm_num at h3
  · have h3 := congrFun (congrFun (h.response 0) 0) 0
    have h4 : (model.C * model.A ^ 0 * model.B).submatrix (Fin.cast hq.symm) (Fin.cast hp.symm) = !![1, 0; 0, 0] := by
      ext i j
      rw [hk i j]
      revert i j
      simp [Fin.forall_fin_two, one_apply]
    rw [h4] at h3
    norm_num [Matrix.mul_apply, Fin.sum_univ_two] at h3

/-- **C98 fails** for units in which the data are small: the model of the same data in other units has no state. -/
theorem C98_units_violation (svd svd' : ∀ {m n : Nat}, Matrix (Fin m) (Fin n) ℝ → SvdOut ℝ m n)
    (hsvd : ∀ {m n : Nat} (a : Matrix (Fin m) (Fin n) ℝ), IsSvd a (svd a))
    (hsvd' : ∀ {m n : Nat} (a : Matrix (Fin m) (Fin n) ℝ), IsSvd a (svd' a)) :
    ∃ model model', computeEraModel svd id (.d3 (halves 1)) 1 = .ok model ∧
      computeEraModel svd' id (.d3 (halves 1e-14)) 1 = .ok model' ∧
      (∀ k i j, (halves 1e-14).at_ k i j = 1e-14 * (halves 1).at_ k i j) ∧ model.r = 1 ∧ model'.r = 0 ∧
      ∀ R T : Matrix (Fin 1) (Fin 1) ℝ, ¬ SameResponse 1e-14 R T model model' := by
  obtain ⟨o, h, hh, h1, h2, h3⟩ := halves_hankel 1
  obtain ⟨model, hmodel⟩ := C36_no_error svd id (eraInit none none) o (.d3 (halves 1)) none none 1 h hh
  obtain ⟨model', hm', hr', -⟩ := C36_small_parameters_violation svd' hsvd'
  obtain ⟨h', hh', -, hred⟩ := eraModel_cases svd id (eraInit none none) o _ (halves 1) none none 1 model
    (halves_set _) hmodel
  rw [hh] at hh'
  obtain ⟨-, rfl⟩ := Prod.mk.inj (Except.ok.inj hh')
  obtain ⟨rows, cols, f, f2⟩ := h
  dsimp only at h1 h2 h3
  subst h1 h2
  have ha : HankelPair.array (⟨1, 1, f, f2⟩ : HankelPair ℝ) = !![1] := by
    ext i j
    rw [Subsingleton.elim i 0, Subsingleton.elim j 0]
    simpa [HankelPair.array] using h3
  have hr : model.r = 1 := by
    unfold eraReduce at hred
    split at hred
    · cases hred
    rename_i s hs
    cases hred
    dsimp only
    obtain ⟨-, k2, -⟩ := C19_kept_iff svd _ _ _ (hsvd _) (by simp) s hs
    have hmin : 0 < min 1 1 := by decide
    have := (k2 ⟨0, hmin⟩).mpr ⟨fun t ht => ?_, fun t ht => by cases ht⟩
    · exact Nat.min_eq_left this
    · cases ht
      rw [ha]
      have hsq := svd_one 1 (svd !![1]) (hsvd _) ⟨0, hmin⟩
      have hnn := (hsvd (!![1] : Matrix (Fin 1) (Fin 1) ℝ)).nonneg ⟨0, hmin⟩
      have e1 : (svd (!![1] : Matrix (Fin 1) (Fin 1) ℝ)).S ⟨0, hmin⟩ = 1 := by nlinarith
      refine lt_of_lt_of_eq ?_ (congrArg abs e1).symm
      norm_num [svdAtol]
  refine ⟨model, model', ?_, hm', fun k i j => ?_, hr, hr', fun R T hs => ?_⟩
  · unfold computeEraModel
    rw [hmodel]
  · simp [halves, mul_comm]
  · have := hs.states
    rw [hr, hr'] at this
    cases this

/-! ### Example -/

theorem values_of_one (U Vh : Matrix (Fin 2) (Fin 2) ℝ) (S : Fin 2 → ℝ) (hU : Uᴴ * U = 1) (hV : Vh * Vhᴴ = 1)
    (h : (1 : Matrix (Fin 2) (Fin 2) ℝ) = U * (diagonal fun i => ((S i : ℝ) : ℝ)) * Vh) (h0 : ∀ i, 0 ≤ S i) (i : Fin 2) : S i = 1 := by
  have h1 : (diagonal S : Matrix (Fin 2) (Fin 2) ℝ) = Uᴴ * Vhᴴ := by
    calc (diagonal S : Matrix (Fin 2) (Fin 2) ℝ) = (Uᴴ * U) * diagonal S * (Vh * Vhᴴ) := by rw [hU, hV, Matrix.one_mul, Matrix.mul_one]
      _ = Uᴴ * (U * diagonal S * Vh) * Vhᴴ := by simp only [Matrix.mul_assoc]
      _ = Uᴴ * Vhᴴ := by
        have h' : U * diagonal S * Vh = 1 := h.symm
        rw [h', Matrix.mul_one]
  have h2 : (diagonal S : Matrix (Fin 2) (Fin 2) ℝ) * (diagonal S)ᴴ = 1 := by
    rw [h1, conjTranspose_mul, conjTranspose_conjTranspose, conjTranspose_conjTranspose,
      show Uᴴ * Vhᴴ * (Vh * U) = Uᴴ * (Vhᴴ * Vh) * U by simp only [Matrix.mul_assoc], mul_eq_one_comm.mp hV, Matrix.mul_one, hU]
  have h3 := congrFun (congrFun h2 i) i
  rw [diagonal_conjTranspose, diagonal_mul_diagonal, diagonal_apply_eq, one_apply_eq] at h3
  simp only [Pi.star_apply, star_trivial] at h3
  nlinarith [h0 i]

/-- Both outputs of `twoHalves` are exchanged and measured in a unit half as large. -/
noncomputable def twoHalves' : Markovs ℝ := { twoHalves with at_ := fun k i j => if i = j then 0 else 2 * (1 / 2) ^ k }

example (svd svd' : ∀ {m n : Nat}, Matrix (Fin m) (Fin n) ℝ → SvdOut ℝ m n)
    (hsvd : ∀ {m n : Nat} (a : Matrix (Fin m) (Fin n) ℝ), IsSvd a (svd a))
    (hsvd' : ∀ {m n : Nat} (a : Matrix (Fin m) (Fin n) ℝ), IsSvd a (svd' a)) :
    ∃ o o' model model', eraModel svd id (eraInit none none) (.d3 twoHalves) 2 none none = .ok (o, model) ∧
      eraModel svd' id (eraInit none none) (.d3 twoHalves') 2 none none = .ok (o', model') ∧ model.r = 2 ∧
      SameResponse 2 !![0, 1; 1, 0] (1 : Matrix (Fin 2) (Fin 2) ℝ) model model' := by
  obtain ⟨o, f2, f, hh, ha⟩ := twoHalves_hankel
  obtain ⟨model, hmodel⟩ := C36_no_error svd id (eraInit none none) o (.d3 twoHalves) none none 2 _ hh
  obtain ⟨h', hh', -, hred⟩ := eraModel_cases svd id (eraInit none none) o _ twoHalves none none 2 model twoHalves_set hmodel
  rw [hh] at hh'
  obtain ⟨-, rfl⟩ := Prod.mk.inj (Except.ok.inj hh')
  have hS : ∀ i, (svd (1 : Matrix (Fin 2) (Fin 2) ℝ)).S i = 1 := fun i =>
    values_of_one (svd (1 : Matrix (Fin 2) (Fin 2) ℝ)).U (svd (1 : Matrix (Fin 2) (Fin 2) ℝ)).Vh (svd (1 : Matrix (Fin 2) (Fin 2) ℝ)).S
      (hsvd _).left (hsvd _).right (hsvd _).product (fun i => (hsvd (1 : Matrix (Fin 2) (Fin 2) ℝ)).nonneg i) i
  have hS' : ∀ i, (svd (HankelPair.array ⟨2, 2, f, f2⟩)).S i = 1 := by
    rw [ha]
    exact hS
  have hr : model.r = 2 := by
    unfold eraReduce at hred
    split at hred
    · cases hred
    rename_i s hs
    cases hred
    dsimp only
    obtain ⟨k1, k2, -⟩ := C19_kept_iff svd _ _ _ (hsvd _) (by simp) s hs
    have := (k2 (1 : Fin 2)).mpr ⟨fun t ht => ?_, fun t ht => by cases ht⟩
    · exact Nat.min_eq_left this
    · cases ht
      refine lt_of_lt_of_eq ?_ (congrArg abs (hS' (1 : Fin 2))).symm
      norm_num [svdAtol]
  have hR : (!![0, 1; 1, 0] : Matrix (Fin 2) (Fin 2) ℝ) * (!![0, 1; 1, 0])ᴴ = 1 := by
    ext i j
    fin_cases i <;> fin_cases j <;> simp [Matrix.mul_apply]
  have hT : (1 : Matrix (Fin 2) (Fin 2) ℝ) * (1 : Matrix (Fin 2) (Fin 2) ℝ)ᴴ = 1 := by simp
  have hM : ∀ t, (of fun i j => twoHalves'.at_ t i j : Matrix (Fin 2) (Fin 2) ℝ) =
      (2 : ℝ) • ((!![0, 1; 1, 0] : Matrix (Fin 2) (Fin 2) ℝ)ᴴ * (of fun i j => twoHalves.at_ t i j : Matrix (Fin 2) (Fin 2) ℝ) *
        (1 : Matrix (Fin 2) (Fin 2) ℝ)) := by
    intro t
    ext i j
    fin_cases i <;> fin_cases j <;> simp [Matrix.mul_apply, twoHalves, twoHalves']
  have key := C98_response_partial svd svd' hsvd hsvd' id (fun _ => rfl) (eraInit none none) (eraInit none none) o (.d3 twoHalves)
    (.d3 twoHalves') twoHalves twoHalves' none none twoHalves_set (by simp [setMarkovs, twoHalves, twoHalves']) rfl
    (by simp [twoHalves]) (by simp [twoHalves]) (by simp [twoHalves, twoHalves']) (by simp [twoHalves, twoHalves']) (R := !![0, 1; 1, 0]) (T := (1 : Matrix (Fin 2) (Fin 2) ℝ)) (c := 2)
    hR hT (by norm_num) (fun t _ => hM t)
    _ hh 2 (fun i => by rw [hS']; norm_num) (fun i j _ h2 => absurd j.isLt (by
      have := lt_min_iff.mp j.isLt
      exact absurd this.1 (not_lt.mpr h2))) model hmodel (by rw [hr]; decide)
  obtain ⟨o', model', k1, k2⟩ := key
  exact ⟨o, o', model, model', hmodel, k1, hr, k2⟩

end Modred
