import Verif.Spec.SymmetricModel
import Verif.Props.DualModel
import Verif.Props.SelfAdjointPod

/-!
# C139: models of ERA of symmetric systems are symmetric
-/

namespace Modred

open Matrix
open scoped ComplexOrder

variable {𝕜 : Type*} [RCLike 𝕜]

/-- Reduction of positive semidefinite arrays. -/
theorem eraReduce_symmetric (svd : ∀ {m n : Nat}, Matrix (Fin m) (Fin n) 𝕜 → SvdOut 𝕜 m n)
    (hlib : ∀ {m n : Nat} (a : Matrix (Fin m) (Fin n) 𝕜), IsSvd a (svd a)) {n : Nat} (g g2 : Nat → Nat → 𝕜)
    (hg : (HankelPair.array ⟨n, n, g, g2⟩ : Matrix (Fin n) (Fin n) 𝕜).PosSemidef)
    (hg2 : ∀ i j, i < n → j < n → g2 j i = star (g2 i j)) (p ns : Nat) (model : LtiModel 𝕜)
    (h : eraReduce svd ⟨n, n, g, g2⟩ p p ns = .ok model) : SymmetricModel model := by
  have hK : (HankelPair.array2 ⟨n, n, g, g2⟩ : Matrix (Fin n) (Fin n) 𝕜)ᴴ = HankelPair.array2 ⟨n, n, g, g2⟩ := by
    ext i j
    exact (hg2 j i j.isLt i.isLt).symm
  unfold eraReduce at h
  generalize HankelPair.array ⟨n, n, g, g2⟩ = H at *
  generalize HankelPair.array2 ⟨n, n, g, g2⟩ = K at *
  dsimp only at H K hg hK h
  split at h
  · cases h
  rename_i s hs
  cases h
  have hpos : ∀ i, 0 < s.S i := fun i =>
    lt_trans (by norm_num [svdAtol]) (utilSvd_positive svd H none svdAtol (by simp) (hlib _) s hs i)
  obtain ⟨-, -, hHV, hHU, -⟩ := C19_singular_triples svd H _ _ (hlib _) s hs
  have hUV : s.U = s.V := posSemidef_singular hg hpos hHV hHU
  refine ⟨rfl, fun i j => ?_, fun i k => ?_⟩
  · dsimp only
    rw [hUV]
    generalize firstEntries s.S ns = E
    generalize firstCols s.V ns = V
    have : (diagPow (𝕜 := 𝕜) E (-0.5) * (Vᴴ * (K * (V * diagPow (𝕜 := 𝕜) E (-0.5)))))ᴴ =
        diagPow (𝕜 := 𝕜) E (-0.5) * (Vᴴ * (K * (V * diagPow (𝕜 := 𝕜) E (-0.5)))) := by
      simp only [conjTranspose_mul, diagPow_conjTranspose, conjTranspose_conjTranspose, Matrix.mul_assoc, hK]
    exact (congrFun (congrFun this j) i).symm
  · dsimp only
    rw [hUV]
    generalize firstEntries s.S ns = E
    generalize firstCols s.V ns = V
    have : (diagPow (𝕜 := 𝕜) E 0.5 * firstCols Vᴴ p)ᴴ = firstRows V p * diagPow (𝕜 := 𝕜) E 0.5 := by
      rw [conjTranspose_mul, diagPow_conjTranspose]
      congr 1
      ext i j
      exact star_star _
    exact (congrFun (congrFun this i) k).symm

/-- Reduction of the arrays of a symmetric system. -/
theorem eraReduce_system (svd : ∀ {m n : Nat}, Matrix (Fin m) (Fin n) 𝕜 → SvdOut 𝕜 m n)
    (hlib : ∀ {m n : Nat} (a : Matrix (Fin m) (Fin n) 𝕜), IsSvd a (svd a)) (cast : 𝕜 → 𝕜) (m : Markovs 𝕜) {n p : Nat} (P : Nat)
    (A : Matrix (Fin n) (Fin n) 𝕜) (hA : Aᴴ = A) (B : Matrix (Fin n) (Fin p) 𝕜) (hs : SymmetricMarkovs P A B m)
    (mc : Nat) (hg : mc + mc + 2 ≤ m.nt) (hd : 2 * (mc + mc) ≤ m.nt + 2) (hfix : ∀ t < m.nt, ∀ i j, cast (m.at_ t i j) = m.at_ t i j)
    (ns : Nat) (model : LtiModel 𝕜) (h : HankelPair 𝕜) (hasm : assembleHankel cast m (some mc) (some mc) = .ok h)
    (hred : eraReduce svd h m.no m.ni ns = .ok model) : SymmetricModel model := by
  obtain ⟨b, hb, h1, h2, h3⟩ := C33_blocks cast m mc mc hg hd
  rw [hasm] at hb
  obtain rfl := Except.ok.inj hb
  obtain ⟨hno, hni, he, ho⟩ := hs
  rw [hno] at h1 h3 hred
  rw [hni] at h2 h3 hred
  obtain ⟨rows, cols, g, g2⟩ := h
  dsimp only at h1 h2 h3
  subst h1 h2
  have hpow : ∀ k, (A ^ k)ᴴ = A ^ k := fun k => by rw [conjTranspose_pow, hA]
  have hsplit : ∀ i : Nat, i < p * mc → i / p < mc ∧ i % p < p ∧ i / p * p + i % p = i := fun i hi =>
    ⟨Nat.div_lt_of_lt_mul hi, Nat.mod_lt _ (Nat.pos_of_ne_zero fun h0 => by simp [h0] at hi), Nat.div_add_mod' i p⟩
  have hG : ∀ i j (hi : i < p * mc) (hj : j < p * mc),
      g i j = (Bᴴ * A ^ (P * (i / p + j / p)) * B) ⟨i % p, (hsplit i hi).2.1⟩ ⟨j % p, (hsplit j hj).2.1⟩ ∧
      g2 i j = (Bᴴ * A ^ (P * (i / p + j / p) + 1) * B) ⟨i % p, (hsplit i hi).2.1⟩ ⟨j % p, (hsplit j hj).2.1⟩ := fun i j hi hj => by
    obtain ⟨a1, a2, a3⟩ := hsplit i hi
    obtain ⟨b1, b2, b3⟩ := hsplit j hj
    have := h3 (i / p) (j / p) (i % p) (j % p) a1 b1 a2 b2
    rw [a3, b3, hfix _ (by omega), hfix _ (by omega)] at this
    exact ⟨this.1.trans (he _ (by omega) ⟨_, a2⟩ ⟨_, b2⟩), this.2.trans (ho _ (by omega) ⟨_, a2⟩ ⟨_, b2⟩)⟩
  have hT : ∀ k, (Bᴴ * A ^ k * B)ᴴ = Bᴴ * A ^ k * B := fun k => by
    rw [conjTranspose_mul, conjTranspose_mul, hpow, conjTranspose_conjTranspose, Matrix.mul_assoc]
  refine eraReduce_symmetric svd hlib g g2 ?_ (fun i j hi hj => ?_) p ns model hred
  · let X : Matrix (Fin n) (Fin (p * mc)) 𝕜 := Matrix.of fun x i => (A ^ (P * (i.val / p)) * B) x ⟨i % p, (hsplit i i.isLt).2.1⟩
    have : (HankelPair.array ⟨p * mc, p * mc, g, g2⟩ : Matrix (Fin (p * mc)) (Fin (p * mc)) 𝕜) = Xᴴ * X := by
      ext i j
      refine (hG i j i.isLt j.isLt).1.trans ?_
      rw [mul_add, pow_add, show Bᴴ * (A ^ (P * (i.val / p)) * A ^ (P * (j.val / p))) * B = (A ^ (P * (i.val / p)) * B)ᴴ * (A ^ (P * (j.val / p)) * B) by
        rw [conjTranspose_mul, hpow]; simp only [Matrix.mul_assoc]]
      rfl
    rw [this]
    exact posSemidef_conjTranspose_mul_self X
  · rw [(hG i j hi hj).2, (hG j i hj hi).2, add_comm (j / p)]
    exact (congrFun (congrFun (hT _) _) _).symm

section Models

variable (svd : ∀ {m n : Nat}, Matrix (Fin m) (Fin n) 𝕜 → SvdOut 𝕜 m n)
  (hlib : ∀ {m n : Nat} (a : Matrix (Fin m) (Fin n) 𝕜), IsSvd a (svd a))
  (cast : 𝕜 → 𝕜) (hcast : ∀ x, cast (star x) = star (cast x)) (self o : EraObj) (markovs : MarkovsIn 𝕜) (m : Markovs 𝕜)
  (hm : setMarkovs markovs = .ok m)

include hlib hcast hm

/-- C139: if the Markov parameters are Hermitian, as many blocks are taken for both sides of the Hankel array and the quadratic form of the Hankel
array has no negative values, then the model is symmetric. -/
theorem C139_hermitian (mc : Option Int) (hd : DualMarkovs m m) (h : HankelPair 𝕜)
    (hh : eraHankel cast self markovs mc mc = .ok (o, h)) (hnn : NonnegArray h.rows h.h) (ns : Nat) (model : LtiModel 𝕜)
    (hres : eraModel svd cast self markovs ns mc mc = .ok (o, model)) : SymmetricModel model := by
  obtain ⟨b, hb, hasm, hred⟩ := eraModel_cases svd cast self o markovs m mc mc ns model hm hres
  rw [hh] at hb
  obtain ⟨-, rfl⟩ := Prod.mk.inj (Except.ok.inj hb)
  obtain ⟨b', hb', h1, h2, h3⟩ := assembleHankel_dual cast hcast m m hd mc mc h hasm
  rw [hasm] at hb'
  obtain rfl := Except.ok.inj hb'
  obtain ⟨rows, cols, g, g2⟩ := h
  dsimp only at h1 h2 h3 hnn
  subst h1
  rw [hd.outputs] at hred
  refine eraReduce_symmetric svd hlib g g2 ?_ (fun i j hi hj => (h3 i j hi hj).2) _ ns model hred
  refine Matrix.PosSemidef.of_dotProduct_mulVec_nonneg ?_ fun x => ?_
  · ext i j
    exact ((h3 j i j.isLt i.isLt).1).symm
  · refine (hnn x).trans_eq ?_
    simp only [dotProduct, mulVec, Finset.mul_sum, HankelPair.array, Matrix.of_apply, Pi.star_apply, mul_assoc]

omit hcast in
/-- C139: if the Markov parameters are those of a system with a Hermitian `A` whose outputs are the conjugate transposes of its inputs, then so is
the model. -/
theorem C139_system {n p : Nat} (P : Nat) (A : Matrix (Fin n) (Fin n) 𝕜) (hA : Aᴴ = A) (B : Matrix (Fin n) (Fin p) 𝕜)
    (hs : SymmetricMarkovs P A B m) (mc : Nat) (hg : mc + mc + 2 ≤ m.nt) (hd : 2 * (mc + mc) ≤ m.nt + 2)
    (hfix : ∀ t < m.nt, ∀ i j, cast (m.at_ t i j) = m.at_ t i j) (ns : Nat) (model : LtiModel 𝕜)
    (hres : eraModel svd cast self markovs ns (some mc) (some mc) = .ok (o, model)) : SymmetricModel model := by
  obtain ⟨h, -, hasm, hred⟩ := eraModel_cases svd cast self o markovs m _ _ ns model hm hres
  exact eraReduce_system svd hlib cast m P A hA B hs mc hg hd hfix ns model h hasm hred

omit hcast in
/-- C139 for the numbers of blocks that ERA chooses. -/
theorem C139_system_default {n p : Nat} (P : Nat) (A : Matrix (Fin n) (Fin n) 𝕜) (hA : Aᴴ = A) (B : Matrix (Fin n) (Fin p) 𝕜)
    (hs : SymmetricMarkovs P A B m) (hnt : 2 ≤ m.nt) (hfix : ∀ t < m.nt, ∀ i j, cast (m.at_ t i j) = m.at_ t i j) (ns : Nat)
    (model : LtiModel 𝕜) (hres : eraModel svd cast self markovs ns none none = .ok (o, model)) : SymmetricModel model := by
  obtain ⟨h, -, hasm, hred⟩ := eraModel_cases svd cast self o markovs m _ _ ns model hm hres
  rw [assembleHankel_none cast m hnt none none (Or.inl rfl)] at hasm
  exact eraReduce_system svd hlib cast m P A hA B hs _ (by omega) (by omega) hfix ns model h hasm hred

omit hcast in
/-- C139 for `compute_ERA_model`. -/
theorem C139_compute_ERA_model {n p : Nat} (P : Nat) (A : Matrix (Fin n) (Fin n) 𝕜) (hA : Aᴴ = A) (B : Matrix (Fin n) (Fin p) 𝕜)
    (hs : SymmetricMarkovs P A B m) (hnt : 2 ≤ m.nt) (hfix : ∀ t < m.nt, ∀ i j, cast (m.at_ t i j) = m.at_ t i j) (ns : Nat)
    (model : LtiModel 𝕜) (hres : computeEraModel svd cast markovs ns = .ok model) : SymmetricModel model := by
  unfold computeEraModel at hres
  split at hres
  · cases hres
  rename_i o' model' h
  cases hres
  exact C139_system_default svd hlib cast _ o' markovs m hm P A hA B hs hnt hfix ns _ h

end Models

/-! ### Examples -/

/-- Models of `b` halved at every step. -/
theorem halves_model (svd : ∀ {m n : Nat}, Matrix (Fin m) (Fin n) ℝ → SvdOut ℝ m n)
    (hsvd : ∀ {m n : Nat} (a : Matrix (Fin m) (Fin n) ℝ), IsSvd a (svd a)) (b : ℝ) (hb : b ^ 2 = 1) :
    ∃ o h model, eraHankel id (eraInit none none) (.d3 (halves b)) none none = .ok (o, h) ∧ h.rows = 1 ∧ h.h 0 0 = b ∧
      eraModel svd id (eraInit none none) (.d3 (halves b)) 1 none none = .ok (o, model) ∧ model.r = 1 ∧ model.p = 1 ∧
      ∀ i j, (model.C * model.B) i j = b := by
  obtain ⟨o, h, hh, h1, h2, h3⟩ := halves_hankel b
  obtain ⟨model, hmodel⟩ := C36_no_error svd id (eraInit none none) o (.d3 (halves b)) none none 1 h hh
  have hb0 : b ≠ 0 := by
    rintro rfl
    norm_num at hb
  obtain ⟨rows, cols, f, f2⟩ := h
  dsimp only at h1 h2 h3
  subst h1 h2
  have ha : HankelPair.array (⟨1, 1, f, f2⟩ : HankelPair ℝ) = (!![b] : Matrix (Fin 1) (Fin 1) ℝ) := by
    ext i j
    rw [Subsingleton.elim i 0, Subsingleton.elim j 0]
    simpa [HankelPair.array] using h3
  obtain ⟨k1, k2, k3⟩ := C36_recovers svd id (eraInit none none) o o (.d3 (halves b)) (halves b) none none (fun _ => rfl) 2
    (!![1 / 2] : Matrix (Fin 1) (Fin 1) ℝ) (!![1] : Matrix (Fin 1) (Fin 1) ℝ) (!![b] : Matrix (Fin 1) (Fin 1) ℝ) (halves_set b)
    (fun k _ i j => by
      have e : ∀ t, ((!![b] : Matrix (Fin 1) (Fin 1) ℝ) * (!![1 / 2] : Matrix (Fin 1) (Fin 1) ℝ) ^ t * (!![1] : Matrix (Fin 1) (Fin 1) ℝ)) 0 0 =
          (1 / 2) ^ t * b := fun t => by
        rw [← half_pow t, show (!![b] : Matrix (Fin 1) (Fin 1) ℝ) = b • !![1] by ext i j; fin_cases i; fin_cases j; simp,
          Matrix.smul_mul, Matrix.smul_mul, Matrix.smul_apply, smul_eq_mul, mul_comm]
      have hi : i = (0 : Fin 1) := Subsingleton.elim (α := Fin 1) _ _
      have hj : j = (0 : Fin 1) := Subsingleton.elim (α := Fin 1) _ _
      rw [hi, hj]
      exact ⟨(e _).symm, (e _).symm⟩) _ hh (by
        rw [ha]
        refine (Matrix.rank_of_isUnit _ ?_).trans (Fintype.card_fin 1)
        rw [Matrix.isUnit_iff_isUnit_det]
        simpa using hb0) (hsvd _) (fun i _ => by
          have h4 : ∀ i, 1e-13 < (svd (!![b] : Matrix (Fin 1) (Fin 1) ℝ)).S i := fun i => by
            have h5 := svd_one b (svd !![b]) (hsvd _) i
            have h6 := (hsvd (!![b] : Matrix (Fin 1) (Fin 1) ℝ)).nonneg i
            rw [hb] at h5
            have h7 : (svd (!![b] : Matrix (Fin 1) (Fin 1) ℝ)).S i = 1 := by nlinarith
            rw [h7]
            norm_num
          revert i
          rw [ha]
          exact fun i _ => h4 i) model hmodel
  obtain ⟨k4, k5⟩ := k2 le_rfl
  refine ⟨o, _, model, hh, rfl, h3, hmodel, k1, k4, fun i j => ?_⟩
  have h8 := k3 0 i j (0 : Fin 1) (0 : Fin 1) (by
    have : i.val < 1 := lt_of_lt_of_eq i.isLt k5
    exact (Nat.lt_one_iff.mp this).symm) (by
    have : j.val < 1 := lt_of_lt_of_eq j.isLt k4
    exact (Nat.lt_one_iff.mp this).symm)
  rw [pow_zero, Matrix.mul_one, pow_zero] at h8
  refine h8.trans ?_
  have e : ((!![b] : Matrix (Fin 1) (Fin 1) ℝ) * (1 : Matrix (Fin 1) (Fin 1) ℝ) * (!![1] : Matrix (Fin 1) (Fin 1) ℝ) : Matrix (Fin 1) (Fin 1) ℝ) 0 0 = b := by
    rw [Matrix.mul_one, Matrix.mul_apply, Fin.sum_univ_one]
    simp
  exact e

theorem halves_hermitian (b : ℝ) : DualMarkovs (halves b) (halves b) := ⟨rfl, rfl, rfl, fun _ _ _ _ _ _ => rfl⟩

/-- One halved at every step. -/
example (svd : ∀ {m n : Nat}, Matrix (Fin m) (Fin n) ℝ → SvdOut ℝ m n)
    (hsvd : ∀ {m n : Nat} (a : Matrix (Fin m) (Fin n) ℝ), IsSvd a (svd a)) :
    ∃ o model, eraModel svd id (eraInit none none) (.d3 (halves 1)) 1 none none = .ok (o, model) ∧ model.r = 1 ∧ SymmetricModel model := by
  obtain ⟨o, ⟨rows, cols, f, f2⟩, model, hh, h1, h2, hmodel, hr, -⟩ := halves_model svd hsvd 1 (by norm_num)
  dsimp only at h1 h2
  subst h1
  refine ⟨o, model, hmodel, hr, C139_hermitian svd hsvd id (fun _ => rfl) _ o _ _ (halves_set 1) none (halves_hermitian 1) _ hh (fun x => ?_) 1
    model hmodel⟩
  simp only [Fin.sum_univ_one, Fin.val_zero, h2, star_trivial, mul_one]
  exact mul_self_nonneg _

/-- C139 needs the sign: with the opposite Markov parameters, which are Hermitian too, no library gives a symmetric model. -/
theorem C139_needs_sign (svd : ∀ {m n : Nat}, Matrix (Fin m) (Fin n) ℝ → SvdOut ℝ m n)
    (hsvd : ∀ {m n : Nat} (a : Matrix (Fin m) (Fin n) ℝ), IsSvd a (svd a)) :
    ∃ o model, eraModel svd id (eraInit none none) (.d3 (halves (-1))) 1 none none = .ok (o, model) ∧
      DualMarkovs (halves (-1)) (halves (-1)) ∧ ¬ SymmetricModel model := by
  obtain ⟨o, h, model, -, -, -, hmodel, -, hp, hC⟩ := halves_model svd hsvd (-1) (by norm_num)
  refine ⟨o, model, hmodel, halves_hermitian _, fun ⟨h1, h2, h3⟩ => ?_⟩
  have h4 := hC (Fin.cast h1.symm ⟨0, by rw [hp]; decide⟩) ⟨0, by rw [hp]; decide⟩
  rw [Matrix.mul_apply] at h4
  have h5 : (0 : ℝ) ≤ -1 := by
    rw [← h4]
    refine Finset.sum_nonneg fun k _ => ?_
    rw [h3]
    exact mul_self_nonneg _
  norm_num at h5

/-- Two states that drive each other, with one input. -/
noncomputable def driven : Matrix (Fin 2) (Fin 2) ℝ := !![1 / 2, 1 / 4; 1 / 4, 1 / 2]

/-- Inputs of `driven`. -/
noncomputable def drivenInputs : Matrix (Fin 2) (Fin 1) ℝ := !![1; 0]

/-- The Markov parameters of `driven` in the sampled format. -/
noncomputable def drivenMarkovs : Markovs ℝ := ⟨10, 1, 1, fun t _ _ => (drivenInputsᴴ * driven ^ ((t + 1) / 2) * drivenInputs) 0 0⟩

example (svd : ∀ {m n : Nat}, Matrix (Fin m) (Fin n) ℝ → SvdOut ℝ m n)
    (hsvd : ∀ {m n : Nat} (a : Matrix (Fin m) (Fin n) ℝ), IsSvd a (svd a)) :
    ∃ o model, eraModel svd id (eraInit none none) (.d3 drivenMarkovs) 2 (some (2 : Nat)) (some (2 : Nat)) = .ok (o, model) ∧
      SymmetricModel model := by
  have set : setMarkovs (.d3 drivenMarkovs) = .ok drivenMarkovs := by simp [setMarkovs, drivenMarkovs]
  have hh : ∃ o b, eraHankel id (eraInit none none) (.d3 drivenMarkovs) (some (2 : Nat)) (some (2 : Nat)) = .ok (o, b) := by
    unfold eraHankel
    rw [set]
    dsimp only [eraInit]
    obtain ⟨h, hh, -⟩ := C33_blocks id drivenMarkovs 2 2 (by simp [drivenMarkovs]) (by simp [drivenMarkovs])
    rw [hh]
    exact ⟨_, _, rfl⟩
  obtain ⟨o, b, hh⟩ := hh
  obtain ⟨model, hmodel⟩ := C36_no_error svd id (eraInit none none) o (.d3 drivenMarkovs) _ _ 2 _ hh
  refine ⟨o, model, hmodel, C139_system svd hsvd id _ o _ _ set 1 driven (by
      ext i j
      fin_cases i <;> fin_cases j <;> simp [driven]) drivenInputs ⟨rfl, rfl, fun k _ i j => ?_, fun k _ i j => ?_⟩ 2 (by simp [drivenMarkovs])
    (by simp [drivenMarkovs]) (fun _ _ _ _ => rfl) 2 model hmodel⟩
  · rw [Subsingleton.elim i 0, Subsingleton.elim j 0, one_mul, ← show (2 * k + 1) / 2 = k by omega]
    simp only [drivenMarkovs]
    rw [show (2 * ((2 * k + 1) / 2) + 1) / 2 = (2 * k + 1) / 2 by omega]
  · rw [Subsingleton.elim i 0, Subsingleton.elim j 0, one_mul, ← show (2 * k + 1 + 1) / 2 = k + 1 by omega]
    rfl

/-- The default numbers of blocks. -/
example (svd : ∀ {m n : Nat}, Matrix (Fin m) (Fin n) ℝ → SvdOut ℝ m n)
    (hsvd : ∀ {m n : Nat} (a : Matrix (Fin m) (Fin n) ℝ), IsSvd a (svd a)) :
    ∃ model, computeEraModel svd id (.d3 (halves 1)) 1 = .ok model ∧ model.r = 1 ∧ SymmetricModel model := by
  obtain ⟨o, -, model, -, -, -, hmodel, hr, -⟩ := halves_model svd hsvd 1 (by norm_num)
  have e : ∀ t, (1 / 2 : ℝ) ^ t * 1 =
      ((!![1] : Matrix (Fin 1) (Fin 1) ℝ)ᴴ * (!![1 / 2] : Matrix (Fin 1) (Fin 1) ℝ) ^ t * (!![1] : Matrix (Fin 1) (Fin 1) ℝ)) 0 0 := fun t => by
    rw [mul_one, ← half_pow t, show (!![1] : Matrix (Fin 1) (Fin 1) ℝ)ᴴ = !![1] by ext i j; fin_cases i; fin_cases j; simp]
  have hmodel : computeEraModel svd id (.d3 (halves 1)) 1 = .ok model := by
    unfold computeEraModel
    rw [hmodel]
  refine ⟨model, hmodel, hr, C139_compute_ERA_model svd hsvd id _ _ (halves_set 1) (n := 1) (p := 1) 2 !![1 / 2] (by
      ext i j
      fin_cases i
      fin_cases j
      simp) !![1] ⟨rfl, rfl, fun k _ i j => ?_, fun k _ i j => ?_⟩ (by simp [halves]) (fun _ _ _ _ => rfl) 1 model hmodel⟩
  · rw [Subsingleton.elim i 0, Subsingleton.elim j 0]
    exact e _
  · rw [Subsingleton.elim i 0, Subsingleton.elim j 0]
    exact e _

end Modred
