import Verif.Spec.DualModel
import Verif.Props.DeterminedEra
import Verif.Props.Duality

/-!
# Models of ERA of conjugate transposed Markov parameters are dual models (C126)
-/

namespace Modred

open Matrix

variable {𝕜 : Type*} [RCLike 𝕜]

/-! ### Libraries -/

/-- The library that decomposes the conjugate transpose. -/
noncomputable def dualLib (svd : ∀ {m n : Nat}, Matrix (Fin m) (Fin n) 𝕜 → SvdOut 𝕜 m n) {m n : Nat} (a : Matrix (Fin m) (Fin n) 𝕜) :
    SvdOut 𝕜 m n :=
  SvdOut.ofNumber (min_comm m n) (svd aᴴ).Vhᴴ (svd aᴴ).S (svd aᴴ).Uᴴ

section Libraries

variable (svd : ∀ {m n : Nat}, Matrix (Fin m) (Fin n) 𝕜 → SvdOut 𝕜 m n)

theorem dualLib_isSvd {m n : Nat} (a : Matrix (Fin m) (Fin n) 𝕜) (h : IsSvd aᴴ (svd aᴴ)) : IsSvd a (dualLib svd a) := by
  refine SvdOut.ofNumber_isSvd _ ?_ ?_ ?_ h.nonneg h.sorted
  · rw [conjTranspose_conjTranspose]
    exact h.right
  · rw [conjTranspose_conjTranspose]
    exact h.left
  · have h1 := congrArg conjTranspose h.product
    rw [conjTranspose_conjTranspose, conjTranspose_mul, conjTranspose_mul, diagonal_conjTranspose, ← Matrix.mul_assoc] at h1
    refine h1.trans ?_
    congr 3
    ext i
    simp

theorem utilSvd_dualLib {m n : Nat} (a : Matrix (Fin m) (Fin n) 𝕜) (atol rtol : Option ℝ) (e' : Svd 𝕜 n m)
    (he' : utilSvd svd aᴴ atol rtol = .ok e') : utilSvd (dualLib svd) a atol rtol = .ok e'.exchange := by
  unfold utilSvd at he'
  dsimp only at he'
  split at he'
  · cases he'
  rename_i num hnum
  cases he'
  refine (SvdOut.ofNumber_util (min_comm m n) (U := (svd aᴴ).Vhᴴ) (Vh := (svd aᴴ).Uᴴ) a atol rtol num hnum).trans ?_
  rw [conjTranspose_conjTranspose]
  rfl

/-- The end of `compute_model` for the conjugate transposes. -/
theorem eraReduce_dual {rows cols : Nat} (g g2 g' g2' : Nat → Nat → 𝕜) (hg : ∀ i j, i < rows → j < cols → g' j i = star (g i j))
    (hg2 : ∀ i j, i < rows → j < cols → g2' j i = star (g2 i j)) (no ni ns : Nat) (model' : LtiModel 𝕜)
    (h : eraReduce svd ⟨cols, rows, g', g2'⟩ ni no ns = .ok model') :
    eraReduce (dualLib svd) ⟨rows, cols, g, g2⟩ no ni ns = .ok model'.dual := by
  have hH : (HankelPair.array ⟨cols, rows, g', g2'⟩ : Matrix (Fin cols) (Fin rows) 𝕜) =
      (HankelPair.array ⟨rows, cols, g, g2⟩ : Matrix (Fin rows) (Fin cols) 𝕜)ᴴ := by
    ext j i
    exact hg i j i.isLt j.isLt
  have hK : (HankelPair.array2 ⟨cols, rows, g', g2'⟩ : Matrix (Fin cols) (Fin rows) 𝕜) =
      (HankelPair.array2 ⟨rows, cols, g, g2⟩ : Matrix (Fin rows) (Fin cols) 𝕜)ᴴ := by
    ext j i
    exact hg2 i j i.isLt j.isLt
  unfold eraReduce at h ⊢
  generalize HankelPair.array ⟨rows, cols, g, g2⟩ = H at *
  generalize HankelPair.array ⟨cols, rows, g', g2'⟩ = H' at *
  generalize HankelPair.array2 ⟨rows, cols, g, g2⟩ = K at *
  generalize HankelPair.array2 ⟨cols, rows, g', g2'⟩ = K' at *
  dsimp only at H H' K K' hH hK h ⊢
  subst hH hK
  split at h
  · cases h
  rename_i e he
  cases h
  rw [utilSvd_dualLib svd H _ _ e he]
  dsimp only [LtiModel.dual, Svd.exchange]
  congr 2
  · simp only [conjTranspose_mul, diagPow_conjTranspose, conjTranspose_conjTranspose, Matrix.mul_assoc]
  · rw [conjTranspose_mul, diagPow_conjTranspose]
    rfl
  · rw [conjTranspose_mul, diagPow_conjTranspose]
    congr 1
    ext i j
    exact (star_star _).symm

/-- Responses of the dual model. -/
theorem LtiModel.dual_response (m : LtiModel 𝕜) (k : Nat) : m.dual.C * m.dual.A ^ k * m.dual.B = (m.C * m.A ^ k * m.B)ᴴ := by
  show m.Bᴴ * m.Aᴴ ^ k * m.Cᴴ = _
  rw [conjTranspose_mul, conjTranspose_mul, conjTranspose_pow, Matrix.mul_assoc]

end Libraries

/-! ### Arrays -/

/-- Arrays of the conjugate transposes. -/
theorem assembleHankel_dual (cast : 𝕜 → 𝕜) (hcast : ∀ x, cast (star x) = star (cast x)) (m m' : Markovs 𝕜) (hd : DualMarkovs m m')
    (mc mo : Option Int) (b' : HankelPair 𝕜) (hb' : assembleHankel cast m' mo mc = .ok b') :
    ∃ b, assembleHankel cast m mc mo = .ok b ∧ b.rows = b'.cols ∧ b.cols = b'.rows ∧
      ∀ i j, i < b.rows → j < b.cols → b'.h j i = star (b.h i j) ∧ b'.h2 j i = star (b.h2 i j) := by
  obtain ⟨nt, no, ni, at_⟩ := m
  obtain ⟨nt', no', ni', at'⟩ := m'
  obtain ⟨h1, h2, h3, h4⟩ := hd
  dsimp only at h1 h2 h3 h4
  subst h1 h2 h3
  have hswap : blockCounts nt' mo mc = ((blockCounts nt' mc mo).2, (blockCounts nt' mc mo).1) := by
    cases mc <;> cases mo <;> rfl
  unfold assembleHankel at hb' ⊢
  dsimp only at hb' ⊢
  rw [hswap] at hb'
  dsimp only at hb'
  split at hb'
  · cases hb'
  rename_i c1
  split at hb'
  · cases hb'
  rename_i c2
  rw [if_neg (by omega), if_neg (by rw [or_comm]; exact c2)]
  generalize (blockCounts nt' mc mo).1.toNat = bo at *
  generalize (blockCounts nt' mc mo).2.toNat = bc at *
  have hok : ∀ p ∈ (List.range bc).flatMap (fun row => (List.range bo).map fun col => (row, col)), 2 * (p.1 + p.2) + 1 < nt' := by
    by_contra hc
    push Not at hc
    rw [hankel_fold_index _ _ _ hc] at hb'
    cases hb'
  have hok' : ∀ p ∈ (List.range bo).flatMap (fun row => (List.range bc).map fun col => (row, col)), 2 * (p.1 + p.2) + 1 < nt' := by
    rintro ⟨r, c⟩ hp
    have := mem_positions.mp hp
    have := hok (c, r) (mem_positions.mpr ⟨this.2, this.1⟩)
    dsimp only at this ⊢
    omega
  obtain ⟨d, hd, k1, k2, k3⟩ := hankel_fold_ok cast ⟨nt', no', ni', at'⟩ _ hok ⟨no' * bc, ni' * bo, fun _ _ => 0, fun _ _ => 0⟩
  rw [hb'] at hd
  cases hd
  obtain ⟨b, hb, l1, l2, l3⟩ := hankel_fold_ok cast ⟨nt', ni', no', at_⟩ _ hok' ⟨ni' * bo, no' * bc, fun _ _ => 0, fun _ _ => 0⟩
  refine ⟨b, hb, l1.trans k2.symm, l2.trans k1.symm, fun i j hi hj => ?_⟩
  rw [l1] at hi
  rw [l2] at hj
  dsimp only at hi hj k3 l3
  have ni0 : 0 < ni' := Nat.pos_of_ne_zero fun h => by simp [h] at hi
  have no0 : 0 < no' := Nat.pos_of_ne_zero fun h => by simp [h] at hj
  have ri := Nat.div_lt_of_lt_mul hi
  have rj := Nat.div_lt_of_lt_mul hj
  obtain ⟨e1, e2⟩ := l3 (i / ni') (j / no') (i % ni') (j % no') (Nat.mod_lt _ ni0) (Nat.mod_lt _ no0)
  obtain ⟨f1, f2⟩ := k3 (j / no') (i / ni') (j % no') (i % ni') (Nat.mod_lt _ no0) (Nat.mod_lt _ ni0)
  rw [if_pos (mem_positions.mpr ⟨ri, rj⟩), Nat.div_add_mod', Nat.div_add_mod'] at e1 e2
  rw [if_pos (mem_positions.mpr ⟨rj, ri⟩), Nat.div_add_mod', Nat.div_add_mod', Nat.add_comm (j / no')] at f1 f2
  have hin := hok' _ (mem_positions.mpr ⟨ri, rj⟩)
  dsimp only at hin
  rw [e1, e2, f1, f2, h4 _ (by omega) _ (Nat.mod_lt _ ni0) _ (Nat.mod_lt _ no0), h4 _ hin _ (Nat.mod_lt _ ni0) _ (Nat.mod_lt _ no0), hcast, hcast]
  exact ⟨rfl, rfl⟩

/-! ### Models -/

section Models

variable (svd svd' : ∀ {m n : Nat}, Matrix (Fin m) (Fin n) 𝕜 → SvdOut 𝕜 m n)

/-- **C126.** A model of the conjugate transposes is the dual of the model that a library with left and right singular vectors
exchanged gives. -/
theorem C126_dual_model (cast : 𝕜 → 𝕜) (hcast : ∀ x, cast (star x) = star (cast x)) (self self' o' : EraObj) (markovs markovs' : MarkovsIn 𝕜)
    (m m' : Markovs 𝕜) (hm : setMarkovs markovs = .ok m) (hm' : setMarkovs markovs' = .ok m') (hd : DualMarkovs m m') (mc mo : Option Int)
    (ns : Nat) (model' : LtiModel 𝕜) (hres' : eraModel svd' cast self' markovs' ns mo mc = .ok (o', model')) :
    ∃ o, eraModel (dualLib svd') cast self markovs ns mc mo = .ok (o, model'.dual) := by
  obtain ⟨b', -, hb', hred⟩ := eraModel_cases svd' cast self' o' markovs' m' mo mc ns model' hm' hres'
  obtain ⟨⟨rows, cols, g, g2⟩, hb, h1, h2, h3⟩ := assembleHankel_dual cast hcast m m' hd mc mo b' hb'
  obtain ⟨rows', cols', g', g2'⟩ := b'
  dsimp only at h1 h2 h3
  subst h1 h2
  rw [hd.outputs, hd.inputs] at hred
  have := eraReduce_dual svd' g g2 g' g2' (fun i j hi hj => (h3 i j hi hj).1) (fun i j hi hj => (h3 i j hi hj).2) m.no m.ni ns model' hred
  unfold eraModel eraHankel
  rw [hm]
  dsimp only
  rw [hb]
  dsimp only
  rw [this]
  exact ⟨_, rfl⟩

theorem DualMarkovs.symm {m m' : Markovs 𝕜} (h : DualMarkovs m m') : DualMarkovs m' m := by
  refine ⟨h.number.symm, h.inputs.symm, h.outputs.symm, fun t ht i hi j hj => ?_⟩
  rw [h.entries t (h.number ▸ ht) j (h.inputs ▸ hj) i (h.outputs ▸ hi), star_star]

/-- **C126.** There is a model of the conjugate transposes if and only if there is one of the data. -/
theorem C126_no_error (cast : 𝕜 → 𝕜) (hcast : ∀ x, cast (star x) = star (cast x)) (self self' : EraObj) (markovs markovs' : MarkovsIn 𝕜)
    (m m' : Markovs 𝕜) (hm : setMarkovs markovs = .ok m) (hm' : setMarkovs markovs' = .ok m') (hd : DualMarkovs m m') (mc mo : Option Int)
    (ns : Nat) :
    (∃ out, eraModel svd cast self markovs ns mc mo = .ok out) ↔ ∃ out', eraModel svd' cast self' markovs' ns mo mc = .ok out' := by
  constructor
  · rintro ⟨⟨o, model⟩, h⟩
    obtain ⟨o', h1⟩ := C126_dual_model svd cast hcast self' self o markovs' markovs m' m hm' hm hd.symm mo mc ns model h
    obtain ⟨b, hb, -⟩ := eraModel_cases _ cast self' o' markovs' m' mo mc ns _ hm' h1
    obtain ⟨model', h2⟩ := C36_no_error svd' cast self' o' markovs' mo mc ns b hb
    exact ⟨_, h2⟩
  · rintro ⟨⟨o', model'⟩, h⟩
    obtain ⟨o, h1⟩ := C126_dual_model svd' cast hcast self self' o' markovs markovs' m m' hm hm' hd mc mo ns model' h
    obtain ⟨b, hb, -⟩ := eraModel_cases _ cast self o markovs m mc mo ns _ hm h1
    obtain ⟨model, h2⟩ := C36_no_error svd cast self o markovs mc mo ns b hb
    exact ⟨_, h2⟩

/-- **C126** for `compute_ERA_model`. -/
theorem C126_compute_ERA_model (cast : 𝕜 → 𝕜) (hcast : ∀ x, cast (star x) = star (cast x)) (markovs markovs' : MarkovsIn 𝕜)
    (m m' : Markovs 𝕜) (hm : setMarkovs markovs = .ok m) (hm' : setMarkovs markovs' = .ok m') (hd : DualMarkovs m m')
    (ns : Nat) (model' : LtiModel 𝕜) (hres' : computeEraModel svd' cast markovs' ns = .ok model') :
    computeEraModel (dualLib svd') cast markovs ns = .ok model'.dual := by
  unfold computeEraModel at hres' ⊢
  split at hres'
  · cases hres'
  rename_i o' model2 h2
  cases hres'
  obtain ⟨o, h1⟩ := C126_dual_model svd' cast hcast (eraInit none none) (eraInit none none) o' markovs markovs' m m' hm hm' hd none none ns model' h2
  rw [h1]

/-- **C126.** Responses of a model of the conjugate transposes are the conjugate transposes of those of the model, whatever singular
vectors the library returns.  The number of states must not separate equal singular values. -/
theorem C126_response (hlib : ∀ {m n : Nat} (a : Matrix (Fin m) (Fin n) 𝕜), IsSvd a (svd a))
    (hlib' : ∀ {m n : Nat} (a : Matrix (Fin m) (Fin n) 𝕜), IsSvd a (svd' a)) (cast : 𝕜 → 𝕜) (hcast : ∀ x, cast x = x)
    (self self' o o' : EraObj) (markovs markovs' : MarkovsIn 𝕜) (m m' : Markovs 𝕜) (mc mo : Option Int)
    (hm : setMarkovs markovs = .ok m) (hm' : setMarkovs markovs' = .ok m') (hd : DualMarkovs m m') (hno : 1 ≤ m.no) (hni : 1 ≤ m.ni)
    (h : HankelPair 𝕜) (hh : eraHankel cast self markovs mc mo = .ok (o, h)) (ns : Nat)
    (gap : ∀ i j : Fin (min h.rows h.cols), i.val < ns → ns ≤ j.val → 1e-13 < (svd h.array).S j →
      (svd h.array).S j < (svd h.array).S i)
    (model model' : LtiModel 𝕜) (hres : eraModel svd cast self markovs ns mc mo = .ok (o, model))
    (hres' : eraModel svd' cast self' markovs' ns mo mc = .ok (o', model')) (hr : 1 ≤ model.r) : DualResponse model model' := by
  obtain ⟨o1, h1⟩ := C126_dual_model svd' cast (fun x => by rw [hcast, hcast]) self self' o' markovs markovs' m m' hm hm' hd mc mo ns model' hres'
  obtain ⟨o2, model2, h2, h3⟩ := C98_response_partial svd (fun {m n} => dualLib (fun {m n} => svd' (m := m) (n := n)) (m := m) (n := n)) hlib
    (fun a => dualLib_isSvd _ a (hlib' _)) cast hcast self self o markovs markovs m m mc mo hm hm rfl hno hni hno hni (R := 1) (T := 1) (c := 1)
    (by simp) (by simp) one_ne_zero (fun t _ => by simp) h hh ns (fun i => by simp) gap model hres hr
  rw [h1] at h2
  obtain ⟨-, rfl⟩ := Prod.mk.inj (Except.ok.inj h2)
  obtain ⟨k1, k2, k3, k4, k5, k6⟩ := h3
  refine ⟨k1, k5.trans k4.symm, k3.trans k2.symm, fun k => ?_⟩
  have h4 := k6 k
  rw [model'.dual_response, one_smul, conjTranspose_one, Matrix.one_mul, Matrix.mul_one] at h4
  ext i j
  have h5 := congrFun (congrFun h4 (Fin.cast k4 j)) (Fin.cast k2 i)
  exact (star_star _).symm.trans (congrArg star h5)

end Models

/-! ### Example -/

/-- Two inputs and two outputs; the second output is the first input halved at every step, and the first the opposite of the second. -/
noncomputable def turned : Markovs ℝ := ⟨6, 2, 2, fun k i j => if i = j then 0 else if i < j then -(1 / 2) ^ k else (1 / 2) ^ k⟩

/-- The transposes of `turned`. -/
noncomputable def turned' : Markovs ℝ := ⟨6, 2, 2, fun k i j => if i = j then 0 else if i < j then (1 / 2) ^ k else -(1 / 2) ^ k⟩

theorem turned_dual : DualMarkovs turned turned' := by
  refine ⟨rfl, rfl, rfl, fun t _ i _ j _ => ?_⟩
  simp only [turned, turned', star_trivial]
  split_ifs <;> first | rfl | omega

theorem turned_hankel : ∃ o f2, ∃ f : Nat → Nat → ℝ, eraHankel id (eraInit none none) (.d3 turned) none none =
      .ok (o, ⟨2, 2, f, f2⟩) ∧ (HankelPair.array ⟨2, 2, f, f2⟩ : Matrix (Fin 2) (Fin 2) ℝ) = !![0, -1; 1, 0] := by
  unfold eraHankel
  rw [show setMarkovs (.d3 turned) = .ok turned by simp [setMarkovs, turned]]
  dsimp only [eraInit]
  have hnt : turned.nt = 6 := by simp [turned]
  rw [assembleHankel_none id turned (by rw [hnt]; decide) none none (Or.inl rfl)]
  obtain ⟨h, hh, h1, h2, h3⟩ := C33_blocks id turned 1 1 (by rw [hnt]; decide) (by rw [hnt]; decide)
  have e : ((turned.nt - 2) / 4 : Nat) = 1 := by rw [hnt]
  rw [e, hh]
  obtain ⟨rows, cols, f, f2⟩ := h
  have h1' : rows = 2 := h1
  have h2' : cols = 2 := h2
  subst h1' h2'
  refine ⟨_, f2, f, rfl, ?_⟩
  ext i j
  have := (h3 0 0 i j (by decide) (by decide) i.isLt j.isLt).1
  simp only [turned, Nat.zero_mul, Nat.zero_add, Nat.mul_zero, pow_zero, id] at this
  refine Eq.trans this ?_
  revert i j
  simp [Fin.forall_fin_two]

/-- Models with two states of `turned` and of the transposes. -/
example (svd svd' : ∀ {m n : Nat}, Matrix (Fin m) (Fin n) ℝ → SvdOut ℝ m n)
    (hsvd : ∀ {m n : Nat} (a : Matrix (Fin m) (Fin n) ℝ), IsSvd a (svd a))
    (hsvd' : ∀ {m n : Nat} (a : Matrix (Fin m) (Fin n) ℝ), IsSvd a (svd' a)) :
    ∃ o o' model model', eraModel svd id (eraInit none none) (.d3 turned) 2 none none = .ok (o, model) ∧
      eraModel svd' id (eraInit none none) (.d3 turned') 2 none none = .ok (o', model') ∧ model.r = 2 ∧ DualResponse model model' := by
  have set : setMarkovs (.d3 turned) = .ok turned := by simp [setMarkovs, turned]
  have set' : setMarkovs (.d3 turned') = .ok turned' := by simp [setMarkovs, turned']
  obtain ⟨o, f2, f, hh, ha⟩ := turned_hankel
  obtain ⟨model, hmodel⟩ := C36_no_error svd id (eraInit none none) o (.d3 turned) none none 2 _ hh
  obtain ⟨h', hh', -, hred⟩ := eraModel_cases svd id (eraInit none none) o _ turned none none 2 model set hmodel
  rw [hh] at hh'
  obtain ⟨-, rfl⟩ := Prod.mk.inj (Except.ok.inj hh')
  have hh' : ∃ o' b', eraHankel id (eraInit none none) (.d3 turned') none none = .ok (o', b') := by
    unfold eraHankel
    rw [set']
    dsimp only [eraInit]
    have hnt : turned'.nt = 6 := by simp [turned']
    rw [assembleHankel_none id turned' (by rw [hnt]; decide) none none (Or.inl rfl)]
    obtain ⟨h, hh, -⟩ := C33_blocks id turned' 1 1 (by rw [hnt]; decide) (by rw [hnt]; decide)
    have e : ((turned'.nt - 2) / 4 : Nat) = 1 := by rw [hnt]
    rw [e, hh]
    exact ⟨_, _, rfl⟩
  obtain ⟨o', b', hh'⟩ := hh'
  obtain ⟨model', hmodel'⟩ := C36_no_error svd' id (eraInit none none) o' (.d3 turned') none none 2 _ hh'
  let J : Matrix (Fin 2) (Fin 2) ℝ := !![0, -1; 1, 0]
  have hJ : Jᴴ * J = 1 := by
    ext i j
    fin_cases i <;> fin_cases j <;> simp [J, Matrix.mul_apply]
  have hS : ∀ i, (svd J).S i = 1 := fun i =>
    values_of_one (Jᴴ * (svd J).U) (svd J).Vh (svd J).S (by
      have h := (hsvd J).left
      rw [conjTranspose_mul, conjTranspose_conjTranspose, show (svd J).Uᴴ * J * (Jᴴ * (svd J).U) = (svd J).Uᴴ * (J * Jᴴ) * (svd J).U by
        simp only [Matrix.mul_assoc], mul_eq_one_comm.mp hJ, Matrix.mul_one]
      exact h)
      (hsvd _).right (by
        have h := congrArg (Jᴴ * ·) (hsvd J).product
        rw [hJ] at h
        refine h.trans ?_
        simp only [Matrix.mul_assoc]
        rfl) (fun i => (hsvd J).nonneg i) i
  have hS' : ∀ i, (svd (HankelPair.array ⟨2, 2, f, f2⟩)).S i = 1 := by
    rw [ha]
    exact hS
  have hr : model.r = 2 := by
    unfold eraReduce at hred
    split at hred
    · cases hred
    rename_i s hs
    cases hred
    dsimp only
    obtain ⟨k1, k2, -⟩ := C19_kept_iff svd _ _ _ (hsvd _) (by simp) s hs
    have := (k2 (1 : Fin 2)).mpr ⟨fun t ht => ?_, fun t ht => by cases ht⟩
    · exact Nat.min_eq_left this
    · cases ht
      refine lt_of_lt_of_eq ?_ (congrArg abs (hS' (1 : Fin 2))).symm
      norm_num [svdAtol]
  exact ⟨o, o', model, model', hmodel, hmodel', hr, C126_response svd svd' hsvd hsvd' id (fun _ => rfl) _ _ o o' _ _ turned turned' none none
    set set' turned_dual (by simp [turned]) (by simp [turned]) _ hh 2 (fun i j _ h2 => absurd j.isLt (by
      have := lt_min_iff.mp j.isLt
      exact absurd this.1 (not_lt.mpr h2))) model model' hmodel hmodel' (by rw [hr]; decide)⟩

end Modred
