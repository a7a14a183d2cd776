import Verif.Model.EraModel
import Verif.Lemmas.Balance
import Verif.Lemmas.SvdExists
import Verif.Props.Era
import Verif.Props.Pod
import Mathlib.LinearAlgebra.Matrix.Rank
import Mathlib.LinearAlgebra.Matrix.NonsingularInverse

/-!
# Models computed by ERA (C36)
-/

namespace Modred

open Matrix

variable {𝕜 : Type*} [RCLike 𝕜]

/-! ### Lemmas -/

/-- A change of coordinates keeps the Markov parameters. -/
theorem markov_similar {n r p q : Nat} (hr : r = n) (T : Matrix (Fin r) (Fin n) 𝕜) (T' : Matrix (Fin n) (Fin r) 𝕜)
    (h : T * T' = 1) (A : Matrix (Fin n) (Fin n) 𝕜) (B : Matrix (Fin n) (Fin p) 𝕜) (C : Matrix (Fin q) (Fin n) 𝕜)
    (k : Nat) : (C * T') * (T * A * T') ^ k * (T * B) = C * A ^ k * B := by
  have h' : T' * T = 1 := (mul_eq_one_comm_of_equiv (finCongr hr)).mp h
  have hk : T' * ((T * A * T') ^ k * T) = A ^ k := by
    induction k with
    | zero => simp [h']
    | succ k ih =>
      rw [pow_succ, pow_succ, ← ih]
      rw [show T' * ((T * A * T') ^ k * (T * A * T') * T) = T' * ((T * A * T') ^ k * T) * A * (T' * T) by
        simp only [Matrix.mul_assoc]]
      rw [h', Matrix.mul_one]
  rw [show C * T' * (T * A * T') ^ k * (T * B) = C * (T' * ((T * A * T') ^ k * T)) * B by
    simp only [Matrix.mul_assoc]]
  rw [hk]

/-- The number of nonzero singular values is the rank. -/
theorem IsSvd.rank {m n : Nat} {a : Matrix (Fin m) (Fin n) 𝕜} {o : SvdOut 𝕜 m n} (h : IsSvd a o) :
    a.rank = Fintype.card {i // o.S i ≠ 0} := by
  classical
  have h1 : a.rank = (diagonal (fun i => (o.S i : 𝕜))).rank := by
    apply le_antisymm
    · rw [h.product]
      exact (rank_mul_le_left _ _).trans (rank_mul_le_right _ _)
    · have : diagonal (fun i => (o.S i : 𝕜)) = o.Uᴴ * a * o.Vhᴴ := by
        conv_rhs => rw [h.product]
        rw [show o.Uᴴ * (o.U * diagonal (fun i => (o.S i : 𝕜)) * o.Vh) * o.Vhᴴ =
          o.Uᴴ * o.U * diagonal (fun i => (o.S i : 𝕜)) * (o.Vh * o.Vhᴴ) by simp only [Matrix.mul_assoc]]
        rw [h.left, h.right, Matrix.one_mul, Matrix.mul_one]
      rw [this]
      exact (rank_mul_le_left _ _).trans (rank_mul_le_right _ _)
  rw [h1, rank_diagonal]
  refine Fintype.card_congr (Equiv.subtypeEquivRight fun i => ?_)
  simp

/-- If all nonzero singular values are larger than the absolute tolerance, `util.svd` retains as many as the
rank. -/
theorem utilSvd_rank {m n : Nat} (lib : Matrix (Fin m) (Fin n) 𝕜 → SvdOut 𝕜 m n) (a : Matrix (Fin m) (Fin n) 𝕜)
    (t : ℝ) (ht : 0 ≤ t) (h : IsSvd a (lib a)) (hz : ∀ i, (lib a).S i ≠ 0 → t < (lib a).S i) (s : Svd 𝕜 m n)
    (hs : utilSvd lib a (some t) none = .ok s) : s.r = a.rank := by
  classical
  obtain ⟨num, hnum, rfl⟩ := utilSvd_cases lib a _ _ s hs
  have hn : num = Fintype.card {i // (lib a).S i ≠ 0} := by
    unfold numRetained at hnum
    dsimp only at hnum
    cases hnum
    unfold numAbove
    rw [Fintype.card_subtype]
    refine congrArg Finset.card (Finset.ext fun i => ?_)
    simp only [Finset.mem_filter, Finset.mem_univ, true_and]
    rw [abs_of_nonneg (h.nonneg i)]
    constructor
    · intro h0 h1
      rw [h1] at h0
      linarith
    · exact hz i
  have hle : num ≤ min m n := by
    rw [hn]
    exact (Fintype.card_subtype_le _).trans (by simp)
  dsimp only
  rw [h.rank, ← hn, Nat.min_eq_left hle]

/-- Singular triples that are kept by `[:, :k]`. -/
theorem firstCols_triples {m n r : Nat} (a : Matrix (Fin m) (Fin n) 𝕜) (U : Matrix (Fin m) (Fin r) 𝕜)
    (S : Fin r → ℝ) (V : Matrix (Fin n) (Fin r) 𝕜) (k : Nat) (hV : Vᴴ * V = 1)
    (haV : a * V = U * diagPow (𝕜 := 𝕜) S 1) (haU : aᴴ * U = V * diagPow (𝕜 := 𝕜) S 1) :
    (firstCols V k)ᴴ * firstCols V k = 1 ∧
    a * firstCols V k = firstCols U k * diagPow (𝕜 := 𝕜) (firstEntries S k) 1 ∧
    aᴴ * firstCols U k = firstCols V k * diagPow (𝕜 := 𝕜) (firstEntries S k) 1 := by
  refine ⟨orthonormal_submatrix _ hV _ (Fin.castLE_injective _), ?_, ?_⟩
  · unfold firstCols
    rw [mul_submatrix_cols, haV, diagPow_one, diagPow_one, mul_diagonal_submatrix]
    rfl
  · unfold firstCols
    rw [mul_submatrix_cols, haU, diagPow_one, diagPow_one, mul_diagonal_submatrix]
    rfl

/-- Blocks of assembled Hankel arrays, for all ways to give the numbers of blocks. -/
theorem assembleHankel_blocks {K : Type*} [Zero K] (cast : K → K) (m : Markovs K) (mc mo : Option Int)
    (b : HankelPair K) (hb : assembleHankel cast m mc mo = .ok b) :
    ∃ mo' mc' : Nat, b.rows = m.no * mo' ∧ b.cols = m.ni * mc' ∧
      ∀ r c, r < mo' → c < mc' → 2 * (r + c) + 1 < m.nt ∧ ∀ i j, i < m.no → j < m.ni →
        b.h (r * m.no + i) (c * m.ni + j) = cast (m.at_ (2 * (r + c)) i j) ∧
        b.h2 (r * m.no + i) (c * m.ni + j) = cast (m.at_ (2 * (r + c) + 1) i j) := by
  unfold assembleHankel at hb
  dsimp only at hb
  split at hb
  · cases hb
  split at hb
  · cases hb
  generalize (blockCounts m.nt mc mo).1.toNat = mo' at hb
  generalize (blockCounts m.nt mc mo).2.toNat = mc' at hb
  have hok : ∀ p ∈ (List.range mo').flatMap (fun row => (List.range mc').map fun col => (row, col)),
      2 * (p.1 + p.2) + 1 < m.nt := by
    by_contra hc
    push Not at hc
    rw [hankel_fold_index _ _ _ hc] at hb
    cases hb
  obtain ⟨b', hb', h1, h2, h3⟩ := hankel_fold_ok cast m _ hok
    ⟨m.no * mo', m.ni * mc', fun _ _ => 0, fun _ _ => 0⟩
  rw [hb] at hb'
  cases hb'
  refine ⟨mo', mc', h1, h2, fun r c hr hc => ⟨hok (r, c) (mem_positions.mpr ⟨hr, hc⟩), fun i j hi hj => ?_⟩⟩
  obtain ⟨e1, e2⟩ := h3 r c i j hi hj
  rw [if_pos (mem_positions.mpr ⟨hr, hc⟩)] at e1 e2
  exact ⟨e1, e2⟩

/-! ### C36 -/

/-- The rows `C A^(P r)` of the observability array and the columns `A^(P c) B` of the controllability
array. -/
noncomputable def obsArray {n q : Nat} (A : Matrix (Fin n) (Fin n) 𝕜) (C : Matrix (Fin q) (Fin n) 𝕜)
    (P rows : Nat) : Matrix (Fin rows) (Fin n) 𝕜 :=
  Matrix.of fun i l => if h : i.val % q < q then (C * A ^ (P * (i.val / q))) ⟨i % q, h⟩ l else 0

noncomputable def ctrlArray {n p : Nat} (A : Matrix (Fin n) (Fin n) 𝕜) (B : Matrix (Fin n) (Fin p) 𝕜)
    (P cols : Nat) : Matrix (Fin n) (Fin cols) 𝕜 :=
  Matrix.of fun l j => if h : j.val % p < p then (A ^ (P * (j.val / p)) * B) l ⟨j % p, h⟩ else 0

theorem obs_mul_ctrl {n p q : Nat} (A M : Matrix (Fin n) (Fin n) 𝕜) (B : Matrix (Fin n) (Fin p) 𝕜)
    (C : Matrix (Fin q) (Fin n) 𝕜) (P rows cols : Nat) (i : Fin rows) (j : Fin cols) (hi : i.val % q < q)
    (hj : j.val % p < p) :
    (obsArray A C P rows * M * ctrlArray A B P cols) i j =
      (C * A ^ (P * (i.val / q)) * M * A ^ (P * (j.val / p)) * B) ⟨i % q, hi⟩ ⟨j % p, hj⟩ := by
  rw [Matrix.mul_assoc (C * A ^ (P * (i.val / q)) * M), Matrix.mul_apply, Matrix.mul_apply]
  refine Finset.sum_congr rfl fun k _ => ?_
  unfold ctrlArray
  rw [Matrix.of_apply, dif_pos hj]
  congr 1
  rw [Matrix.mul_apply, Matrix.mul_apply]
  refine Finset.sum_congr rfl fun l _ => ?_
  unfold obsArray
  rw [Matrix.of_apply, dif_pos hi]

/-- The model that `eraReduce` computes is the given system in other coordinates, if the Hankel arrays are
products of observability and controllability arrays and the model has as many states as the system. -/
theorem eraReduce_markov (svd : ∀ {m n : Nat}, Matrix (Fin m) (Fin n) 𝕜 → SvdOut 𝕜 m n) (h : HankelPair 𝕜)
    (numStates n : Nat) {p q : Nat} (A : Matrix (Fin n) (Fin n) 𝕜) (O : Matrix (Fin h.rows) (Fin n) 𝕜)
    (K : Matrix (Fin n) (Fin h.cols) 𝕜) (h1 : h.array = O * K) (h2 : h.array2 = O * A * K)
    (hlib : IsSvd h.array (svd h.array)) (model : LtiModel 𝕜)
    (hres : eraReduce svd h q p numStates = .ok model) (hr : model.r = n) (k : Nat) :
    ∃ (hp : model.p = min p h.cols) (hq : model.q = min q h.rows),
      (model.C * model.A ^ k * model.B).submatrix (Fin.cast hq.symm) (Fin.cast hp.symm) =
        firstRows O q * A ^ k * firstCols K p := by
  unfold eraReduce at hres
  split at hres
  · cases hres
  rename_i s hs
  cases hres
  refine ⟨rfl, rfl, ?_⟩
  dsimp only at hr ⊢
  obtain ⟨-, hV, hHV, hHU⟩ := utilSvd_triples svd h.array _ _ hlib s hs
  have hS : ∀ i, 0 < firstEntries s.S numStates i := fun i =>
    lt_trans (by norm_num [svdAtol]) (utilSvd_positive svd h.array none svdAtol (by simp) hlib s hs _)
  obtain ⟨hV', hHV', hHU'⟩ := firstCols_triples h.array s.U s.S s.V numStates hV hHV hHU
  generalize hE : firstEntries s.S numStates = E at *
  generalize firstCols s.U numStates = U at *
  generalize firstCols s.V numStates = V at *
  have hone := balance_one hS hV' hHU'
  have hleft := balance_left hS hHU'
  have hC : U * diagPow (𝕜 := 𝕜) E 0.5 = O * (K * (V * diagPow (𝕜 := 𝕜) E (-0.5))) := by
    rw [← Matrix.mul_assoc, ← h1, ← Matrix.mul_assoc, hHV', Matrix.mul_assoc, diagPow_mul _ hS]
    rw [show (1 + -0.5 : ℝ) = 0.5 by norm_num]
  rw [h1] at hone hleft
  have key := markov_similar hr ((U * diagPow (𝕜 := 𝕜) E (-0.5))ᴴ * O) (K * (V * diagPow (𝕜 := 𝕜) E (-0.5)))
    (by rw [← hone]; simp only [Matrix.mul_assoc]) A (firstCols K p) (firstRows O q) k
  rw [← key]
  have e1 : firstRows U q * diagPow (𝕜 := 𝕜) E 0.5 = firstRows O q * (K * (V * diagPow (𝕜 := 𝕜) E (-0.5))) := by
    have : firstRows (U * diagPow (𝕜 := 𝕜) E 0.5) q = firstRows U q * diagPow (𝕜 := 𝕜) E 0.5 := rfl
    rw [← this, hC]
    rfl
  have e2 : diagPow (𝕜 := 𝕜) E 0.5 * firstCols Vᴴ p = (U * diagPow (𝕜 := 𝕜) E (-0.5))ᴴ * O * firstCols K p := by
    have : firstCols (diagPow (𝕜 := 𝕜) E 0.5 * Vᴴ) p = diagPow (𝕜 := 𝕜) E 0.5 * firstCols Vᴴ p := rfl
    rw [← this, ← hleft, ← Matrix.mul_assoc]
    rfl
  have e3 : diagPow (𝕜 := 𝕜) E (-0.5) * (Uᴴ * (h.array2 * (V * diagPow (𝕜 := 𝕜) E (-0.5)))) =
      (U * diagPow (𝕜 := 𝕜) E (-0.5))ᴴ * O * A * (K * (V * diagPow (𝕜 := 𝕜) E (-0.5))) := by
    rw [h2, conjTranspose_mul, diagPow_conjTranspose]
    simp only [Matrix.mul_assoc]
  rw [e1, e2, e3]
  rfl

section C36

variable (svd : ∀ {m n : Nat}, Matrix (Fin m) (Fin n) 𝕜 → SvdOut 𝕜 m n) (cast : 𝕜 → 𝕜) (self o o' : EraObj)
  (markovs : MarkovsIn 𝕜) (m : Markovs 𝕜) (mc mo : Option Int)

theorem eraModel_cases (numStates : Nat) (model : LtiModel 𝕜) (hm : setMarkovs markovs = .ok m)
    (hres : eraModel svd cast self markovs numStates mc mo = .ok (o, model)) :
    ∃ h, eraHankel cast self markovs mc mo = .ok (o, h) ∧ assembleHankel cast m mc mo = .ok h ∧
      eraReduce svd h m.no m.ni numStates = .ok model := by
  unfold eraModel at hres
  rw [hm] at hres
  dsimp only at hres
  split at hres
  · cases hres
  rename_i self' h hh
  split at hres
  · cases hres
  rename_i model' hmodel
  cases hres
  refine ⟨h, hh, ?_, hmodel⟩
  unfold eraHankel at hh
  rw [hm] at hh
  dsimp only at hh
  split at hh
  · cases hh
  rename_i h' hh'
  cases hh
  exact hh'

/-- **C36.** Given Markov parameters `C A^(P k) B` and `C A^(P k + 1) B` of a system with `n` states whose
Hankel array has rank `n`, the model with `n` states has all Markov parameters of the system, also those that
were not given.  Nonzero singular values must be larger than the tolerance of `util.svd`, which the user
cannot change, and numbers must not change when they are stored in real arrays. -/
theorem C36_recovers (hcast : ∀ x, cast x = x) {n : Nat} (P : Nat) (A : Matrix (Fin n) (Fin n) 𝕜)
    (B : Matrix (Fin n) (Fin m.ni) 𝕜) (C : Matrix (Fin m.no) (Fin n) 𝕜) (hm : setMarkovs markovs = .ok m)
    (hM : ∀ k, 2 * k + 1 < m.nt → ∀ (i : Fin m.no) (j : Fin m.ni),
      m.at_ (2 * k) i j = (C * A ^ (P * k) * B) i j ∧
      m.at_ (2 * k + 1) i j = (C * A ^ (P * k + 1) * B) i j)
    (h : HankelPair 𝕜) (hh : eraHankel cast self markovs mc mo = .ok (o', h)) (hrank : h.array.rank = n)
    (hlib : IsSvd h.array (svd h.array)) (hz : ∀ i, (svd h.array).S i ≠ 0 → 1e-13 < (svd h.array).S i)
    (model : LtiModel 𝕜) (hres : eraModel svd cast self markovs n mc mo = .ok (o, model)) :
    model.r = n ∧ (1 ≤ n → model.p = m.ni ∧ model.q = m.no) ∧
    ∀ (k : Nat) (i : Fin model.q) (j : Fin model.p) (i' : Fin m.no) (j' : Fin m.ni), i'.val = i.val →
      j'.val = j.val → (model.C * model.A ^ k * model.B) i j = (C * A ^ k * B) i' j' := by
  obtain ⟨h', hh', hasm, hred⟩ := eraModel_cases svd cast self o markovs m mc mo n model hm hres
  rw [hh] at hh'
  obtain ⟨-, rfl⟩ := Prod.mk.inj (Except.ok.inj hh')
  obtain ⟨mo', mc', hrows, hcols, hblk⟩ := assembleHankel_blocks cast m mc mo h hasm
  have hr : model.r = n := by
    unfold eraReduce at hred
    split at hred
    · cases hred
    rename_i s hs
    cases hred
    dsimp only
    rw [utilSvd_rank svd h.array svdAtol (by norm_num [svdAtol]) hlib (fun i hi => hz i hi) s hs, hrank, Nat.min_self]
  have hpos : ∀ {a b x : Nat}, x < a * b → x % a < a ∧ x / a < b := by
    intro a b x hx
    have ha : 0 < a := by
      rcases Nat.eq_zero_or_pos a with rfl | ha
      · rw [Nat.zero_mul] at hx; omega
      · exact ha
    exact ⟨Nat.mod_lt _ ha, Nat.div_lt_of_lt_mul hx⟩
  have hent : ∀ (i : Fin h.rows) (j : Fin h.cols),
      h.array i j = (obsArray A C P h.rows * ctrlArray A B P h.cols) i j ∧
      h.array2 i j = (obsArray A C P h.rows * A * ctrlArray A B P h.cols) i j := by
    intro i j
    obtain ⟨hi1, hi2⟩ := hpos (i.isLt.trans_eq hrows)
    obtain ⟨hj1, hj2⟩ := hpos (j.isLt.trans_eq hcols)
    obtain ⟨hb1, hb2⟩ := hblk _ _ hi2 hj2
    obtain ⟨e1, e2⟩ := hb2 _ _ hi1 hj1
    obtain ⟨f1, f2⟩ := hM _ hb1 ⟨_, hi1⟩ ⟨_, hj1⟩
    rw [Nat.div_add_mod', Nat.div_add_mod', hcast] at e1 e2
    have g1 := obs_mul_ctrl A 1 B C P h.rows h.cols i j hi1 hj1
    rw [Matrix.mul_one, Matrix.mul_one] at g1
    constructor
    · rw [g1]
      refine (e1.trans f1).trans ?_
      rw [Nat.mul_add, pow_add]
      simp only [Matrix.mul_assoc]
    · rw [obs_mul_ctrl A A B C P h.rows h.cols i j hi1 hj1]
      refine (e2.trans f2).trans ?_
      rw [Nat.mul_add, Nat.add_right_comm, pow_add, pow_succ]
      simp only [Matrix.mul_assoc]
  obtain ⟨hp, hq, -⟩ := eraReduce_markov svd h n n A (obsArray A C P h.rows) (ctrlArray A B P h.cols)
    (by ext i j; exact (hent i j).1) (by ext i j; exact (hent i j).2) hlib model hred hr 0
  refine ⟨hr, fun hn => ?_, fun k i j i' j' hi hj => ?_⟩
  · have h1 : 1 ≤ h.cols := by
      have := h.array.rank_le_width
      omega
    have h2 : 1 ≤ h.rows := by
      have := h.array.rank_le_height
      omega
    have h3 : ∀ a b : Nat, 1 ≤ a * b → a ≤ a * b := by
      intro a b hab
      refine Nat.le_mul_of_pos_right a ?_
      rcases Nat.eq_zero_or_pos b with rfl | hb
      · simp at hab
      · exact hb
    rw [hp, hq]
    rw [hrows] at h2 ⊢
    rw [hcols] at h1 ⊢
    exact ⟨Nat.min_eq_left (h3 _ _ h1), Nat.min_eq_left (h3 _ _ h2)⟩
  · obtain ⟨hp, hq, hk⟩ := eraReduce_markov svd h n n A (obsArray A C P h.rows) (ctrlArray A B P h.cols)
      (by ext i j; exact (hent i j).1) (by ext i j; exact (hent i j).2) hlib model hred hr k
    have hij := congrFun (congrFun hk (Fin.cast hq i)) (Fin.cast hp j)
    refine Eq.trans hij ?_
    rw [Matrix.mul_apply, Matrix.mul_apply]
    refine Finset.sum_congr rfl fun l _ => ?_
    congr 1
    · rw [Matrix.mul_apply, Matrix.mul_apply]
      refine Finset.sum_congr rfl fun l' _ => ?_
      congr 1
      unfold firstRows obsArray
      have e : i.val < m.no := hi ▸ i'.isLt
      simp only [submatrix_apply, Matrix.of_apply, Fin.val_castLE, Fin.val_cast, Nat.mod_eq_of_lt e,
        Nat.div_eq_of_lt e, dif_pos e, Nat.mul_zero, pow_zero, Matrix.mul_one, id]
      congr 1
      exact Fin.ext hi.symm
    · unfold firstCols ctrlArray
      have e : j.val < m.ni := hj ▸ j'.isLt
      simp only [submatrix_apply, Matrix.of_apply, Fin.val_castLE, Fin.val_cast, Nat.mod_eq_of_lt e,
        Nat.div_eq_of_lt e, dif_pos e, Nat.mul_zero, pow_zero, Matrix.one_mul, id]
      congr 1
      exact Fin.ext hj.symm

/-- **C36.** Whenever the Hankel arrays are assembled, a model is returned. -/
theorem C36_no_error (numStates : Nat) (h : HankelPair 𝕜)
    (hh : eraHankel cast self markovs mc mo = .ok (o, h)) :
    ∃ model, eraModel svd cast self markovs numStates mc mo = .ok (o, model) := by
  unfold eraModel
  cases hm : setMarkovs markovs with
  | error e =>
    unfold eraHankel at hh
    rw [hm] at hh
    cases hh
  | ok m =>
    dsimp only
    rw [hh]
    dsimp only
    unfold eraReduce
    cases hs : utilSvd svd h.array (some svdAtol) none with
    | error e =>
      obtain ⟨-, h0, -⟩ := (C19_error_iff _ _ _ _ _).mp hs
      exact absurd rfl h0
    | ok s => exact ⟨_, rfl⟩

/-- **C36.** Markov parameters `C A^k B` at equally spaced times, put into the sampled format by
`make_sampled_format`, give a model with all Markov parameters of the system. -/
theorem C36_from_samples {T : Type*} [Field T] [LinearOrder T] [IsStrictOrderedRing T] [FloorRing T]
    (hcast : ∀ x, cast x = x) (t0 dt tol : T) (hdt : dt ≠ 0) (htol : 0 ≤ tol) (hn : 2 ≤ m.nt) {n : Nat}
    (A : Matrix (Fin n) (Fin n) 𝕜) (B : Matrix (Fin n) (Fin m.ni) 𝕜) (C : Matrix (Fin m.no) (Fin n) 𝕜)
    (hM : ∀ k, k < m.nt → ∀ (i : Fin m.no) (j : Fin m.ni), m.at_ k i j = (C * A ^ k * B) i j) :
    ∃ steps s, makeSampledFormat cast ((List.range m.nt).map fun k : Nat => t0 + (k : T) * dt) m tol =
        .ok (steps, s) ∧
      ∀ (h : HankelPair 𝕜), eraHankel cast self (.d3 s) mc mo = .ok (o', h) → h.array.rank = n →
        IsSvd h.array (svd h.array) → (∀ i, (svd h.array).S i ≠ 0 → 1e-13 < (svd h.array).S i) →
        ∀ model, eraModel svd cast self (.d3 s) n mc mo = .ok (o, model) →
        model.r = n ∧ (1 ≤ n → model.p = m.ni ∧ model.q = m.no) ∧
        ∀ (k : Nat) (i : Fin model.q) (j : Fin model.p) (i' : Fin m.no) (j' : Fin m.ni), i'.val = i.val →
          j'.val = j.val → (model.C * model.A ^ k * model.B) i j = (C * A ^ k * B) i' j' := by
  obtain ⟨steps, s, hs, -, hnt, hno, hni, -, hat⟩ := C32_interleaved cast t0 dt tol m hn hdt htol
  refine ⟨steps, s, hs, fun h hh hrank hlib hz model hres => ?_⟩
  obtain ⟨nt, no, ni, at_⟩ := s
  dsimp only at hnt hno hni hat
  subst hnt hno hni
  have hset : setMarkovs (.d3 (⟨2 * (m.nt - 1), m.no, m.ni, at_⟩ : Markovs 𝕜)) =
      .ok ⟨2 * (m.nt - 1), m.no, m.ni, at_⟩ := by
    simp only [setMarkovs]
    rw [if_neg (by omega)]
  refine C36_recovers svd cast self o o' _ ⟨2 * (m.nt - 1), m.no, m.ni, at_⟩ mc mo hcast 1 A B C hset ?_ h hh
    hrank hlib hz model hres
  intro k hk i j
  dsimp only at hk
  obtain ⟨h1, h2⟩ := hat k i j (by omega)
  dsimp only
  rw [h1, h2, hcast, hcast, hM k (by omega), hM (k + 1) (by omega), Nat.one_mul]
  exact ⟨rfl, rfl⟩

/-- **C36.** The same for `compute_ERA_model`. -/
theorem C36_compute_ERA_model (hcast : ∀ x, cast x = x) {n : Nat} (P : Nat) (A : Matrix (Fin n) (Fin n) 𝕜)
    (B : Matrix (Fin n) (Fin m.ni) 𝕜) (C : Matrix (Fin m.no) (Fin n) 𝕜) (hm : setMarkovs markovs = .ok m)
    (hM : ∀ k, 2 * k + 1 < m.nt → ∀ (i : Fin m.no) (j : Fin m.ni),
      m.at_ (2 * k) i j = (C * A ^ (P * k) * B) i j ∧
      m.at_ (2 * k + 1) i j = (C * A ^ (P * k + 1) * B) i j)
    (h : HankelPair 𝕜) (hh : eraHankel cast (eraInit none none) markovs none none = .ok (o', h))
    (hrank : h.array.rank = n)
    (hlib : IsSvd h.array (svd h.array)) (hz : ∀ i, (svd h.array).S i ≠ 0 → 1e-13 < (svd h.array).S i) :
    ∃ model, computeEraModel svd cast markovs n = .ok model ∧
      model.r = n ∧ (1 ≤ n → model.p = m.ni ∧ model.q = m.no) ∧
      ∀ (k : Nat) (i : Fin model.q) (j : Fin model.p) (i' : Fin m.no) (j' : Fin m.ni), i'.val = i.val →
        j'.val = j.val → (model.C * model.A ^ k * model.B) i j = (C * A ^ k * B) i' j' := by
  obtain ⟨model, hmodel⟩ := C36_no_error svd cast (eraInit none none) o' markovs none none n h hh
  refine ⟨model, ?_, C36_recovers svd cast (eraInit none none) o' o' markovs m none none hcast P A B C hm hM h hh
    hrank hlib hz model hmodel⟩
  unfold computeEraModel
  rw [hmodel]

end C36

/-- Markov parameters of the system with state matrix 1/2, input `b` and output 1. -/
noncomputable def halves (b : ℝ) : Markovs ℝ := ⟨6, 1, 1, fun k _ _ => (1 / 2) ^ k * b⟩

theorem half_pow (k : Nat) :
    ((!![1] : Matrix (Fin 1) (Fin 1) ℝ) * (!![1 / 2] : Matrix (Fin 1) (Fin 1) ℝ) ^ k *
      (!![1] : Matrix (Fin 1) (Fin 1) ℝ)) 0 0 = (1 / 2) ^ k := by
  have h1 : (!![1] : Matrix (Fin 1) (Fin 1) ℝ) = 1 := by
    ext i j
    rw [Subsingleton.elim i 0, Subsingleton.elim j 0]
    simp
  have h2 : (!![1 / 2] : Matrix (Fin 1) (Fin 1) ℝ) = diagonal fun _ => 1 / 2 := by
    ext i j
    rw [Subsingleton.elim i 0, Subsingleton.elim j 0]
    simp
  rw [h1, h2, diagonal_pow, Matrix.one_mul, Matrix.mul_one, diagonal_apply_eq]
  rfl

theorem halves_set (b : ℝ) : setMarkovs (.d3 (halves b)) = .ok (halves b) := by
  simp [setMarkovs, halves]

theorem halves_hankel (b : ℝ) :
    ∃ o h, eraHankel id (eraInit none none) (.d3 (halves b)) none none = .ok (o, h) ∧
      h.rows = 1 ∧ h.cols = 1 ∧ h.h 0 0 = b := by
  unfold eraHankel
  rw [halves_set]
  dsimp only [eraInit]
  have hnt : (halves b).nt = 6 := by simp [halves]
  rw [assembleHankel_none id (halves b) (by rw [hnt]; decide) none none (Or.inl rfl)]
  obtain ⟨h, hh, h1, h2, h3⟩ := C33_blocks id (halves b) 1 1 (by rw [hnt]; decide) (by rw [hnt]; decide)
  have e : (((halves b).nt - 2) / 4 : Nat) = 1 := by rw [hnt]
  rw [e, hh]
  refine ⟨_, h, rfl, h1, h2, ?_⟩
  have := (h3 0 0 0 0 (by decide) (by decide) (by simp [halves]) (by simp [halves])).1
  simpa [halves] using this

/-- The system with state matrix 1/2 is found: the model has one state and the Markov parameters `1/2^k`. -/
example : ∃ (svd : ∀ {m n : Nat}, Matrix (Fin m) (Fin n) ℝ → SvdOut ℝ m n) (model : LtiModel ℝ) (hp : model.p = 1)
    (hq : model.q = 1), (∀ {m n : Nat} (a : Matrix (Fin m) (Fin n) ℝ), IsSvd a (svd a)) ∧
    computeEraModel svd id (.d3 (halves 1)) 1 = .ok model ∧ model.r = 1 ∧
    ∀ k, (model.C * model.A ^ k * model.B) (Fin.cast hq.symm 0) (Fin.cast hp.symm 0) = (1 / 2 : ℝ) ^ k := by
  choose svd hsvd using fun (m n : Nat) (a : Matrix (Fin m) (Fin n) ℝ) => exists_isSvd a
  obtain ⟨o, h, hh, h1, h2, h3⟩ := halves_hankel 1
  obtain ⟨model, hmodel⟩ := C36_no_error (fun {m n} => svd m n) id (eraInit none none) o (.d3 (halves 1)) none none 1
    h hh
  obtain ⟨rows, cols, f, f2⟩ := h
  dsimp only at h1 h2 h3
  subst h1 h2
  have ha : HankelPair.array (⟨1, 1, f, f2⟩ : HankelPair ℝ) = !![1] := by
    ext i j
    rw [Subsingleton.elim i 0, Subsingleton.elim j 0]
    simpa [HankelPair.array] using h3
  have hS := fun i => svd_one 1 (svd 1 1 !![1]) (hsvd 1 1 _) i
  have key := C36_recovers (fun {m n} => svd m n) id (eraInit none none) o o (.d3 (halves 1)) (halves 1) none none
    (fun _ => rfl) 2 !![1 / 2] !![1] !![1] (halves_set 1) ?_ ⟨1, 1, f, f2⟩ hh ?_ (hsvd 1 1 _) ?_ model hmodel
  · obtain ⟨hr, hpq, hk⟩ := key
    obtain ⟨hp, hq⟩ := hpq le_rfl
    refine ⟨fun {m n} => svd m n, model, hp, hq, fun a => hsvd _ _ a, ?_, hr, fun k => ?_⟩
    · unfold computeEraModel
      rw [hmodel]
    · rw [hk k _ _ (0 : Fin 1) (0 : Fin 1) rfl rfl]
      exact half_pow k
  · intro k _ i j
    change Fin 1 at i j
    rw [Subsingleton.elim i 0, Subsingleton.elim j 0]
    refine ⟨Eq.trans ?_ (half_pow (2 * k)).symm, Eq.trans ?_ (half_pow (2 * k + 1)).symm⟩ <;> simp [halves]
  · rw [ha]
    have := (hsvd 1 1 (!![1] : Matrix (Fin 1) (Fin 1) ℝ)).rank
    rw [this, Fintype.card_eq_one_iff]
    refine ⟨⟨⟨0, by decide⟩, fun h0 => ?_⟩, fun y => Subtype.ext (Fin.ext ?_)⟩
    · have := hS ⟨0, by decide⟩
      rw [h0] at this
      norm_num at this
    · have := y.1.isLt
      omega
  · rw [ha]
    intro i _
    have h1 := hS i
    have h2 := (hsvd 1 1 (!![1] : Matrix (Fin 1) (Fin 1) ℝ)).nonneg i
    have h3 : (svd 1 1 (!![1] : Matrix (Fin 1) (Fin 1) ℝ)).S i = 1 := by nlinarith
    show 1e-13 < (svd 1 1 _).S i
    rw [h3]
    norm_num

/-- **C36 fails** for small Markov parameters: for the input `1e-14` the Hankel array has rank one, but
the model has no state, and its Markov parameters are zero. -/
theorem C36_small_parameters_violation (svd : ∀ {m n : Nat}, Matrix (Fin m) (Fin n) ℝ → SvdOut ℝ m n)
    (hsvd : ∀ {m n : Nat} (a : Matrix (Fin m) (Fin n) ℝ), IsSvd a (svd a)) :
    ∃ model, computeEraModel svd id (.d3 (halves 1e-14)) 1 = .ok model ∧ model.r = 0 ∧
      (∀ k, model.C * model.A ^ k * model.B = 0) ∧ ∀ k, (halves 1e-14).at_ k 0 0 ≠ 0 := by
  obtain ⟨o, h, hh, h1, h2, h3⟩ := halves_hankel 1e-14
  obtain ⟨model, hmodel⟩ := C36_no_error svd id (eraInit none none) o (.d3 (halves 1e-14)) none none 1 h hh
  obtain ⟨h', hh', -, hred⟩ := eraModel_cases svd id (eraInit none none) o _ (halves 1e-14) none none 1 model
    (halves_set _) hmodel
  rw [hh] at hh'
  obtain ⟨-, rfl⟩ := Prod.mk.inj (Except.ok.inj hh')
  obtain ⟨rows, cols, f, f2⟩ := h
  dsimp only at h1 h2 h3
  subst h1 h2
  have ha : HankelPair.array (⟨1, 1, f, f2⟩ : HankelPair ℝ) = !![1e-14] := by
    ext i j
    rw [Subsingleton.elim i 0, Subsingleton.elim j 0]
    simpa [HankelPair.array] using h3
  have hr : model.r = 0 := by
    unfold eraReduce at hred
    split at hred
    · cases hred
    rename_i s hs
    cases hred
    dsimp only
    by_contra hne
    have hpos : 0 < s.r := by omega
    have hlt := utilSvd_positive svd _ none svdAtol (by simp) (hsvd _) s hs ⟨0, hpos⟩
    obtain ⟨k1, -, k3⟩ := C19_kept_iff svd _ _ _ (hsvd _) (by simp) s hs
    have hmin : 0 < min 1 1 := by decide
    rw [(k3 ⟨0, hpos⟩ ⟨0, hmin⟩ rfl).1] at hlt
    have hsq := svd_one 1e-14 (svd !![1e-14]) (hsvd _) ⟨0, hmin⟩
    have hnn := (hsvd (!![1e-14] : Matrix (Fin 1) (Fin 1) ℝ)).nonneg ⟨0, hmin⟩
    have hlt' : svdAtol < (svd (!![1e-14] : Matrix (Fin 1) (Fin 1) ℝ)).S ⟨0, hmin⟩ := by
      rw [ha] at hlt
      exact hlt
    generalize (svd (!![1e-14] : Matrix (Fin 1) (Fin 1) ℝ)).S ⟨0, hmin⟩ = x at *
    unfold svdAtol at hlt'
    norm_num at hsq hlt'
    nlinarith
  refine ⟨model, ?_, hr, fun k => ?_, fun k => ?_⟩
  · unfold computeEraModel
    rw [hmodel]
  · obtain ⟨r, p, q, A, B, C⟩ := model
    dsimp only at hr
    subst hr
    ext i j
    simp [Matrix.mul_apply]
  · unfold halves
    positivity

end Modred
