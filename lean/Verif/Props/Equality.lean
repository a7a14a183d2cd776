import Verif.Model.Equality
import Verif.Model.Handles
import Verif.Props.VectorSpace
import Mathlib.Algebra.Module.Basic

/-!
# Comparison of vector spaces, arrays and handles (C63), subtraction of vectors (C64)
-/

namespace Modred

open Matrix

variable {K O F : Type*}

/-- Equal as arrays: the same shape and the same entries. -/
def SameArray (a b : NdArray K) : Prop := a.shape = b.shape ∧ ∀ i < a.shape.prod, a.data i = b.data i

/-- **C63, `smart_eq`.** Arrays are equal if and only if they have the same class, shape and entries, and nothing is
equal to an object of another class. -/
theorem C63_smart_eq (eqK : K → K → Bool) (heq : ∀ x y, eqK x y = true ↔ x = y) (eqO : O → O → Bool) :
    (∀ c c' a b, smartEq eqK eqO (.array c a) (.array c' b) = true ↔ c = c' ∧ SameArray a b) ∧
    (∀ c c' x y, smartEq eqK eqO (.other (K := K) c x) (.other c' y) = true ↔ c = c' ∧ eqO x y = true) ∧
    (∀ c c' a x, smartEq eqK eqO (.array c a) (.other c' x) = false ∧ smartEq eqK eqO (.other c' x) (.array c a) = false) := by
  refine ⟨fun c c' a b => ?_, fun c c' x y => ?_, fun _ _ _ _ => ⟨rfl, rfl⟩⟩
  · unfold smartEq SameArray allEqual
    by_cases hc : c = c'
    · by_cases hs : a.shape = b.shape
      · simp [hc, hs, heq]
      · simp [hs]
    · simp [hc]
  · unfold smartEq
    by_cases hc : c = c' <;> simp [hc]

/-- **C63, handles in memory.** Two handles of one class are equal if and only if their arrays are. -/
theorem C63_in_memory (eqK : K → K → Bool) (heq : ∀ x y, eqK x y = true ↔ x = y) (eqO : O → O → Bool) (h h' c c' : Nat)
    (a b : NdArray K) :
    inMemoryEq eqK eqO (h, .array c a) (h', .array c' b) = true ↔ h = h' ∧ c = c' ∧ SameArray a b := by
  unfold inMemoryEq
  by_cases hh : h = h'
  · simp only [hh, ne_eq, not_true_eq_false, if_false, true_and]
    exact (C63_smart_eq eqK heq eqO).1 c c' a b
  · simp [hh, Ne.symm hh]

/-- **C63, violation.** Whatever differs from itself, as not-a-number does, makes arrays, handles and vector spaces
differ from themselves. -/
theorem C63_nan_violation (eqK : K → K → Bool) (x : K) (hx : eqK x x = false) (eqO : O → O → Bool) (c h : Nat) :
    smartEq eqK eqO (.array c ⟨[1], fun _ => x⟩) (.array c ⟨[1], fun _ => x⟩) = false ∧
    inMemoryEq eqK eqO (h, .array c ⟨[1], fun _ => x⟩) (h, .array c ⟨[1], fun _ => x⟩) = false ∧
    weightsEq eqK (.d1 2 fun _ => x) (.d1 2 fun _ => x) = false := by
  refine ⟨?_, ?_, ?_⟩
  · simp [smartEq, allEqual, hx]
  · simp [inMemoryEq, smartEq, allEqual, hx]
  · simp [weightsEq, hx]
    exact ⟨0, by norm_num⟩

section Arrays

variable (eqK : K → K → Bool) (heq : ∀ x y, eqK x y = true ↔ x = y)

include heq

theorem weightsEq_d1 (n n' : Nat) (w w' : Nat → K) :
    weightsEq eqK (.d1 n w) (.d1 n' w') = true ↔ n = n' ∧ ∀ i < n, w i = w' i := by
  simp [weightsEq, heq]

theorem weightsEq_d2 (p q p' q' : Nat) (w w' : Nat → Nat → K) :
    weightsEq eqK (.d2 p q w) (.d2 p' q' w') = true ↔ p = p' ∧ q = q' ∧ ∀ i < p, ∀ j < q, w i j = w' i j := by
  simp [weightsEq, heq, and_assoc]

/-- **C63, spaces of arrays.** Equal spaces compute the same inner products of all data, or raise the same
exceptions. -/
theorem C63_arrays_sound [NonUnitalNonAssocSemiring K] [StarRing K] (ws ws' : Weights K) (h : weightsEq eqK ws ws' = true)
    {n p q : Nat} (v : Matrix (Fin n) (Fin p) K) (v' : Matrix (Fin n) (Fin q) K) : ipArray ws v v' = ipArray ws' v v' := by
  cases ws with
  | none =>
    cases ws' with
    | none => rfl
    | d1 => cases h
    | d2 => cases h
  | d1 k w =>
    cases ws' with
    | none => cases h
    | d2 => cases h
    | d1 k' w' =>
      obtain ⟨rfl, hw⟩ := (weightsEq_d1 eqK heq ..).mp h
      unfold ipArray
      dsimp only
      by_cases hk : k = n
      · subst hk
        rw [if_pos rfl, if_pos rfl]
        congr 3
        ext i j
        exact congrArg (fun x => vᴴ i j * x) (hw j j.isLt)
      · rw [if_neg hk, if_neg hk]
  | d2 r c w =>
    cases ws' with
    | none => cases h
    | d1 => cases h
    | d2 r' c' w' =>
      obtain ⟨rfl, rfl, hw⟩ := (weightsEq_d2 eqK heq ..).mp h
      unfold ipArray
      dsimp only
      by_cases hk : c = n ∧ r = n
      · rw [if_pos hk, if_pos hk]
        obtain ⟨rfl, rfl⟩ := hk
        congr 3
        ext i j
        exact hw i i.isLt j j.isLt
      · rw [if_neg hk, if_neg hk]

/-- **C63, spaces of arrays.** Spaces with weights of the same number of dimensions (square ones, for two) are equal if and
only if they compute the same inner products. -/
theorem C63_arrays_complete [Semiring K] [StarRing K] :
    (∀ k w k' w', weightsEq eqK (.d1 k w) (.d1 k' w') = true ↔ ∀ (n p q : Nat) (v : Matrix (Fin n) (Fin p) K)
      (v' : Matrix (Fin n) (Fin q) K), ipArray (.d1 k w) v v' = ipArray (.d1 k' w') v v') ∧
    ∀ k w k' w', weightsEq eqK (.d2 k k w) (.d2 k' k' w') = true ↔ ∀ (n p q : Nat) (v : Matrix (Fin n) (Fin p) K)
      (v' : Matrix (Fin n) (Fin q) K), ipArray (.d2 k k w) v v' = ipArray (.d2 k' k' w') v v' := by
  refine ⟨fun k w k' w' => ⟨fun h n p q v v' => C63_arrays_sound eqK heq _ _ h v v', fun h => ?_⟩,
    fun k w k' w' => ⟨fun h n p q v v' => C63_arrays_sound eqK heq _ _ h v v', fun h => ?_⟩⟩
  · have hk := h k k k 1 1
    unfold ipArray at hk
    dsimp only at hk
    rw [if_pos rfl] at hk
    by_cases e : k' = k
    · subst e
      rw [if_pos rfl] at hk
      refine (weightsEq_d1 eqK heq ..).mpr ⟨rfl, fun i hi => ?_⟩
      have := congrFun (congrFun (Except.ok.inj hk) ⟨i, hi⟩) ⟨i, hi⟩
      simpa using this
    · rw [if_neg e] at hk
      cases hk
  · have hk := h k k k 1 1
    unfold ipArray at hk
    dsimp only at hk
    rw [if_pos ⟨rfl, rfl⟩] at hk
    by_cases e : k' = k
    · subst e
      rw [if_pos ⟨rfl, rfl⟩] at hk
      refine (weightsEq_d2 eqK heq ..).mpr ⟨rfl, rfl, fun i hi j hj => ?_⟩
      have := congrFun (congrFun (Except.ok.inj hk) ⟨i, hi⟩) ⟨j, hj⟩
      simpa using this
    · rw [if_neg (fun h => e h.1)] at hk
      cases hk

omit heq in
/-- **C63, violation.** Spaces without weights, with weights one, and with the identity array compute the same inner products
of data with two rows, but differ. -/
theorem C63_same_inner_products_violation [Semiring K] [StarRing K] {p q : Nat} (v : Matrix (Fin 2) (Fin p) K)
    (v' : Matrix (Fin 2) (Fin q) K) :
    ipArray .none v v' = .ok (vᴴ * v') ∧ ipArray (.d1 2 fun _ => 1) v v' = .ok (vᴴ * v') ∧
    ipArray (.d2 2 2 fun i j => if i = j then 1 else 0) v v' = .ok (vᴴ * v') ∧
    weightsNe eqK .none (.d1 2 fun _ => 1) = true ∧
    weightsNe eqK .none (.d2 2 2 fun i j => if i = j then 1 else 0) = true ∧
    weightsNe eqK (.d1 2 fun _ => 1) (.d2 2 2 fun i j => if i = j then 1 else 0) = true := by
  refine ⟨rfl, ?_, ?_, rfl, rfl, rfl⟩
  · unfold ipArray
    dsimp only
    rw [if_pos rfl]
    congr 2
    ext i j
    simp
  · unfold ipArray
    dsimp only
    rw [if_pos ⟨rfl, rfl⟩]
    congr 2
    have : (Matrix.of fun i j : Fin 2 => if (i : Nat) = j then (1 : K) else 0) = 1 := by
      ext i j
      simp [Matrix.one_apply, Fin.ext_iff]
    rw [this, Matrix.one_mul]

/-- **C63.** Comparison of spaces of arrays is an equivalence, and `!=` is its negation. -/
theorem C63_arrays_equivalence : (∀ w, weightsEq eqK w w = true) ∧
    (∀ w w', weightsEq eqK w w' = true → weightsEq eqK w' w = true) ∧
    (∀ w w' w'', weightsEq eqK w w' = true → weightsEq eqK w' w'' = true → weightsEq eqK w w'' = true) ∧
    ∀ w w', weightsNe eqK w w' = true ↔ ¬ weightsEq eqK w w' = true := by
  refine ⟨fun w => ?_, fun w w' h => ?_, fun w w' w'' h h' => ?_, fun w w' => by simp [weightsNe]⟩
  · cases w with
    | none => rfl
    | d1 => exact (weightsEq_d1 eqK heq ..).mpr ⟨rfl, fun _ _ => rfl⟩
    | d2 => exact (weightsEq_d2 eqK heq ..).mpr ⟨rfl, rfl, fun _ _ _ _ => rfl⟩
  · cases w <;> cases w' <;> first | rfl | cases h | skip
    · obtain ⟨rfl, h1⟩ := (weightsEq_d1 eqK heq ..).mp h
      exact (weightsEq_d1 eqK heq ..).mpr ⟨rfl, fun i hi => (h1 i hi).symm⟩
    · obtain ⟨rfl, rfl, h1⟩ := (weightsEq_d2 eqK heq ..).mp h
      exact (weightsEq_d2 eqK heq ..).mpr ⟨rfl, rfl, fun i hi j hj => (h1 i hi j hj).symm⟩
  · cases w <;> cases w' <;> first | cases h | skip
    · exact h'
    · cases w'' <;> first | cases h' | skip
      obtain ⟨rfl, h1⟩ := (weightsEq_d1 eqK heq ..).mp h
      obtain ⟨rfl, h2⟩ := (weightsEq_d1 eqK heq ..).mp h'
      exact (weightsEq_d1 eqK heq ..).mpr ⟨rfl, fun i hi => (h1 i hi).trans (h2 i hi)⟩
    · cases w'' <;> first | cases h' | skip
      obtain ⟨rfl, rfl, h1⟩ := (weightsEq_d2 eqK heq ..).mp h
      obtain ⟨rfl, rfl, h2⟩ := (weightsEq_d2 eqK heq ..).mp h'
      exact (weightsEq_d2 eqK heq ..).mpr ⟨rfl, rfl, fun i hi j hj => (h1 i hi j hj).trans (h2 i hi j hj)⟩

end Arrays

section Handles

variable [DecidableEq F]

theorem handleSpaceEq_iff (a b : HandleSpace F) :
    a.eq b = true ↔ a.cls = b.cls ∧ a.innerProduct = b.innerProduct ∧ a.verbosity = b.verbosity := by
  unfold HandleSpace.eq
  by_cases h : a.cls = b.cls <;> simp [h]

/-- **C63, spaces of handles.** Comparison is an equivalence, `!=` is its negation, and the memory limit is not
compared. -/
theorem C63_handles_equivalence : (∀ a : HandleSpace F, a.eq a = true) ∧
    (∀ a b : HandleSpace F, a.eq b = true → b.eq a = true) ∧
    (∀ a b c : HandleSpace F, a.eq b = true → b.eq c = true → a.eq c = true) ∧
    (∀ a b : HandleSpace F, a.ne b = true ↔ ¬ a.eq b = true) ∧
    (∀ (a : HandleSpace F) r, a.eq { a with request := r } = true) ∧
    ∀ (a : HandleSpace F) v, v ≠ a.verbosity → a.eq { a with verbosity := v } = false := by
  refine ⟨fun a => (handleSpaceEq_iff ..).mpr ⟨rfl, rfl, rfl⟩, fun a b h => ?_, fun a b c h h' => ?_,
    fun a b => by simp [HandleSpace.ne], fun a r => (handleSpaceEq_iff ..).mpr ⟨rfl, rfl, rfl⟩, fun a v h => ?_⟩
  · have h := (handleSpaceEq_iff ..).mp h
    exact (handleSpaceEq_iff ..).mpr ⟨h.1.symm, h.2.1.symm, h.2.2.symm⟩
  · have h := (handleSpaceEq_iff ..).mp h
    have h' := (handleSpaceEq_iff ..).mp h'
    exact (handleSpaceEq_iff ..).mpr ⟨h.1.trans h'.1, h.2.1.trans h'.2.1, h.2.2.trans h'.2.2⟩
  · rw [Bool.eq_false_iff, Ne, handleSpaceEq_iff]
    exact fun h' => h h'.2.2.symm

/-- **C63, spaces of handles.** Equal spaces give the same arrays of inner products on all processes, whatever their memory
limits, in every order of events, and both raise `RuntimeError` if they have no inner product. -/
theorem C63_handles_sound {V : Type*} [AddCommMonoid K] [Star K] (fn : F → V → V → K) (a b : HandleSpace F)
    (h : a.eq b = true) (procs nodes : Nat) (hp : 1 ≤ procs) (hn : 1 ≤ nodes) (tag : Nat) (cast : K → K → K)
    (rows cols : List V) (hrows : 0 < rows.length) (hcols : 0 < cols.length) :
    (∃ (job job' : _) (R : Nat → Nat → K), computeInnerProductArray procs tag (limits a.request procs nodes).perProc (a.innerProduct.map fn) cast
        rows cols = .ok job ∧
      computeInnerProductArray procs tag (limits b.request procs nodes).perProc (b.innerProduct.map fn) cast rows cols =
        .ok job' ∧
      (EveryInterleaving procs job.prog ipInit fun _ s => s.err = false ∧
        ∀ i < rows.length, ∀ j < cols.length, job.ret s i j = R i j) ∧
      EveryInterleaving procs job'.prog ipInit fun _ s => s.err = false ∧
        ∀ i < rows.length, ∀ j < cols.length, job'.ret s i j = R i j) ∨
    (computeInnerProductArray procs tag (limits a.request procs nodes).perProc (a.innerProduct.map fn) cast rows cols =
      .error .runtimeError ∧
    computeInnerProductArray procs tag (limits b.request procs nodes).perProc (b.innerProduct.map fn) cast rows cols =
      .error .runtimeError) := by
  obtain ⟨-, hip, -⟩ := (handleSpaceEq_iff a b).mp h
  rw [← hip]
  cases hf : a.innerProduct with
  | none => exact Or.inr ⟨rfl, rfl⟩
  | some f =>
    left
    obtain ⟨job, h1, h2⟩ := C07_inner_product_array_in_general procs nodes hp hn a.request tag (fn f) cast rows cols hrows hcols
    obtain ⟨job', h1', h2'⟩ := C07_inner_product_array_in_general procs nodes hp hn b.request tag (fn f) cast rows cols hrows
      hcols
    refine ⟨job, job', fun i j => if hij : i < rows.length ∧ j < cols.length then
      (if rows.length ≤ cols.length then cast (fn f rows[0] cols[0]) (fn f rows[i] cols[j])
          else star (cast (fn f cols[0] rows[0]) (fn f cols[j] rows[i]))) else cast (fn f rows[0] cols[0]) 0, h1, h1', ?_, ?_⟩
    · refine fun sync n s hrun => ?_
      obtain ⟨h3, h4, h5⟩ := h2 sync n s hrun
      refine ⟨h3, h4, fun hf => ⟨fun r hr => ⟨((h5 hf).1 r hr).1, fun i hi j hj => ?_⟩, (h5 hf).2⟩⟩
      rw [((h5 hf).1 r hr).2 i j hi hj]
      beta_reduce
      rw [dif_pos (And.intro hi hj)]
    · refine fun sync n s hrun => ?_
      obtain ⟨h3, h4, h5⟩ := h2' sync n s hrun
      refine ⟨h3, h4, fun hf => ⟨fun r hr => ⟨((h5 hf).1 r hr).1, fun i hi j hj => ?_⟩, (h5 hf).2⟩⟩
      rw [((h5 hf).1 r hr).2 i j hi hj]
      beta_reduce
      rw [dif_pos (And.intro hi hj)]

end Handles

example : weightsEq (fun x y : ℚ => decide (x = y)) (.d1 2 fun i => i) (.d1 2 fun i => if i = 0 then 0 else 1) = true := by
  rw [weightsEq_d1 _ (fun x y => by simp)]
  refine ⟨rfl, fun i hi => ?_⟩
  rcases Nat.le_one_iff_eq_zero_or_eq_one.mp (Nat.lt_succ_iff.mp hi) with rfl | rfl <;> simp

/-! ### Subtraction -/

/-- **C64.** For a subclass of `Vector` whose `+` and `*` are those of a vector space, `v - w` is the difference, and numbers
can be written on either side. -/
theorem C64_subtraction {V S : Type*} [Ring S] [AddCommGroup V] [Module S V] (v w : V) (c : S) :
    vectorSub (S := S) (fun x y => x + y) (fun x c => c • x) v w = v - w ∧
    vectorRmul (fun (x : V) (c : S) => c • x) c v = c • v := by
  refine ⟨?_, rfl⟩
  unfold vectorSub vectorRmul
  dsimp only
  rw [neg_one_smul, sub_eq_add_neg]

/-- **C64.** The methods of the base class itself raise `NotImplementedError`. -/
theorem C64_base_class : vectorBase = .error .notImplementedError := rfl

/-- **C64.** A handle of such a vector, with a base vector without base, gives the vector minus the base vector, times the
scale. -/
theorem C64_handles {V S T : Type*} [Ring S] [AddCommGroup V] [Module S V] [DecidableEq V] (fmt : TextFormat V T)
    (place base : Place) (scale : S) (st : Storage V T) :
    (@Handle.get V T S _ ⟨vectorSub (S := S) (fun x y => x + y) fun x c => c • x⟩ fmt (fun v c => c • v)
      (.mk place (some (.mk base none none)) (some scale)) ⟨st, none⟩).1 =
      scale • (rawGet fmt st place - rawGet fmt st base) := by
  unfold Handle.get
  dsimp only
  unfold Handle.get
  dsimp only [scaleVec]
  congr 1
  exact (C64_subtraction (S := S) _ _ 1).1

end Modred
