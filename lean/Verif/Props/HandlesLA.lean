import Verif.Props.VectorSpace
import Verif.Props.Arrays
import Verif.Lemmas.HandlesLA

/-!
# The programs on handles compute what the decompositions assume (C56)
-/

namespace Modred

open Matrix

variable {𝕜 : Type*} {E : Type*}

theorem ofFn_getElem {p : Nat} (v : Fin p → E) (i : Nat) (hi : i < (List.ofFn v).length) :
    (List.ofFn v)[i] = v ⟨i, by simpa using hi⟩ := by
  simp

/-- Inner products of all pairs, as computed by the processes in any order of events. -/
theorem C56_inner_products [AddCommMonoid 𝕜] [InvolutiveStar 𝕜] (procs nodes : Nat)
    (hp : 1 ≤ procs) (hn : 1 ≤ nodes) (request : Option Nat) (tag : Nat) (ip : E → E → 𝕜)
    (cast : 𝕜 → 𝕜 → 𝕜) {p q : Nat} (rows : Fin p → E) (cols : Fin q → E) (hrows : 0 < p) (hcols : 0 < q)
    (hsymm : ∀ v w, ip w v = star (ip v w))
    (hcast : ∀ v w v' w', cast (ip v w) (ip v' w') = ip v' w') :
    ∃ job, computeInnerProductArray procs tag (limits request procs nodes).perProc (some ip) cast
        (List.ofFn rows) (List.ofFn cols) = .ok job ∧
      EveryInterleaving procs job.prog ipInit fun _ s => s.err = false ∧
        ∀ i j, job.ret s (i : Fin p).val (j : Fin q).val = handlesIp ip rows cols i j := by
  obtain ⟨job, h1, h2⟩ := C07_inner_product_array procs nodes hp hn request tag ip cast
    (List.ofFn rows) (List.ofFn cols) (by simpa using hrows) (by simpa using hcols)
    (fun v _ w _ => hsymm v w) hcast
  refine ⟨job, h1, fun sync n s hrun => ?_⟩
  obtain ⟨h3, h4, h5⟩ := h2 sync n s hrun
  refine ⟨h3, h4, fun hf => ⟨fun r hr => ?_, (h5 hf).2⟩⟩
  obtain ⟨h6, h7⟩ := (h5 hf).1 r hr
  refine ⟨h6, fun i j => ?_⟩
  rw [h7 i j (by simp) (by simp), ofFn_getElem, ofFn_getElem]
  rfl

/-- Inner products of a list of vectors with itself. -/
theorem C56_symmetric_inner_products [Semiring 𝕜] [StarRing 𝕜] [DecidableEq 𝕜] (procs nodes : Nat)
    (hp : 1 ≤ procs) (hn : 1 ≤ nodes) (request : Option Nat) (tag : Nat) (ip : E → E → 𝕜)
    (cast : 𝕜 → 𝕜 → 𝕜) {p : Nat} (vecs : Fin p → E) (hvecs : 0 < p)
    (hsymm : ∀ v w, ip w v = star (ip v w))
    (hcast : ∀ v w v' w', cast (ip v w) (ip v' w') = ip v' w') :
    ∃ job, computeSymmInnerProductArray procs tag (limits request procs nodes).perProc (some ip)
        cast (List.ofFn vecs) = .ok job ∧
      EveryInterleaving procs job.prog ipInit fun _ s => s.err = false ∧
        ∀ i j, job.ret s (i : Fin p).val (j : Fin p).val = handlesSymmIp ip vecs i j := by
  obtain ⟨job, h1, h2⟩ := C08_symm_inner_product_array procs nodes hp hn request tag ip cast
    (List.ofFn vecs) (by simpa using hvecs) (fun v _ w _ => hsymm v w) (fun v _ w _ => hcast _ _ _ _)
  refine ⟨job, h1, fun sync n s hrun => ?_⟩
  obtain ⟨h3, h4, h5⟩ := h2 sync n s hrun
  refine ⟨h3, h4, fun hf => ⟨fun r hr => ?_, (h5 hf).2⟩⟩
  obtain ⟨h6, h7⟩ := (h5 hf).1 r hr
  refine ⟨h6, fun i j => ?_⟩
  rw [h7 i j (by simp) (by simp), ofFn_getElem, ofFn_getElem]
  rfl

/-- An array as the parallel program reads it. -/
def coeffOf [Zero 𝕜] {p q : Nat} (c : Matrix (Fin p) (Fin q) 𝕜) : CoeffArray 𝕜 :=
  .mat p q fun i j => if h : i < p ∧ j < q then c ⟨i, h.1⟩ ⟨j, h.2⟩ else 0

theorem npAxisIndex_spec (n : Nat) (i : Int) (k : Fin n) (h : npAxisIndex n i = .ok k) :
    -(n : Int) ≤ i ∧ i < n ∧ k.val = (if i < 0 then i + n else i).toNat := by
  unfold npAxisIndex at h
  split at h
  · cases h
    rename_i h1
    refine ⟨by omega, h1.2, ?_⟩
    rw [if_neg (by omega)]
  · split at h
    · cases h
      rename_i h1
      refine ⟨h1.2, by omega, ?_⟩
      rw [if_pos h1.1]
    · cases h

/-- Linear combinations: whenever `handlesLinCombine` has a result, the processes put exactly these
vectors, each by one process, in any order of events. -/
theorem C56_lin_combine [Semiring 𝕜] [AddCommMonoid E] [Module 𝕜 E] (procs nodes : Nat)
    (hp : 1 ≤ procs) (hn : 1 ≤ nodes) (request : Option Nat) {p q : Nat} (numSums : Nat)
    (basis : Fin p → E) (coeff : Matrix (Fin p) (Fin q) 𝕜) (idx : Option (List Int)) (res : Vecs E)
    (hres : handlesLinCombine numSums basis coeff idx = .ok res) :
    res.k = numSums ∧
    ∃ prog, linCombine procs (limits request procs nodes).perProc (fun v c => c • v) numSums
        (List.ofFn basis) (coeffOf coeff) idx = .ok prog ∧
      ∃ share : Nat → List Nat, (List.range procs).flatMap share = List.range numSums ∧
        EveryInterleaving procs prog lcInit fun r s => s.err = false ∧
          (∀ k x, (k, x) ∈ s.puts → ∃ i : Fin res.k, i.val = k ∧ x = some (res.v i)) ∧
          s.puts.map Prod.fst = share r := by
  unfold handlesLinCombine at hres
  cases hc : pickCols coeff idx with
  | error e => rw [hc] at hres; cases hres
  | ok c =>
    rw [hc] at hres
    dsimp only at hres
    split at hres
    · cases hres
    split at hres
    · cases hres
    rename_i hk hp0
    cases hres
    have hk : c.k = numSums := by tauto
    refine ⟨hk, ?_⟩
    obtain ⟨sel, hsel, h1, h2⟩ := pickCols_ok _ _ _ hc
    have hcol : ∀ k : Fin c.k, specColumn q idx k = (sel k).val ∧ True := by
      intro k
      cases idx with
      | none => exact ⟨((h2 rfl).2 k).symm, trivial⟩
      | some l =>
        obtain ⟨h3, h4⟩ := h1 l rfl
        have hlt : k.val < l.length := by rw [← h3]; exact k.isLt
        obtain ⟨-, -, h5⟩ := npAxisIndex_spec _ _ _ (h4 k l[k.val] (List.getElem?_eq_getElem hlt))
        refine ⟨?_, trivial⟩
        unfold specColumn
        dsimp only
        rw [List.getD_eq_getElem?_getD, List.getElem?_eq_getElem hlt, Option.getD_some]
        exact h5.symm
    have hok : selectionOk q idx := by
      cases idx with
      | none => trivial
      | some l =>
        obtain ⟨h3, h4⟩ := h1 l rfl
        intro i hi
        obtain ⟨k, hk', rfl⟩ := List.getElem_of_mem hi
        obtain ⟨h5, h6, -⟩ := npAxisIndex_spec _ _ _ (h4 ⟨k, by rw [h3]; exact hk'⟩ l[k]
          (List.getElem?_eq_getElem hk'))
        exact ⟨h5, h6⟩
    have hnum : numSelected q idx = numSums := by
      rw [← hk]
      cases idx with
      | none => exact (h2 rfl).1.symm
      | some l => exact (h1 l rfl).1.symm
    obtain ⟨prog, h3, share, h4, h5⟩ := C09_lin_combine_result procs nodes hp hn request
      (fun (v : E) (c : 𝕜) => c • v) numSums (List.ofFn basis) (by simp; omega) (coeffOf coeff) idx
      (by simpa [specShape, coeffOf] using hok) (by simp [specShape, coeffOf])
      (by simpa [specShape, coeffOf] using hnum)
    refine ⟨prog, h3, share, h4, fun sync n s hrun => ?_⟩
    obtain ⟨h6, h7, h8⟩ := h5 sync n s hrun
    refine ⟨h6, h7, fun hf => ⟨fun r hr => ?_, (h8 hf).2⟩⟩
    obtain ⟨h9, h10⟩ := (h8 hf).1 r hr
    refine ⟨h9, fun k x hkx => ?_, ?_⟩
    · rw [h10, List.mem_map] at hkx
      obtain ⟨k', hk', heq⟩ := hkx
      obtain ⟨rfl, rfl⟩ := Prod.mk.inj heq
      have hlt : k' < numSums := by
        have : k' ∈ (List.range procs).flatMap share :=
          List.mem_flatMap.mpr ⟨r, List.mem_range.mpr hr, hk'⟩
        rw [h4] at this
        exact List.mem_range.mp this
      refine ⟨⟨k', by dsimp only; omega⟩, rfl, ?_⟩
      congr 1
      unfold specSum
      dsimp only
      rw [← Fin.sum_congr' (fun i => c.a i ⟨k', by omega⟩ • basis i) (List.length_ofFn (f := basis))]
      refine Finset.sum_congr rfl fun i _ => ?_
      have hi : i.val < p := by simpa using i.isLt
      have h11 := (hcol ⟨k', by omega⟩).1
      dsimp only at h11
      have h12 : (specShape (List.ofFn basis).length (coeffOf coeff)).2 = q := rfl
      rw [h12, h11]
      unfold coeffOf specEntry
      dsimp only
      rw [dif_pos ⟨hi, (sel ⟨k', by omega⟩).isLt⟩, hsel]
      simp
      rfl
    · rw [h10, List.map_map]
      simp [Function.comp_def]

/-- Two selected columns of coefficients, on vectors that are integers. -/
example : ∃ res, handlesLinCombine 2 (![5, 7] : Fin 2 → ℤ) (!![1, 0; 3, 1] : Matrix (Fin 2) (Fin 2) ℤ)
    (some [1, -2]) = .ok res ∧ res.k = 2 := ⟨_, rfl, rfl⟩

/-- Multiplication is a symmetric inner product of integers. -/
example : ∀ v w : ℤ, w * v = star (v * w) := fun v w => by rw [star_trivial, mul_comm]

end Modred
