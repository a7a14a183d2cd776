import Verif.Lemmas.VecObjects
import Verif.Props.Sanity
import Mathlib.Tactic.FinCases
import Mathlib.Tactic.NormNum

/-!
# Linear combinations of vectors in memory (C88)
-/

namespace Modred

/-- **C88.** With handles in memory and a class of vectors that does what is asked of it in `VecClass.Proper`, `lin_combine` puts
the right vectors and changes no vector that existed before.  If `+=` may change its left side but products are new objects, the
vectors that are put are new objects, all different. -/
theorem C88_combined_partial {𝕜 E F : Type*} [AddCommMonoid F] (C : VecClass 𝕜 E) (inPlace : Prop) (Number : 𝕜 → Prop)
    (Basis Layer : E → Prop) (val : E → F)
    (scale : 𝕜 → F → F) (hC : C.Proper inPlace Number Basis Layer val scale) (two : 𝕜) (mx : Nat) (hmx : 2 ≤ mx) (basis sums : List Nat)
    (hpos : basis ≠ []) (hs : sums.Nodup) (hdis : ∀ q ∈ basis, q ∉ sums) (coeff : Nat → Nat → 𝕜)
    (hn : ∀ i k, Number (coeff i k)) (m : HeldObjects E)
    (hheld : ∀ q ∈ basis, ∃ v, m.held q = some v ∧ v < m.objects.next ∧ Basis (m.objects.content v)) :
    ∃ m', linCombineObj C two mx basis sums coeff m = .ok m' ∧ CombinedObj inPlace val scale basis sums coeff m m' :=
  linCombineObj_combined hC two hmx hpos hs hdis coeff hn m hheld

/-- **C88, classes without `__iadd__`.** If `+` and `*` change nothing and return the right values, and `number * vector` works,
linear combinations are right and change no vector, whether or not products are new objects. -/
theorem C88_no_iadd_partial {𝕜 E : Type*} [RCLike 𝕜] [AddCommGroup E] [Module 𝕜 E] (C : VecClass 𝕜 E) (hops : Genuine C.toVecOps)
    (hadd : ∀ o v w, v < o.next → w < o.next → (C.add o v w).2 < (C.add o v w).1.next) (hr : C.rmul = true) (hi : C.iadd = none)
    (mx : Nat) (hmx : 2 ≤ mx) (basis sums : List Nat) (hpos : basis ≠ []) (hs : sums.Nodup) (hdis : ∀ q ∈ basis, q ∉ sums)
    (coeff : Nat → Nat → 𝕜) (m : HeldObjects E) (hheld : ∀ q ∈ basis, ∃ v, m.held q = some v ∧ v < m.objects.next) :
    ∃ m', linCombineObj C 2 mx basis sums coeff m = .ok m' ∧ CombinedObj False id (· • ·) basis sums coeff m m' := by
  have hle : ∀ (o o' : Objects E), (∀ z < o.next, o'.content z = o.content z ∧ z < o'.next) → o.next ≤ o'.next := by
    intro o o' h
    by_contra hlt
    have := (h o'.next (by omega)).2
    omega
  refine linCombineObj_combined (inPlace := False) (Number := fun _ => True) (Basis := fun _ => True) (Layer := fun _ => True) (val := id)
    (scale := (· • ·)) ⟨hr, ?_, ?_, ?_⟩ 2 hmx hpos hs hdis coeff (fun _ _ => trivial) m ?_
  · intro o v c hv _
    exact ⟨_, _, rfl, hle _ _ fun z hz => hops.mul_keeps o v c z hz, hops.mul_number o v c hv, False.elim,
      fun z hz => (hops.mul_keeps o v c z hz).1, fun _ => trivial, hops.mul_result o v c hv⟩
  · exact fun o v w => ⟨hle _ _ fun z hz => hops.add_keeps o v w z hz, fun z hz => (hops.add_keeps o v w z hz).1⟩
  · intro o a b ha hb _ _ _
    refine ⟨_, _, by rw [VecClass.plusEq, hi], hle _ _ fun z hz => hops.add_keeps o a b z hz, hadd o a b ha hb, False.elim,
      fun z hz _ => (hops.add_keeps o a b z hz).1, trivial, hops.add_result o a b ha hb⟩
  · intro q hq
    obtain ⟨v, h1, h2⟩ := hheld q hq
    exact ⟨v, h1, h2, trivial⟩

theorem numpyClass_proper (n : Nat) (vecs coeffs : Bool) :
    (numpyClass n).Proper True (fun c => c.1 = coeffs) (fun x => coeffs = true ∨ x.1 = vecs) (fun x => x.1 = (vecs || coeffs))
      (fun x => x.2) (fun c x => c.2 • x) where
  rmul := rfl
  mul o v c hv hb := by
    refine ⟨_, _, rfl, by simp [Objects.new], by simp [Objects.new], fun _ => by simp [Objects.new], ?_, ?_, ?_⟩
    · intro z hz
      simp [Objects.new, hz.ne]
    · intro hc
      simp only [Objects.new, if_true, hc]
      rcases hb with hb | hb
      · simp [hb]
      · rw [hb]
    · simp [Objects.new]
  add o v w := by
    refine ⟨by simp [numpyClass, Objects.new], fun z hz => ?_⟩
    simp [numpyClass, Objects.new, hz.ne]
  plus o a b ha hb la lb hab := by
    refine ⟨o.set a ((o.content a).1, (o.content a).2 + (o.content b).2), a, ?_, le_rfl, ha, fun _ => .inl rfl, ?_, ?_, ?_⟩
    · cases vecs <;> cases coeffs <;> simp_all [VecClass.plusEq, numpyClass]
    · intro z _ hz
      simp [Objects.set, hz trivial]
    · simpa [Objects.set] using la
    · simp [Objects.set]

/-- **C88, arrays.** For numpy arrays that are all real or all complex, or with complex coefficients for any arrays, `lin_combine` puts
the right vectors in new arrays, no two of them the same, and changes no array that existed before. -/
theorem C88_arrays_partial (n : Nat) (vecs coeffs : Bool) (mx : Nat) (hmx : 2 ≤ mx) (basis sums : List Nat) (hpos : basis ≠ [])
    (hs : sums.Nodup) (hdis : ∀ q ∈ basis, q ∉ sums) (coeff : Nat → Nat → Bool × ℂ) (hc : ∀ i k, (coeff i k).1 = coeffs)
    (m : HeldObjects (Bool × (Fin n → ℂ)))
    (hheld : ∀ q ∈ basis, ∃ v, m.held q = some v ∧ v < m.objects.next ∧ (coeffs = true ∨ (m.objects.content v).1 = vecs)) :
    ∃ m', linCombineObj (numpyClass n) (false, 2) mx basis sums coeff m = .ok m' ∧
      CombinedObj True (fun x => x.2) (fun c x => c.2 • x) basis sums coeff m m' :=
  linCombineObj_combined (numpyClass_proper n vecs coeffs) _ hmx hpos hs hdis coeff hc m hheld

/-- **C88, what is refused.** Without basis vectors it is IndexError.  If there are sums and a basis handle is empty, with vectors of a
proper class in those before it, it is TypeError. -/
theorem C88_refused {𝕜 E F : Type*} [AddCommMonoid F] (C : VecClass 𝕜 E) (inPlace : Prop) (Number : 𝕜 → Prop)
    (Basis Layer : E → Prop) (val : E → F) (scale : 𝕜 → F → F) (hC : C.Proper inPlace Number Basis Layer val scale) (two : 𝕜)
    (mx : Nat) (hmx : 2 ≤ mx) (sums : List Nat) (coeff : Nat → Nat → 𝕜) (hn : ∀ i k, Number (coeff i k)) (m : HeldObjects E) :
    linCombineObj C two mx [] sums coeff m = .error .indexError ∧
    ∀ before q after, sums ≠ [] → m.held q = none →
      (∀ q ∈ before, ∃ v, m.held q = some v ∧ v < m.objects.next ∧ Basis (m.objects.content v)) →
      linCombineObj C two mx (before ++ q :: after) sums coeff m = .error .typeError := by
  refine ⟨rfl, ?_⟩
  intro before q after hsums hq hbefore
  cases before with
  | nil => simp [linCombineObj, burnObj, HeldObjects.get, hq, Except.bind]
  | cons p before =>
    obtain ⟨basis, hbasis⟩ : ∃ basis, basis = p :: before ++ q :: after := ⟨_, rfl⟩
    choose! w hw using hbefore
    have hp := hw p (by simp)
    obtain ⟨m1, b1, b2, b3, b4⟩ := burnObj_inv hC two hp.1 hp.2.1 hp.2.2
    obtain ⟨m2, c1, c2, c3, c4⟩ := burnObj_inv hC two (m := m1) (by rw [b2]; exact hp.1)
      (lt_of_lt_of_le hp.2.1 b3) (by rw [b4 _ hp.2.1]; exact hp.2.2)
    have hkeep : ∀ z < m.objects.next, m2.objects.content z = m.objects.content z :=
      fun z hz => (c4 z (lt_of_lt_of_le hz b3)).trans (b4 z hz)
    have hround : roundObj C mx basis sums coeff m2 0 = .error .typeError := by
      obtain ⟨n, hn'⟩ : ∃ n, n = (p :: before).length := ⟨_, rfl⟩
      have hlen : basis.length = n + (1 + after.length) := by rw [hbasis, hn', List.length_append, List.length_cons (a := q)]; omega
      have hfold : ∀ start k, (List.range basis.length).foldlM (basisObj C basis coeff start k m2.held) (m2.objects, fun _ => none) =
          .error .typeError := by
        intro start k
        obtain ⟨s, hs, -⟩ := foldlM_range_inv
          (fun b s => LayersInv inPlace Layer val scale coeff (fun i => val (m2.objects.content (w (basis.getD i 0)))) m2.objects
            (layerCount start k b 0) s)
          (basisObj C basis coeff start k m2.held) n (by
            intro b hb s hs
            have hg : basis.getD b 0 ∈ p :: before := by
              rw [hbasis, List.getD_append _ _ _ _ (by omega)]
              rw [List.getD_eq_getElem _ _ (by omega)]
              exact List.getElem_mem _
            have hwb := hw _ hg
            refine basisObj_inv hC hs (v := w (basis.getD b 0)) (by rw [c2, b2]; exact hwb.1)
              (lt_of_lt_of_le hwb.2.1 (b3.trans c3)) ?_ rfl hn
            rw [hkeep _ hwb.2.1]; exact hwb.2.2)
          (m2.objects, fun _ => none) (by
            have h0 : ∀ j, layerCount start k 0 0 j = 0 := by
              intro j; unfold layerCount; split_ifs <;> omega
            exact ⟨le_rfl, fun _ _ => rfl, fun _ _ => rfl, fun j hj => absurd (h0 j) hj, fun _ _ _ _ hj => absurd rfl hj⟩)
        rw [hlen, List.range_add, List.foldlM_append, hs]
        change List.foldlM _ s _ = _
        rw [Nat.add_comm 1, List.range_succ_eq_map, List.map_cons, List.foldlM_cons]
        have hgq : basis.getD (n + 0) 0 = q := by
          rw [hbasis, hn']
          simp
        have : basisObj C basis coeff start k m2.held s (n + 0) = .error .typeError := by
          simp only [basisObj, HeldObjects.get, hgq, c2, b2, hq, Except.bind]
        rw [this]
        rfl
      simp only [roundObj, hfold, Except.bind]
    have hiter : ∃ r, ceilDivNat sums.length (mx - 1) = r + 1 := by
      have h1 := ceilDivNat_mul_ge sums.length (mx - 1) (by omega)
      have h2 := List.length_pos_iff.mpr hsums
      rcases h : ceilDivNat sums.length (mx - 1) with _ | r
      · rw [h] at h1; omega
      · exact ⟨r, rfl⟩
    obtain ⟨r, hr⟩ := hiter
    have : linCombineObj C two mx basis sums coeff m = .error .typeError := by
      rw [hbasis] at hround ⊢
      simp only [linCombineObj, List.cons_append, b1, c1, Except.bind, hr]
      rw [List.range_succ_eq_map, List.foldlM_cons]
      simp only [List.cons_append] at hround
      rw [hround]
      rfl
    rw [← hbasis]
    exact this

/-- Two arrays `x` and `y` in handles 0 and 1. -/
def twoArrays {n : Nat} (x y : Bool × (Fin n → ℂ)) : HeldObjects (Bool × (Fin n → ℂ)) :=
  ⟨⟨2, fun i => if i = 0 then x else y⟩, fun q => if q < 2 then some q else none⟩

/-- **C88, violation.** With real coefficients, the sum of a real and a complex array raises TypeError if the real one comes first,
and is computed if the complex one comes first. -/
theorem C88_types_violation (n : Nat) (x y : Fin n → ℂ) (c d : ℂ) (mx : Nat) (hmx : 2 ≤ mx) :
    linCombineObj (numpyClass n) (false, 2) mx [0, 1] [2] (fun i _ => (false, if i = 0 then c else d))
      (twoArrays (false, x) (true, y)) = .error .typeError ∧
    ∃ m', linCombineObj (numpyClass n) (false, 2) mx [1, 0] [2] (fun i _ => (false, if i = 0 then d else c))
      (twoArrays (false, x) (true, y)) = .ok m' ∧ ∃ r, m'.held 2 = some r ∧ m'.objects.content r = (true, d • y + c • x) := by
  have h1 : ceilDivNat 1 (mx - 1) = 1 := by
    unfold ceilDivNat
    rw [Nat.add_sub_cancel_left]
    exact Nat.div_self (by omega)
  have h2 : min (mx - 1) 1 = 1 := by omega
  constructor
  · simp [linCombineObj, burnObj, HeldObjects.get, twoArrays, Except.bind, VecClass.rmulObj, numpyClass, h1, h2, roundObj, basisObj,
      layerObj, VecClass.plusEq, Objects.new, List.range_succ, bind, pure, Except.pure]
  · refine ⟨_, by
      simp [linCombineObj, burnObj, HeldObjects.get, twoArrays, Except.bind, VecClass.rmulObj, numpyClass, h1, h2, roundObj, basisObj,
        layerObj, VecClass.plusEq, Objects.new, List.range_succ, bind, pure, Except.pure, Objects.set]; rfl, ?_⟩
    simp

/-- **C88, violation.** The guide asks of a class of vectors that it defines `__mul__` and `__add__`.  A class that defines no more
passes `sanity_check`, whatever its vectors, but every linear combination of its vectors raises TypeError, since `2. * vector` needs
`__rmul__`. -/
theorem C88_rmul_violation {𝕜 E : Type*} [RCLike 𝕜] [AddCommGroup E] [Module 𝕜 E] (C : VecClass 𝕜 E) (hC : C.toVecOps = genuineOps 𝕜 E)
    (hr : C.rmul = false) :
    (∀ (ip : E →ₗ⋆[𝕜] E →ₗ[𝕜] 𝕜) o v, v < o.next → sanityCheck C.toVecOps (some fun x y => ip x y) o v = .ok ()) ∧
    ∀ two mx basis sums coeff m, basis ≠ [] → linCombineObj C two mx basis sums coeff m = .error .typeError := by
  refine ⟨fun ip o v hv => by rw [hC]; exact C46_accepts _ genuineOps_genuine ip o v hv, ?_⟩
  intro two mx basis sums coeff m hb
  obtain ⟨q, rest, rfl⟩ := List.exists_cons_of_ne_nil hb
  have : burnObj C two q m = .error .typeError := by
    unfold burnObj HeldObjects.get
    cases m.held q with
    | none => rfl
    | some v => simp [Except.bind, VecClass.rmulObj, hr]
  simp [linCombineObj, this, Except.bind]

open scoped Classical in
/-- Real numbers as vectors, with a product that returns the vector itself if the factor is 1, and with `+=` in place. -/
noncomputable def sharingClass : VecClass ℝ ℝ where
  mul o v c := if c = 1 then (o, v) else o.new (c * o.content v)
  add o v w := o.new (o.content v + o.content w)
  rmul := true
  iadd := some fun o a b => .ok (o.set a (o.content a + o.content b), a)

/-- **C88, violation.** A product that returns the vector itself if the factor is 1 has the right values, and `sanity_check` accepts
it, as it only multiplies by 2.  If `+=` works in place, then `x + y`, computed twice, is `x + 2 y`, and this also replaces `x`. -/
theorem C88_sharing_violation (x y : ℝ) :
    Genuine sharingClass.toVecOps ∧
    (∀ o v, v < o.next → sanityCheck sharingClass.toVecOps (some fun a b => a * b) o v = .ok ()) ∧
    ∃ m', linCombineObj sharingClass 2 3 [0, 1] [2, 3] (fun _ _ => 1)
        ⟨⟨2, fun i => if i = 0 then x else y⟩, fun q => if q < 2 then some q else none⟩ = .ok m' ∧
      m'.held 2 = some 0 ∧ m'.held 3 = some 0 ∧ m'.objects.content 0 = x + 2 * y := by
  have hg : Genuine sharingClass.toVecOps := by
    constructor
    · intro o v c hv
      by_cases hc : c = 1 <;> simp [sharingClass, hc, Objects.new]
    · intro o v c hv
      by_cases hc : c = 1 <;> simp [sharingClass, hc, Objects.new, hv]
    · intro o v c w hw
      by_cases hc : c = 1
      · simp [sharingClass, hc, hw]
      · simp [sharingClass, hc, Objects.new, hw.ne]; omega
    · intro o v w hv hw
      simp [sharingClass, Objects.new]
    · intro o v w z hz
      simp [sharingClass, Objects.new, hz.ne]; omega
  refine ⟨hg, ?_, ?_⟩
  · intro o v hv
    have := C46_accepts sharingClass.toVecOps hg
      (LinearMap.mul ℝ ℝ ∘ₛₗ (starLinearEquiv ℝ : ℝ ≃ₗ⋆[ℝ] ℝ).toLinearMap) o v hv
    simpa using this
  · refine ⟨_, by
      simp [linCombineObj, burnObj, HeldObjects.get, Except.bind, VecClass.rmulObj, sharingClass, ceilDivNat, roundObj, basisObj,
        layerObj, VecClass.plusEq, Objects.new, List.range_succ, bind, pure, Except.pure, Objects.set]; rfl, ?_⟩
    simp
    ring

/-- The hypotheses of `C88_arrays_partial` can be met: two real arrays of one number and two sums, in rounds of one. -/
example : ∃ m', linCombineObj (numpyClass 1) (false, 2) 2 [0, 1] [2, 3] (fun i k => (false, i + k))
      (twoArrays (false, fun _ => 1) (false, fun _ => 2)) = .ok m' ∧ ∃ r, m'.held 3 = some r ∧ (m'.objects.content r).2 0 = 5 := by
  obtain ⟨m', h1, h2⟩ := C88_arrays_partial 1 false false 2 le_rfl [0, 1] [2, 3] (by simp) (by simp) (by simp)
    (fun i k => (false, i + k)) (fun _ _ => rfl) (twoArrays (false, fun _ => 1) (false, fun _ => 2)) (by
      intro q hq
      rcases List.mem_pair.mp hq with rfl | rfl <;> simp [twoArrays])
  obtain ⟨r, e1, -, -, e4⟩ := h2.result 1 (by simp)
  refine ⟨m', h1, r, e1, ?_⟩
  have := e4 id (fun i hi => by
    have : i = 0 ∨ i = 1 := by simp at hi; omega
    rcases this with rfl | rfl <;> simp [twoArrays])
  rw [this]
  simp [Finset.sum_range_succ, twoArrays]
  norm_num

/-- The hypotheses of `C88_refused` can be met: handle 5 is empty. -/
example : linCombineObj (numpyClass 1) (false, 2) 2 [0, 1, 5] [2, 3] (fun i k => (false, i + k))
      (twoArrays (false, fun _ => 1) (false, fun _ => 2)) = .error .typeError :=
  (C88_refused (numpyClass 1) _ _ _ _ _ _ (numpyClass_proper 1 false false) _ 2 le_rfl [2, 3] (fun i k => (false, i + k))
    (fun _ _ => rfl) _).2 [0, 1] 5 [] (by simp) (by simp [twoArrays]) (by
      intro q hq
      rcases List.mem_pair.mp hq with rfl | rfl <;> simp [twoArrays])

/-- The hypotheses of `C88_no_iadd_partial` can be met, also by a product that returns existing objects. -/
example (mx : Nat) (hmx : 2 ≤ mx) : ∃ m', linCombineObj { sharingClass with iadd := none } 2 mx [0, 1] [2, 3] (fun _ _ => 1)
      ⟨⟨2, fun i => if i = 0 then 5 else 7⟩, fun q => if q < 2 then some q else none⟩ = .ok m' ∧
    ∃ r, m'.held 3 = some r ∧ m'.objects.content r = 12 ∧ m'.objects.content 0 = 5 := by
  obtain ⟨m', h1, h2⟩ := C88_no_iadd_partial { sharingClass with iadd := none } (C88_sharing_violation 0 0).1
    (fun o v w _ _ => by simp [sharingClass, Objects.new]) rfl rfl mx hmx [0, 1] [2, 3] (by simp) (by simp) (by simp) (fun _ _ => 1)
    ⟨⟨2, fun i => if i = 0 then 5 else 7⟩, fun q => if q < 2 then some q else none⟩ (by
      intro q hq
      rcases List.mem_pair.mp hq with rfl | rfl <;> simp)
  obtain ⟨r, e1, -, -, e4⟩ := h2.result 1 (by simp)
  refine ⟨m', h1, r, e1, ?_, ?_⟩
  · have := e4 id (fun i hi => by
      have : i = 0 ∨ i = 1 := by simp at hi; omega
      rcases this with rfl | rfl <;> simp)
    simp [Finset.sum_range_succ] at this
    rw [this]; norm_num
  · have := h2.kept 0 (by simp)
    simpa using this

end Modred
