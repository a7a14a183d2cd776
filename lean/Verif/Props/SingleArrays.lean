import Verif.Model.SingleArrays
import Verif.Props.Decomp

/-!
# Single arrays are saved and loaded (C66)
-/

namespace Modred

variable {R Stored : Type*}

/-- After saving, all arrays of the list can be got from their destinations, in the form in which places restore them, and
nothing else has changed. -/
def SavedAt (put : NpArray R → Except Err Stored) (get : Stored → Except Err (NpArray R))
    (items : List (Nat × NpArray R)) (before after : Places Stored) : Prop :=
  (∀ item ∈ items, ∀ y, Restores put get item.2 y → getFrom get item.1 after = .ok y) ∧
    ∀ i, (∀ item ∈ items, i ≠ item.1) → after i = before i

/-- What a saver and a loader of one array do: the array at the attribute is restored in another object, other attributes
of that object and other places stay as they are; without anything saved loading raises an exception. -/
structure SavesAndLoads (attr : Attr) (put : NpArray R → Except Err Stored) (get : Stored → Except Err (NpArray R))
    (save : Held R → Nat → Places Stored → Except Err (Places Stored))
    (load : Nat → Places Stored → Held R → Except Err (Held R)) : Prop where
  restores : ∀ (obj obj' : Held R) (x y : NpArray R) (dest : Nat) (p : Places Stored), obj attr = some x →
    Restores put get x y → ∃ p', save obj dest p = .ok p' ∧
      load dest p' obj' = .ok (fun at' => if at' = attr then some y else obj' at') ∧ ∀ i, i ≠ dest → p' i = p i
  missing : ∀ (obj : Held R) (src : Nat) (p : Places Stored), p src = none → load src p obj = .error .osError

theorem attr_savesAndLoads (attr : Attr) (put : NpArray R → Except Err Stored) (get : Stored → Except Err (NpArray R)) :
    SavesAndLoads attr put get (putAttr put attr) (getAttr get attr) := by
  refine ⟨?_, ?_⟩
  · rintro obj obj' x y dest p hx ⟨s, hs, hs'⟩
    refine ⟨fun i => if i = dest then some s else p i, ?_, ?_, fun i hi => if_neg hi⟩
    · simp only [putAttr, hx, putTo_ok put hs]
    · simp only [getAttr, getFrom, reduceIte, hs']
      exact congrArg Except.ok (funext fun at' => by simp only [Function.update_apply])
  · intro obj src p h
    simp only [getAttr, getFrom, h]
    rfl

/-- **C66.** The methods that save and load one array. -/
theorem C66_single_arrays (put : NpArray R → Except Err Stored) (get : Stored → Except Err (NpArray R)) :
    SavesAndLoads .correlationArray put get (podPutCorrelationArray put) (podGetCorrelationArray get) ∧
    SavesAndLoads .projCoeffs put get (podPutProjCoeffs put) (podGetProjCoeffs get) ∧
    SavesAndLoads .hankelArray put get (bpodPutHankelArray put) (bpodGetHankelArray get) ∧
    SavesAndLoads .directProjCoeffs put get (bpodPutDirectProjCoeffs put) (bpodGetDirectProjCoeffs get) ∧
    SavesAndLoads .adjointProjCoeffs put get (bpodPutAdjointProjCoeffs put) (bpodGetAdjointProjCoeffs get) ∧
    SavesAndLoads .correlationArray put get (dmdPutCorrelationArray put) (dmdGetCorrelationArray get) ∧
    SavesAndLoads .crossCorrelationArray put get (dmdPutCrossCorrelationArray put) (dmdGetCrossCorrelationArray get) ∧
    SavesAndLoads .spectralCoeffs put get (dmdPutSpectralCoeffs put) (dmdGetSpectralCoeffs get) ∧
    SavesAndLoads .advCorrelationArray put get (tlsqrPutAdvCorrelationArray put) (tlsqrGetAdvCorrelationArray get) ∧
    SavesAndLoads .sumCorrelationArray put get (tlsqrPutSumCorrelationArray put) (tlsqrGetSumCorrelationArray get) ∧
    SavesAndLoads .projCorrelationArray put get (tlsqrPutProjCorrelationArray put) (tlsqrGetProjCorrelationArray get) := by
  refine ⟨?_, ?_, ?_, ?_, ?_, ?_, ?_, ?_, ?_, ?_, ?_⟩ <;> exact attr_savesAndLoads _ put get

theorem putAttr_ok (put : NpArray R → Except Err Stored) {attr : Attr} {obj : Held R} {x : NpArray R} (hx : obj attr = some x)
    {s : Stored} (h : put x = .ok s) (dest : Nat) (p : Places Stored) :
    putAttr put attr obj dest p = .ok fun i => if i = dest then some s else p i := by
  simp only [putAttr, hx, putTo_ok put h]

/-- **C66.** Both arrays of projection coefficients of `DMDHandles` are restored. -/
theorem C66_dmd_proj_coeffs (put : NpArray R → Except Err Stored) (get : Stored → Except Err (NpArray R)) (obj obj' : Held R)
    (x x' y y' : NpArray R) (hx : obj .projCoeffs = some x) (hx' : obj .advProjCoeffs = some x')
    (h : Restores put get x y) (h' : Restores put get x' y') (a b : Nat) (hab : a ≠ b) (p : Places Stored) :
    ∃ p', dmdPutProjCoeffs put obj a b p = .ok p' ∧
      dmdGetProjCoeffs get a b p' obj' = .ok (fun at' =>
        if at' = .projCoeffs then some y else if at' = .advProjCoeffs then some y' else obj' at') ∧
      ∀ i, i ≠ a → i ≠ b → p' i = p i := by
  obtain ⟨s, hs, g⟩ := h
  obtain ⟨t, ht, g'⟩ := h'
  refine ⟨fun i => if i = b then some t else if i = a then some s else p i, ?_, ?_, ?_⟩
  · simp only [dmdPutProjCoeffs, bind, Except.bind, putAttr_ok put hx hs, putAttr_ok put hx' ht]
  · simp only [dmdGetProjCoeffs, getAttr, getFrom, if_neg hab, reduceIte, g, g', bind, Except.bind, pure, Except.pure]
    refine congrArg Except.ok (funext fun at' => ?_)
    simp only [Function.update_apply]
    by_cases h1 : at' = .advProjCoeffs
    · subst h1
      simp
    · simp [h1]
  · intro i ha hb
    simp only [if_neg ha, if_neg hb]

/-- **C66.** `ERA.put_model`: the arrays of the model are at their destinations. -/
theorem C66_era_model (put : NpArray R → Except Err Stored) (get : Stored → Except Err (NpArray R)) (obj : Held R)
    (x y z : NpArray R) (hx : obj .a = some x) (hy : obj .b = some y) (hz : obj .c = some z)
    (hput : ∀ u ∈ [x, y, z], ∃ s, put u = .ok s) (a b c : Nat) (hd : [a, b, c].Nodup) (p : Places Stored) :
    ∃ p', eraPutModel put obj a b c p = .ok p' ∧ SavedAt put get [(a, x), (b, y), (c, z)] p p' := by
  obtain ⟨s, hs⟩ := hput x (by simp)
  obtain ⟨t, ht⟩ := hput y (by simp)
  obtain ⟨u, hu⟩ := hput z (by simp)
  simp only [List.nodup_cons, List.mem_cons, List.not_mem_nil, or_false, not_or, not_false_eq_true, and_true,
    List.nodup_nil] at hd
  refine ⟨fun i => if i = c then some u else if i = b then some t else if i = a then some s else p i, ?_, ?_, ?_⟩
  · simp only [eraPutModel, bind, Except.bind, putAttr_ok put hx hs, putAttr_ok put hy ht, putAttr_ok put hz hu]
  · intro item hitem v hv
    obtain ⟨s', hs', hg⟩ := hv
    simp only [List.mem_cons, List.not_mem_nil, or_false] at hitem
    rcases hitem with rfl | rfl | rfl
    · rw [hs] at hs'
      cases hs'
      simp [getFrom, hd.1.1, hd.1.2, hg]
    · rw [ht] at hs'
      cases hs'
      simp [getFrom, hd.2, hg]
    · rw [hu] at hs'
      cases hs'
      simp [getFrom, hg]
  · intro i hi
    simp only [List.mem_cons, List.not_mem_nil, or_false, forall_eq_or_imp, forall_eq] at hi
    simp only [if_neg hi.1, if_neg hi.2.1, if_neg hi.2.2]

/-- **C66.** `put_model` of the classes for Galerkin projection. -/
theorem C66_lti_model (put : NpArray R → Except Err Stored) (get : Stored → Except Err (NpArray R)) (obj : Held R)
    (x y z : NpArray R) (hx : obj .aReduced = some x) (hy : obj .bReduced = some y) (hz : obj .cReduced = some z)
    (hput : ∀ u ∈ [x, y, z], ∃ s, put u = .ok s) (a b c : Nat) (hd : [a, b, c].Nodup) (p : Places Stored) :
    ∃ p', ltiPutModel put obj a b c p = .ok p' ∧ SavedAt put get [(a, x), (b, y), (c, z)] p p' := by
  refine C66_era_model put get (fun at' => match at' with | .a => some x | .b => some y | .c => some z | _ => none) x y z
    rfl rfl rfl hput a b c hd p |>.imp fun p' h => ⟨?_, h.2⟩
  have := h.1
  simp only [eraPutModel, ltiPutModel, putAttr, hx, hy, hz] at this ⊢
  exact this

/-- **C66.** `ERA.put_decomp`: each array is at its destination. -/
theorem C66_era_decomp (put : NpArray R → Except Err Stored) (get : Stored → Except Err (NpArray R)) (obj : Held R)
    (vals left right hankel hankel2 : NpArray R) (h1 : obj .singVals = some vals) (h2 : obj .leftSingVecs = some left)
    (h3 : obj .rightSingVecs = some right) (h4 : obj .hankelArray = some hankel) (h5 : obj .hankelArray2 = some hankel2)
    (hput : ∀ u ∈ [vals, left, right, hankel, hankel2], ∃ s, put u = .ok s) (dest : Fin 5 → Nat) (hdest : Function.Injective dest) (p : Places Stored) :
    ∃ p', eraPutDecomp put obj (dest 0) (dest 1) (dest 2) (dest 3) (dest 4) p = .ok p' ∧
      SavedAt put get [(dest 0, vals), (dest 1, left), (dest 2, right), (dest 3, hankel), (dest 4, hankel2)] p p' := by
  obtain ⟨s1, hs1⟩ := hput vals (by simp)
  obtain ⟨s2, hs2⟩ := hput left (by simp)
  obtain ⟨s3, hs3⟩ := hput right (by simp)
  obtain ⟨s4, hs4⟩ := hput hankel (by simp)
  obtain ⟨s5, hs5⟩ := hput hankel2 (by simp)
  have n : ∀ {i j : Fin 5}, (dest i = dest j) = (i = j) := fun {i j} => propext hdest.eq_iff
  refine ⟨fun i => if i = dest 2 then some s3 else if i = dest 0 then some s1 else if i = dest 1 then some s2 else
    if i = dest 4 then some s5 else if i = dest 3 then some s4 else p i, ?_, ?_, ?_⟩
  · simp only [eraPutDecomp, bind, Except.bind, putAttr_ok put h1 hs1, putAttr_ok put h2 hs2, putAttr_ok put h3 hs3,
      putAttr_ok put h4 hs4, putAttr_ok put h5 hs5]
  · intro item hitem v hv
    obtain ⟨s', hs', hg⟩ := hv
    simp only [List.mem_cons, List.not_mem_nil, or_false] at hitem
    rcases hitem with rfl | rfl | rfl | rfl | rfl
    · rw [hs1] at hs'; cases hs'; simp only [getFrom, n]; simp [hg]
    · rw [hs2] at hs'; cases hs'; simp only [getFrom, n]; simp [hg]
    · rw [hs3] at hs'; cases hs'; simp only [getFrom, n]; simp [hg]
    · rw [hs4] at hs'; cases hs'; simp only [getFrom, n]; simp [hg]
    · rw [hs5] at hs'; cases hs'; simp only [getFrom, n]; simp [hg]
  · intro i hi
    simp only [List.mem_cons, List.not_mem_nil, or_false, forall_eq_or_imp, forall_eq] at hi
    simp only [if_neg hi.1, if_neg hi.2.1, if_neg hi.2.2.1, if_neg hi.2.2.2.1, if_neg hi.2.2.2.2]

/-- **C66.** `ERA.put_sing_vals`. -/
theorem C66_era_sing_vals (put : NpArray R → Except Err Stored) (get : Stored → Except Err (NpArray R)) (obj : Held R)
    (x y : NpArray R) (hx : obj .singVals = some x) (h : Restores put get x y) (a : Nat) (p : Places Stored) :
    ∃ p', eraPutSingVals put obj a p = .ok p' ∧ getFrom get a p' = .ok y := by
  obtain ⟨s, hs, g⟩ := h
  exact ⟨_, putAttr_ok put hx hs a p, by simp [getFrom, g]⟩

/-- **C66, text files.** Real arrays with two dimensions are restored exactly by any saver and loader as above. -/
theorem C66_text (bits : Int → R) {attr : Attr} {save : Held R → Nat → Places (List (List R)) → Except Err (Places (List (List R)))}
    {load : Nat → Places (List (List R)) → Held R → Except Err (Held R)}
    (h : SavesAndLoads attr (saveArrayText bits) (loadText false) save load) (obj obj' : Held R) (rows : List (List R))
    (hx : obj attr = some (.float (.d2 rows false))) (dest : Nat) (p : Places (List (List R))) :
    ∃ p', save obj dest p = .ok p' ∧
      load dest p' obj' = .ok (fun at' => if at' = attr then obj attr else obj' at') := by
  obtain ⟨p', h1, h2, -⟩ := h.restores obj obj' _ _ dest p hx (text_matrix bits rows false)
  exact ⟨p', h1, by rw [h2, hx]⟩

/-- **C66, violation.** Spectral coefficients of DMD, which are real and one-dimensional, come back from text files as a
two-dimensional array with one column. -/
theorem C66_spectral_coeffs_violation (bits : Int → R) (obj obj' : Held R) (dest : Nat) (p : Places (List (List R)))
    (l : List R) (hx : obj .spectralCoeffs = some (.float (.d1 l))) :
    ∃ p', dmdPutSpectralCoeffs (saveArrayText bits) obj dest p = .ok p' ∧
      ∃ o, dmdGetSpectralCoeffs (loadText false) dest p' obj' = .ok o ∧
        o .spectralCoeffs = some (.float (.d2 (l.map fun x => [x]) false)) ∧
        o .spectralCoeffs ≠ obj .spectralCoeffs := by
  obtain ⟨p', h1, h2, -⟩ := (attr_savesAndLoads .spectralCoeffs (saveArrayText bits) (loadText false)).restores obj obj'
    _ _ dest p hx (text_vector bits l)
  exact ⟨p', h1, _, h2, by simp, by simp [hx]⟩

/-- **C66, violation.** Complex arrays with two dimensions, such as the correlation array of complex vectors, come back from
text files as real arrays with twice as many columns. -/
theorem C66_complex_violation (bits : Int → R) {attr : Attr}
    {save : Held R → Nat → Places (List (List R)) → Except Err (Places (List (List R)))}
    {load : Nat → Places (List (List R)) → Held R → Except Err (Held R)}
    (h : SavesAndLoads attr (saveArrayText bits) (loadText false) save load) (obj obj' : Held R) (rows : List (List (R × R)))
    (hx : obj attr = some (.complex (.d2 rows false))) (dest : Nat) (p : Places (List (List R))) :
    ∃ p', save obj dest p = .ok p' ∧ ∃ o, load dest p' obj' = .ok o ∧
      o attr = some (.float (.d2 (rows.map fun row => row.flatMap fun z => [z.1, z.2]) false)) ∧ o attr ≠ obj attr := by
  obtain ⟨p', h1, h2, -⟩ := h.restores obj obj' _ (.float (.d2 (rows.map fun row => row.flatMap fun z => [z.1, z.2]) false))
    dest p hx ⟨rows.map fun row => row.flatMap fun z => [z.1, z.2], by simp [saveArrayText, toSave],
      by simp [loadText, loadArrayText]⟩
  exact ⟨p', h1, _, h2, by simp, by simp [hx]⟩

/-- **C66.** Methods of `DMDHandles` that are not available for total-least-squares DMD raise `NotImplementedError` and save
nothing. -/
theorem C66_not_available (obj : Held R) (dest : Nat) (p : Places Stored) :
    tlsqrPutCorrelationArrayEig obj dest p = .error .notImplementedError := rfl

/-- An object with a correlation array, saved to a text file and loaded into an empty object. -/
example : ∃ p', podPutCorrelationArray (saveArrayText (fun x => (x : ℤ)))
      (fun at' => if at' = .correlationArray then some (.float (.d2 [[2, 1], [1, 3]] false)) else none) 4 (fun _ => none) =
      .ok p' ∧ ∃ o, podGetCorrelationArray (loadText false) 4 p' (fun _ => none) = .ok o ∧
      o .correlationArray = some (.float (.d2 [[2, 1], [1, 3]] false)) ∧ o .projCoeffs = none := by
  obtain ⟨p', h1, h2⟩ := C66_text (fun x => (x : ℤ)) (C66_single_arrays _ _).1
    (fun at' => if at' = .correlationArray then some (.float (.d2 [[2, 1], [1, 3]] false)) else none) (fun _ => none)
    [[2, 1], [1, 3]] (by simp) 4 (fun _ => none)
  exact ⟨p', h1, _, h2, by simp, by simp⟩

/-- An object of class `ERA` or a Galerkin projection with arrays, for examples. -/
def heldExample : Held ℤ := fun at' => match at' with
  | .a | .aReduced | .leftSingVecs => some (.float (.d2 [[1, 2], [3, 4]] false))
  | .b | .bReduced | .rightSingVecs | .projCoeffs => some (.float (.d2 [[5], [6]] false))
  | .c | .cReduced | .hankelArray | .hankelArray2 | .advProjCoeffs => some (.float (.d2 [[7, 8]] false))
  | .singVals | .spectralCoeffs => some (.float (.d1 [9, 10]))
  | _ => some (.complex (.d2 [[(1, 2)]] false))

example : ∃ p', eraPutModel (saveArrayText id) heldExample 3 1 2 (fun _ => none) = .ok p' ∧
    SavedAt (saveArrayText id) (loadText false) [(3, .float (.d2 [[1, 2], [3, 4]] false)), (1, .float (.d2 [[5], [6]] false)),
      (2, .float (.d2 [[7, 8]] false))] (fun _ => none) p' :=
  C66_era_model _ _ _ _ _ _ rfl rfl rfl (by simp [saveArrayText, toSave]) 3 1 2 (by decide) _

example : ∃ p', ltiPutModel (saveArrayText id) heldExample 3 1 2 (fun _ => none) = .ok p' ∧
    SavedAt (saveArrayText id) (loadText false) [(3, .float (.d2 [[1, 2], [3, 4]] false)), (1, .float (.d2 [[5], [6]] false)),
      (2, .float (.d2 [[7, 8]] false))] (fun _ => none) p' :=
  C66_lti_model _ _ _ _ _ _ rfl rfl rfl (by simp [saveArrayText, toSave]) 3 1 2 (by decide) _

example : ∃ p', eraPutDecomp (saveArrayText id) heldExample 0 1 2 3 4 (fun _ => none) = .ok p' ∧
    SavedAt (saveArrayText id) (loadText false) [(0, .float (.d1 [9, 10])), (1, .float (.d2 [[1, 2], [3, 4]] false)),
      (2, .float (.d2 [[5], [6]] false)), (3, .float (.d2 [[7, 8]] false)), (4, .float (.d2 [[7, 8]] false))]
      (fun _ => none) p' :=
  C66_era_decomp _ _ _ _ _ _ _ _ rfl rfl rfl rfl rfl (by simp [saveArrayText, toSave]) (fun i => i)
    (fun _ _ h => Fin.ext h) _

example : ∃ p', dmdPutProjCoeffs (saveArrayText id) heldExample 0 1 (fun _ => none) = .ok p' ∧
    dmdGetProjCoeffs (loadText false) 0 1 p' (fun _ => none) = .ok (fun at' =>
      if at' = .projCoeffs then some (.float (.d2 [[5], [6]] false)) else
      if at' = .advProjCoeffs then some (.float (.d2 [[7, 8]] false)) else none) ∧ ∀ i, i ≠ 0 → i ≠ 1 → p' i = none :=
  C66_dmd_proj_coeffs _ _ _ _ _ _ _ _ rfl rfl (text_matrix _ _ _) (text_matrix _ _ _) 0 1 (by decide) _

example : ∃ p', dmdPutSpectralCoeffs (saveArrayText id) heldExample 0 (fun _ => none) = .ok p' ∧
    ∃ o, dmdGetSpectralCoeffs (loadText false) 0 p' heldExample = .ok o ∧
      o .spectralCoeffs = some (.float (.d2 [[9], [10]] false)) ∧ o .spectralCoeffs ≠ heldExample .spectralCoeffs :=
  C66_spectral_coeffs_violation _ _ _ _ _ [9, 10] rfl

example : ∃ p', bpodPutDirectProjCoeffs (saveArrayText id) heldExample 0 (fun _ => none) = .ok p' ∧
    ∃ o, bpodGetDirectProjCoeffs (loadText false) 0 p' heldExample = .ok o ∧
      o .directProjCoeffs = some (.float (.d2 [[1, 2]] false)) ∧ o .directProjCoeffs ≠ heldExample .directProjCoeffs :=
  C66_complex_violation _ (C66_single_arrays _ _).2.2.2.1 _ _ [[(1, 2)]] rfl _ _

end Modred
