import Verif.Model.Decomp
import Verif.Props.Text
import Mathlib.Data.List.GetD

/-!
# Decompositions are saved and loaded (C44)
-/

namespace Modred

variable {R Stored : Type*}

/-- Putting `a` somewhere succeeds, and getting it from there gives `b`. -/
def Restores (put : NpArray R → Except Err Stored) (get : Stored → Except Err (NpArray R)) (a b : NpArray R) : Prop :=
  ∃ s, put a = .ok s ∧ get s = .ok b

theorem putTo_ok (put : NpArray R → Except Err Stored) {a : NpArray R} {s : Stored} (h : put a = .ok s) (dest : Nat)
    (p : Places Stored) : putTo put a dest p = .ok fun i => if i = dest then some s else p i := by
  unfold putTo
  rw [h]

/-- **C44, any place.** If arrays put to places are got from there in some form, then so are those of a decomposition of
`PODHandles`, the eigenvalues squeezed; other places stay as they are. -/
theorem C44_pod (put : NpArray R → Except Err Stored) (get : Stored → Except Err (NpArray R)) (d : PodSaved R)
    (vals vecs : NpArray R) (hvals : Restores put get d.eigvals vals) (hvecs : Restores put get d.eigvecs vecs)
    (a b : Nat) (hab : a ≠ b) (p : Places Stored) :
    ∃ p', podPutDecomp put d a b p = .ok p' ∧ podGetDecomp get a b p' = .ok ⟨squeezeArray vals, vecs⟩ ∧
      ∀ i, i ≠ a → i ≠ b → p' i = p i := by
  obtain ⟨s, hs, hs'⟩ := hvals
  obtain ⟨t, ht, ht'⟩ := hvecs
  refine ⟨fun i => if i = a then some s else if i = b then some t else p i, ?_, ?_, ?_⟩
  · unfold podPutDecomp
    rw [putTo_ok put ht]
    change putTo put d.eigvals a _ = _
    rw [putTo_ok put hs]
  · unfold podGetDecomp getFrom
    simp only [if_neg hab.symm, reduceIte, hs', ht']
    rfl
  · intro i ha hb
    simp only [if_neg ha, if_neg hb]

/-- **C44, any place.** The same for `BPODHandles`. -/
theorem C44_bpod (put : NpArray R → Except Err Stored) (get : Stored → Except Err (NpArray R)) (d : BpodSaved R)
    (vals left right : NpArray R) (hvals : Restores put get d.singVals vals) (hleft : Restores put get d.left left)
    (hright : Restores put get d.right right) (a b c : Nat) (hab : a ≠ b) (hac : a ≠ c) (hbc : b ≠ c) (p : Places Stored) :
    ∃ p', bpodPutDecomp put d a b c p = .ok p' ∧
      bpodGetDecomp get a b c p' = .ok ⟨squeezeArray vals, left, right⟩ ∧
      ∀ i, i ≠ a → i ≠ b → i ≠ c → p' i = p i := by
  obtain ⟨s, hs, hs'⟩ := hvals
  obtain ⟨t, ht, ht'⟩ := hleft
  obtain ⟨u, hu, hu'⟩ := hright
  refine ⟨fun i => if i = c then some u else if i = b then some t else if i = a then some s else p i, ?_, ?_, ?_⟩
  · unfold bpodPutDecomp
    rw [putTo_ok put hs]
    change (do let p ← putTo put d.left b _; putTo put d.right c p) = _
    rw [putTo_ok put ht]
    change putTo put d.right c _ = _
    rw [putTo_ok put hu]
  · unfold bpodGetDecomp getFrom
    simp only [if_neg hab, if_neg hac, if_neg hbc, reduceIte, hs', ht', hu']
    rfl
  · intro i ha hb hc
    simp only [if_neg ha, if_neg hb, if_neg hc]

/-- **C44, any place.** The same for `DMDHandles`, with both arrays of eigenvalues squeezed. -/
theorem C44_dmd (put : NpArray R → Except Err Stored) (get : Stored → Except Err (NpArray R)) (d e : DmdSaved R)
    (h0 : Restores put get d.eigvals e.eigvals) (h1 : Restores put get d.right e.right)
    (h2 : Restores put get d.left e.left) (h3 : Restores put get d.corrEigvals e.corrEigvals)
    (h4 : Restores put get d.corrEigvecs e.corrEigvecs) (dest : Fin 5 → Nat) (hdest : Function.Injective dest)
    (p : Places Stored) :
    ∃ p', dmdPutDecomp put d dest p = .ok p' ∧
      dmdGetDecomp get dest p' =
        .ok { e with eigvals := squeezeArray e.eigvals, corrEigvals := squeezeArray e.corrEigvals } ∧
      ∀ i, (∀ k, i ≠ dest k) → p' i = p i := by
  obtain ⟨s0, hs0, g0⟩ := h0
  obtain ⟨s1, hs1, g1⟩ := h1
  obtain ⟨s2, hs2, g2⟩ := h2
  obtain ⟨s3, hs3, g3⟩ := h3
  obtain ⟨s4, hs4, g4⟩ := h4
  refine ⟨fun i => if i = dest 4 then some s4 else if i = dest 3 then some s3 else if i = dest 2 then some s2 else
    if i = dest 1 then some s1 else if i = dest 0 then some s0 else p i, ?_, ?_, ?_⟩
  · simp only [dmdPutDecomp, putTo_ok put hs0, putTo_ok put hs1, putTo_ok put hs2, putTo_ok put hs3, putTo_ok put hs4,
      bind, Except.bind]
  · have n : ∀ {i j : Fin 5}, i ≠ j → dest i ≠ dest j := fun h h' => h (hdest h')
    simp only [dmdGetDecomp, getFrom, bind, Except.bind, pure, Except.pure,
      if_neg (n (show (0 : Fin 5) ≠ 4 by decide)), if_neg (n (show (0 : Fin 5) ≠ 3 by decide)),
      if_neg (n (show (0 : Fin 5) ≠ 2 by decide)), if_neg (n (show (0 : Fin 5) ≠ 1 by decide)),
      if_neg (n (show (1 : Fin 5) ≠ 4 by decide)), if_neg (n (show (1 : Fin 5) ≠ 3 by decide)),
      if_neg (n (show (1 : Fin 5) ≠ 2 by decide)), if_neg (n (show (2 : Fin 5) ≠ 4 by decide)),
      if_neg (n (show (2 : Fin 5) ≠ 3 by decide)), if_neg (n (show (3 : Fin 5) ≠ 4 by decide)),
      reduceIte, g0, g1, g2, g3, g4]
  · intro i hi
    simp only [if_neg (hi 0), if_neg (hi 1), if_neg (hi 2), if_neg (hi 3), if_neg (hi 4)]

/-- **C44, any place.** The same for `TLSqrDMDHandles`, with all three arrays of eigenvalues squeezed. -/
theorem C44_tls (put : NpArray R → Except Err Stored) (get : Stored → Except Err (NpArray R)) (d e : TlsqrSaved R)
    (h0 : Restores put get d.eigvals e.eigvals) (h1 : Restores put get d.right e.right)
    (h2 : Restores put get d.left e.left) (h3 : Restores put get d.sumEigvals e.sumEigvals)
    (h4 : Restores put get d.sumEigvecs e.sumEigvecs) (h5 : Restores put get d.projEigvals e.projEigvals)
    (h6 : Restores put get d.projEigvecs e.projEigvecs) (dest : Fin 7 → Nat) (hdest : Function.Injective dest)
    (p : Places Stored) :
    ∃ p', tlsqrPutDecomp put d dest p = .ok p' ∧
      tlsqrGetDecomp get dest p' =
        .ok { e with eigvals := squeezeArray e.eigvals, sumEigvals := squeezeArray e.sumEigvals,
                     projEigvals := squeezeArray e.projEigvals } ∧
      ∀ i, (∀ k, i ≠ dest k) → p' i = p i := by
  obtain ⟨s0, hs0, g0⟩ := h0
  obtain ⟨s1, hs1, g1⟩ := h1
  obtain ⟨s2, hs2, g2⟩ := h2
  obtain ⟨s3, hs3, g3⟩ := h3
  obtain ⟨s4, hs4, g4⟩ := h4
  obtain ⟨s5, hs5, g5⟩ := h5
  obtain ⟨s6, hs6, g6⟩ := h6
  refine ⟨fun i => if i = dest 6 then some s6 else if i = dest 5 then some s5 else if i = dest 4 then some s4 else
    if i = dest 3 then some s3 else if i = dest 2 then some s2 else
    if i = dest 1 then some s1 else if i = dest 0 then some s0 else p i, ?_, ?_, ?_⟩
  · simp only [tlsqrPutDecomp, putTo_ok put hs0, putTo_ok put hs1, putTo_ok put hs2, putTo_ok put hs3, putTo_ok put hs4,
      putTo_ok put hs5, putTo_ok put hs6, bind, Except.bind]
  · have n : ∀ {i j : Fin 7}, i ≠ j → dest i ≠ dest j := fun h h' => h (hdest h')
    have n' : ∀ {i j : Fin 7}, (dest i = dest j) = (i = j) := fun {i j} => propext hdest.eq_iff
    have g : ∀ {i : Fin 7}, dest i = dest i := rfl
    simp only [tlsqrGetDecomp, getFrom, bind, Except.bind, pure, Except.pure, n']
    simp [g0, g1, g2, g3, g4, g5, g6]
  · intro i hi
    simp only [if_neg (hi 0), if_neg (hi 1), if_neg (hi 2), if_neg (hi 3), if_neg (hi 4), if_neg (hi 5), if_neg (hi 6)]

theorem squeeze_column {α : Type*} (l : List α) (fortran : Bool) (hl : 2 ≤ l.length) :
    squeeze (.d2 (l.map fun x => [x]) fortran) = .d1 l := by
  match l, hl with
  | x :: y :: l, _ =>
    have h : ((x :: y :: l).map fun x => [x]).all (fun row => row.length == 1) = true := by simp
    have e : squeeze (.d2 ((x :: y :: l).map fun x => [x]) fortran) =
        if ((x :: y :: l).map fun x => [x]).all (fun row => row.length == 1) then
          .d1 (((x :: y :: l).map fun x => [x]).flatMap id) else .d2 ((x :: y :: l).map fun x => [x]) fortran := by
      rfl
    rw [e, if_pos h, List.flatMap_map]
    simp

theorem squeeze_vector {α : Type*} (l : List α) (hl : 2 ≤ l.length) : squeeze (.d1 l) = .d1 l := by
  match l, hl with
  | x :: y :: l, _ => rfl

/-- A text file gives back a real vector as a column. -/
theorem text_vector (bits : Int → R) (l : List R) :
    Restores (saveArrayText bits) (loadText false) (.float (.d1 l)) (.float (.d2 (l.map fun x => [x]) false)) := by
  obtain ⟨file, h, h'⟩ := C14_float_vector_round_trip bits l
  exact ⟨file, h, by simp only [loadText, h']⟩

theorem text_matrix (bits : Int → R) (rows : List (List R)) (fortran : Bool) :
    Restores (saveArrayText bits) (loadText false) (.float (.d2 rows fortran)) (.float (.d2 rows false)) := by
  obtain ⟨file, h, h'⟩ := C14_float_round_trip bits rows fortran
  exact ⟨file, h, by simp only [loadText, h']⟩

/-- **C44.** With text files, a real decomposition of `PODHandles` with two eigenvalues or more is got back. -/
theorem C44_pod_text (bits : Int → R) (vals : List R) (hvals : 2 ≤ vals.length) (vecs : List (List R)) (fortran : Bool)
    (a b : Nat) (hab : a ≠ b) (p : Places (List (List R))) :
    ∃ p', podPutDecomp (saveArrayText bits) ⟨.float (.d1 vals), .float (.d2 vecs fortran)⟩ a b p = .ok p' ∧
      podGetDecomp (loadText false) a b p' = .ok ⟨.float (.d1 vals), .float (.d2 vecs false)⟩ := by
  obtain ⟨p', h1, h2, -⟩ := C44_pod _ _ ⟨.float (.d1 vals), .float (.d2 vecs fortran)⟩ _ _ (text_vector bits vals)
    (text_matrix bits vecs fortran) a b hab p
  refine ⟨p', h1, ?_⟩
  rw [h2]
  simp only [squeezeArray, squeeze_column vals false hvals]

/-- **C44.** The same for `BPODHandles`. -/
theorem C44_bpod_text (bits : Int → R) (vals : List R) (hvals : 2 ≤ vals.length) (left right : List (List R))
    (f g : Bool) (a b c : Nat) (hab : a ≠ b) (hac : a ≠ c) (hbc : b ≠ c) (p : Places (List (List R))) :
    ∃ p', bpodPutDecomp (saveArrayText bits) ⟨.float (.d1 vals), .float (.d2 left f), .float (.d2 right g)⟩ a b c p = .ok p' ∧
      bpodGetDecomp (loadText false) a b c p' =
        .ok ⟨.float (.d1 vals), .float (.d2 left false), .float (.d2 right false)⟩ := by
  obtain ⟨p', h1, h2, -⟩ := C44_bpod _ _ ⟨.float (.d1 vals), .float (.d2 left f), .float (.d2 right g)⟩ _ _ _
    (text_vector bits vals) (text_matrix bits left f) (text_matrix bits right g) a b c hab hac hbc p
  refine ⟨p', h1, ?_⟩
  rw [h2]
  simp only [squeezeArray, squeeze_column vals false hvals]

/-- **C44.** The same for `DMDHandles` if all its arrays are real. -/
theorem C44_dmd_text_partial (bits : Int → R) (eigvals corr : List R) (h : 2 ≤ eigvals.length) (h' : 2 ≤ corr.length)
    (right left vecs : List (List R)) (dest : Fin 5 → Nat) (hdest : Function.Injective dest) (p : Places (List (List R))) :
    ∃ p', dmdPutDecomp (saveArrayText bits) ⟨.float (.d1 eigvals), .float (.d2 right false), .float (.d2 left false),
        .float (.d1 corr), .float (.d2 vecs false)⟩ dest p = .ok p' ∧
      dmdGetDecomp (loadText false) dest p' = .ok ⟨.float (.d1 eigvals), .float (.d2 right false), .float (.d2 left false),
        .float (.d1 corr), .float (.d2 vecs false)⟩ := by
  obtain ⟨p', h1, h2, -⟩ := C44_dmd _ _ ⟨.float (.d1 eigvals), .float (.d2 right false), .float (.d2 left false),
        .float (.d1 corr), .float (.d2 vecs false)⟩ ⟨_, _, _, _, _⟩
    (text_vector bits eigvals) (text_matrix bits right false) (text_matrix bits left false)
    (text_vector bits corr) (text_matrix bits vecs false) dest hdest p
  refine ⟨p', h1, ?_⟩
  rw [h2]
  simp only [squeezeArray, squeeze_column eigvals false h, squeeze_column corr false h']

/-- **C44.** A place that gives arrays back exactly, real or complex, gives back a decomposition of `DMDHandles` with
two values or more. -/
theorem C44_dmd_exact (put : NpArray R → Except Err Stored) (get : Stored → Except Err (NpArray R))
    (hexact : ∀ a, Restores put get a a) (eigvals : List (R × R)) (corr : List R) (h : 2 ≤ eigvals.length)
    (h' : 2 ≤ corr.length) (right left vecs : NpArray R) (dest : Fin 5 → Nat) (hdest : Function.Injective dest)
    (p : Places Stored) :
    ∃ p', dmdPutDecomp put ⟨.complex (.d1 eigvals), right, left, .float (.d1 corr), vecs⟩ dest p = .ok p' ∧
      dmdGetDecomp get dest p' = .ok ⟨.complex (.d1 eigvals), right, left, .float (.d1 corr), vecs⟩ := by
  obtain ⟨p', h1, h2, -⟩ := C44_dmd put get ⟨.complex (.d1 eigvals), right, left, .float (.d1 corr), vecs⟩
    ⟨_, _, _, _, _⟩ (hexact _) (hexact _) (hexact _) (hexact _) (hexact _) dest hdest p
  refine ⟨p', h1, ?_⟩
  rw [h2]
  simp only [squeezeArray, squeeze_vector eigvals h, squeeze_vector corr h']

/-- **C44.** The same for `TLSqrDMDHandles`. -/
theorem C44_tls_exact (put : NpArray R → Except Err Stored) (get : Stored → Except Err (NpArray R))
    (hexact : ∀ a, Restores put get a a) (eigvals : List (R × R)) (sum proj : List R) (h : 2 ≤ eigvals.length)
    (hs : 2 ≤ sum.length) (hp : 2 ≤ proj.length) (right left vecs pvecs : NpArray R) (dest : Fin 7 → Nat)
    (hdest : Function.Injective dest) (p : Places Stored) :
    ∃ p', tlsqrPutDecomp put ⟨.complex (.d1 eigvals), right, left, .float (.d1 sum), vecs, .float (.d1 proj), pvecs⟩
        dest p = .ok p' ∧
      tlsqrGetDecomp get dest p' =
        .ok ⟨.complex (.d1 eigvals), right, left, .float (.d1 sum), vecs, .float (.d1 proj), pvecs⟩ := by
  obtain ⟨p', h1, h2, -⟩ := C44_tls put get
    ⟨.complex (.d1 eigvals), right, left, .float (.d1 sum), vecs, .float (.d1 proj), pvecs⟩
    ⟨_, _, _, _, _, _, _⟩ (hexact _) (hexact _) (hexact _) (hexact _) (hexact _) (hexact _) (hexact _) dest hdest p
  refine ⟨p', h1, ?_⟩
  rw [h2]
  simp only [squeezeArray, squeeze_vector eigvals h, squeeze_vector sum hs, squeeze_vector proj hp]

section Modes
variable [CommRing R]

/-- **C44.** The coefficients of the modes: eigenvector entries times the power of the eigenvalue. -/
theorem C44_coefficients (pow : R → R) (vals : List R) (vecs : List (List R)) (fortran : Bool)
    (hsize : ∀ row ∈ vecs, row.length = vals.length) (hne : vecs ≠ []) :
    modeCoeffs pow (.d1 vals) (.d2 vecs fortran) =
      .ok (.d2 (vecs.map fun row => List.zipWith (fun x v => x * pow v) row vals) false) := by
  match vecs, hne, hsize with
  | first :: rest, _, hsize =>
    have hf : first.length = vals.length := hsize first (by simp)
    set vecs := first :: rest with hv
    have hhead : vecs.headD [] = first := rfl
    unfold modeCoeffs
    simp only [ndMap, npDiag, bind, Except.bind, List.length_map]
    unfold npDot
    simp only [hhead, List.length_map, List.length_range, hf, ne_eq, not_true_eq_false, reduceIte]
    congr 2
    refine List.map_congr_left fun row hrow => ?_
    have hr := hsize row hrow
    refine List.ext_getElem ?_ fun j h1 h2 => ?_
    · cases hn : vals.length with
      | zero => simp [List.length_eq_zero_iff.mp (hr.trans hn)]
      | succ n => simp [hr, hn, List.range_succ_eq_map]
    · have hj : j < vals.length := by
        simp only [List.length_zipWith] at h2
        omega
      rw [List.getElem_map, List.getElem_zipWith, List.getElem_range,
        Finset.sum_eq_single_of_mem j (Finset.mem_range.mpr hj)]
      · rw [List.getD_eq_getElem _ _ (by omega : j < row.length),
          List.getD_eq_getElem (List.map _ (List.range vals.length)) _ (by simpa using hj : j < _), List.getElem_map,
          List.getElem_range, List.getD_eq_getElem (List.map _ (List.range vals.length)) _ (by simpa using hj : j < _),
          List.getElem_map, List.getElem_range, if_pos rfl, List.getD_eq_getElem _ _ (by simpa using hj), List.getElem_map]
      · intro k hk hkj
        have hk' := Finset.mem_range.mp hk
        rw [List.getD_eq_getElem (List.map _ _) _ (by simpa using hk'), List.getElem_map, List.getElem_range,
          List.getD_eq_getElem (List.map _ _) _ (by simpa using hj), List.getElem_map, List.getElem_range,
          if_neg hkj, mul_zero]

/-- **C44.** Why `get_decomp` squeezes: with eigenvalues in an array of two axes, as text files give them, `np.diag` takes the
diagonal, and the coefficients are an array of one axis if there are as many eigenvectors as entries on the diagonal, and are
`ValueError` otherwise, as for a column of two eigenvalues or more. -/
theorem C44_coefficients_two_axes (pow : R → R) (vals : List (List R)) (n : Nat) (vecs : List (List R)) (fortran fortran' : Bool)
    (hvals : ∀ row ∈ vals, row.length = n) (hne : vals ≠ []) :
    modeCoeffs pow (.d2 vals fortran) (.d2 vecs fortran') =
      if (vecs.headD []).length = min vals.length n then
        .ok (.d1 (vecs.map fun row => ∑ k ∈ Finset.range (min vals.length n),
          row.getD k 0 * pow ((vals.getD k []).getD k 0)))
      else .error .valueError := by
  have hhead : ((vals.map fun row => row.map pow).headD []).length = n := by
    match vals, hne, hvals with
    | first :: rest, _, hvals => simpa using hvals first (by simp)
  unfold modeCoeffs
  simp only [ndMap, npDiag, bind, Except.bind, List.length_map, hhead]
  unfold npDot
  simp only [List.length_map, List.length_range, ne_eq, ite_not]
  split_ifs with h
  · congr 2
    refine List.map_congr_left fun row _ => Finset.sum_congr rfl fun k hk => ?_
    have hk' := Finset.mem_range.mp hk
    have h1 : k < vals.length := by omega
    have h2 : k < (vals[k]).length := by
      rw [hvals _ (List.getElem_mem h1)]
      omega
    congr 1
    rw [List.getD_eq_getElem (List.map _ _) _ (by simpa using hk'), List.getElem_map, List.getElem_range,
      List.getD_eq_getElem (List.map _ vals) _ (by simpa using h1), List.getElem_map, List.getD_eq_getElem vals _ h1,
      List.getD_eq_getElem (List.map _ _) _ (by simpa using h2), List.getElem_map, List.getD_eq_getElem _ _ h2]
  · rfl

/-- Non-vacuity: a column of two eigenvalues, with two eigenvectors and with one. -/
example : modeCoeffs (R := Int) (fun x => x * x) (.d2 [[3], [2]] false) (.d2 [[1, 0], [0, 1]] false) = .error .valueError ∧
    modeCoeffs (R := Int) (fun x => x * x) (.d2 [[3], [2]] false) (.d2 [[1], [5]] false) = .ok (.d1 [9, 45]) := by
  rw [C44_coefficients_two_axes _ _ 1 _ _ _ (by decide) (by decide), C44_coefficients_two_axes _ _ 1 _ _ _ (by decide) (by decide)]
  exact ⟨rfl, rfl⟩

/-- **C44, violation.** A decomposition with one eigenvalue, put to places that give back arrays exactly or text files: the
eigenvalue comes back without dimension.  With it, the coefficients of the modes are ValueError, while they could be computed
before, and it cannot be saved to a text file. -/
theorem C44_single_violation (bits : Int → R) (pow : R → R) (x : R) (vecs : List (List R)) (hne : vecs ≠ [])
    (hsize : ∀ row ∈ vecs, row.length = 1) (a b : Nat) (hab : a ≠ b) (p : Places (List (List R)))
    (put : NpArray R → Except Err Stored) (get : Stored → Except Err (NpArray R))
    (hexact : ∀ a, Restores put get a a) (q : Places Stored) :
    (∃ p', podPutDecomp (saveArrayText bits) ⟨.float (.d1 [x]), .float (.d2 vecs false)⟩ a b p = .ok p' ∧
      podGetDecomp (loadText false) a b p' = .ok ⟨.float (.d0 x), .float (.d2 vecs false)⟩) ∧
    (∃ q', podPutDecomp put ⟨.float (.d1 [x]), .float (.d2 vecs false)⟩ a b q = .ok q' ∧
      podGetDecomp get a b q' = .ok ⟨.float (.d0 x), .float (.d2 vecs false)⟩) ∧
    (∃ c, modeCoeffs pow (.d1 [x]) (.d2 vecs false) = .ok c) ∧
    modeCoeffs pow (.d0 x) (.d2 vecs false) = .error .valueError ∧
    podPutDecomp (saveArrayText bits) ⟨.float (.d0 x), .float (.d2 vecs false)⟩ a b p = .error .valueError := by
  refine ⟨?_, ?_, ⟨_, C44_coefficients pow [x] vecs false (by simpa using hsize) hne⟩, rfl, rfl⟩
  · obtain ⟨p', h1, h2, -⟩ := C44_pod _ _ ⟨.float (.d1 [x]), .float (.d2 vecs false)⟩ _ _ (text_vector bits [x])
      (text_matrix bits vecs false) a b hab p
    exact ⟨p', h1, h2⟩
  · obtain ⟨p', h1, h2, -⟩ := C44_pod put get ⟨.float (.d1 [x]), .float (.d2 vecs false)⟩ _ _ (hexact _) (hexact _) a b hab q
    exact ⟨p', h1, h2⟩

end Modes

/-- **C44, violation.** A single eigenvalue of `DMDHandles`, real or complex, comes back as a number without axes, even
from a place that gives arrays back exactly. -/
theorem C44_dmd_single_violation (put : NpArray R → Except Err Stored) (get : Stored → Except Err (NpArray R))
    (hexact : ∀ a, Restores put get a a) (z : R × R) (x : R) (right left vecs : NpArray R) (dest : Fin 5 → Nat)
    (hdest : Function.Injective dest) (p : Places Stored) :
    ∃ p', dmdPutDecomp put ⟨.complex (.d1 [z]), right, left, .float (.d1 [x]), vecs⟩ dest p = .ok p' ∧
      dmdGetDecomp get dest p' = .ok ⟨.complex (.d0 z), right, left, .float (.d0 x), vecs⟩ := by
  obtain ⟨p', h1, h2, -⟩ := C44_dmd put get ⟨.complex (.d1 [z]), right, left, .float (.d1 [x]), vecs⟩
    ⟨_, _, _, _, _⟩ (hexact _) (hexact _) (hexact _) (hexact _) (hexact _) dest hdest p
  exact ⟨p', h1, h2⟩

/-- **C44.** If there is nothing at a source, `get_decomp` raises the exception `OSError` of the loading function. -/
theorem C44_missing (get : Stored → Except Err (NpArray R)) (p : Places Stored) (a b c : Nat) (src : Fin 5 → Nat)
    (src' : Fin 7 → Nat) :
    (p a = none → podGetDecomp get a b p = .error .osError) ∧
    (p a = none → bpodGetDecomp get a b c p = .error .osError) ∧
    (p (src 0) = none → dmdGetDecomp get src p = .error .osError) ∧
    (p (src' 0) = none → tlsqrGetDecomp get src' p = .error .osError) ∧
    (p b = none → ∀ d, podGetDecomp get a b p ≠ .ok d) := by
  refine ⟨fun h => ?_, fun h => ?_, fun h => ?_, fun h => ?_, fun h d hd => ?_⟩
  · simp [podGetDecomp, getFrom, h, bind, Except.bind]
  · simp [bpodGetDecomp, getFrom, h, bind, Except.bind]
  · simp [dmdGetDecomp, getFrom, h, bind, Except.bind]
  · simp [tlsqrGetDecomp, getFrom, h, bind, Except.bind]
  · have hb : getFrom get b p = .error .osError := by simp [getFrom, h]
    unfold podGetDecomp at hd
    rw [hb] at hd
    cases hg : getFrom get a p with
    | error e => rw [hg] at hd; cases hd
    | ok v => rw [hg] at hd; cases hd

example : podGetDecomp (loadText false) 0 1 (fun _ => none : Places (List (List ℚ))) = .error .osError :=
  (C44_missing (loadText false) (fun _ => none : Places (List (List ℚ))) 0 1 2 (fun _ => 0) (fun _ => 0)).1 rfl

/-- **C44, violation.** The eigenvalues of `DMDHandles` are complex numbers (`scipy.linalg.eig` returns complex eigenvalues
also for real matrices), and those of its correlation array are real.  A decomposition saved to text files is not got back,
however the files are loaded: with the default, two real numbers come back for each eigenvalue; as complex numbers, the
eigenvalues of the correlation array are ValueError. -/
theorem C44_dmd_violation (bits : Int → R) (eigvals : List (R × R)) (corr : List R) (hc : corr ≠ [])
    (right left vecs : NpArray R) (dest : Fin 5 → Nat) (hdest : Function.Injective dest) (p p' : Places (List (List R)))
    (hput : dmdPutDecomp (saveArrayText bits) ⟨.complex (.d1 eigvals), right, left, .float (.d1 corr), vecs⟩ dest p = .ok p') :
    (∀ d, dmdGetDecomp (loadText false) dest p' = .ok d →
      d.eigvals = .float (squeeze (.d2 (eigvals.map fun z => [z.1, z.2]) false)) ∧ d.eigvals ≠ .complex (.d1 eigvals)) ∧
    ∀ d, dmdGetDecomp (loadText true) dest p' ≠ .ok d := by
  have n : ∀ {i j : Fin 5}, (dest i = dest j) = (i = j) := fun {i j} => propext hdest.eq_iff
  have key : p' (dest 0) = some (eigvals.map fun z => [z.1, z.2]) ∧ p' (dest 3) = some (corr.map fun x => [x]) := by
    have e0 : saveArrayText bits (.complex (.d1 eigvals)) = .ok (eigvals.map fun z => [z.1, z.2]) := by
      simp [saveArrayText, toSave, colOf, Function.comp_def]
    have e3 : saveArrayText bits (.float (.d1 corr)) = .ok (corr.map fun x => [x]) := rfl
    unfold dmdPutDecomp at hput
    simp only [putTo_ok _ e0, bind, Except.bind] at hput
    cases h1 : saveArrayText bits right with
    | error e => simp [putTo, h1] at hput
    | ok s1 =>
      simp only [putTo_ok _ h1] at hput
      cases h2 : saveArrayText bits left with
      | error e => simp [putTo, h2] at hput
      | ok s2 =>
        simp only [putTo_ok _ h2, putTo_ok _ e3] at hput
        cases h4 : saveArrayText bits vecs with
        | error e => simp [putTo, h4] at hput
        | ok s4 =>
          simp only [putTo_ok _ h4, Except.ok.injEq] at hput
          subst hput
          constructor
          · simp only [n]
            simp
          · simp only [n]
            simp
  obtain ⟨k0, k3⟩ := key
  constructor
  · intro d hd
    have e : d.eigvals = .float (squeeze (.d2 (eigvals.map fun z => [z.1, z.2]) false)) := by
      unfold dmdGetDecomp at hd
      have g0 : getFrom (loadText false) (dest 0) p' = .ok (.float (.d2 (eigvals.map fun z => [z.1, z.2]) false)) := by
        simp [getFrom, k0, loadText, loadArrayText]
      rw [g0] at hd
      simp only [bind, Except.bind, pure, Except.pure] at hd
      split at hd
      · simp at hd
      split at hd
      · simp at hd
      split at hd
      · simp at hd
      split at hd
      · simp at hd
      simp only [Except.ok.injEq] at hd
      rw [← hd]
      rfl
    exact ⟨e, by rw [e]; simp⟩
  · intro d hd
    have g3 : getFrom (loadText true) (dest 3) p' = .error .valueError := by
      match corr, hc with
      | x :: corr, _ => simp [getFrom, k3, loadText, loadArrayText]
    unfold dmdGetDecomp at hd
    rw [g3] at hd
    simp only [bind, Except.bind] at hd
    split at hd
    · simp at hd
    split at hd
    · simp at hd
    split at hd <;> simp at hd

/-- **C44, violation.** For complex data the eigenvectors of `PODHandles` are complex and the eigenvalues real.  With the
default loader the eigenvectors come back as real arrays with two columns for each, and the coefficients of modes are
ValueError; as complex numbers the eigenvalues are ValueError. -/
theorem C44_complex_violation [CommRing R] (bits : Int → R) (pow : R → R) (vals : List R) (hvals : 2 ≤ vals.length)
    (vecs : List (List (R × R))) (hne : vecs ≠ []) (hsize : ∀ row ∈ vecs, row.length = vals.length)
    (a b : Nat) (hab : a ≠ b) (p : Places (List (List R))) :
    ∃ p', podPutDecomp (saveArrayText bits) ⟨.float (.d1 vals), .complex (.d2 vecs false)⟩ a b p = .ok p' ∧
      (∃ wide, podGetDecomp (loadText false) a b p' = .ok ⟨.float (.d1 vals), .float (.d2 wide false)⟩ ∧
        (∀ row ∈ wide, row.length = 2 * vals.length) ∧
        modeCoeffs pow (.d1 vals) (.d2 wide false) = .error .valueError) ∧
      podGetDecomp (loadText true) a b p' = .error .valueError := by
  have hwide : ∀ row ∈ vecs.map (fun row => row.flatMap fun z => [z.1, z.2]), row.length = 2 * vals.length := by
    intro row hrow
    obtain ⟨r, hr, rfl⟩ := List.mem_map.mp hrow
    rw [length_flatMap_pair, hsize r hr]
  have hput : podPutDecomp (saveArrayText bits) ⟨.float (.d1 vals), .complex (.d2 vecs false)⟩ a b p =
      .ok fun i => if i = a then some (vals.map fun x => [x]) else
        if i = b then some (vecs.map fun row => row.flatMap fun z => [z.1, z.2]) else p i := rfl
  refine ⟨_, hput, ⟨vecs.map fun row => row.flatMap fun z => [z.1, z.2], ?_, hwide, ?_⟩, ?_⟩
  · unfold podGetDecomp getFrom
    simp only [if_neg hab.symm, reduceIte]
    simp only [loadText, loadArrayText, Bool.false_and, Bool.false_eq_true, reduceIte, bind, Except.bind, pure, Except.pure,
      squeezeArray, squeeze_column vals false hvals]
  · match vecs, hne, hwide with
    | first :: rest, _, hwide =>
      have h1 := hwide (first.flatMap fun z => [z.1, z.2]) (by simp)
      unfold modeCoeffs
      simp only [ndMap, npDiag, bind, Except.bind, List.length_map]
      unfold npDot
      simp only [List.map_cons, List.headD_cons, List.length_map, List.length_range, h1, ne_eq]
      rw [if_pos (by omega)]
  · match vals, hvals with
    | x :: y :: vals, _ =>
      unfold podGetDecomp getFrom
      simp only [if_neg hab.symm, reduceIte]
      simp [loadText, loadArrayText, bind, Except.bind]

/-- Three eigenvalues and four vectors. -/
example : ∃ p', podPutDecomp (saveArrayText (R := ℚ) fun _ => 0)
      ⟨.float (.d1 [4, 1, 1 / 4]), .float (.d2 [[1, 0, 0], [0, 1, 0], [0, 0, 1], [0, 0, 0]] true)⟩ 7 8 (fun _ => none) = .ok p' ∧
    podGetDecomp (loadText false) 7 8 p' =
      .ok ⟨.float (.d1 [4, 1, 1 / 4]), .float (.d2 [[1, 0, 0], [0, 1, 0], [0, 0, 1], [0, 0, 0]] false)⟩ :=
  C44_pod_text _ _ (by simp) _ _ 7 8 (by decide) _

/-- Memory gives arrays back exactly. -/
example : ∀ a : NpArray ℚ, Restores (fun a => .ok a) (fun s => .ok s) a a := fun a => ⟨a, rfl, rfl⟩

/-- One eigenvalue. -/
example : modeCoeffs (R := ℚ) (fun x => x⁻¹) (.d0 4) (.d2 [[1], [0]] false) = .error .valueError :=
  (C44_single_violation (fun _ => 0) (fun x : ℚ => x⁻¹) 4 [[1], [0]] (by simp) (by simp) 0 1 (by decide) (fun _ => none)
    (fun a => .ok a) (fun s => .ok s) (fun a => ⟨a, rfl, rfl⟩) (fun _ => none)).2.2.2.1

/-- A DMD decomposition with eigenvalues `± i` can be saved. -/
example : ∃ p', dmdPutDecomp (saveArrayText (R := ℚ) fun _ => 0)
    ⟨.complex (.d1 [(0, 1), (0, -1)]), .complex (.d2 [[(1, 0), (1, 0)], [(0, 1), (0, -1)]] false),
      .complex (.d2 [[(1 / 2, 0), (1 / 2, 0)], [(0, 1 / 2), (0, -1 / 2)]] false), .float (.d1 [1, 1]),
      .float (.d2 [[1, 0], [0, 1]] false)⟩ (fun i => i) (fun _ => none) = .ok p' := ⟨_, rfl⟩

end Modred
