import Verif.Props.Determined

/-!
# C114: modes of what modes represent are the same modes
-/

namespace Modred

open Matrix
open scoped ComplexOrder

variable {𝕜 : Type*} [RCLike 𝕜] {n m : Nat}

section Algebra

variable {A A' : Matrix (Fin m) (Fin m) 𝕜} {lib lib' : Matrix (Fin m) (Fin m) 𝕜 → EighOut 𝕜 m}
  {argsort argsort' : (Fin m → ℝ) → Equiv.Perm (Fin m)} {t : ℝ} {rtol : Option ℝ}

/-- What is retained of what was retained is all of it. -/
theorem keptValue_again (w o : Fin m → ℝ) (ht : 0 ≤ t) (h1 : ∀ i, KeptValue w t rtol (w i) → o i = w i)
    (h0 : ∀ i, ¬ KeptValue w t rtol (w i) → o i = 0) (i : Fin m) :
    KeptValue o t rtol (o i) ↔ KeptValue w t rtol (w i) := by
  by_cases hi : KeptValue w t rtol (w i)
  · rw [h1 i hi]
    refine ⟨fun _ => hi, fun _ => ⟨hi.1, fun u hu => ?_, fun j hj => ?_⟩⟩
    · obtain ⟨k, hk, hk'⟩ := hi.2.1 u hu
      have hkk : KeptValue w t rtol (w k) :=
        ⟨hi.1.trans_le (hk i), fun u hu => by
          obtain ⟨k', h1, h2⟩ := hi.2.1 u hu
          exact ⟨k', h1, h2.trans_le (hk i)⟩, fun j hj => (hi.2.2 j hj).trans_le (hk i)⟩
      refine ⟨k, fun j => ?_, by rw [h1 k hkk]; exact hk'⟩
      rw [h1 k hkk]
      by_cases hj : KeptValue w t rtol (w j)
      · rw [h1 j hj]
        exact hk j
      · rw [h0 j hj, abs_zero]
        exact abs_nonneg _
    · by_cases hj' : KeptValue w t rtol (w j)
      · rw [h1 j hj'] at hj ⊢
        exact hi.2.2 j hj
      · rw [h0 j hj'] at hj
        exact absurd hj (lt_irrefl _)
  · rw [h0 i hi]
    refine ⟨fun h => ?_, fun h => absurd h hi⟩
    have := h.1
    rw [abs_zero] at this
    exact absurd this (not_lt.mpr ht)

/-- The decomposition of the retained part of a matrix. -/
theorem eigh_again (h : IsEigh A (lib A)) (h' : IsEigh A' (lib' A')) (ht : 0 ≤ t) (hs : IsArgsort argsort)
    (hs' : IsArgsort argsort') (hr : ∀ t ∈ rtol, 0 ≤ t) (e e' : Eigh 𝕜 m)
    (he : utilEigh lib argsort A (some t) rtol true = .ok e)
    (hA : A' = e.V * diagonal (fun i => (e.w i : 𝕜)) * e.Vᴴ)
    (he' : utilEigh lib' argsort' A' (some t) rtol true = .ok e') :
    e'.r = e.r ∧ (∀ (i' : Fin e'.r) (i : Fin e.r), i'.val = i.val → e'.w i' = e.w i) ∧
    ∀ f : ℝ → 𝕜, e'.V * diagonal (fun i => f (e'.w i)) * e'.Vᴴ = e.V * diagonal (fun i => f (e.w i)) * e.Vᴴ := by
  classical
  let o : EighOut 𝕜 m := ⟨fun i => if KeptValue (lib A).w t rtol ((lib A).w i) then (lib A).w i else 0, (lib A).V⟩
  have ho : IsEigh A' o := by
    refine ⟨h.orthonormal, ?_⟩
    rw [hA, eigh_kept_functions hs hr e he fun x => (x : 𝕜), Matrix.mul_assoc, h.orthonormal, Matrix.mul_one]
    congr 2
    funext i
    dsimp only [o]
    split_ifs <;> simp
  have hm : 0 < m := pos_of_utilEigh_ok he
  obtain ⟨e1, he1⟩ := C20_no_error (fun _ => o) argsort A' rtol true t hm
  have hA1 : A' = ((1 : ℝ) : 𝕜) • ((1 : Matrix (Fin m) (Fin m) 𝕜)ᴴ * A' * 1) := by simp
  obtain ⟨k1, k2, k3⟩ := eigh_determined (Q := 1) (s := 1) (lib := fun _ => o) ho h' (by simp) hA1 one_pos ht hs hs' hr e1 e'
    he1 (by rw [one_mul]; exact he')
  have key : ∀ i, KeptValue o.w t rtol (o.w i) ↔ KeptValue (lib A).w t rtol ((lib A).w i) :=
    keptValue_again _ _ ht (fun i hi => if_pos hi) fun i hi => if_neg hi
  have c1 : e1.r = e.r := by
    rw [retained_card hs hr e he, retained_card hs hr e1 he1]
    congr 1
    ext i
    simp only [Finset.mem_filter, Finset.mem_univ, true_and]
    exact key i
  have c2 : ∀ (i' : Fin e1.r) (i : Fin e.r), i'.val = i.val → e1.w i' = e.w i := by
    intro i' i hi
    obtain ⟨p, hp, hle, hk, hw, -⟩ := retained_spec hs hr e he
    obtain ⟨p', hp', hle', -, hw', -⟩ := retained_spec hs hr e1 he1
    have hu : (fun i => |o.w (p' i)|) = fun i => |o.w (p i)| := by
      refine antitone_unique hp' (fun i j hij => ?_) ?_
      · dsimp only [o]
        rw [if_congr (hk i).symm rfl rfl, if_congr (hk j).symm rfl rfl]
        split_ifs with h1 h2 h2
        · exact hp hij
        · exact absurd (lt_of_le_of_lt (Fin.le_def.mp hij) h1) h2
        · simp
        · simp
      · have r1 : ∀ (q : Equiv.Perm (Fin m)) (F : Fin m → ℝ),
            Finset.univ.val.map (fun i => F (q i)) = Finset.univ.val.map F := by
          intro q F
          conv_rhs => rw [← Multiset.map_univ_val_equiv q, Multiset.map_map]
          rfl
        rw [r1 p' fun i => |o.w i|, r1 p fun i => |o.w i|]
    have h1 := congrFun hu (Fin.castLE hle i)
    have hcast : Fin.castLE hle i = Fin.castLE hle' i' := Fin.ext hi.symm
    have pos := C20_positive_partial lib argsort A rtol t ht hs hr e he i
    have pos' := C20_positive_partial (fun _ => o) argsort A' rtol t ht hs hr e1 he1 i'
    have hoi : o.w (p (Fin.castLE hle i)) = (lib A).w (p (Fin.castLE hle i)) := by
      dsimp only [o]
      rw [if_pos ((hk _).mp i.isLt)]
    rw [hoi, ← hw i, abs_of_pos pos, hcast, ← hw' i', abs_of_pos pos'] at h1
    exact h1
  refine ⟨k1.trans c1, fun i' i hi => ?_, fun f => ?_⟩
  · rw [k2 i' ⟨i.val, by rw [c1]; exact i.isLt⟩ hi, one_mul]
    exact c2 _ _ rfl
  · rw [k3 f f fun x => by rw [one_mul], conjTranspose_one, Matrix.one_mul, Matrix.mul_one,
      eigh_kept_functions hs hr e1 he1, eigh_kept_functions hs hr e he]
    congr 3
    funext i
    by_cases hi : KeptValue (lib A).w t rtol ((lib A).w i)
    · rw [if_pos hi, if_pos ((key i).mpr hi)]
      dsimp only [o]
      rw [if_pos hi]
    · rw [if_neg hi, if_neg fun hc => hi ((key i).mp hc)]

end Algebra


section Svd

variable {B B' : Matrix (Fin n) (Fin m) 𝕜} {lib lib' : Matrix (Fin n) (Fin m) 𝕜 → SvdOut 𝕜 n m} {t : ℝ} {rtol : Option ℝ}

/-- The singular value decomposition of the retained part of a matrix. -/
theorem svd_again (h : IsSvd B (lib B)) (h' : IsSvd B' (lib' B')) (ht : 0 ≤ t) (hr : ∀ t ∈ rtol, 0 ≤ t) (e e' : Svd 𝕜 n m)
    (he : utilSvd lib B (some t) rtol = .ok e) (hB : B' = e.U * diagonal (fun i => (e.S i : 𝕜)) * e.Vᴴ)
    (he' : utilSvd lib' B' (some t) rtol = .ok e') :
    e'.r = e.r ∧ (∀ (i' : Fin e'.r) (i : Fin e.r), i'.val = i.val → e'.S i' = e.S i) ∧
    ∀ f : ℝ → 𝕜, e'.U * diagonal (fun i => f (e'.S i)) * e'.Uᴴ = e.U * diagonal (fun i => f (e.S i)) * e.Uᴴ ∧
      e'.V * diagonal (fun i => f (e'.S i)) * e'.Vᴴ = e.V * diagonal (fun i => f (e.S i)) * e.Vᴴ := by
  classical
  obtain ⟨hle, hk, hS, hU, hV⟩ := svd_retained_spec h hr e he
  let o : SvdOut 𝕜 n m := ⟨(lib B).U, fun i => if KeptValue (lib B).S t rtol ((lib B).S i) then (lib B).S i else 0, (lib B).Vh⟩
  have ho : IsSvd B' o := by
    refine ⟨h.left, h.right, ?_, fun i => ?_, fun i j hij => ?_⟩
    · rw [hB]
      ext k l
      rw [Matrix.mul_apply, Matrix.mul_apply]
      simp only [Matrix.mul_diagonal, conjTranspose_apply, hS, hU, hV, star_star]
      rw [sum_first hle fun i => (lib B).U k i * ((lib B).S i : 𝕜) * (lib B).Vh i l]
      refine Finset.sum_congr rfl fun i _ => ?_
      dsimp only [o]
      by_cases hi : i.val < e.r
      · rw [if_pos hi, if_pos ((hk i).mp hi)]
      · rw [if_neg hi, if_neg fun h' => hi ((hk i).mpr h')]
        simp
    · dsimp only [o]
      split_ifs
      · exact h.nonneg i
      · exact le_refl _
    · dsimp only [o]
      rw [if_congr (hk i).symm rfl rfl, if_congr (hk j).symm rfl rfl]
      split_ifs with h1 h2 h2
      · exact h.sorted hij
      · exact absurd (lt_of_le_of_lt (Fin.le_def.mp hij) h1) h2
      · exact h.nonneg i
      · exact le_refl _
  have hok : ∃ e1, utilSvd (fun _ => o) B' (some t) rtol = .ok e1 := by
    cases h1 : utilSvd (fun _ => o) B' (some t) rtol with
    | ok e1 => exact ⟨e1, rfl⟩
    | error x =>
      exfalso
      obtain ⟨rfl, h2⟩ := (C19_error_iff _ _ _ _ x).mp h1
      rw [(C19_error_iff lib B (some t) rtol .indexError).mpr ⟨rfl, h2⟩] at he
      cases he
  obtain ⟨e1, he1⟩ := hok
  obtain ⟨hle1, hk1, hS1, hU1, hV1⟩ := svd_retained_spec (lib := fun _ => o) ho hr e1 he1
  have key : ∀ i, KeptValue o.S t rtol (o.S i) ↔ KeptValue (lib B).S t rtol ((lib B).S i) :=
    keptValue_again _ _ ht (fun i hi => if_pos hi) fun i hi => if_neg hi
  have c1 : e1.r = e.r := by
    by_contra hne
    rcases Nat.lt_or_gt_of_ne hne with hlt | hlt
    · have := (hk1 ⟨e1.r, hlt.trans_le hle⟩).mpr ((key _).mpr ((hk ⟨e1.r, hlt.trans_le hle⟩).mp hlt))
      exact lt_irrefl _ this
    · have := (hk ⟨e.r, hlt.trans_le hle1⟩).mpr ((key _).mp ((hk1 ⟨e.r, hlt.trans_le hle1⟩).mp hlt))
      exact lt_irrefl _ this
  obtain ⟨k1, k2, k3⟩ := svd_determined (T := 1) (Q := 1) (a := 1) (lib := fun _ => o) ho h' (by simp) (by simp)
    (by simp) one_ne_zero ht hr e1 e' he1 (by rw [norm_one, one_mul]; exact he')
  have c2 : ∀ i : Fin e1.r, ∀ i' : Fin e.r, i.val = i'.val →
      e1.S i = e.S i' ∧ (∀ k, e1.U k i = e.U k i') ∧ ∀ k, e1.V k i = e.V k i' := by
    intro i i' hi
    have hc : Fin.castLE hle1 i = Fin.castLE hle i' := Fin.ext hi
    refine ⟨?_, fun k => ?_, fun k => ?_⟩
    · rw [hS1, hS, hc]
      dsimp only [o]
      rw [if_pos ((hk _).mp i'.isLt)]
    · rw [hU1, hU, hc]
    · rw [hV1, hV, hc]
  refine ⟨k1.trans c1, fun i' i hi => ?_, fun f => ?_⟩
  · rw [k2 i' ⟨i.val, by rw [c1]; exact i.isLt⟩ hi, norm_one, one_mul]
    exact (c2 _ _ rfl).1
  · obtain ⟨k4, k5⟩ := k3 f f fun x _ => by rw [norm_one, one_mul]
    rw [k4, k5]
    simp only [conjTranspose_one, Matrix.one_mul, Matrix.mul_one]
    have hsum : ∀ F : Fin e1.r → 𝕜, ∀ G : Fin e.r → 𝕜, (∀ i i', i.val = i'.val → F i = G i') → ∑ i, F i = ∑ i, G i := by
      intro F G hFG
      refine Fintype.sum_equiv (finCongr c1) _ _ fun i => hFG _ _ rfl
    constructor
    · ext k l
      rw [Matrix.mul_apply, Matrix.mul_apply]
      simp only [Matrix.mul_diagonal, conjTranspose_apply]
      refine hsum _ _ fun i i' hi => ?_
      obtain ⟨d1, d2, d3⟩ := c2 i i' hi
      rw [d1, d2, d2]
    · ext k l
      rw [Matrix.mul_apply, Matrix.mul_apply]
      simp only [Matrix.mul_diagonal, conjTranspose_apply]
      refine hsum _ _ fun i i' hi => ?_
      obtain ⟨d1, d2, d3⟩ := c2 i i' hi
      rw [d1, d3, d3]

end Svd

/-! ### Arrays -/

/-- **C114**, method of snapshots: the decomposition of what the modes represent of the vectors has the same modes and
eigenvalues and represents all of it. -/
theorem C114_pod_snaps (lib lib' : PodLib 𝕜 n m) (vecs : Matrix (Fin n) (Fin m) 𝕜)
    (weights : Option (NdArray 𝕜)) (ws : Weights 𝕜) (rtol : Option ℝ) (t : ℝ) (ht : 0 ≤ t)
    (hr : ∀ t ∈ rtol, 0 ≤ t) (hs : IsArgsort lib.argsort) (hs' : IsArgsort lib'.argsort)
    (hws : arraysInit weights = .ok ws) (hfit : ws.Fits n) (hW : (ws.matrix n).IsHermitian)
    (hlib : ∀ C, C.IsHermitian → IsEigh C (lib.eigh C)) (hlib' : ∀ C, C.IsHermitian → IsEigh C (lib'.eigh C))
    (res : PodResult 𝕜 n m) (corr : Matrix (Fin m) (Fin m) 𝕜)
    (hres : podSnaps lib vecs none weights (some t) rtol = .ok (res, corr)) :
    ∃ (modes : Matrix (Fin n) (Fin res.r) 𝕜) (res' : PodResult 𝕜 n m) (corr' : Matrix (Fin m) (Fin m) 𝕜)
      (modes' : Matrix (Fin n) (Fin res'.r) 𝕜),
      res.modes = ⟨res.r, modes⟩ ∧
      podSnaps lib' (modes * res.projCoeffs) none weights (some t) rtol = .ok (res', corr') ∧
      res'.modes = ⟨res'.r, modes'⟩ ∧ SameModes 1 res.eigvals res'.eigvals modes modes' ∧
      modes' * res'.projCoeffs = modes * res.projCoeffs := by
  obtain ⟨e, c, he, hc, h⟩ := podSnaps_cases lib vecs none weights ws _ _ hws hfit _ hres
  obtain ⟨rfl, rfl⟩ := Prod.mk.inj h
  cases hc
  have herm : ∀ X : Matrix (Fin n) (Fin m) 𝕜, (Xᴴ * ws.matrix n * X).IsHermitian := by
    intro X
    unfold Matrix.IsHermitian
    rw [conjTranspose_mul, conjTranspose_mul, conjTranspose_conjTranspose, hW.eq, Matrix.mul_assoc]
  have hm := pos_of_utilEigh_ok he
  have hl := hlib _ (herm vecs)
  have hw := C20_positive_partial _ _ _ _ t ht hs hr e he
  obtain ⟨o1, o2, -⟩ := C20_eigenpairs _ _ _ _ _ _ hl hs e he
  have hX : vecs * (e.V * diagPow (𝕜 := 𝕜) e.w (-0.5)) * (diagPow (𝕜 := 𝕜) e.w 0.5 * e.Vᴴ) = vecs * (e.V * e.Vᴴ) := by
    rw [Matrix.mul_assoc, build_mul_proj hw]
  have hA : (vecs * (e.V * e.Vᴴ))ᴴ * ws.matrix n * (vecs * (e.V * e.Vᴴ)) =
      e.V * diagonal (fun i => (e.w i : 𝕜)) * e.Vᴴ := by
    rw [conjTranspose_mul, conjTranspose_mul, conjTranspose_conjTranspose,
      show e.V * e.Vᴴ * vecsᴴ * ws.matrix n * (vecs * (e.V * e.Vᴴ)) =
        e.V * e.Vᴴ * (vecsᴴ * ws.matrix n * vecs * e.V) * e.Vᴴ by simp only [Matrix.mul_assoc], o2,
      show e.V * e.Vᴴ * (e.V * diagonal (fun i => (e.w i : 𝕜))) * e.Vᴴ =
        e.V * (e.Vᴴ * e.V) * diagonal (fun i => (e.w i : 𝕜)) * e.Vᴴ by simp only [Matrix.mul_assoc], o1, Matrix.mul_one]
  obtain ⟨e', he'⟩ := C20_no_error lib'.eigh lib'.argsort ((vecs * (e.V * e.Vᴴ))ᴴ * ws.matrix n * (vecs * (e.V * e.Vᴴ)))
    rtol true t hm
  obtain ⟨k1, k2, k3⟩ := eigh_again hl (hlib' _ (herm _)) ht hs hs' hr e e' he hA he'
  have hw' := C20_positive_partial _ _ _ _ t ht hs' hr e' he'
  have k4 : e'.V * e'.Vᴴ = e.V * e.Vᴴ := by
    have := k3 fun _ => 1
    simpa only [diagonal_one, Matrix.mul_one] using this
  refine ⟨vecs * (e.V * diagPow (𝕜 := 𝕜) e.w (-0.5)),
    ⟨e'.r, e'.w, ⟨e'.r, vecs * (e.V * e.Vᴴ) * (e'.V * diagPow (𝕜 := 𝕜) e'.w (-0.5))⟩,
      diagPow (𝕜 := 𝕜) e'.w 0.5 * e'.Vᴴ, e'.V⟩,
    (vecs * (e.V * e.Vᴴ))ᴴ * ws.matrix n * (vecs * (e.V * e.Vᴴ)), vecs * (e.V * e.Vᴴ) * (e'.V * diagPow (𝕜 := 𝕜) e'.w (-0.5)),
    by rw [Matrix.mul_one], ?_, rfl, ⟨k1, fun i' i hi => by rw [norm_one, one_pow, one_mul]; exact k2 i' i hi, fun f g hfg => ?_⟩, ?_⟩
  · dsimp only
    rw [hX]
    unfold podSnaps symmIpArray
    rw [hws]
    dsimp only
    rw [C45_formula ws hfit]
    dsimp only
    rw [he']
    rfl
  · have hg : ∀ i, g (e'.w i) = f (e'.w i) := fun i => by
      have := hfg _ (hw' i)
      rwa [norm_one, one_pow, one_mul] at this
    dsimp only
    simp only [hg]
    rw [conjTranspose_mul (vecs * (e.V * e.Vᴴ)), conjTranspose_mul vecs (e.V * diagPow (𝕜 := 𝕜) e.w (-0.5)),
      show vecs * (e.V * e.Vᴴ) * (e'.V * diagPow (𝕜 := 𝕜) e'.w (-0.5)) * diagonal (fun i => f (e'.w i)) *
        ((e'.V * diagPow (𝕜 := 𝕜) e'.w (-0.5))ᴴ * (vecs * (e.V * e.Vᴴ))ᴴ) =
        vecs * (e.V * e.Vᴴ) * (e'.V * diagPow (𝕜 := 𝕜) e'.w (-0.5) * diagonal (fun i => f (e'.w i)) *
        (e'.V * diagPow (𝕜 := 𝕜) e'.w (-0.5))ᴴ) * (vecs * (e.V * e.Vᴴ))ᴴ by simp only [Matrix.mul_assoc],
      build_weighted hw', k3 fun x => f x / (x : 𝕜),
      show vecs * (e.V * diagPow (𝕜 := 𝕜) e.w (-0.5)) * diagonal (fun i => f (e.w i)) *
        ((e.V * diagPow (𝕜 := 𝕜) e.w (-0.5))ᴴ * vecsᴴ) =
        vecs * (e.V * diagPow (𝕜 := 𝕜) e.w (-0.5) * diagonal (fun i => f (e.w i)) *
        (e.V * diagPow (𝕜 := 𝕜) e.w (-0.5))ᴴ) * vecsᴴ by simp only [Matrix.mul_assoc], build_weighted hw,
      conjTranspose_mul, conjTranspose_mul, conjTranspose_conjTranspose,
      show vecs * (e.V * e.Vᴴ) * (e.V * diagonal (fun i => f (e.w i) / (e.w i : 𝕜)) * e.Vᴴ) * (e.V * e.Vᴴ * vecsᴴ) =
        vecs * (e.V * (e.Vᴴ * e.V) * diagonal (fun i => f (e.w i) / (e.w i : 𝕜)) * (e.Vᴴ * e.V) * e.Vᴴ) * vecsᴴ by
        simp only [Matrix.mul_assoc], o1, Matrix.mul_one, Matrix.mul_one]
  · dsimp only
    rw [hX, Matrix.mul_assoc, build_mul_proj hw', k4, Matrix.mul_assoc,
      show e.V * e.Vᴴ * (e.V * e.Vᴴ) = e.V * (e.Vᴴ * e.V) * e.Vᴴ by simp only [Matrix.mul_assoc], o1, Matrix.mul_one]

/-- **C114**, direct method. -/
theorem C114_pod_direct (lib lib' : PodLib 𝕜 n m) (vecs : Matrix (Fin n) (Fin m) 𝕜)
    (ws : DirectWeights 𝕜) (rtol : Option ℝ) (t : ℝ) (ht : 0 ≤ t) (hr : ∀ t ∈ rtol, 0 ≤ t)
    (hfit : ws.Fits n) (hchol : ∀ p q w, ws = .d2 p q w → IsCholesky lib.cholesky (ws.matrix n))
    (hchol' : ∀ p q w, ws = .d2 p q w → IsCholesky lib'.cholesky (ws.matrix n))
    (hlib : ∀ B, IsSvd B (lib.svd B)) (hlib' : ∀ B, IsSvd B (lib'.svd B))
    (res : PodResult 𝕜 n m) (hres : podDirect lib vecs none ws (some t) rtol = .ok res) :
    ∃ (modes : Matrix (Fin n) (Fin res.r) 𝕜) (res' : PodResult 𝕜 n m) (modes' : Matrix (Fin n) (Fin res'.r) 𝕜),
      res.modes = ⟨res.r, modes⟩ ∧
      podDirect lib' (modes * res.projCoeffs) none ws (some t) rtol = .ok res' ∧
      res'.modes = ⟨res'.r, modes'⟩ ∧ SameModes 1 res.eigvals res'.eigvals modes modes' ∧
      modes' * res'.projCoeffs = modes * res.projCoeffs := by
  obtain ⟨G, H, hGH, hG, h3⟩ := podDirect_cases lib vecs none ws (some t) rtol hfit hchol
  obtain ⟨e, c, he, hc, rfl⟩ := h3 res hres
  cases hc
  obtain ⟨o1, o2, hAV, -, hS, -⟩ := C19_singular_triples _ _ _ _ (hlib _) e he
  have hX : H * e.U * (diagPow (𝕜 := 𝕜) (fun i => e.S i ^ (2 : ℝ)) 0.5 * e.Vᴴ) =
      H * (e.U * diagonal (fun i => (e.S i : 𝕜)) * e.Vᴴ) := by
    rw [diagPow_sq hS]
    simp only [Matrix.mul_assoc]
  set B1 := e.U * diagonal (fun i => (e.S i : 𝕜)) * e.Vᴴ with hB1
  have hno : ∀ B : Matrix (Fin n) (Fin m) 𝕜, ∀ l : Matrix (Fin n) (Fin m) 𝕜 → SvdOut 𝕜 n m,
      ∃ e1, utilSvd l B (some t) rtol = .ok e1 := by
    intro B l
    cases h1 : utilSvd l B (some t) rtol with
    | ok e1 => exact ⟨e1, rfl⟩
    | error x =>
      exfalso
      obtain ⟨rfl, h2⟩ := (C19_error_iff _ _ _ _ x).mp h1
      rw [(C19_error_iff lib.svd (G * vecs) (some t) rtol .indexError).mpr ⟨rfl, h2⟩] at he
      cases he
  obtain ⟨e1, he1⟩ := hno B1 lib.svd
  obtain ⟨j1, j2, j3⟩ := svd_again (hlib _) (hlib _) ht hr e e1 he hB1 he1
  obtain ⟨G', H', hGH', hG', h3'⟩ := podDirect_cases lib' (H * B1) none ws (some t) rtol hfit hchol'
  have hok : ∃ res', podDirect lib' (H * B1) none ws (some t) rtol = .ok res' := by
    refine C22_direct_no_error lib' _ ws _ rtol hfit hchol' ?_
    by_contra hc
    push Not at hc
    have := (C19_error_iff lib.svd (G * vecs) (some t) rtol .indexError).mpr ⟨rfl, hc.1, by omega⟩
    rw [he] at this
    cases this
  obtain ⟨res', hres'⟩ := hok
  obtain ⟨e', c', he', hc', rfl⟩ := h3' res' hres'
  cases hc'
  have hT : (G' * H)ᴴ * (G' * H) = 1 := by
    rw [conjTranspose_mul, show Hᴴ * G'ᴴ * (G' * H) = Hᴴ * (G'ᴴ * G') * H by simp only [Matrix.mul_assoc], hG', ← hG,
      show Hᴴ * (Gᴴ * G) * H = (G * H)ᴴ * (G * H) by rw [conjTranspose_mul]; simp only [Matrix.mul_assoc], hGH,
      conjTranspose_one, Matrix.mul_one]
  have hHG' : H' * G' = 1 := mul_eq_one_comm.mp hGH'
  obtain ⟨k1, k2, k3⟩ := svd_determined (Q := 1) (a := (1 : 𝕜)) (hlib B1) (hlib' (G' * (H * B1))) hT (by simp)
    (by rw [one_smul, Matrix.mul_one, Matrix.mul_assoc]) one_ne_zero ht hr e1 e' he1 (by rw [norm_one, one_mul]; exact he')
  obtain ⟨-, -, hAV', -, hS', -⟩ := C19_singular_triples _ _ _ _ (hlib' _) e' he'
  refine ⟨H * e.U, _, H' * e'.U, rfl, by dsimp only; rw [hX]; exact hres', rfl,
    ⟨k1.trans j1, fun i' i hi => ?_, fun f g hfg => ?_⟩, ?_⟩
  · dsimp only
    rw [k2 i' ⟨i.val, by rw [j1]; exact i.isLt⟩ hi, norm_one, one_mul, one_pow, one_mul, j2 _ _ rfl]
  · obtain ⟨k4, -⟩ := k3 (fun x => f (x ^ (2 : ℝ))) (fun x => g (x ^ (2 : ℝ))) fun x hx => by
      have := hfg (x ^ (2 : ℝ)) (Real.rpow_pos_of_pos hx _)
      rw [norm_one, one_pow, one_mul] at this
      rw [norm_one, one_mul, this]
    dsimp only
    rw [conjTranspose_mul, show H' * e'.U * diagonal (fun i => g (e'.S i ^ (2 : ℝ))) * (e'.Uᴴ * H'ᴴ) =
      H' * (e'.U * diagonal (fun i => g (e'.S i ^ (2 : ℝ))) * e'.Uᴴ) * H'ᴴ by simp only [Matrix.mul_assoc], k4,
      (j3 fun x => f (x ^ (2 : ℝ))).1, conjTranspose_mul, conjTranspose_mul]
    rw [show H * e.U * diagonal (fun i => f (e.S i ^ (2 : ℝ))) * (e.Uᴴ * Hᴴ) =
      H * (e.U * diagonal (fun i => f (e.S i ^ (2 : ℝ))) * e.Uᴴ) * Hᴴ by simp only [Matrix.mul_assoc]]
    generalize e.U * diagonal (fun i => f (e.S i ^ (2 : ℝ))) * e.Uᴴ = M
    rw [show H' * (G' * H * M * (Hᴴ * G'ᴴ)) * H'ᴴ = H' * G' * H * M * Hᴴ * (H' * G')ᴴ by
      rw [conjTranspose_mul]; simp only [Matrix.mul_assoc], hHG', conjTranspose_one, Matrix.mul_one, Matrix.one_mul]
  · dsimp only
    rw [hX, diagPow_sq hS']
    obtain ⟨-, k5⟩ := k3 (fun _ => 1) (fun _ => 1) fun _ _ => rfl
    have j5 := (j3 fun _ => 1).2
    simp only [diagonal_one, Matrix.mul_one] at k5 j5
    rw [show H' * e'.U * (diagonal (fun i => (e'.S i : 𝕜)) * e'.Vᴴ) = H' * (e'.U * diagonal (fun i => (e'.S i : 𝕜))) * e'.Vᴴ by
        simp only [Matrix.mul_assoc], ← hAV',
      show H' * (G' * (H * B1) * e'.V) * e'.Vᴴ = H' * G' * (H * B1) * (e'.V * e'.Vᴴ) by
        simp only [Matrix.mul_assoc], hHG', Matrix.one_mul, k5, j5, conjTranspose_one, Matrix.one_mul, hB1,
      show H * (e.U * diagonal (fun i => (e.S i : 𝕜)) * e.Vᴴ) * (e.V * e.Vᴴ) =
        H * (e.U * diagonal (fun i => (e.S i : 𝕜)) * (e.Vᴴ * e.V) * e.Vᴴ) by simp only [Matrix.mul_assoc], o2, Matrix.mul_one]

/-! ### Handles -/

section Handles

variable {E : Type*} [AddCommGroup E] [Module 𝕜 E]

/-- **C114**, handles.  Modes are those that `compute_modes` puts. -/
theorem C114_pod_handles (eigh eigh' : Matrix (Fin m) (Fin m) 𝕜 → EighOut 𝕜 m)
    (argsort argsort' : (Fin m → ℝ) → Equiv.Perm (Fin m)) (ip : E →ₗ⋆[𝕜] E →ₗ[𝕜] 𝕜) (vecs : Fin m → E)
    (rtol : Option ℝ) (t : ℝ) (ht : 0 ≤ t)
    (hr : ∀ t ∈ rtol, 0 ≤ t) (hs : IsArgsort argsort) (hs' : IsArgsort argsort') (hsymm : ∀ x y, ip y x = star (ip x y))
    (hlib : ∀ C, C.IsHermitian → IsEigh C (eigh C)) (hlib' : ∀ C, C.IsHermitian → IsEigh C (eigh' C)) (pod : PodHandles 𝕜 E m)
    (hpod : podHandlesDecomp eigh argsort (fun x y => ip x y) vecs (some t) rtol = .ok pod) :
    ∃ (modes : Fin pod.r → E) (pod' : PodHandles 𝕜 E m) (modes' : Fin pod'.r → E),
      (∀ l k out, podHandlesModes pod l k = .ok out → ∀ (i : Fin out.k) (j : Fin pod.r), l[i.val]? = some (j : Int) →
        out.v i = modes j) ∧
      podHandlesDecomp eigh' argsort' (fun x y => ip x y) (fun j => ∑ i, podHandlesProjCoeffs pod i j • modes i) (some t)
        rtol = .ok pod' ∧
      (∀ l k out, podHandlesModes pod' l k = .ok out → ∀ (i : Fin out.k) (j : Fin pod'.r), l[i.val]? = some (j : Int) →
        out.v i = modes' j) ∧
      SameModesOf ip (1 : 𝕜) pod.eigvals pod'.eigvals modes modes' ∧
      ∀ j, ∑ i, podHandlesProjCoeffs pod' i j • modes' i = ∑ i, podHandlesProjCoeffs pod i j • modes i := by
  have herm : ∀ v : Fin m → E, (handlesSymmIp (fun x y => ip x y) v).IsHermitian := by
    intro v
    ext i j
    exact (hsymm _ _).symm
  obtain ⟨e, he, rfl⟩ := podHandlesDecomp_cases eigh argsort ip vecs _ _ pod hpod
  have hm := pos_of_utilEigh_ok he
  have hl := hlib _ (herm vecs)
  have hw := C20_positive_partial _ _ _ _ t ht hs hr e he
  obtain ⟨o1, o2, -⟩ := C20_eigenpairs _ _ _ _ _ _ hl hs e he
  have hX : (fun j => ∑ i, (diagPow (𝕜 := 𝕜) e.w 0.5 * e.Vᴴ) i j • combine vecs (e.V * diagPow (𝕜 := 𝕜) e.w (-0.5)) i) =
      combine vecs (e.V * e.Vᴴ) := by
    change combine (combine vecs (e.V * diagPow (𝕜 := 𝕜) e.w (-0.5))) (diagPow (𝕜 := 𝕜) e.w 0.5 * e.Vᴴ) = _
    rw [combine_combine, build_mul_proj hw]
  have hA : handlesSymmIp (fun x y => ip x y) (combine vecs (e.V * e.Vᴴ)) =
      e.V * diagonal (fun i => (e.w i : 𝕜)) * e.Vᴴ := by
    unfold handlesSymmIp at o2 ⊢
    rw [handlesIp_combine, conjTranspose_mul, conjTranspose_conjTranspose,
      show e.V * e.Vᴴ * handlesIp (fun x y => ip x y) vecs vecs * (e.V * e.Vᴴ) =
        e.V * e.Vᴴ * (handlesIp (fun x y => ip x y) vecs vecs * e.V) * e.Vᴴ by simp only [Matrix.mul_assoc], o2,
      show e.V * e.Vᴴ * (e.V * diagonal (fun i => (e.w i : 𝕜))) * e.Vᴴ =
        e.V * (e.Vᴴ * e.V) * diagonal (fun i => (e.w i : 𝕜)) * e.Vᴴ by simp only [Matrix.mul_assoc], o1, Matrix.mul_one]
  obtain ⟨e', he'⟩ := C20_no_error eigh' argsort' (handlesSymmIp (fun x y => ip x y) (combine vecs (e.V * e.Vᴴ))) rtol true
    t hm
  obtain ⟨k1, k2, k3⟩ := eigh_again hl (hlib' _ (herm _)) ht hs hs' hr e e' he hA he'
  have hw' := C20_positive_partial _ _ _ _ t ht hs' hr e' he'
  have k4 : e'.V * e'.Vᴴ = e.V * e.Vᴴ := by
    have := k3 fun _ => 1
    simpa only [diagonal_one, Matrix.mul_one] using this
  have put : ∀ (pod : PodHandles 𝕜 E m) (l : List Int) (k : Nat) (out : Vecs E), podHandlesModes pod l k = .ok out →
      ∀ (i : Fin out.k) (j : Fin pod.r), l[i.val]? = some (j : Int) →
        out.v i = combine pod.vecs (pod.eigvecs * diagPow (𝕜 := 𝕜) pod.eigvals (-0.5)) j := by
    intro pod l k out hout i j hij
    obtain ⟨sel, -, h2, h3⟩ := podHandlesModes_cases _ l k out hout
    have := h2 i _ hij
    unfold npAxisIndex at this
    have hj := j.isLt
    rw [dif_pos (by omega)] at this
    rw [h3, ← Except.ok.inj this]
    rfl
  refine ⟨combine vecs (e.V * diagPow (𝕜 := 𝕜) e.w (-0.5)),
    ⟨combine vecs (e.V * e.Vᴴ), handlesSymmIp (fun x y => ip x y) (combine vecs (e.V * e.Vᴴ)), e'.r, e'.w, e'.V⟩,
    combine (combine vecs (e.V * e.Vᴴ)) (e'.V * diagPow (𝕜 := 𝕜) e'.w (-0.5)),
    fun l k out hout i j hij => put _ l k out hout i j hij, ?_, fun l k out hout i j hij => put _ l k out hout i j hij,
    ⟨k1, fun i' i hi => by rw [norm_one, one_pow, one_mul]; exact k2 i' i hi, fun f g hfg x => ?_⟩, fun j => ?_⟩
  · unfold podHandlesProjCoeffs
    dsimp only
    rw [hX]
    unfold podHandlesDecomp
    rw [if_neg (by omega)]
    dsimp only
    rw [he']
  · have hg : ∀ i, g (e'.w i) = f (e'.w i) := fun i => by
      have := hfg _ (hw' i)
      rwa [norm_one, one_pow, one_mul] at this
    dsimp only
    simp only [hg]
    rw [combine_combine, weighted_sum ip vecs _ (fun i => f (e.w i)), weighted_sum ip vecs _ (fun i => f (e'.w i))]
    have h1 : e.V * e.Vᴴ * (e'.V * diagPow (𝕜 := 𝕜) e'.w (-0.5)) * diagonal (fun i => f (e'.w i)) *
        (e.V * e.Vᴴ * (e'.V * diagPow (𝕜 := 𝕜) e'.w (-0.5)))ᴴ =
        e.V * diagPow (𝕜 := 𝕜) e.w (-0.5) * diagonal (fun i => f (e.w i)) * (e.V * diagPow (𝕜 := 𝕜) e.w (-0.5))ᴴ := by
      rw [conjTranspose_mul (e.V * e.Vᴴ),
        show e.V * e.Vᴴ * (e'.V * diagPow (𝕜 := 𝕜) e'.w (-0.5)) * diagonal (fun i => f (e'.w i)) *
          ((e'.V * diagPow (𝕜 := 𝕜) e'.w (-0.5))ᴴ * (e.V * e.Vᴴ)ᴴ) =
          e.V * e.Vᴴ * (e'.V * diagPow (𝕜 := 𝕜) e'.w (-0.5) * diagonal (fun i => f (e'.w i)) *
          (e'.V * diagPow (𝕜 := 𝕜) e'.w (-0.5))ᴴ) * (e.V * e.Vᴴ)ᴴ by simp only [Matrix.mul_assoc],
        build_weighted hw', k3 fun x => f x / (x : 𝕜), build_weighted hw, conjTranspose_mul, conjTranspose_conjTranspose,
        show e.V * e.Vᴴ * (e.V * diagonal (fun i => f (e.w i) / (e.w i : 𝕜)) * e.Vᴴ) * (e.V * e.Vᴴ) =
          e.V * (e.Vᴴ * e.V) * diagonal (fun i => f (e.w i) / (e.w i : 𝕜)) * (e.Vᴴ * e.V) * e.Vᴴ by
          simp only [Matrix.mul_assoc], o1, Matrix.mul_one, Matrix.mul_one]
    rw [h1]
  · have := congrFun hX j
    unfold podHandlesProjCoeffs
    dsimp only at this ⊢
    rw [this]
    have h1 : ∑ i, (diagPow (𝕜 := 𝕜) e'.w 0.5 * e'.Vᴴ) i j • combine (combine vecs (e.V * e.Vᴴ)) (e'.V * diagPow (𝕜 := 𝕜) e'.w (-0.5)) i =
        combine (combine (combine vecs (e.V * e.Vᴴ)) (e'.V * diagPow (𝕜 := 𝕜) e'.w (-0.5))) (diagPow (𝕜 := 𝕜) e'.w 0.5 * e'.Vᴴ) j := rfl
    rw [h1, combine_combine, build_mul_proj hw', combine_combine, k4,
      show e.V * e.Vᴴ * (e.V * e.Vᴴ) = e.V * (e.Vᴴ * e.V) * e.Vᴴ by simp only [Matrix.mul_assoc], o1, Matrix.mul_one]

end Handles

/-- The hypotheses can be met: with a tolerance of 2 one of the two directions of the data is dropped or not, and modes of
what is left are the same. -/
example : ∃ (lib : PodLib ℝ 2 3) (res res' : PodResult ℝ 2 3) (corr corr' : Matrix (Fin 3) (Fin 3) ℝ)
    (modes : Matrix (Fin 2) (Fin res.r) ℝ),
    podSnaps lib exampleData none none (some 2) none = .ok (res, corr) ∧ res.modes = ⟨res.r, modes⟩ ∧
    podSnaps lib (modes * res.projCoeffs) none none (some 2) none = .ok (res', corr') ∧ res'.r = res.r := by
  obtain ⟨lib, -, heigh, hs, -⟩ := exists_podLib (𝕜 := ℝ) 2 3
  obtain ⟨e, he⟩ := C20_no_error lib.eigh lib.argsort (exampleDataᴴ * Weights.matrix 2 (Weights.none : Weights ℝ) * exampleData)
    none true 2 (by norm_num)
  have hres : ∃ res corr, podSnaps lib exampleData none none (some 2) none = .ok (res, corr) := by
    refine ⟨⟨e.r, e.w, ⟨e.r, exampleData * (e.V * diagPow e.w (-0.5))⟩, diagPow e.w 0.5 * e.Vᴴ, e.V⟩,
      exampleDataᴴ * Weights.matrix 2 (Weights.none : Weights ℝ) * exampleData, ?_⟩
    · unfold podSnaps
      rw [show arraysInit (none : Option (NdArray ℝ)) = .ok .none from rfl]
      dsimp only
      unfold symmIpArray
      rw [C45_formula _ (by trivial)]
      dsimp only
      rw [he]
      rfl
  obtain ⟨res, corr, hres⟩ := hres
  obtain ⟨modes, res', corr', modes', h1, h2, -, h3, -⟩ := C114_pod_snaps lib lib exampleData none .none none 2
    (by norm_num) (by simp) hs hs rfl trivial
    (by rw [show Weights.matrix 2 (Weights.none : Weights ℝ) = 1 from rfl]; exact Matrix.isHermitian_one) heigh heigh res corr hres
  exact ⟨lib, res, res', corr, corr', modes, hres, h1, h2, h3.number⟩

end Modred
