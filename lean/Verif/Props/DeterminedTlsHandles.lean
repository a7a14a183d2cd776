import Verif.Props.DeterminedTls
import Verif.Props.DeterminedDmdHandles
import Verif.Props.TlsqrHandles

/-!
# Total-least-squares dynamic mode decomposition of handles does not depend on the order of the pairs and on the units (C102)
-/

namespace Modred

open Matrix

variable {𝕜 : Type*} [RCLike 𝕜] {m : Nat} {E : Type*} [AddCommGroup E] [Module 𝕜 E]

section Outcome

variable {ip : E →ₗ⋆[𝕜] E →ₗ[𝕜] 𝕜} {a b : 𝕜} {p : Nat} {Q : Matrix (Fin m) (Fin p) 𝕜}

/-- Mixed vectors, projected, are the projected vectors, mixed. -/
theorem mixed_proj_vecs (hQ : Q * Qᴴ = 1) (X : Fin m → E) (P : Matrix (Fin m) (Fin m) 𝕜) :
    combine (combine X (a • Q)) (Qᴴ * P * Q) = combine (combine X P) (a • Q) := by
  rw [combine_combine, combine_combine, Matrix.smul_mul, Matrix.mul_smul,
    show Q * (Qᴴ * P * Q) = (Q * Qᴴ) * P * Q by simp only [Matrix.mul_assoc], hQ, Matrix.one_mul]

/-- The steps after the inner products, for data whose number of vectors is written in two ways. -/
theorem tls_same_handles {m' : Nat} (hm : m' = p) {X Y : Fin m → E} {X' Y' : Fin m' → E} {d : TlsDecomp 𝕜 m}
    {d' : TlsDecomp 𝕜 m'} {lib lib' : DmdLib 𝕜} {t : ℝ} (hlib : lib.Lawful) (hlib' : lib'.Lawful)
    (hsym : ∀ x y, ip y x = star (ip x y)) (hQ : Q * Qᴴ = 1) (ha : a ≠ 0) (hab : ‖b‖ = ‖a‖) (ht : 0 ≤ t)
    (hX : ∀ (j' : Fin m') (j : Fin p), j'.val = j.val → X' j' = a • ∑ i, Q i j • X i)
    (hY : ∀ (j' : Fin m') (j : Fin p), j'.val = j.val → Y' j' = b • ∑ i, Q i j • Y i)
    (hd : tlsEigendecomp lib.eigh lib.argsort lib.eig (gram ip X X) (gram ip Y Y) (gram ip X Y) (some t) none none none = .ok d)
    (hd' : tlsEigendecomp lib'.eigh lib'.argsort lib'.eig (gram ip X' X') (gram ip Y' Y') (gram ip X' Y') (some (‖a‖ ^ 2 * t)) none none
      none = .ok d')
    (heig : EigOfProjected lib.eig (gram ip X Y) d) (heig' : EigOfProjected lib'.eig (gram ip X' Y') d')
    (hinj : Function.Injective d.d.eigvals) (hinj' : Function.Injective d'.d.eigvals) :
    (∀ (i' j' : Fin m') (i j : Fin p), i'.val = i.val → j'.val = j.val → d'.proj i' j' = (Qᴴ * d.proj * Q) i j) ∧
    SameDmdOf ip a b Q d.d.eigvals d'.d.eigvals (combine Y d.buildExact) (combine X d.buildProj) (combine X d.buildAdjoint)
      (combine Y' d'.buildExact) (combine X' d'.buildProj) (combine X' d'.buildAdjoint)
      (d.d.Lᴴ * (diagPow (𝕜 := 𝕜) d.d.w 0.5 * d.d.Vᴴ))
      (d.d.Lᴴ * (diagPow (𝕜 := 𝕜) d.d.w (-0.5) * (d.d.Vᴴ * (d.sumV * (d.sumVᴴ * (gram ip X Y * (d.sumV * d.sumVᴴ)))))))
      (d'.d.Lᴴ * (diagPow (𝕜 := 𝕜) d'.d.w 0.5 * d'.d.Vᴴ))
      (d'.d.Lᴴ * (diagPow (𝕜 := 𝕜) d'.d.w (-0.5) *
        (d'.d.Vᴴ * (d'.sumV * (d'.sumVᴴ * (gram ip X' Y' * (d'.sumV * d'.sumVᴴ))))))) := by
  subst hm
  have na : 0 < ‖a‖ ^ 2 := pow_pos (norm_pos_iff.mpr ha) 2
  have hb : b ≠ 0 := norm_pos_iff.mp (hab ▸ norm_pos_iff.mpr ha)
  have comb : ∀ (c : 𝕜) (Z : Fin m → E) (j : Fin m'), c • ∑ i, Q i j • Z i = combine Z (c • Q) j := by
    intro c Z j
    unfold combine
    simp only [Finset.smul_sum, smul_smul, Matrix.smul_apply, smul_eq_mul]
  obtain rfl : X' = combine X (a • Q) := by
    ext j
    rw [hX j j rfl, comb]
  obtain rfl : Y' = combine Y (b • Q) := by
    ext j
    rw [hY j j rfl, comb]
  have parts : ∀ {q : Nat} {X Y : Fin q → E} {d : TlsDecomp 𝕜 q}, TlsCore (gram ip X X) (gram ip Y Y) (gram ip X Y) d →
      DmdCore (gram ip (combine X d.proj) (combine X d.proj)) (gram ip (combine X d.proj) (combine Y d.proj)) d.d ∧
      combine Y d.buildExact = combine (combine Y d.proj) d.d.buildExact ∧
      combine X d.buildProj = combine (combine X d.proj) d.d.buildProj ∧
      combine X d.buildAdjoint = combine (combine X d.proj) d.d.buildAdjoint := by
    intro q X Y d hc
    have hcore := hc.core
    rw [← gram_proj_vecs, ← gram_proj_vecs] at hcore
    obtain ⟨r1, r2, r3⟩ := hc.range
    exact ⟨hcore, by rw [hc.buildExact, combine_combine, r2], by rw [hc.buildProj, combine_combine, r1],
      by rw [hc.buildAdjoint, combine_combine, r3]⟩
  obtain ⟨hc, hLR⟩ := tlsEigendecomp_core _ _ lib.eig _ _ _ t none none none d hd ht (by simp) (by simp) hlib.argsort
    (gram_herm ip hsym X) (gram_herm ip hsym Y) hlib.eigh heig
  obtain ⟨hc', hLR'⟩ := tlsEigendecomp_core _ _ lib'.eig _ _ _ _ none none none d' hd' (mul_nonneg na.le ht) (by simp) (by simp)
    hlib'.argsort (gram_herm ip hsym _) (gram_herm ip hsym _) hlib'.eigh heig'
  obtain ⟨hcore, e1, e2, e3⟩ := parts hc
  obtain ⟨hcore', e1', e2', e3'⟩ := parts hc'
  obtain ⟨⟨s, hs1, hs2⟩, e, w, R, L, he1, he2⟩ := tlsEigendecomp_eigh hd
  obtain ⟨⟨s', hs1', hs2'⟩, e', w', R', L', he1', he2'⟩ := tlsEigendecomp_eigh hd'
  have hP : d'.proj = Qᴴ * d.proj * Q := by
    have := (eigh_wide (s := ‖a‖ ^ 2) (Q := Q) (hlib.eigh _ (IsHermitian.add (gram_herm ip hsym X) (gram_herm ip hsym Y)))
      (hlib'.eigh _ (IsHermitian.add (gram_herm ip hsym _) (gram_herm ip hsym _))) hQ
      (by rw [gram_mixed_of, gram_mixed_of, norm_sq_smul, norm_sq_smul, hab, ← smul_add, ← Matrix.add_mul, ← Matrix.mul_add]) na ht
      hlib.argsort hlib'.argsort (by simp) s s' hs1 hs1').2.2 (fun _ => 1) (fun _ => 1) fun _ _ => rfl
    simp only [diagonal_one, Matrix.mul_one] at this
    rw [hs2', this, hs2]
  refine ⟨fun i' j' i j hi hj => by rw [hP, Fin.ext hi, Fin.ext hj], ?_⟩
  rw [e1, e2, e3, e1', e2', e3', TlsCore.advCoeffs, TlsCore.advCoeffs, ← gram_proj_vecs, ← gram_proj_vecs]
  refine same_dmd_of hQ ha hb (by rw [hP, mixed_proj_vecs hQ]) (by rw [hP, mixed_proj_vecs hQ]) hcore hcore' (hLR hinj) (hLR' hinj') ?_
  rw [he2, he2']
  rw [← gram_proj_vecs] at he1 he1'
  rw [hP, mixed_proj_vecs hQ] at he1'
  exact fun f g hfg => (eigh_wide (hlib.eigh _ (gram_herm ip hsym _)) (hlib'.eigh _ (gram_herm ip hsym _)) hQ
    (by rw [gram_mixed_of, norm_sq_smul]) na ht hlib.argsort hlib'.argsort (by simp) e e' he1 he1').2.2 f g hfg

end Outcome

/-! ### Handles -/

section Handles

variable (lib lib' : DmdLib 𝕜) (ip : E →ₗ⋆[𝕜] E →ₗ[𝕜] 𝕜) (t : ℝ) (rtol rtol' : Option ℝ) (a b : 𝕜)
  (g h g' h' : TlsHandles 𝕜 E)

/-- **C102.** Handles of pairs of vectors. -/
theorem C102_handles_pairs (hlib : lib.Lawful) (hlib' : lib'.Lawful) (hsym : ∀ x y, ip y x = star (ip x y)) (ha : a ≠ 0)
    (hab : ‖b‖ = ‖a‖) (ht : 0 ≤ t) (vecs adv vecs' adv' : List E) (hlen : vecs.length = adv.length)
    (hlen' : vecs'.length = adv'.length) {p : Nat} (hm : vecs'.length = p)
    (Q : Matrix (Fin vecs.length) (Fin p) 𝕜) (hQ : Q * Qᴴ = 1)
    (hvecs : ∀ (j' : Fin vecs'.length) (j : Fin p), j'.val = j.val → vecs'.get j' = a • ∑ i, Q i j • vecs.get i)
    (hadv : ∀ (j' : Fin vecs'.length) (j : Fin p), j'.val = j.val →
      adv'.get (Fin.cast hlen' j') = b • ∑ i, Q i j • adv.get (Fin.cast hlen i))
    (hrun : g.computeDecomp lib (fun x y => ip x y) vecs (some adv) (some t) rtol none = (.ok (), g'))
    (hrun' : h.computeDecomp lib' (fun x y => ip x y) vecs' (some adv') (some (‖a‖ ^ 2 * t)) rtol' none = (.ok (), h'))
    (d : TlsDecomp 𝕜 vecs.length) (hd : g'.decomp = some ⟨vecs.length, d⟩)
    (d' : TlsDecomp 𝕜 vecs'.length) (hd' : h'.decomp = some ⟨vecs'.length, d'⟩)
    (heig : EigOfProjected lib.eig (gram ip vecs.get (fun j => adv.get (Fin.cast hlen j))) d)
    (heig' : EigOfProjected lib'.eig (gram ip vecs'.get (fun j => adv'.get (Fin.cast hlen' j))) d')
    (hinj : Function.Injective d.d.eigvals) (hinj' : Function.Injective d'.d.eigvals) :
    (∀ (i' j' : Fin vecs'.length) (i j : Fin p), i'.val = i.val → j'.val = j.val →
      d'.proj i' j' = (Qᴴ * d.proj * Q) i j) ∧
    ∃ (exact proj adjoint : Fin d.d.r → E) (exact' proj' adjoint' : Fin d'.d.r → E) (c e : Matrix (Fin d.d.r) (Fin vecs.length) 𝕜)
      (c' e' : Matrix (Fin d'.d.r) (Fin vecs'.length) 𝕜),
      ((∀ l num out k, g'.computeExactModes l num none = (.ok out, k) → ChosenVecs exact l out) ∧
        (∀ l num out k, g'.computeProjModes l num none = (.ok out, k) → ChosenVecs proj l out) ∧
        (∀ l num out k, g'.computeAdjointModes l num none = (.ok out, k) → ChosenVecs adjoint l out) ∧
        g'.computeProjCoeffs = .ok (⟨d.d.r, vecs.length, c⟩, ⟨d.d.r, vecs.length, e⟩)) ∧
      ((∀ l num out k, h'.computeExactModes l num none = (.ok out, k) → ChosenVecs exact' l out) ∧
        (∀ l num out k, h'.computeProjModes l num none = (.ok out, k) → ChosenVecs proj' l out) ∧
        (∀ l num out k, h'.computeAdjointModes l num none = (.ok out, k) → ChosenVecs adjoint' l out) ∧
        h'.computeProjCoeffs = .ok (⟨d'.d.r, vecs'.length, c'⟩, ⟨d'.d.r, vecs'.length, e'⟩)) ∧
      SameDmdOf ip a b Q d.d.eigvals d'.d.eigvals exact proj adjoint exact' proj' adjoint' c e c' e' := by
  obtain ⟨_, d1, h1, rfl⟩ := tlsComputeDecomp_pairs lib _ g g' vecs adv (some t) rtol none hrun
  obtain ⟨_, d2, h2, rfl⟩ := tlsComputeDecomp_pairs lib' _ h h' vecs' adv' _ rtol' none hrun'
  cases hd
  cases hd'
  obtain ⟨s1, s2, s3⟩ := tls_state_pairs vecs adv hlen ⟨handlesIp (fun x y => ip x y) vecs.get vecs.get,
    handlesIp (fun x y => ip x y) (fun j => adv.get (Fin.cast hlen j)) fun j => adv.get (Fin.cast hlen j),
    handlesIp (fun x y => ip x y) vecs.get fun j => adv.get (Fin.cast hlen j)⟩ d
  obtain ⟨s1', s2', s3'⟩ := tls_state_pairs vecs' adv' hlen' ⟨handlesIp (fun x y => ip x y) vecs'.get vecs'.get,
    handlesIp (fun x y => ip x y) (fun j => adv'.get (Fin.cast hlen' j)) fun j => adv'.get (Fin.cast hlen' j),
    handlesIp (fun x y => ip x y) vecs'.get fun j => adv'.get (Fin.cast hlen' j)⟩ d'
  obtain ⟨hP, hsame⟩ := tls_same_handles hm hlib hlib' hsym hQ ha hab ht hvecs hadv h1 h2 heig heig' hinj hinj'
  exact ⟨hP, _, _, _, _, _, _, _, _, _, _, ⟨fun l num out k hk => s1 l num none out k (.inl rfl) hk,
    fun l num out k hk => s2 l num none out k (.inl rfl) hk, fun l num out k hk => s3 l num none out k (.inl rfl) hk,
    tlsComputeProjCoeffs_state _ _ _ _⟩, ⟨fun l num out k hk => s1' l num none out k (.inl rfl) hk,
    fun l num out k hk => s2' l num none out k (.inl rfl) hk, fun l num out k hk => s3' l num none out k (.inl rfl) hk,
    tlsComputeProjCoeffs_state _ _ _ _⟩, hsame⟩

/-- **C102.** Handles of sequential data in other units. -/
theorem C102_handles_sequential (hlib : lib.Lawful) (hlib' : lib'.Lawful) (hsym : ∀ x y, ip y x = star (ip x y)) (ha : a ≠ 0)
    (ht : 0 ≤ t) (vecs : List E) (hg : g.adv = none) (hh : h.adv = none)
    (hrun : g.computeDecomp lib (fun x y => ip x y) vecs none (some t) rtol none = (.ok (), g'))
    (hrun' : h.computeDecomp lib' (fun x y => ip x y) (vecs.map (a • ·)) none (some (‖a‖ ^ 2 * t)) rtol' none = (.ok (), h'))
    (d : TlsDecomp 𝕜 (vecs.length - 1)) (hd : g'.decomp = some ⟨vecs.length - 1, d⟩)
    (d' : TlsDecomp 𝕜 ((vecs.map (a • ·)).length - 1)) (hd' : h'.decomp = some ⟨(vecs.map (a • ·)).length - 1, d'⟩)
    (heig : EigOfProjected lib.eig (gram ip (seqVecs vecs) (seqAdvVecs vecs)) d)
    (heig' : EigOfProjected lib'.eig (gram ip (seqVecs (vecs.map (a • ·))) (seqAdvVecs (vecs.map (a • ·)))) d')
    (hinj : Function.Injective d.d.eigvals) (hinj' : Function.Injective d'.d.eigvals) :
    (∀ (i' j' : Fin ((vecs.map (a • ·)).length - 1)) (i j : Fin (vecs.length - 1)), i'.val = i.val → j'.val = j.val →
      d'.proj i' j' = d.proj i j) ∧
    ∃ (exact proj adjoint : Fin d.d.r → E) (exact' proj' adjoint' : Fin d'.d.r → E)
      (c e : Matrix (Fin d.d.r) (Fin (vecs.length - 1)) 𝕜) (c' e' : Matrix (Fin d'.d.r) (Fin ((vecs.map (a • ·)).length - 1)) 𝕜),
      ((∀ l num out k, g'.computeExactModes l num none = (.ok out, k) → ChosenVecs exact l out) ∧
        (∀ l num out k, g'.computeProjModes l num none = (.ok out, k) → ChosenVecs proj l out) ∧
        (∀ l num out k, g'.computeAdjointModes l num none = (.ok out, k) → ChosenVecs adjoint l out) ∧
        g'.computeProjCoeffs = .ok (⟨d.d.r, _, c⟩, ⟨d.d.r, _, e⟩)) ∧
      ((∀ l num out k, h'.computeExactModes l num none = (.ok out, k) → ChosenVecs exact' l out) ∧
        (∀ l num out k, h'.computeProjModes l num none = (.ok out, k) → ChosenVecs proj' l out) ∧
        (∀ l num out k, h'.computeAdjointModes l num none = (.ok out, k) → ChosenVecs adjoint' l out) ∧
        h'.computeProjCoeffs = .ok (⟨d'.d.r, _, c'⟩, ⟨d'.d.r, _, e'⟩)) ∧
      SameDmdOf (p := vecs.length - 1) ip a a 1 d.d.eigvals d'.d.eigvals exact proj adjoint exact' proj' adjoint' c e c' e' := by
  obtain ⟨d1, h1, rfl⟩ := tlsComputeDecomp_seq lib _ g g' vecs (some t) rtol none hrun
  obtain ⟨d2, h2, rfl⟩ := tlsComputeDecomp_seq lib' _ h h' _ _ rtol' none hrun'
  cases hd
  cases hd'
  have hp := tlsEigendecomp_pos lib none h1
  have hm : (vecs.map (a • ·)).length - 1 = vecs.length - 1 := by rw [List.length_map]
  have hQ : (1 : Matrix (Fin (vecs.length - 1)) (Fin (vecs.length - 1)) 𝕜) * 1ᴴ = 1 := by
    rw [conjTranspose_one, Matrix.mul_one]
  have one : ∀ (Z : Fin (vecs.length - 1) → E) (j : Fin (vecs.length - 1)),
      ∑ i, (1 : Matrix (Fin (vecs.length - 1)) (Fin (vecs.length - 1)) 𝕜) i j • Z i = Z j := by
    intro Z j
    simp [Matrix.one_apply, ite_smul]
  obtain ⟨hP, hsame⟩ := tls_same_handles hm hlib hlib' hsym hQ ha rfl ht (a := a) (b := a) (by
      intro j' j hj
      rw [one]
      unfold seqVecs
      simp only [List.get_eq_getElem, List.getElem_map, hj]) (by
      intro j' j hj
      rw [one]
      unfold seqAdvVecs
      simp only [List.get_eq_getElem, List.getElem_map, hj]) h1 h2 heig heig' hinj hinj'
  obtain ⟨s1, s2, s3⟩ := tls_state_seq vecs ⟨_, handlesIp (fun x y => ip x y) (seqAdvVecs vecs) (seqAdvVecs vecs), _⟩ g.adv d hp
  obtain ⟨s1', s2', s3'⟩ := tls_state_seq (vecs.map (a • ·))
    ⟨_, handlesIp (fun x y => ip x y) (seqAdvVecs (vecs.map (a • ·))) (seqAdvVecs (vecs.map (a • ·))), _⟩ h.adv d' (by omega)
  rw [conjTranspose_one, Matrix.one_mul, Matrix.mul_one] at hP
  exact ⟨hP, _, _, _, _, _, _, _, _, _, _, ⟨fun l num out k hk => s1 l num none out k (.inl ⟨rfl, hg⟩) hk,
    fun l num out k hk => s2 l num none out k (.inl rfl) hk, fun l num out k hk => s3 l num none out k (.inl rfl) hk,
    tlsComputeProjCoeffs_state _ _ _ _⟩, ⟨fun l num out k hk => s1' l num none out k (.inl ⟨rfl, hh⟩) hk,
    fun l num out k hk => s2' l num none out k (.inl rfl) hk, fun l num out k hk => s3' l num none out k (.inl rfl) hk,
    tlsComputeProjCoeffs_state _ _ _ _⟩, hsame⟩

end Handles

/-! ### Example -/

/-- A sequence and the same sequence with the signs of all vectors changed. -/
example : ∃ (lib : DmdLib ℝ) (g h : TlsHandles ℝ (Fin 2 → ℝ)) (d d' : TlsDecomp ℝ 2) (exact proj adjoint : Fin d.d.r → Fin 2 → ℝ)
    (exact' proj' adjoint' : Fin d'.d.r → Fin 2 → ℝ) (c e : Matrix (Fin d.d.r) (Fin 2) ℝ) (c' e' : Matrix (Fin d'.d.r) (Fin 2) ℝ),
    TlsHandles.new.computeDecomp lib (fun x y => dotIp x y) exampleVecs none (some (1 / 10)) none none = (.ok (), g) ∧
    TlsHandles.new.computeDecomp lib (fun x y => dotIp x y) (exampleVecs.map ((-1 : ℝ) • ·)) none (some (‖(-1 : ℝ)‖ ^ 2 * (1 / 10)))
      none none = (.ok (), h) ∧
    g.decomp = some ⟨2, d⟩ ∧ h.decomp = some ⟨2, d'⟩ ∧ d.d = exampleSeqDecomp ∧
    SameDmdOf (p := 2) dotIp (-1) (-1) 1 d.d.eigvals d'.d.eigvals exact proj adjoint exact' proj' adjoint' c e c' e' := by
  obtain ⟨lib, hlaw, heig, hu⟩ := exists_exampleDmdLib
  obtain ⟨g, d, hrun, hd, hproj, hdd, hE⟩ := exampleVecs_tls_decomp lib hlaw heig hu TlsHandles.new
  have h1 : gram dotIp (seqVecs (exampleVecs.map ((-1 : ℝ) • ·))) (seqVecs (exampleVecs.map ((-1 : ℝ) • ·))) =
      (1 : Matrix (Fin 2) (Fin 2) ℝ) := by
    refine Eq.trans (Matrix.ext fun i j => ?_) exampleVecs_corr
    change dotIp _ _ = dotIp _ _
    rw [dotIp_apply, dotIp_apply]
    simp [seqVecs]
  have h2 : gram dotIp (seqAdvVecs (exampleVecs.map ((-1 : ℝ) • ·))) (seqAdvVecs (exampleVecs.map ((-1 : ℝ) • ·))) =
      (seqNext exampleSeq)ᴴ * 1 * seqNext exampleSeq := by
    refine Eq.trans (Matrix.ext fun i j => ?_) exampleVecs_adv
    change dotIp _ _ = dotIp _ _
    rw [dotIp_apply, dotIp_apply]
    simp [seqAdvVecs]
  have h3 : gram dotIp (seqVecs (exampleVecs.map ((-1 : ℝ) • ·))) (seqAdvVecs (exampleVecs.map ((-1 : ℝ) • ·))) =
      (!![0, -2; 1, 3] : Matrix (Fin 2) (Fin 2) ℝ) := by
    refine Eq.trans (Matrix.ext fun i j => ?_) exampleVecs_cross
    change dotIp _ _ = dotIp _ _
    rw [dotIp_apply, dotIp_apply]
    simp [seqVecs, seqAdvVecs]
  have htol : ‖(-1 : ℝ)‖ ^ 2 * (1 / 10) = 1 / 10 := by norm_num
  obtain ⟨h, d0, hrun', -⟩ := C31_handles_sequential_no_error lib TlsHandles.new (1 / 10) none none (fun x y => dotIp x y)
    (exampleVecs.map ((-1 : ℝ) • ·)) (by simp [exampleVecs])
  obtain ⟨d', hd', hh⟩ := tlsComputeDecomp_seq lib _ _ h _ (some (1 / 10)) none none hrun'
  obtain ⟨-, hdd', hE'⟩ := exampleVecs_tls lib hlaw heig hu d' _ _ _ h1 h2 h3 hd'
  have hdec : h.decomp = some ⟨2, d'⟩ := by rw [hh]; rfl
  rw [← htol] at hrun'
  obtain ⟨-, exact, proj, adjoint, exact', proj', adjoint', c, e, c', e', -, -, hsame⟩ := C102_handles_sequential lib lib dotIp (1 / 10)
    none none (-1) TlsHandles.new TlsHandles.new g h hlaw hlaw dotIp_symm (by norm_num) (by norm_num) exampleVecs rfl rfl hrun hrun' d hd
    d' hdec hE hE' (by rw [hdd]; exact exampleSeqDecomp_distinct.1) (by rw [hdd']; exact exampleSeqDecomp_distinct.1)
  exact ⟨lib, g, h, d, d', exact, proj, adjoint, exact', proj', adjoint', c, e, c', e', hrun, hrun', hd, hdec, hdd, hsame⟩

end Modred
