import Verif.Props.LeastSquares
import Verif.Props.TlsqrHandles

/-!
# C72: the projection of total-least-squares DMD is best
-/

namespace Modred

open Matrix
open scoped ComplexOrder

variable {𝕜 : Type*} [RCLike 𝕜]

/-! ### The projection -/

/-- `V` holds the first columns of a decomposition of `S` sorted by eigenvalue. -/
def FirstEigenvectors {m q : Nat} (S : Matrix (Fin m) (Fin m) 𝕜) (V : Matrix (Fin m) (Fin q) 𝕜) : Prop :=
  ∃ (s : Nat) (U : Matrix (Fin m) (Fin s) 𝕜) (a : Fin s → ℝ) (hle : q ≤ s), Uᴴ * U = 1 ∧
    S = U * diagonal (fun i => (a i : 𝕜)) * Uᴴ ∧ Antitone a ∧ (∀ i, 0 ≤ a i) ∧ V = U.submatrix id (Fin.castLE hle)

theorem FirstEigenvectors.firstCols {m q : Nat} {S : Matrix (Fin m) (Fin m) 𝕜} {V : Matrix (Fin m) (Fin q) 𝕜}
    (h : FirstEigenvectors S V) (k : Nat) : FirstEigenvectors S (firstCols V k) := by
  obtain ⟨s, U, a, hle, h1, h2, h3, h4, rfl⟩ := h
  exact ⟨s, U, a, (min_le_right _ _).trans hle, h1, h2, h3, h4, rfl⟩

theorem FirstEigenvectors.truncate {m : Nat} {S : Matrix (Fin m) (Fin m) 𝕜} {e : Eigh 𝕜 m}
    (h : FirstEigenvectors S e.V) (maxNum : Option Nat) : FirstEigenvectors S (e.truncate maxNum).V := by
  cases maxNum with
  | none => exact h
  | some k =>
    by_cases hk : k < e.r
    · rw [show e.truncate (some k) = _ from if_pos hk]
      exact h.firstCols _
    · rw [show e.truncate (some k) = _ from if_neg hk]
      exact h

theorem FirstEigenvectors.truncateSvd {n m : Nat} {S : Matrix (Fin m) (Fin m) 𝕜} {e : Svd 𝕜 n m}
    (h : FirstEigenvectors S e.V) (maxNum : Option Nat) : FirstEigenvectors S (e.truncate maxNum).V := by
  cases maxNum with
  | none => exact h
  | some k =>
    by_cases hk : k < e.r
    · rw [show e.truncate (some k) = _ from if_pos hk]
      exact h.firstCols _
    · rw [show e.truncate (some k) = _ from if_neg hk]
      exact h

theorem utilSvd_first {n m : Nat} {svd : Matrix (Fin n) (Fin m) 𝕜 → SvdOut 𝕜 n m} {A : Matrix (Fin n) (Fin m) 𝕜}
    (hsvd : IsSvd A (svd A)) {atol rtol : Option ℝ} (hr : ∀ t ∈ rtol, 0 ≤ t) (s : Svd 𝕜 n m)
    (hs : utilSvd svd A atol rtol = .ok s) : FirstEigenvectors (Aᴴ * A) s.V := by
  obtain ⟨hle, -, hv⟩ := C19_kept_iff _ _ _ _ hsvd hr s hs
  refine ⟨_, (svd A).Vhᴴ, fun i => (svd A).S i ^ 2, hle, ?_, ?_, fun i j hij =>
    pow_le_pow_left₀ (hsvd.nonneg j) (hsvd.sorted hij) 2, fun i => sq_nonneg _, ?_⟩
  · rw [conjTranspose_conjTranspose]
    exact hsvd.right
  · conv_lhs => rw [hsvd.product]
    rw [conjTranspose_mul, conjTranspose_mul, diagonal_real_conjTranspose, conjTranspose_conjTranspose]
    rw [show (svd A).Vhᴴ * (diagonal (fun i => ((svd A).S i : 𝕜)) * (svd A).Uᴴ) *
        ((svd A).U * diagonal (fun i => ((svd A).S i : 𝕜)) * (svd A).Vh) =
      (svd A).Vhᴴ * (diagonal (fun i => ((svd A).S i : 𝕜)) * ((svd A).Uᴴ * (svd A).U) *
        diagonal (fun i => ((svd A).S i : 𝕜))) * (svd A).Vh by simp only [Matrix.mul_assoc]]
    rw [hsvd.left, Matrix.mul_one, diagonal_mul_diagonal]
    congr 3
    ext i
    dsimp only
    rw [← RCLike.ofReal_mul, sq]
  · ext i j
    exact (hv j (Fin.castLE hle j) rfl).2.2 i

/-- The array whose trace is the sum of squared lengths of the errors. -/
theorem residual_gram {n m k : Nat} {W : Matrix (Fin n) (Fin n) 𝕜} (hW : W.IsHermitian) (X : Matrix (Fin n) (Fin m) 𝕜)
    (Q : Matrix (Fin n) (Fin k) 𝕜) (c : Matrix (Fin k) (Fin m) 𝕜) : (X - Q * c)ᴴ * W * (X - Q * c) =
      Xᴴ * W * X - cᴴ * (Qᴴ * W * X) - (Qᴴ * W * X)ᴴ * c + cᴴ * (Qᴴ * W * Q) * c := by
  rw [conjTranspose_sub, conjTranspose_mul, Matrix.sub_mul, Matrix.sub_mul, Matrix.mul_sub, Matrix.mul_sub,
    conjTranspose_mul, conjTranspose_mul, conjTranspose_conjTranspose, hW.eq]
  simp only [Matrix.mul_assoc]
  abel

theorem residual_proj {n m : Nat} (W : Matrix (Fin n) (Fin n) 𝕜) (X : Matrix (Fin n) (Fin m) 𝕜)
    (P : Matrix (Fin m) (Fin m) 𝕜) : (X - X * P)ᴴ * W * (X - X * P) = (1 - P)ᴴ * (Xᴴ * W * X) * (1 - P) := by
  rw [show X - X * P = X * (1 - P) by rw [Matrix.mul_sub, Matrix.mul_one], conjTranspose_mul]
  simp only [Matrix.mul_assoc]

theorem gram_add_residual {m k : Nat} (A B : Matrix (Fin m) (Fin m) 𝕜) (c D D' : Matrix (Fin k) (Fin m) 𝕜)
    (F F' : Matrix (Fin k) (Fin k) 𝕜) :
    A - cᴴ * D - Dᴴ * c + cᴴ * F * c + (B - cᴴ * D' - D'ᴴ * c + cᴴ * F' * c) =
      A + B - cᴴ * (D + D') - (D + D')ᴴ * c + cᴴ * (F + F') * c := by
  rw [conjTranspose_add]
  simp only [Matrix.mul_add, Matrix.add_mul]
  abel

theorem FirstEigenvectors.best {n m q : Nat} {W : Matrix (Fin n) (Fin n) 𝕜} (hW : W.PosSemidef)
    {X Y : Matrix (Fin n) (Fin m) 𝕜} {V : Matrix (Fin m) (Fin q) 𝕜}
    (h : FirstEigenvectors (Xᴴ * W * X + Yᴴ * W * Y) V) : TlsBest W X Y (V * Vᴴ) q := by
  obtain ⟨s, U, a, hle, h1, h2, h3, h4, rfl⟩ := h
  intro Q Q' c
  have hl := first_columns h1 h2 hle
  generalize U.submatrix id (Fin.castLE hle) * (U.submatrix id (Fin.castLE hle))ᴴ = P at *
  rw [weightedSq_eq_trace, weightedSq_eq_trace, weightedSq_eq_trace, weightedSq_eq_trace, ← map_add, ← map_add,
    ← trace_add, ← trace_add, residual_proj, residual_proj, ← Matrix.add_mul, ← Matrix.mul_add, hl]
  have hp := (hW.conjTranspose_mul_mul_same (X - Q * c)).add (hW.conjTranspose_mul_mul_same (Y - Q' * c))
  rw [residual_gram hW.isHermitian, residual_gram hW.isHermitian, gram_add_residual] at hp ⊢
  exact approximation_bound h1 h2 h3 h4 c _ _ hp

theorem FirstEigenvectors.handleBest {E : Type*} [AddCommGroup E] [Module 𝕜 E] {ip : E →ₗ⋆[𝕜] E →ₗ[𝕜] 𝕜}
    (hsymm : ∀ x y, ip y x = star (ip x y)) (hnn : ∀ x, 0 ≤ RCLike.re (ip x x)) {m q : Nat} {X Y : Fin m → E}
    {V : Matrix (Fin m) (Fin q) 𝕜} (h : FirstEigenvectors (gram ip X X + gram ip Y Y) V) :
    TlsHandleBest ip X Y (V * Vᴴ) q := by
  obtain ⟨s, U, a, hle, h1, h2, h3, h4, rfl⟩ := h
  intro v v' c
  have hl := first_columns h1 h2 hle
  generalize U.submatrix id (Fin.castLE hle) * (U.submatrix id (Fin.castLE hle))ᴴ = P at *
  have htrace : ∀ v : Fin m → E, ∑ j, RCLike.re (ip (v j) (v j)) =
      RCLike.re (handlesIp (fun x y => ip x y) v v).trace := by
    intro v
    rw [trace, map_sum]
    rfl
  have hleft : ∀ Z : Fin m → E, ∑ j, RCLike.re (ip (Z j - ∑ i, P i j • Z i) (Z j - ∑ i, P i j • Z i)) =
      RCLike.re ((1 - P)ᴴ * gram ip Z Z * (1 - P)).trace := by
    intro Z
    have h1 := htrace (combine Z (1 - P))
    rw [handlesIp_combine] at h1
    have h2 : ∀ j, combine Z (1 - P) j = Z j - ∑ i, P i j • Z i := by
      intro j
      rw [combine_sub, combine_one]
      rfl
    simp only [h2] at h1
    exact h1
  have hright : ∀ (Z : Fin m → E) (q : Fin _ → E),
      ∑ j, RCLike.re (ip (Z j - ∑ i, c i j • q i) (Z j - ∑ i, c i j • q i)) =
      RCLike.re (handlesIp (fun x y => ip x y) (Z - combine q (Matrix.of c)) (Z - combine q (Matrix.of c))).trace :=
    fun Z q => htrace (Z - combine q (Matrix.of c))
  have hexp : ∀ (Z : Fin m → E) (q : Fin _ → E),
      handlesIp (fun x y => ip x y) (Z - combine q (Matrix.of c)) (Z - combine q (Matrix.of c)) =
      gram ip Z Z - (Matrix.of c)ᴴ * handlesIp (fun x y => ip x y) q Z -
        (handlesIp (fun x y => ip x y) q Z)ᴴ * Matrix.of c +
        (Matrix.of c)ᴴ * handlesIp (fun x y => ip x y) q q * Matrix.of c := by
    intro Z q
    have hD : handlesIp (fun x y => ip x y) Z q = (handlesIp (fun x y => ip x y) q Z)ᴴ := by
      ext i j
      exact hsymm _ _
    rw [handlesIp_sub, handlesIp_combine, handlesIp_combine_left, handlesIp_combine_right, hD]
    rfl
  have hp := (handlesIp_posSemidef ip hsymm hnn (X - combine v (Matrix.of c))).add
    (handlesIp_posSemidef ip hsymm hnn (Y - combine v' (Matrix.of c)))
  rw [hleft, hleft, hright, hright, ← map_add, ← map_add, ← trace_add, ← trace_add, ← Matrix.add_mul,
    ← Matrix.mul_add, hl]
  rw [hexp, hexp, gram_add_residual] at hp ⊢
  exact approximation_bound h1 h2 h3 h4 (Matrix.of c) _ _ hp

theorem tlsEigendecomp_first {m : Nat} (eigh : Matrix (Fin m) (Fin m) 𝕜 → EighOut 𝕜 m)
    (argsort : (Fin m → ℝ) → Equiv.Perm (Fin m)) (eig : ∀ {r : Nat}, Matrix (Fin r) (Fin r) 𝕜 → EigOut 𝕜 r)
    (C C' K : Matrix (Fin m) (Fin m) 𝕜) (atol sumRtol projRtol : Option ℝ) (maxNum : Option Nat) (t : TlsDecomp 𝕜 m)
    (ht : tlsEigendecomp eigh argsort eig C C' K atol sumRtol projRtol maxNum = .ok t)
    (hr : ∀ t ∈ sumRtol, 0 ≤ t) (hs : IsArgsort argsort) (hC : C.PosSemidef) (hC' : C'.PosSemidef)
    (hlib : ∀ a, a.IsHermitian → IsEigh a (eigh a)) : FirstEigenvectors (C + C') t.sumV := by
  obtain ⟨⟨s, hs1, hs2⟩, -, -⟩ := tlsEigendecomp_ok _ _ _ _ _ _ _ _ _ _ _ ht
  obtain ⟨V, a, hle, h1, h2, h3, h4, h5, -⟩ := utilEigh_sorted _ _ _ _ _ _ (hC.add hC')
    (hlib _ (hC.add hC').isHermitian) hs hr s hs1
  have h : FirstEigenvectors (C + C') s.V := ⟨m, V, a, hle, h1, h2, h3, h4, h5⟩
  have := h.truncate maxNum
  rw [← hs2] at this
  exact this

/-! ### Snapshot method -/

theorem TlsOutcome.best {n m : Nat} {W : Matrix (Fin n) (Fin n) 𝕜} {X Y : Matrix (Fin n) (Fin m) 𝕜}
    {modeIndices : Option (List Int)} {res : TlsResult 𝕜 n m} (h : TlsOutcome (Xᴴ * W * Y) X Y modeIndices res)
    (hc : TlsCore (Xᴴ * W * X) (Yᴴ * W * Y) (Xᴴ * W * Y) res.decomp) (hW : W.PosSemidef)
    (hLR : Function.Injective res.decomp.d.eigvals → res.decomp.d.Lᴴ * res.decomp.d.R = 1) :
    ∃ exact proj, Chosen exact modeIndices res.exactModes ∧ Chosen proj modeIndices res.projModes ∧
      DmdBest W (X * res.decomp.proj) (Y * res.decomp.proj) res.decomp.d.eigvals exact proj res.projCoeffs
        res.advProjCoeffs := by
  have hcore := hc.core
  rw [← gram_proj, ← gram_proj] at hcore
  obtain ⟨r1, r2, r3⟩ := hc.range
  have h1 := h.exact
  have h2 := h.proj
  rw [hc.buildExact, ← r2, ← Matrix.mul_assoc] at h1
  rw [hc.buildProj, ← r1, ← Matrix.mul_assoc] at h2
  refine ⟨_, _, h1, h2, ?_⟩
  rw [h.projCoeffs, h.advProjCoeffs, ← gram_proj]
  exact hcore.best hW hLR

section Snaps

variable {n m : Nat} (lib : PodLib 𝕜 n m) (eig : ∀ {r : Nat}, Matrix (Fin r) (Fin r) 𝕜 → EigOut 𝕜 r)
  (modeIndices : Option (List Int)) (weights : Option (NdArray 𝕜)) (ws : Weights 𝕜)
  (a : ℝ) (rtol : Option ℝ) (maxNum : Option Nat)

/-- **C72** for the snapshot method and sequential data. -/
theorem C72_snaps_sequential (ha : 0 ≤ a) (hr : ∀ t ∈ rtol, 0 ≤ t) (hs : IsArgsort lib.argsort)
    (hws : arraysInit weights = .ok ws) (hfit : ws.Fits n) (hW : (ws.matrix n).PosSemidef)
    (hlib : ∀ C : Matrix (Fin m) (Fin m) 𝕜, C.IsHermitian → IsEigh C (lib.eigh C)) (Z : Matrix (Fin n) (Fin (m + 1)) 𝕜)
    (res : TlsResult 𝕜 n m) (c : TlsCorr 𝕜 m)
    (hres : tlsSnapsSeq lib eig Z modeIndices weights (some a) rtol maxNum = .ok (res, c))
    (heig : EigOfProjected eig ((seqFirst Z)ᴴ * ws.matrix n * seqNext Z) res.decomp) :
    TlsBest (ws.matrix n) (seqFirst Z) (seqNext Z) res.decomp.proj res.decomp.q ∧
    ∃ exact proj, Chosen exact modeIndices res.exactModes ∧ Chosen proj modeIndices res.projModes ∧
      DmdBest (ws.matrix n) (seqFirst Z * res.decomp.proj) (seqNext Z * res.decomp.proj) res.decomp.d.eigvals exact proj
        res.projCoeffs res.advProjCoeffs := by
  obtain ⟨rfl, hd, ho⟩ := tlsSnapsSeq_ok lib eig modeIndices weights ws _ rtol maxNum hws hfit Z res c hres
  obtain ⟨hc, hLR⟩ := tlsEigendecomp_core _ _ eig _ _ _ a rtol none maxNum _ hd ha hr (by simp) hs
    (gram_hermitian hW.isHermitian _) (gram_hermitian hW.isHermitian _) hlib heig
  exact ⟨(tlsEigendecomp_first _ _ eig _ _ _ _ _ _ _ _ hd hr hs (hW.conjTranspose_mul_mul_same _)
    (hW.conjTranspose_mul_mul_same _) hlib).best hW, ho.best hc hW hLR⟩

/-- **C72** for the snapshot method and pairs of vectors. -/
theorem C72_snaps_pairs (ha : 0 ≤ a) (hr : ∀ t ∈ rtol, 0 ≤ t) (hs : IsArgsort lib.argsort)
    (hws : arraysInit weights = .ok ws) (hfit : ws.Fits n) (hW : (ws.matrix n).PosSemidef)
    (hlib : ∀ C : Matrix (Fin m) (Fin m) 𝕜, C.IsHermitian → IsEigh C (lib.eigh C)) (X Y : Matrix (Fin n) (Fin m) 𝕜)
    (res : TlsResult 𝕜 n m) (c : TlsCorr 𝕜 m)
    (hres : tlsSnapsPairs lib eig X ⟨n, m, Y⟩ modeIndices weights (some a) rtol maxNum = .ok (res, c))
    (heig : EigOfProjected eig (Xᴴ * ws.matrix n * Y) res.decomp) :
    TlsBest (ws.matrix n) X Y res.decomp.proj res.decomp.q ∧
    ∃ exact proj, Chosen exact modeIndices res.exactModes ∧ Chosen proj modeIndices res.projModes ∧
      DmdBest (ws.matrix n) (X * res.decomp.proj) (Y * res.decomp.proj) res.decomp.d.eigvals exact proj
        res.projCoeffs res.advProjCoeffs := by
  obtain ⟨rfl, hd, ho⟩ := tlsSnapsPairs_ok lib eig modeIndices weights ws _ rtol maxNum hws hfit X Y res c hres
  obtain ⟨hc, hLR⟩ := tlsEigendecomp_core _ _ eig _ _ _ a rtol none maxNum _ hd ha hr (by simp) hs
    (gram_hermitian hW.isHermitian _) (gram_hermitian hW.isHermitian _) hlib heig
  exact ⟨(tlsEigendecomp_first _ _ eig _ _ _ _ _ _ _ _ hd hr hs (hW.conjTranspose_mul_mul_same _)
    (hW.conjTranspose_mul_mul_same _) hlib).best hW, ho.best hc hW hLR⟩

end Snaps

/-! ### Direct method -/

section Direct

variable {n m : Nat} (lib : PodLib 𝕜 n m) (eig : ∀ {r : Nat}, Matrix (Fin r) (Fin r) 𝕜 → EigOut 𝕜 r)
  (svd : Matrix (Fin (n + n)) (Fin m) 𝕜 → SvdOut 𝕜 (n + n) m)
  (modeIndices : Option (List Int)) (ws : DirectWeights 𝕜) (t : ℝ) (rtol : Option ℝ) (maxNum : Option Nat)

theorem tlsDirectRest_best (so : Option (Matrix (Fin n) (Fin n) 𝕜)) (hfit : ws.Fits n)
    (hchol : ∀ p q w, ws = .d2 p q w → IsCholesky lib.cholesky (ws.matrix n))
    (hso : directSqrtWeights lib.cholesky ws = .ok so) (ht : 0 ≤ t) (hr : ∀ t ∈ rtol, 0 ≤ t)
    (hlib : ∀ a, IsSvd a (lib.svd a)) (hlib' : ∀ a, IsSvd a (svd a)) (X Y : Matrix (Fin n) (Fin m) 𝕜) (res : TlsResult 𝕜 n m)
    (hres : tlsDirectRest lib eig svd so X Y modeIndices ws (some t) rtol maxNum = .ok res)
    (heig : EigOfProjected eig (Xᴴ * ws.matrix n * Y) res.decomp) :
    TlsBest (ws.matrix n) X Y res.decomp.proj res.decomp.q ∧
    ∃ exact proj, Chosen exact modeIndices res.exactModes ∧ Chosen proj modeIndices res.projModes ∧
      DmdBest (ws.matrix n) (X * res.decomp.proj) (Y * res.decomp.proj) res.decomp.d.eigvals exact proj
        res.projCoeffs res.advProjCoeffs := by
  have hW := directWeights_posSemidef ws hfit
  obtain ⟨h1, h2, h3, h4⟩ := tlsDirectRest_core lib eig svd modeIndices ws t rtol maxNum so hfit hchol hso ht hr hlib hlib'
    X Y res hres heig
  refine ⟨?_, h4.best h2 hW h3⟩
  obtain ⟨G, hG, hdata⟩ := directSqrtWeights_ok lib.cholesky ws hfit hchol so hso
  obtain ⟨⟨s, hs, hq, hV, hw⟩, -⟩ := tlsDirectRest_ok lib eig svd modeIndices ws rtol maxNum so _ X Y res hres
  rw [hdata, hdata] at hs
  have hf := (utilSvd_first (hlib' _) hr s hs).truncateSvd maxNum
  rw [stackRows_gram, show (G * X)ᴴ * (G * X) + (G * Y)ᴴ * (G * Y) = Xᴴ * (Gᴴ * G) * X + Yᴴ * (Gᴴ * G) * Y by
    simp only [conjTranspose_mul, Matrix.mul_assoc], hG] at hf
  have hb := hf.best hW
  clear h1 h2 h3 h4 hres heig
  obtain ⟨⟨q, sumW, sumV, d⟩, _, _, _, _, _, _⟩ := res
  dsimp only at hq hV ⊢
  subst hq
  cases hV
  exact hb

/-- **C72** for the direct method and sequential data. -/
theorem C72_direct_sequential (ht : 0 ≤ t) (hr : ∀ t ∈ rtol, 0 ≤ t) (hfit : ws.Fits n)
    (hchol : ∀ p q w, ws = .d2 p q w → IsCholesky lib.cholesky (ws.matrix n)) (hlib : ∀ a, IsSvd a (lib.svd a))
    (hlib' : ∀ a, IsSvd a (svd a)) (Z : Matrix (Fin n) (Fin (m + 1)) 𝕜) (res : TlsResult 𝕜 n m)
    (hres : tlsDirectSeq lib eig svd Z modeIndices ws (some t) rtol maxNum = .ok res)
    (heig : EigOfProjected eig ((seqFirst Z)ᴴ * ws.matrix n * seqNext Z) res.decomp) :
    TlsBest (ws.matrix n) (seqFirst Z) (seqNext Z) res.decomp.proj res.decomp.q ∧
    ∃ exact proj, Chosen exact modeIndices res.exactModes ∧ Chosen proj modeIndices res.projModes ∧
      DmdBest (ws.matrix n) (seqFirst Z * res.decomp.proj) (seqNext Z * res.decomp.proj) res.decomp.d.eigvals exact proj
        res.projCoeffs res.advProjCoeffs := by
  unfold tlsDirectSeq at hres
  split at hres
  · cases hres
  rename_i so hso
  exact tlsDirectRest_best lib eig svd modeIndices ws t rtol maxNum so hfit hchol hso ht hr hlib hlib' _ _ res hres heig

/-- **C72** for the direct method and pairs of vectors. -/
theorem C72_direct_pairs (ht : 0 ≤ t) (hr : ∀ t ∈ rtol, 0 ≤ t) (hfit : ws.Fits n)
    (hchol : ∀ p q w, ws = .d2 p q w → IsCholesky lib.cholesky (ws.matrix n)) (hlib : ∀ a, IsSvd a (lib.svd a))
    (hlib' : ∀ a, IsSvd a (svd a)) (X Y : Matrix (Fin n) (Fin m) 𝕜) (res : TlsResult 𝕜 n m)
    (hres : tlsDirectPairs lib eig svd X ⟨n, m, Y⟩ modeIndices ws (some t) rtol maxNum = .ok res)
    (heig : EigOfProjected eig (Xᴴ * ws.matrix n * Y) res.decomp) :
    TlsBest (ws.matrix n) X Y res.decomp.proj res.decomp.q ∧
    ∃ exact proj, Chosen exact modeIndices res.exactModes ∧ Chosen proj modeIndices res.projModes ∧
      DmdBest (ws.matrix n) (X * res.decomp.proj) (Y * res.decomp.proj) res.decomp.d.eigvals exact proj
        res.projCoeffs res.advProjCoeffs := by
  unfold tlsDirectPairs at hres
  split at hres
  · cases hres
  rename_i so hso
  simp only [and_self, dite_true] at hres
  exact tlsDirectRest_best lib eig svd modeIndices ws t rtol maxNum so hfit hchol hso ht hr hlib hlib' X Y res hres heig

end Direct

/-! ### Handles -/

section Handles

variable {E : Type*} [AddCommGroup E] [Module 𝕜 E] (lib : DmdLib 𝕜) (ip : E →ₗ⋆[𝕜] E →ₗ[𝕜] 𝕜) (g g' : TlsHandles 𝕜 E)
  (t : ℝ) (rtol : Option ℝ) (maxNum : Option Nat)

theorem tls_handles_best {m : Nat} {X Y : Fin m → E} {d : TlsDecomp 𝕜 m} (ht : 0 ≤ t) (hlib : lib.Lawful)
    (hsym : ∀ x y, ip y x = star (ip x y)) (hnn : ∀ x, 0 ≤ RCLike.re (ip x x))
    (hd : tlsEigendecomp lib.eigh lib.argsort lib.eig (gram ip X X) (gram ip Y Y) (gram ip X Y) (some t) none none maxNum = .ok d)
    (heig : EigOfProjected lib.eig (gram ip X Y) d) :
    TlsHandleBest ip X Y d.proj d.q ∧
    DmdHandleBest ip (combine X d.proj) (combine Y d.proj) d.d.eigvals (combine Y d.buildExact) (combine X d.buildProj)
      (d.d.Lᴴ * (diagPow (𝕜 := 𝕜) d.d.w 0.5 * d.d.Vᴴ))
      (d.d.Lᴴ * (diagPow (𝕜 := 𝕜) d.d.w (-0.5) *
        (d.d.Vᴴ * (d.sumV * (d.sumVᴴ * (gram ip X Y * (d.sumV * d.sumVᴴ))))))) := by
  obtain ⟨hc, hLR⟩ := tlsEigendecomp_core _ _ lib.eig _ _ _ t none none maxNum d hd ht (by simp) (by simp) hlib.argsort
    (gram_herm ip hsym X) (gram_herm ip hsym Y) hlib.eigh heig
  refine ⟨(tlsEigendecomp_first _ _ lib.eig _ _ _ _ _ _ _ _ hd (by simp) hlib.argsort
    (handlesIp_posSemidef ip hsym hnn X) (handlesIp_posSemidef ip hsym hnn Y) hlib.eigh).handleBest hsym hnn, ?_⟩
  have hcore := hc.core
  rw [← gram_proj_vecs, ← gram_proj_vecs] at hcore
  obtain ⟨r1, r2, r3⟩ := hc.range
  have e1 : combine Y d.buildExact = combine (combine Y d.proj) d.d.buildExact := by
    rw [hc.buildExact, combine_combine, r2]
  have e2 : combine X d.buildProj = combine (combine X d.proj) d.d.buildProj := by
    rw [hc.buildProj, combine_combine, r1]
  rw [e1, e2, TlsCore.advCoeffs, ← gram_proj_vecs]
  exact hcore.handleBest hsym hnn hLR

/-- **C72** for `TLSqrDMDHandles` and a sequence of vectors. -/
theorem C72_handles_sequential (ht : 0 ≤ t) (hlib : lib.Lawful) (hsym : ∀ x y, ip y x = star (ip x y))
    (hnn : ∀ x, 0 ≤ RCLike.re (ip x x)) (vecs : List E)
    (hrun : g.computeDecomp lib (fun x y => ip x y) vecs none (some t) rtol maxNum = (.ok (), g'))
    (d : TlsDecomp 𝕜 (vecs.length - 1)) (hd : g'.decomp = some ⟨vecs.length - 1, d⟩)
    (heig : EigOfProjected lib.eig (gram ip (seqVecs vecs) (seqAdvVecs vecs)) d) :
    TlsHandleBest ip (seqVecs vecs) (seqAdvVecs vecs) d.proj d.q ∧
    ∃ exact proj : Fin d.d.r → E,
      (∀ l num a out g'', (a = none ∧ g.adv = none ∨ a = some vecs.tail) →
        g'.computeExactModes l num a = (.ok out, g'') → ChosenVecs exact l out) ∧
      (∀ l num a out g'', (a = none ∨ a = some vecs) →
        g'.computeProjModes l num a = (.ok out, g'') → ChosenVecs proj l out) ∧
      ∃ c c', g'.computeProjCoeffs = .ok (⟨d.d.r, vecs.length - 1, c⟩, ⟨d.d.r, vecs.length - 1, c'⟩) ∧
        DmdHandleBest ip (combine (seqVecs vecs) d.proj) (combine (seqAdvVecs vecs) d.proj) d.d.eigvals exact proj c c' := by
  obtain ⟨d', hd', rfl⟩ := tlsComputeDecomp_seq lib _ g g' vecs (some t) rtol maxNum hrun
  cases hd
  have hm := tlsEigendecomp_pos lib maxNum hd'
  obtain ⟨h1, h2⟩ := tls_handles_best lib ip t maxNum ht hlib hsym hnn hd' heig
  exact ⟨h1, _, _, (tls_state_seq vecs _ g.adv d hm).1, (tls_state_seq vecs _ g.adv d hm).2.1, _, _,
    tlsComputeProjCoeffs_state _ _ _ _, h2⟩

/-- **C72** for `TLSqrDMDHandles` and pairs of vectors. -/
theorem C72_handles_pairs (ht : 0 ≤ t) (hlib : lib.Lawful) (hsym : ∀ x y, ip y x = star (ip x y))
    (hnn : ∀ x, 0 ≤ RCLike.re (ip x x)) (vecs adv : List E)
    (hrun : g.computeDecomp lib (fun x y => ip x y) vecs (some adv) (some t) rtol maxNum = (.ok (), g'))
    (d : TlsDecomp 𝕜 vecs.length) (hd : g'.decomp = some ⟨vecs.length, d⟩) (hlen : vecs.length = adv.length)
    (heig : EigOfProjected lib.eig (gram ip vecs.get (fun j => adv.get (Fin.cast hlen j))) d) :
    TlsHandleBest ip vecs.get (fun j => adv.get (Fin.cast hlen j)) d.proj d.q ∧
    ∃ exact proj : Fin d.d.r → E,
      (∀ l num a out g'', (a = none ∨ a = some adv) →
        g'.computeExactModes l num a = (.ok out, g'') → ChosenVecs exact l out) ∧
      (∀ l num a out g'', (a = none ∨ a = some vecs) →
        g'.computeProjModes l num a = (.ok out, g'') → ChosenVecs proj l out) ∧
      ∃ c c', g'.computeProjCoeffs = .ok (⟨d.d.r, vecs.length, c⟩, ⟨d.d.r, vecs.length, c'⟩) ∧
        DmdHandleBest ip (combine vecs.get d.proj) (combine (fun j => adv.get (Fin.cast hlen j)) d.proj) d.d.eigvals exact
          proj c c' := by
  obtain ⟨_, d', hd', rfl⟩ := tlsComputeDecomp_pairs lib _ g g' vecs adv (some t) rtol maxNum hrun
  cases hd
  obtain ⟨h1, h2⟩ := tls_handles_best lib ip t maxNum ht hlib hsym hnn hd' heig
  exact ⟨h1, _, _, (tls_state_pairs vecs adv hlen _ d).1, (tls_state_pairs vecs adv hlen _ d).2.1, _, _,
    tlsComputeProjCoeffs_state _ _ _ _, h2⟩

/-- Eigenvalues and eigenvectors of arrays with one row. -/
noncomputable def exampleSmallEig : ∀ {r : Nat}, Matrix (Fin r) (Fin r) ℝ → EigOut ℝ r := fun a => ⟨fun i => a i i, 1, 1⟩

theorem exampleSmallEig_isEig {r : Nat} (hr : r ≤ 1) (a : Matrix (Fin r) (Fin r) ℝ) : IsEig a (exampleSmallEig a) := by
  have hs : Subsingleton (Fin r) := ⟨fun i j => Fin.ext (by omega)⟩
  have ha : a = diagonal fun i => a i i := by
    ext i j
    obtain rfl := hs.elim i j
    rw [diagonal_apply_eq]
  refine ⟨?_, ?_, fun j h => ?_, fun j h => ?_⟩
  · simpa [exampleSmallEig] using ha
  · simpa [exampleSmallEig] using ha
  · simpa [exampleSmallEig] using congrFun h j
  · simpa [exampleSmallEig] using congrFun h j

/-- The sequence of three vectors on handles, truncated to one mode, with all assumptions met: no other pair of vectors
is better, with any coefficients. -/
example : ∃ (lib : DmdLib ℝ) (g' : TlsHandles ℝ (Fin 2 → ℝ)) (d : TlsDecomp ℝ 2),
    TlsHandles.new.computeDecomp lib (fun x y => dotIp x y) exampleVecs none (some (1 / 10)) none (some 1) = (.ok (), g') ∧
    g'.decomp = some ⟨2, d⟩ ∧ d.q = 1 ∧
    TlsHandleBest dotIp (seqVecs exampleVecs) (seqAdvVecs exampleVecs) d.proj d.q := by
  obtain ⟨lib, hlaw, heig⟩ := exists_dmdLib (𝕜 := ℝ) exampleSmallEig
  obtain ⟨g', d, hrun, hd, -⟩ := C31_handles_sequential_no_error lib TlsHandles.new (1 / 10) none (some 1)
    (fun x y => dotIp x y) exampleVecs (by simp [exampleVecs])
  obtain ⟨d', hd', hg⟩ := tlsComputeDecomp_seq lib _ TlsHandles.new g' exampleVecs (some (1 / 10)) none (some 1) hrun
  have hdd : g'.decomp = some ⟨2, d'⟩ := by rw [hg]; rfl
  obtain ⟨⟨s, hs1, hs2⟩, ⟨p, hp1, hp2⟩, -⟩ := tlsEigendecomp_ok _ _ _ _ _ _ _ _ _ _ _ hd'
  have hr1 : ∀ e : Eigh ℝ 2, (e.truncate (some 1)).r = min 1 e.r := by
    intro e
    change (if 1 < e.r then (⟨min 1 e.r, firstEntries e.w 1, firstCols e.V 1⟩ : Eigh ℝ 2) else e).r = _
    split
    · rfl
    · omega
  have hdr : d'.d.r ≤ 1 := by
    have := congrArg Eigh.r hp2
    rw [show d'.d.r = _ from this]
    exact (hr1 p).le.trans (min_le_left _ _)
  have hq : d'.q = 1 := by
    have hsum : (handlesIp (fun x y => dotIp x y) (seqVecs exampleVecs) (seqVecs exampleVecs) +
        handlesIp (fun x y => dotIp x y) (seqAdvVecs exampleVecs) (seqAdvVecs exampleVecs) -
        ((1 / 10 : ℝ) : ℝ) • (1 : Matrix (Fin (exampleVecs.length - 1)) (Fin (exampleVecs.length - 1)) ℝ)).PosDef := by
      have h1 : handlesIp (fun x y => dotIp x y) (seqVecs exampleVecs) (seqVecs exampleVecs) = _ := exampleVecs_corr
      have h2 : handlesIp (fun x y => dotIp x y) (seqAdvVecs exampleVecs) (seqAdvVecs exampleVecs) = _ := exampleVecs_adv
      have h3 := exampleSeq_sum (1 / 10) (by norm_num)
      rw [exampleSeq_corr] at h3
      rw [h1, h2]
      exact h3
    have h4 := (eigh_posDef lib.eigh lib.argsort hlaw.argsort _ (1 / 10) (by norm_num) hsum
      (hlaw.eigh _ ((gram_herm dotIp dotIp_symm _).add (gram_herm dotIp dotIp_symm _))) s hs1).1
    have h5 := congrArg Eigh.r hs2
    rw [show d'.q = _ from h5]
    have h6 : (s.truncate (some 1)).r = min 1 s.r := hr1 s
    have h7 : s.r = 2 := h4
    rw [h6, h7]
    rfl
  refine ⟨lib, g', d', hrun, hdd, hq, ?_⟩
  exact (C72_handles_sequential lib dotIp TlsHandles.new g' (1 / 10) none (some 1) (by norm_num) hlaw dotIp_symm
    (fun x => by rw [dotIp_apply]; exact add_nonneg (mul_self_nonneg (x 0)) (mul_self_nonneg (x 1))) exampleVecs hrun d' hdd
    (by unfold EigOfProjected; dsimp only; rw [heig]; exact exampleSmallEig_isEig hdr _)).1

end Handles

/-- The snapshot method, with all assumptions met: what is left of the data is advanced as well as can be. -/
example : ∃ (lib : PodLib ℝ 2 2) (res : TlsResult ℝ 2 2) (c : TlsCorr ℝ 2),
    tlsSnapsSeq lib exampleSeqEig exampleSeq none none (some (1 / 10)) none none = .ok (res, c) ∧
    TlsBest 1 (seqFirst exampleSeq) (seqNext exampleSeq) res.decomp.proj res.decomp.q ∧
    ∃ exact : Matrix (Fin 2) (Fin res.decomp.d.r) ℝ, Chosen exact none res.exactModes ∧ ∀ A : Matrix (Fin 2) (Fin 2) ℝ,
      weightedSq 1 (seqNext exampleSeq - exact * (diagonal res.decomp.d.eigvals * res.projCoeffs)) ≤
        weightedSq 1 (seqNext exampleSeq - A * seqFirst exampleSeq) := by
  obtain ⟨lib, res, c, heigh, hs, hres, hq, hproj, hd, heig⟩ := exampleSeq_tls
  obtain ⟨h1, exact, proj, he, -, hb⟩ := C72_snaps_sequential lib exampleSeqEig none none .none (1 / 10) none none
    (by norm_num) (by simp) hs rfl trivial PosSemidef.one heigh exampleSeq res c hres heig
  rw [hproj, Matrix.mul_one, Matrix.mul_one] at hb
  have hi : Function.Injective res.decomp.d.eigvals := by rw [hd]; exact exampleSeqDecomp_distinct.1
  have h2 := hb.full hi (by rw [hd]; exact exampleSeqDecomp_distinct.2)
  rw [hb.data hi (by rw [exampleSeq_first, rank_one, hd]; rfl)] at h2
  exact ⟨lib, res, c, hres, h1, exact, he, h2⟩

end Modred
