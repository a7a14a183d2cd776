import Verif.Props.MethodsTls
import Verif.Props.MethodsHandles
import Verif.Props.TlsqrHandles

/-!
# Total-least-squares dynamic mode decomposition: handles and arrays give the same results (C101)
-/

namespace Modred

open Matrix

variable {𝕜 : Type*} [RCLike 𝕜] {n m : Nat}

/-- What the methods of an object of the class `TLSqrDMDHandles` return, and what a function for arrays returns. -/
structure TlsAgrees (g : TlsHandles 𝕜 (Fin n → 𝕜)) (idx : List Int) (res : TlsResult 𝕜 n m) (c : TlsCorr 𝕜 m) : Prop where
  arrays : g.arrays = some ⟨m, c⟩
  decomp : g.decomp = some ⟨m, res.decomp⟩
  exact : (g.computeExactModes idx idx.length none).1 = .ok ⟨res.exactModes.k, columnVecs res.exactModes.a⟩
  proj : (g.computeProjModes idx idx.length none).1 = .ok ⟨res.projModes.k, columnVecs res.projModes.a⟩
  adjoint : (g.computeAdjointModes idx idx.length none).1 = .ok ⟨res.adjointModes.k, columnVecs res.adjointModes.a⟩
  spectrum : (∀ x : 𝕜, star x = x) → g.computeSpectrum = .ok res.spectralCoeffs
  coeffs : g.computeProjCoeffs = .ok (⟨_, _, res.projCoeffs⟩, ⟨_, _, res.advProjCoeffs⟩)

theorem tlsFinish_parts {t : TlsDecomp 𝕜 m} {cross : Matrix (Fin m) (Fin m) 𝕜} {X Y : Matrix (Fin n) (Fin m) 𝕜}
    {idx : Option (List Int)} {res : TlsResult 𝕜 n m} (hres : tlsFinish t cross X Y idx = .ok res) :
    ∃ (h : 0 < m) (c1 c2 c3 : Cols 𝕜 n),
      linCombineArrays Y t.buildExact idx = .ok c1 ∧ linCombineArrays X t.buildProj idx = .ok c2 ∧
      linCombineArrays X t.buildAdjoint idx = .ok c3 ∧
      res = ⟨t, tlsSpectralCoeffs t.d.w t.d.V t.d.L ⟨0, h⟩, c1, c2, c3, t.d.Lᴴ * (diagPow (𝕜 := 𝕜) t.d.w 0.5 * t.d.Vᴴ),
        t.d.Lᴴ * (diagPow (𝕜 := 𝕜) t.d.w (-0.5) * (t.d.Vᴴ * (t.sumV * (t.sumVᴴ * (cross * (t.sumV * t.sumVᴴ))))))⟩ := by
  unfold tlsFinish at hres
  dsimp only at hres
  split at hres
  · split at hres
    · cases hres
    rename_i h _ c1 h1
    split at hres
    · cases hres
    rename_i c2 h2
    split at hres
    · cases hres
    rename_i c3 h3
    cases hres
    exact ⟨h, c1, c2, c3, by rw [TlsDecomp.buildExact_eq]; exact h1, h2, h3, rfl⟩
  · cases hres

theorem tls_agrees {g : TlsHandles 𝕜 (Fin n → 𝕜)} {idx : List Int} {t : TlsDecomp 𝕜 m} {res : TlsResult 𝕜 n m} {c : TlsCorr 𝕜 m}
    {X Y : Matrix (Fin n) (Fin m) 𝕜} (hres : tlsFinish t c.cross X Y (some idx) = .ok res) (harr : g.arrays = some ⟨m, c⟩)
    (hdec : g.decomp = some ⟨m, t⟩)
    (hexact : ∀ build : Matrix (Fin m) (Fin t.d.r) 𝕜,
      exactModesFrom g.vecs g.adv build idx idx.length = linCombineSized idx.length (columnVecs Y) build (some idx))
    (hspan : ∀ build : Matrix (Fin m) (Fin t.d.r) 𝕜,
      spanModesFrom g.vecs build idx idx.length = linCombineSized idx.length (columnVecs X) build (some idx)) :
    TlsAgrees g idx res c := by
  obtain ⟨hm, c1, c2, c3, h1, h2, h3, rfl⟩ := tlsFinish_parts hres
  refine ⟨harr, hdec, ?_, ?_, ?_, fun hreal => ?_, ?_⟩
  · unfold TlsHandles.computeExactModes
    simp only [Option.isSome_none, Bool.false_eq_true, if_false]
    rw [hdec]
    dsimp only
    rw [hexact]
    exact linCombineSized_columns _ _ _ _ hm h1
  · unfold TlsHandles.computeProjModes
    simp only [Option.isSome_none, Bool.false_eq_true, if_false]
    rw [hdec]
    dsimp only
    rw [hspan]
    exact linCombineSized_columns _ _ _ _ hm h2
  · unfold TlsHandles.computeAdjointModes
    simp only [Option.isSome_none, Bool.false_eq_true, if_false]
    rw [hdec]
    dsimp only
    rw [hspan]
    exact linCombineSized_columns _ _ _ _ hm h3
  · unfold TlsHandles.computeSpectrum
    rw [hdec]
    dsimp only
    rw [dif_pos hm]
    refine congrArg (fun v : Fin t.d.r → 𝕜 => Except.ok (NdArray.squeeze ⟨[t.d.r], fun i => if hi : i < t.d.r then
      ‖(t.d.Lᴴ *ᵥ v) ⟨i, hi⟩‖ else 0⟩)) ?_
    rw [dmd_spectrum]
    congr 1
    ext j
    exact hreal _
  · unfold TlsHandles.computeProjCoeffs
    rw [hdec, harr]
    dsimp only
    rw [dif_pos rfl]
    rfl

section Tls

variable (lib : DmdLib 𝕜) (svd : ∀ {n m : Nat}, Matrix (Fin n) (Fin m) 𝕜 → SvdOut 𝕜 n m)
  (cholesky : ∀ {n : Nat}, Matrix (Fin n) (Fin n) 𝕜 → Option (Matrix (Fin n) (Fin n) 𝕜))

/-- **C101.** The class `TLSqrDMDHandles` with the columns of two arrays computes what the snapshot method computes: without a
relative tolerance, which the class ignores, and except for the spectral coefficients of complex data (C30). -/
theorem C101_tls_handles_pairs_partial (X Y : List (Fin n → 𝕜)) (hXY : X.length = Y.length) (idx : List Int) (weights : Option (NdArray 𝕜))
    (ws : Weights 𝕜) (atol : Option ℝ) (maxNum : Option Nat) (hws : arraysInit weights = .ok ws) (hfit : ws.Fits n)
    (res : TlsResult 𝕜 n X.length) (c : TlsCorr 𝕜 X.length)
    (hres : tlsSnapsPairs (lib.pod svd cholesky) lib.eig (Matrix.of fun i j => X.get j i)
      ⟨n, X.length, Matrix.of fun i j => Y.get (Fin.cast hXY j) i⟩ (some idx) weights atol none maxNum = .ok (res, c)) :
    ∃ g, TlsHandles.new.computeDecomp lib (weightedProduct (ws.matrix n)) X (some Y) atol none maxNum = (.ok (), g) ∧
      TlsAgrees g idx res c := by
  unfold tlsSnapsPairs at hres
  rw [hws] at hres
  simp only [and_self, dite_true] at hres
  unfold symmIpArray at hres
  rw [C45_formula ws hfit] at hres
  dsimp only at hres
  rw [C45_formula ws hfit] at hres
  dsimp only at hres
  rw [C45_formula ws hfit] at hres
  dsimp only at hres
  unfold tlsSnapsRest at hres
  split at hres
  · cases hres
  rename_i t hd
  split at hres
  · cases hres
  rename_i res' hr
  cases hres
  obtain ⟨hm, -⟩ := tlsFinish_parts hr
  have hne : X ≠ [] := fun h => by
    rw [h] at hm
    exact Nat.lt_irrefl 0 hm
  have harr : tlsArraysPairs (weightedProduct (ws.matrix n)) X Y hXY = ⟨X.length, ⟨_, _, _⟩⟩ :=
    congrArg (TlsArrays.mk X.length) (congr (congrArg₂ TlsCorr.mk
      (handlesIp_columns (ws.matrix n) (Matrix.of fun i j => X.get j i) (Matrix.of fun i j => X.get j i))
      (handlesIp_columns (ws.matrix n) (Matrix.of fun i j => Y.get (Fin.cast hXY j) i) (Matrix.of fun i j => Y.get (Fin.cast hXY j) i)))
      (handlesIp_columns (ws.matrix n) (Matrix.of fun i j => X.get j i) (Matrix.of fun i j => Y.get (Fin.cast hXY j) i)))
  unfold TlsHandles.computeDecomp
  dsimp only
  rw [dif_pos hXY, if_neg hne, harr]
  unfold TlsHandles.computeEigendecomp
  dsimp only
  erw [hd]
  refine ⟨_, rfl, tls_agrees hr rfl rfl (fun build => ?_) fun build => ?_⟩
  · unfold exactModesFrom
    exact (linCombineSized_cast _ Y.get hXY build _).symm
  · unfold spanModesFrom
    dsimp only
    rw [if_neg (by omega), if_pos rfl]
    rfl

/-- **C101.** The same for a sequence of vectors. -/
theorem C101_tls_handles_sequential_partial (Z : List (Fin n → 𝕜)) (idx : List Int) (weights : Option (NdArray 𝕜))
    (ws : Weights 𝕜) (atol : Option ℝ) (maxNum : Option Nat) (hws : arraysInit weights = .ok ws) (hfit : ws.Fits n)
    (hlen : Z.length - 1 + 1 = Z.length) (res : TlsResult 𝕜 n (Z.length - 1)) (c : TlsCorr 𝕜 (Z.length - 1))
    (hres : tlsSnapsSeq (lib.pod svd cholesky) lib.eig (Matrix.of fun i j => Z.get (Fin.cast hlen j) i) (some idx) weights atol none
      maxNum = .ok (res, c)) :
    ∃ g, TlsHandles.new.computeDecomp lib (weightedProduct (ws.matrix n)) Z none atol none maxNum = (.ok (), g) ∧
      TlsAgrees g idx res c := by
  unfold tlsSnapsSeq at hres
  rw [hws] at hres
  dsimp only at hres
  unfold symmIpArray at hres
  rw [C45_formula ws hfit] at hres
  dsimp only at hres
  unfold tlsSnapsRest at hres
  split at hres
  · cases hres
  rename_i t hd
  split at hres
  · cases hres
  rename_i res' hr
  cases hres
  have hZ : Z ≠ [] := fun h => by
    rw [h] at hlen
    cases hlen
  have harr : tlsArraysSeq (weightedProduct (ws.matrix n)) Z = ⟨Z.length - 1,
      ⟨((Matrix.of fun i j => Z.get (Fin.cast hlen j) i)ᴴ * ws.matrix n *
        (Matrix.of fun i j => Z.get (Fin.cast hlen j) i)).submatrix Fin.castSucc Fin.castSucc,
      ((Matrix.of fun i j => Z.get (Fin.cast hlen j) i)ᴴ * ws.matrix n *
        (Matrix.of fun i j => Z.get (Fin.cast hlen j) i)).submatrix Fin.succ Fin.succ,
      ((Matrix.of fun i j => Z.get (Fin.cast hlen j) i)ᴴ * ws.matrix n *
        (Matrix.of fun i j => Z.get (Fin.cast hlen j) i)).submatrix Fin.castSucc Fin.succ⟩⟩ := by
    have := handlesIp_columns (ws.matrix n) (Matrix.of fun i j => Z.get (Fin.cast hlen j) i) (Matrix.of fun i j => Z.get (Fin.cast hlen j) i)
    exact congrArg (TlsArrays.mk (Z.length - 1)) (congr (congrArg₂ TlsCorr.mk (congrArg (fun M => M.submatrix Fin.castSucc Fin.castSucc) this)
      (congrArg (fun M => M.submatrix Fin.succ Fin.succ) this)) (congrArg (fun M => M.submatrix Fin.castSucc Fin.succ) this))
  unfold TlsHandles.computeDecomp
  dsimp only
  rw [if_neg hZ, harr]
  unfold TlsHandles.computeEigendecomp
  dsimp only
  erw [hd]
  refine ⟨_, rfl, tls_agrees hr rfl rfl (fun build => ?_) fun build => ?_⟩
  · unfold exactModesFrom
    change (if Z.length = Z.length - 1 + 1 then _ else _) = _
    rw [if_pos hlen.symm, ← linCombineSized_cast idx.length Z.tail.get (p' := Z.length - 1) (by simp) build]
    congr 1
    ext i j
    simp [columnVecs]
  · unfold spanModesFrom
    dsimp only
    rw [if_pos hlen.symm, ← linCombineSized_cast idx.length Z.dropLast.get (p' := Z.length - 1) (by simp) build]
    congr 1
    ext i j
    simp [columnVecs]

end Tls

/-! ### Example -/

theorem tlsSnapsSeq_eq (lib : PodLib 𝕜 n m) (eig : ∀ {r : Nat}, Matrix (Fin r) (Fin r) 𝕜 → EigOut 𝕜 r) (idx : Option (List Int))
    (weights : Option (NdArray 𝕜)) (ws : Weights 𝕜) (atol rtol : Option ℝ) (maxNum : Option Nat) (hws : arraysInit weights = .ok ws)
    (hfit : ws.Fits n) (Z : Matrix (Fin n) (Fin (m + 1)) 𝕜) :
    tlsSnapsSeq lib eig Z idx weights atol rtol maxNum =
      tlsSnapsRest lib eig ⟨(seqFirst Z)ᴴ * ws.matrix n * seqFirst Z, (seqNext Z)ᴴ * ws.matrix n * seqNext Z,
        (seqFirst Z)ᴴ * ws.matrix n * seqNext Z⟩ (seqFirst Z) (seqNext Z) idx atol rtol maxNum := by
  unfold tlsSnapsSeq symmIpArray
  rw [hws]
  dsimp only
  rw [C45_formula ws hfit]
  rfl

/-- Chosen modes of the sequence that a map with eigenvalues 1 and 2 generates. -/
example : ∃ (lib : DmdLib ℝ) (g : TlsHandles ℝ (Fin 2 → ℝ)) (res : TlsResult ℝ 2 2) (c : TlsCorr ℝ 2),
    TlsHandles.new.computeDecomp lib (weightedProduct 1) exampleVecs none (some (1 / 10)) none none = (.ok (), g) ∧
    res.decomp.d = exampleSeqDecomp ∧ TlsAgrees g [1, -2] res c ∧ g.computeSpectrum = .ok res.spectralCoeffs := by
  classical
  obtain ⟨lib, hlaw, heig, hu⟩ := exists_exampleDmdLib
  obtain ⟨svd, -⟩ : ∃ svd : ∀ {n m : Nat}, Matrix (Fin n) (Fin m) ℝ → SvdOut ℝ n m, True :=
    ⟨fun {_ _} a => (exists_isSvd a).choose, trivial⟩
  have hZ : (Matrix.of fun i j => exampleVecs.get (Fin.cast rfl j) i : Matrix (Fin 2) (Fin 3) ℝ) = exampleSeq := by
    ext i j
    fin_cases i <;> fin_cases j <;> simp [exampleVecs, exampleSeq]
  have hres : ∃ res c, tlsSnapsSeq (lib.pod svd fun _ => none) lib.eig exampleSeq (some [1, -2]) none (some (1 / 10)) none none =
      .ok (res, c) ∧ res.decomp.d = exampleSeqDecomp := by
    obtain ⟨t, ht⟩ := tlsEigendecomp_all lib.eig (1 / 10) none (by norm_num : 0 < 2) lib.eigh lib.argsort
      ((seqFirst exampleSeq)ᴴ * 1 * seqFirst exampleSeq) ((seqNext exampleSeq)ᴴ * 1 * seqNext exampleSeq)
      ((seqFirst exampleSeq)ᴴ * 1 * seqNext exampleSeq) none none
    obtain ⟨-, hd, -⟩ := exampleVecs_tls lib hlaw heig hu t _ _ _ exampleSeq_corr rfl exampleSeq_cross ht
    have hfin : ∃ res, tlsFinish t ((seqFirst exampleSeq)ᴴ * 1 * seqNext exampleSeq) (seqFirst exampleSeq) (seqNext exampleSeq)
        (some [1, -2]) = .ok res ∧ res.decomp = t := by
      obtain ⟨q, sumW, sumV, d⟩ := t
      dsimp only at hd
      subst hd
      exact ⟨_, rfl, rfl⟩
    obtain ⟨res, hr, hrt⟩ := hfin
    refine ⟨res, ⟨(seqFirst exampleSeq)ᴴ * 1 * seqFirst exampleSeq, (seqNext exampleSeq)ᴴ * 1 * seqNext exampleSeq,
      (seqFirst exampleSeq)ᴴ * 1 * seqNext exampleSeq⟩, ?_, by rw [hrt]; exact hd⟩
    rw [tlsSnapsSeq_eq _ _ (some [1, -2]) none .none _ _ _ rfl trivial]
    change tlsSnapsRest _ _ ⟨_ * 1 * _, _ * 1 * _, _ * 1 * _⟩ _ _ _ _ _ _ = _
    unfold tlsSnapsRest
    dsimp only
    erw [ht]
    dsimp only
    rw [hr]
  obtain ⟨res, c, hres, hd⟩ := hres
  rw [← hZ] at hres
  obtain ⟨g, hg, h⟩ := C101_tls_handles_sequential_partial lib svd (fun _ => none) exampleVecs [1, -2] none .none _ none rfl trivial rfl
    res c hres
  exact ⟨lib, g, res, c, hg, hd, h, h.spectrum fun _ => star_trivial _⟩

end Modred
