import Verif.Model.DmdHandles

/-!
# Total-least-squares dynamic mode decomposition (`modred/dmd.py` lines 1112-2187)

As in `Verif.Model.Dmd`, the checks for parallel execution and the methods that put and get arrays are not modelled,
and eigenvalues zero have the inverse zero.  If one of the decompositions on handles raises an error, the object
keeps the decompositions it had; in the code the attributes assigned before the error have changed.
-/

namespace Modred

open Matrix

variable {𝕜 : Type*} [RCLike 𝕜]

/-- Eigenvalues and eigenvectors of the sum correlation array, those of the projected correlation array, and those
of the approximating linear map. -/
structure TlsDecomp (𝕜 : Type*) (m : Nat) where
  q : Nat
  sumW : Fin q → ℝ
  sumV : Matrix (Fin m) (Fin q) 𝕜
  d : DmdDecomp 𝕜 m

/-- The projected correlation array (`modred/dmd.py` lines 1279-1283 and 1779-1783). -/
def tlsProjCorr {m q : Nat} (sumV : Matrix (Fin m) (Fin q) 𝕜) (corr : Matrix (Fin m) (Fin m) 𝕜) :
    Matrix (Fin m) (Fin m) 𝕜 :=
  sumV * (sumVᴴ * (corr * (sumV * sumVᴴ)))

/-- The approximating linear map (`modred/dmd.py` lines 1296-1307 and 1797-1809). -/
def tlsLowOrderMap {m q r : Nat} (sqrtInv : Matrix (Fin r) (Fin r) 𝕜) (V : Matrix (Fin m) (Fin r) 𝕜)
    (sumV : Matrix (Fin m) (Fin q) 𝕜) (cross : Matrix (Fin m) (Fin m) 𝕜) : Matrix (Fin r) (Fin r) 𝕜 :=
  sqrtInv * (Vᴴ * (sumV * (sumVᴴ * (cross * (sumV * (sumVᴴ * (V * sqrtInv)))))))

/-- All eigendecompositions (`modred/dmd.py` lines 1263-1311 and 1761-1814); `sumRtol` and `projRtol` are the relative
tolerances of the two calls of `util.eigh`. -/
noncomputable def tlsEigendecomp {m : Nat} (eigh : Matrix (Fin m) (Fin m) 𝕜 → EighOut 𝕜 m)
    (argsort : (Fin m → ℝ) → Equiv.Perm (Fin m)) (eig : ∀ {r : Nat}, Matrix (Fin r) (Fin r) 𝕜 → EigOut 𝕜 r)
    (corr adv cross : Matrix (Fin m) (Fin m) 𝕜) (atol sumRtol projRtol : Option ℝ) (maxNum : Option Nat) :
    Except Err (TlsDecomp 𝕜 m) :=
  match utilEigh eigh argsort (corr + adv) atol sumRtol true with
  | .error e => .error e
  | .ok s =>
    let s := s.truncate maxNum
    match utilEigh eigh argsort (tlsProjCorr s.V corr) atol projRtol true with
    | .error e => .error e
    | .ok p =>
      let p := p.truncate maxNum
      match eigBiorthog eig (tlsLowOrderMap (diagPow (𝕜 := 𝕜) p.w (-0.5)) p.V s.V cross) scaleLeft with
      | .error e => .error e
      | .ok (eigvals, R, L) => .ok ⟨s.r, s.w, s.V, ⟨p.r, p.w, p.V, eigvals, R, L⟩⟩

/-- The named tuple that is returned. -/
structure TlsResult (𝕜 : Type*) (n m : Nat) where
  decomp : TlsDecomp 𝕜 m
  spectralCoeffs : NdArray ℝ
  exactModes : Cols 𝕜 n
  projModes : Cols 𝕜 n
  adjointModes : Cols 𝕜 n
  projCoeffs : Matrix (Fin decomp.d.r) (Fin m) 𝕜
  advProjCoeffs : Matrix (Fin decomp.d.r) (Fin m) 𝕜

/-- The correlation arrays that are returned. -/
structure TlsCorr (𝕜 : Type*) (m : Nat) where
  corr : Matrix (Fin m) (Fin m) 𝕜
  adv : Matrix (Fin m) (Fin m) 𝕜
  cross : Matrix (Fin m) (Fin m) 𝕜

/-- Spectral coefficients of the snapshot method (`modred/dmd.py` lines 1327-1330): the row of eigenvectors is not
conjugated. -/
noncomputable def tlsSpectralCoeffs {m r : Nat} (w : Fin r → ℝ) (V : Matrix (Fin m) (Fin r) 𝕜)
    (L : Matrix (Fin r) (Fin r) 𝕜) (first : Fin m) : NdArray ℝ :=
  NdArray.squeeze ⟨[r], fun i => if h : i < r then
    ‖(Lᴴ *ᵥ (diagPow (𝕜 := 𝕜) w 0.5 *ᵥ fun j => V first j)) ⟨i, h⟩‖ else 0⟩

/-- The end of the snapshot method (`modred/dmd.py` lines 1314-1372): build coefficients, coefficients and modes. -/
noncomputable def tlsFinish {n m : Nat} (t : TlsDecomp 𝕜 m) (cross : Matrix (Fin m) (Fin m) 𝕜)
    (vecs advVecs : Matrix (Fin n) (Fin m) 𝕜) (modeIndices : Option (List Int)) : Except Err (TlsResult 𝕜 n m) :=
  let buildProj := t.sumV * (t.sumVᴴ * (t.d.V * (diagPow (𝕜 := 𝕜) t.d.w (-0.5) * t.d.R)))
  let buildExact := buildProj * diagonal fun i => (t.d.eigvals i)⁻¹
  let buildAdjoint := t.sumV * (t.sumVᴴ * (t.d.V * (diagPow (𝕜 := 𝕜) t.d.w (-0.5) * t.d.L)))
  if h : 0 < m then
    let spectral := tlsSpectralCoeffs t.d.w t.d.V t.d.L ⟨0, h⟩
    let projCoeffs := t.d.Lᴴ * (diagPow (𝕜 := 𝕜) t.d.w 0.5 * t.d.Vᴴ)
    let advProjCoeffs := t.d.Lᴴ * (diagPow (𝕜 := 𝕜) t.d.w (-0.5) *
      (t.d.Vᴴ * (t.sumV * (t.sumVᴴ * (cross * (t.sumV * t.sumVᴴ))))))
    match linCombineArrays advVecs buildExact modeIndices with
    | .error e => .error e
    | .ok exactModes =>
      match linCombineArrays vecs buildProj modeIndices with
      | .error e => .error e
      | .ok projModes =>
        match linCombineArrays vecs buildAdjoint modeIndices with
        | .error e => .error e
        | .ok adjointModes => .ok ⟨t, spectral, exactModes, projModes, adjointModes, projCoeffs, advProjCoeffs⟩
  else .error .indexError

section Arrays

variable {n m : Nat} (lib : PodLib 𝕜 n m) (eig : ∀ {r : Nat}, Matrix (Fin r) (Fin r) 𝕜 → EigOut 𝕜 r)

/-- `compute_TLSqrDMD_arrays_snaps_method` after the correlation arrays (`modred/dmd.py` lines 1263-1372): the second
eigendecomposition ignores the relative tolerance. -/
noncomputable def tlsSnapsRest (c : TlsCorr 𝕜 m) (vecs advVecs : Matrix (Fin n) (Fin m) 𝕜)
    (modeIndices : Option (List Int)) (atol rtol : Option ℝ) (maxNum : Option Nat) :
    Except Err (TlsResult 𝕜 n m × TlsCorr 𝕜 m) :=
  match tlsEigendecomp lib.eigh lib.argsort eig c.corr c.adv c.cross atol rtol none maxNum with
  | .error e => .error e
  | .ok t =>
    match tlsFinish t c.cross vecs advVecs modeIndices with
    | .error e => .error e
    | .ok res => .ok (res, c)

/-- `compute_TLSqrDMD_arrays_snaps_method` for a sequence of vectors (`modred/dmd.py` lines 1231-1250 and
1263-1395). -/
noncomputable def tlsSnapsSeq (vecs : Matrix (Fin n) (Fin (m + 1)) 𝕜) (modeIndices : Option (List Int))
    (weights : Option (NdArray 𝕜)) (atol rtol : Option ℝ) (maxNum : Option Nat) :
    Except Err (TlsResult 𝕜 n m × TlsCorr 𝕜 m) :=
  match arraysInit weights with
  | .error e => .error e
  | .ok vecSpace =>
    match symmIpArray vecSpace vecs with
    | .error e => .error e
    | .ok expanded =>
      tlsSnapsRest lib eig ⟨expanded.submatrix Fin.castSucc Fin.castSucc, expanded.submatrix Fin.succ Fin.succ,
        expanded.submatrix Fin.castSucc Fin.succ⟩ (vecs.submatrix id Fin.castSucc) (vecs.submatrix id Fin.succ)
        modeIndices atol rtol maxNum

/-- `compute_TLSqrDMD_arrays_snaps_method` with advanced vectors (`modred/dmd.py` lines 1231-1240 and 1251-1395). -/
noncomputable def tlsSnapsPairs (vecs : Matrix (Fin n) (Fin m) 𝕜) (advVecs : Arr 𝕜)
    (modeIndices : Option (List Int)) (weights : Option (NdArray 𝕜)) (atol rtol : Option ℝ) (maxNum : Option Nat) :
    Except Err (TlsResult 𝕜 n m × TlsCorr 𝕜 m) :=
  match arraysInit weights with
  | .error e => .error e
  | .ok vecSpace =>
    if h : advVecs.m = n ∧ advVecs.n = m then
      let advVecs := advVecs.a.submatrix (Fin.cast h.1.symm) (Fin.cast h.2.symm)
      match symmIpArray vecSpace vecs with
      | .error e => .error e
      | .ok corr =>
        match ipArray vecSpace vecs advVecs with
        | .error e => .error e
        | .ok cross =>
          match symmIpArray vecSpace advVecs with
          | .error e => .error e
          | .ok adv => tlsSnapsRest lib eig ⟨corr, adv, cross⟩ vecs advVecs modeIndices atol rtol maxNum
    else .error .valueError

/-- `np.vstack`. -/
def stackRows {p q r : Nat} (a : Matrix (Fin p) (Fin r) 𝕜) (b : Matrix (Fin q) (Fin r) 𝕜) : Matrix (Fin (p + q)) (Fin r) 𝕜 :=
  Matrix.of fun i j => Fin.addCases (fun i => a i j) (fun i => b i j) i

variable (svd : Matrix (Fin (n + n)) (Fin m) 𝕜 → SvdOut 𝕜 (n + n) m)

/-- `compute_TLSqrDMD_arrays_direct_method` for vectors and advanced vectors (`modred/dmd.py` lines 1530-1610); a
sequence is cut into these.  `svd` is `numpy.linalg.svd` for the stacked data. -/
noncomputable def tlsDirectRest (sqrtWeights : Option (Matrix (Fin n) (Fin n) 𝕜)) (vecs advVecs : Matrix (Fin n) (Fin m) 𝕜)
    (modeIndices : Option (List Int)) (weights : DirectWeights 𝕜) (atol rtol : Option ℝ) (maxNum : Option Nat) :
    Except Err (TlsResult 𝕜 n m) :=
  match utilSvd svd (stackRows (weightData sqrtWeights vecs) (weightData sqrtWeights advVecs)) atol rtol with
  | .error e => .error e
  | .ok s =>
    let s := s.truncate maxNum
    let vecsProj := vecs * (s.V * s.Vᴴ)
    let advVecsProj := advVecs * (s.V * s.Vᴴ)
    match dmdDirectPairs lib eig vecsProj ⟨n, m, advVecsProj⟩ modeIndices weights atol rtol maxNum with
    | .error e => .error e
    | .ok res => .ok ⟨⟨s.r, fun i => s.S i ^ (2 : ℝ), s.V, res.decomp⟩, res.spectralCoeffs, res.exactModes, res.projModes,
        res.adjointModes, res.projCoeffs, res.advProjCoeffs⟩

/-- `compute_TLSqrDMD_arrays_direct_method` for a sequence of vectors (`modred/dmd.py` lines 1506-1550 and
1576-1610). -/
noncomputable def tlsDirectSeq (vecs : Matrix (Fin n) (Fin (m + 1)) 𝕜) (modeIndices : Option (List Int))
    (weights : DirectWeights 𝕜) (atol rtol : Option ℝ) (maxNum : Option Nat) : Except Err (TlsResult 𝕜 n m) :=
  match directSqrtWeights lib.cholesky weights with
  | .error e => .error e
  | .ok sqrtWeights =>
    tlsDirectRest lib eig svd sqrtWeights (vecs.submatrix id Fin.castSucc) (vecs.submatrix id Fin.succ) modeIndices
      weights atol rtol maxNum

/-- `compute_TLSqrDMD_arrays_direct_method` with advanced vectors (`modred/dmd.py` lines 1506-1530 and 1551-1610). -/
noncomputable def tlsDirectPairs (vecs : Matrix (Fin n) (Fin m) 𝕜) (advVecs : Arr 𝕜) (modeIndices : Option (List Int))
    (weights : DirectWeights 𝕜) (atol rtol : Option ℝ) (maxNum : Option Nat) : Except Err (TlsResult 𝕜 n m) :=
  match directSqrtWeights lib.cholesky weights with
  | .error e => .error e
  | .ok sqrtWeights =>
    if h : advVecs.m = n ∧ advVecs.n = m then
      tlsDirectRest lib eig svd sqrtWeights vecs (advVecs.a.submatrix (Fin.cast h.1.symm) (Fin.cast h.2.symm)) modeIndices
        weights atol rtol maxNum
    else .error .valueError

end Arrays

/-! ### On handles -/

/-- The correlation arrays of an object. -/
structure TlsArrays (𝕜 : Type*) where
  m : Nat
  c : TlsCorr 𝕜 m

/-- A decomposition whose number of rows depends on the data. -/
structure TlsSized (𝕜 : Type*) where
  m : Nat
  t : TlsDecomp 𝕜 m

/-- Attributes of an object of the class `TLSqrDMDHandles`. -/
structure TlsHandles (𝕜 : Type*) (E : Type*) where
  vecs : Option (List E)
  adv : Option (List E)
  arrays : Option (TlsArrays 𝕜)
  decomp : Option (TlsSized 𝕜)

variable {E : Type*}

/-- The constructor (`modred/dmd.py` lines 1665-1691). -/
def TlsHandles.new : TlsHandles 𝕜 E := ⟨none, none, none, none⟩

/-- The correlation arrays of a sequence of vectors (`modred/dmd.py` lines 1889-1896). -/
def tlsArraysSeq (ip : E → E → 𝕜) (vecs : List E) : TlsArrays 𝕜 :=
  let expanded := handlesSymmIp ip vecs.get
  ⟨vecs.length - 1, Matrix.of fun i j => expanded ⟨i, by omega⟩ ⟨j, by omega⟩,
    Matrix.of fun i j => expanded ⟨i + 1, by omega⟩ ⟨j + 1, by omega⟩,
    Matrix.of fun i j => expanded ⟨i, by omega⟩ ⟨j + 1, by omega⟩⟩

/-- The correlation arrays of vectors and advanced vectors (`modred/dmd.py` lines 1900-1909). -/
def tlsArraysPairs (ip : E → E → 𝕜) (vecs adv : List E) (h : vecs.length = adv.length) : TlsArrays 𝕜 :=
  ⟨vecs.length, handlesSymmIp ip vecs.get, (handlesSymmIp ip adv.get).submatrix (Fin.cast h) (Fin.cast h),
    (handlesIp ip vecs.get adv.get).submatrix id (Fin.cast h)⟩

variable (lib : DmdLib 𝕜) (ip : E → E → 𝕜)

/-- `TLSqrDMDHandles.compute_eigendecomp` (`modred/dmd.py` lines 1761-1814): the relative tolerance is not used.  The
sum of `None` and `None` is a `TypeError`. -/
noncomputable def TlsHandles.computeEigendecomp (g : TlsHandles 𝕜 E) (atol _rtol : Option ℝ) (maxNum : Option Nat) :
    Except Err Unit × TlsHandles 𝕜 E :=
  match g.arrays with
  | none => (.error .typeError, g)
  | some a =>
    match tlsEigendecomp lib.eigh lib.argsort lib.eig a.c.corr a.c.adv a.c.cross atol none none maxNum with
    | .error e => (.error e, g)
    | .ok t => (.ok (), { g with decomp := some ⟨a.m, t⟩ })

/-- `TLSqrDMDHandles.compute_decomp` (`modred/dmd.py` lines 1872-1922).  What it returns are attributes. -/
noncomputable def TlsHandles.computeDecomp (g : TlsHandles 𝕜 E) (vecs : List E) (adv : Option (List E))
    (atol rtol : Option ℝ) (maxNum : Option Nat) : Except Err Unit × TlsHandles 𝕜 E :=
  let g := { g with vecs := some vecs }
  match adv with
  | none =>
    if vecs = [] then (.error .indexError, g)
    else { g with arrays := some (tlsArraysSeq ip vecs) }.computeEigendecomp lib atol rtol maxNum
  | some adv =>
    let g := { g with adv := some adv }
    if h : vecs.length = adv.length then
      if vecs = [] then (.error .indexError, g)
      else { g with arrays := some (tlsArraysPairs ip vecs adv h) }.computeEigendecomp lib atol rtol maxNum
    else (.error .valueError, g)

/-- `_compute_build_coeffs_exact` (`modred/dmd.py` lines 1925-1932). -/
noncomputable def TlsDecomp.buildExact {m : Nat} (t : TlsDecomp 𝕜 m) : Matrix (Fin m) (Fin t.d.r) 𝕜 :=
  t.sumV * (t.sumVᴴ * (t.d.V * diagPow (𝕜 := 𝕜) t.d.w (-0.5) * (t.d.R * diagonal fun i => (t.d.eigvals i)⁻¹)))

/-- `_compute_build_coeffs_proj` (`modred/dmd.py` lines 1935-1941). -/
noncomputable def TlsDecomp.buildProj {m : Nat} (t : TlsDecomp 𝕜 m) : Matrix (Fin m) (Fin t.d.r) 𝕜 :=
  t.sumV * (t.sumVᴴ * (t.d.V * (diagPow (𝕜 := 𝕜) t.d.w (-0.5) * t.d.R)))

/-- `_compute_build_coeffs_adjoint` (`modred/dmd.py` lines 1944-1950). -/
noncomputable def TlsDecomp.buildAdjoint {m : Nat} (t : TlsDecomp 𝕜 m) : Matrix (Fin m) (Fin t.d.r) 𝕜 :=
  t.sumV * (t.sumVᴴ * (t.d.V * (diagPow (𝕜 := 𝕜) t.d.w (-0.5) * t.d.L)))

section Modes

variable [AddCommMonoid E] [Module 𝕜 E] {m r : Nat}

/-- `compute_exact_modes`, inherited from `DMDHandles` (`modred/dmd.py` lines 941-968). -/
noncomputable def TlsHandles.computeExactModes (g : TlsHandles 𝕜 E) (modeIndices : List Int) (numModeHandles : Nat)
    (adv : Option (List E)) : Except Err (Vecs E) × TlsHandles 𝕜 E :=
  let g := if adv.isSome then { g with adv := adv } else g
  match g.decomp with
  | none => (.error .attributeError, g)
  | some s => (exactModesFrom g.vecs g.adv s.t.buildExact modeIndices numModeHandles, g)

/-- `compute_proj_modes`, inherited from `DMDHandles` (`modred/dmd.py` lines 985-1012). -/
noncomputable def TlsHandles.computeProjModes (g : TlsHandles 𝕜 E) (modeIndices : List Int) (numModeHandles : Nat)
    (vecs : Option (List E)) : Except Err (Vecs E) × TlsHandles 𝕜 E :=
  let g := if vecs.isSome then { g with vecs := vecs } else g
  match g.decomp with
  | none => (.error .attributeError, g)
  | some s => (spanModesFrom g.vecs s.t.buildProj modeIndices numModeHandles, g)

/-- `compute_adjoint_modes`, inherited from `DMDHandles` (`modred/dmd.py` lines 1030-1057). -/
noncomputable def TlsHandles.computeAdjointModes (g : TlsHandles 𝕜 E) (modeIndices : List Int) (numModeHandles : Nat)
    (vecs : Option (List E)) : Except Err (Vecs E) × TlsHandles 𝕜 E :=
  let g := if vecs.isSome then { g with vecs := vecs } else g
  match g.decomp with
  | none => (.error .attributeError, g)
  | some s => (spanModesFrom g.vecs s.t.buildAdjoint modeIndices numModeHandles, g)

end Modes

/-- `TLSqrDMDHandles.compute_spectrum` (`modred/dmd.py` lines 2149-2152). -/
noncomputable def TlsHandles.computeSpectrum (g : TlsHandles 𝕜 E) : Except Err (NdArray ℝ) :=
  match g.decomp with
  | none => .error .attributeError
  | some s =>
    if h : 0 < s.m then
      .ok (NdArray.squeeze ⟨[s.t.d.r], fun i => if hi : i < s.t.d.r then
        ‖(s.t.d.Lᴴ *ᵥ star (diagPow (𝕜 := 𝕜) s.t.d.w 0.5 *ᵥ s.t.d.V ⟨0, h⟩)) ⟨i, hi⟩‖ else 0⟩)
    else .error .indexError

/-- `TLSqrDMDHandles.compute_proj_coeffs` (`modred/dmd.py` lines 2175-2187). -/
noncomputable def TlsHandles.computeProjCoeffs (g : TlsHandles 𝕜 E) : Except Err (Arr 𝕜 × Arr 𝕜) :=
  match g.decomp, g.arrays with
  | some s, some a =>
    if h : a.m = s.m then
      let cross := a.c.cross.submatrix (Fin.cast h.symm) (Fin.cast h.symm)
      .ok (⟨s.t.d.r, s.m, s.t.d.Lᴴ * (diagPow (𝕜 := 𝕜) s.t.d.w 0.5 * s.t.d.Vᴴ)⟩,
        ⟨s.t.d.r, s.m, s.t.d.Lᴴ * (diagPow (𝕜 := 𝕜) s.t.d.w (-0.5) *
          (s.t.d.Vᴴ * (s.t.sumV * (s.t.sumVᴴ * (cross * (s.t.sumV * s.t.sumVᴴ))))))⟩)
    else .error .valueError
  | _, _ => .error .attributeError

end Modred
