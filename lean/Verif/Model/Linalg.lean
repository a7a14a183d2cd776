import Verif.Model.Basic
import Mathlib.Analysis.RCLike.Basic
import Mathlib.LinearAlgebra.Matrix.ConjTranspose
import Mathlib.Data.Matrix.Mul
import Mathlib.Analysis.SpecialFunctions.Pow.Real

/-!
# Decompositions (`modred/util.py` lines 195-334)

Two-dimensional arrays are matrices over the real or complex numbers with exact arithmetic.  The
routines of the numerical library are parameters: what they return is described in
`Verif/Spec/Linalg.lean`.  A number of retained values depends on the data, so results are records
that contain it.
-/

namespace Modred

open Matrix

variable {𝕜 : Type*} [RCLike 𝕜]

/-- What `np.linalg.svd(array, full_matrices=False)` returns. -/
structure SvdOut (𝕜 : Type*) (m n : Nat) where
  U : Matrix (Fin m) (Fin (min m n)) 𝕜
  S : Fin (min m n) → ℝ
  Vh : Matrix (Fin (min m n)) (Fin n) 𝕜

/-- What `np.linalg.eigh` returns. -/
structure EighOut (𝕜 : Type*) (n : Nat) where
  w : Fin n → ℝ
  V : Matrix (Fin n) (Fin n) 𝕜

/-- What `scipy.linalg.eig(array, left=True, right=True)` returns. -/
structure EigOut (𝕜 : Type*) (n : Nat) where
  w : Fin n → 𝕜
  L : Matrix (Fin n) (Fin n) 𝕜
  R : Matrix (Fin n) (Fin n) 𝕜

/-- Result of `util.svd`: number of retained singular values, left singular vectors, singular values
and right singular vectors. -/
structure Svd (𝕜 : Type*) (m n : Nat) where
  r : Nat
  U : Matrix (Fin m) (Fin r) 𝕜
  S : Fin r → ℝ
  V : Matrix (Fin n) (Fin r) 𝕜

/-- Result of `util.eigh`. -/
structure Eigh (𝕜 : Type*) (n : Nat) where
  r : Nat
  w : Fin r → ℝ
  V : Matrix (Fin n) (Fin r) 𝕜

/-- `a[:, :r]`; numbers beyond the number of columns mean all of them. -/
def firstCols {m : Type*} {n : Nat} (a : Matrix m (Fin n) 𝕜) (r : Nat) : Matrix m (Fin (min r n)) 𝕜 :=
  a.submatrix id (Fin.castLE (Nat.min_le_right r n))

/-- `x[:r]` for a one-dimensional array. -/
def firstEntries {α : Type*} {n : Nat} (x : Fin n → α) (r : Nat) : Fin (min r n) → α :=
  fun i => x (Fin.castLE (Nat.min_le_right r n) i)

open Classical in
/-- The number of values larger than the absolute tolerance (`modred/util.py` lines 223-226 and
282-285). -/
noncomputable def numAbove {n : Nat} (x : Fin n → ℝ) : Option ℝ → Nat
  | some t => (Finset.univ.filter fun i => t < |x i|).card
  | none => n

open Classical in
/-- The number of values that obey the tolerances (`modred/util.py` lines 223-232 and 280-291).  A
relative size is computed by division by the first value, `x[0]`, which raises `IndexError` if there is
none; a quotient with denominator zero is never larger than the tolerance (it is not a number, as all
values are zero then). -/
noncomputable def numRetained {n : Nat} (x : Fin n → ℝ) (atol rtol : Option ℝ) : Except Err Nat :=
  let numAtol := numAbove x atol
  match rtol with
  | none => .ok numAtol
  | some t =>
    if h : 0 < n then
      let numRtol := (Finset.univ.filter fun i : Fin n =>
        i.val < numAtol ∧ x ⟨0, h⟩ ≠ 0 ∧ t < |x i| / |x ⟨0, h⟩|).card
      .ok (min numAtol numRtol)
    else .error .indexError

/-- `util.svd` (`modred/util.py` lines 218-239). -/
noncomputable def utilSvd {m n : Nat} (lib : Matrix (Fin m) (Fin n) 𝕜 → SvdOut 𝕜 m n)
    (a : Matrix (Fin m) (Fin n) 𝕜) (atol rtol : Option ℝ) : Except Err (Svd 𝕜 m n) :=
  let o := lib a
  let V := o.Vhᴴ
  match numRetained o.S atol rtol with
  | .error e => .error e
  | .ok num => .ok ⟨min num (min m n), firstCols o.U num, firstEntries o.S num, firstCols V num⟩

/-- `x.min()`. -/
noncomputable def npMin {n : Nat} (x : Fin n → ℝ) : Except Err ℝ :=
  if h : 0 < n then .ok (Finset.univ.inf' ⟨⟨0, h⟩, Finset.mem_univ _⟩ x) else .error .valueError

open Classical in
/-- The adjusted tolerance (`modred/util.py` lines 273-279).  Comparing a number with `None` raises
`TypeError`. -/
noncomputable def adjustTol {n : Nat} (w : Fin n → ℝ) (atol : Option ℝ) (isPositiveDefinite : Bool) :
    Except Err (Option ℝ) :=
  if isPositiveDefinite then
    match npMin w with
    | .error e => .error e
    | .ok low =>
      if low < 0 then
        match atol with
        | none => .error .typeError
        | some t => if t < |low| then .ok (some |low|) else .ok (some t)
      else .ok atol
  else .ok atol

/-- `util.eigh` (`modred/util.py` lines 264-296); `argsort` is `np.argsort`. -/
noncomputable def utilEigh {n : Nat} (lib : Matrix (Fin n) (Fin n) 𝕜 → EighOut 𝕜 n)
    (argsort : (Fin n → ℝ) → Equiv.Perm (Fin n)) (a : Matrix (Fin n) (Fin n) 𝕜)
    (atol rtol : Option ℝ) (isPositiveDefinite : Bool) : Except Err (Eigh 𝕜 n) :=
  let o := lib a
  let sortIndices : Fin n → Fin n := fun i => argsort (fun j => |o.w j|) i.rev
  let w := fun i => o.w (sortIndices i)
  let V := o.V.submatrix id sortIndices
  match adjustTol w atol isPositiveDefinite with
  | .error e => .error e
  | .ok atol =>
    match numRetained w atol rtol with
    | .error e => .error e
    | .ok num => .ok ⟨min num n, firstEntries w num, firstCols V num⟩

/-- `util.eig_biorthog` (`modred/util.py` lines 319-334): eigenvalues, right and left eigenvectors.  Only
the lower-case form of `scale_choice` matters; a string is a list of characters. -/
noncomputable def eigBiorthog {n : Nat} (lib : Matrix (Fin n) (Fin n) 𝕜 → EigOut 𝕜 n)
    (a : Matrix (Fin n) (Fin n) 𝕜) (scaleChoice : List Char) :
    Except Err ((Fin n → 𝕜) × Matrix (Fin n) (Fin n) 𝕜 × Matrix (Fin n) (Fin n) 𝕜) :=
  let o := lib a
  let scale := (o.Lᴴ * o.R).diag
  if scaleChoice.map Char.toLower = ['l', 'e', 'f', 't'] then
    .ok (o.w, o.R, Matrix.of fun i j => o.L i j / star (scale j))
  else if scaleChoice.map Char.toLower = ['r', 'i', 'g', 'h', 't'] then
    .ok (o.w, Matrix.of fun i j => o.R i j / scale j, o.L)
  else .error .valueError

end Modred
