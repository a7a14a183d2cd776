import Verif.Model.Basic
import Mathlib.Algebra.Order.Floor.Ring
import Mathlib.Algebra.Order.Field.Basic
import Mathlib.Algebra.Order.Group.Unbundled.Abs

/-!
# Markov parameters and Hankel arrays of ERA (`modred/era.py`)

A three-dimensional array with indices [time, output, input] is its shape and a function.
`np.zeros` makes an array of real floating point numbers; `cast` is the conversion of a number that is
stored in such an array: the identity for real numbers, the real part for complex ones (numpy only
gives a warning then).
-/

namespace Modred

variable {K : Type*}

/-- Array of Markov parameters. -/
structure Markovs (K : Type*) where
  nt : Nat
  no : Nat
  ni : Nat
  at_ : Nat → Nat → Nat → K

/-- What a user may pass as Markov parameters, by number of dimensions. -/
inductive MarkovsIn (K : Type*) where
  | d0 (x : K)
  | d1 (n : Nat) (f : Nat → K)
  | d2 (n m : Nat) (f : Nat → Nat → K)
  | d3 (m : Markovs K)
  | higher

/-! ### Sampled format -/

/-- `np.round`: to the nearest integer, and to the even one of two nearest. -/
def npRound [Field K] [LinearOrder K] [FloorRing K] (x : K) : Int :=
  let f := ⌊x⌋
  if x - f < 1 / 2 then f
  else if 1 / 2 < x - f then f + 1
  else if f % 2 = 0 then f else f + 1

/-- `np.diff`. -/
def npDiff [Sub K] (l : List K) : List K := List.zipWith (fun a b => b - a) l (l.drop 1)

/-- `a[::2] = l[:-1]; a[1::2] = l[1:]` for a new array `a` of twice the length of `l`, less two: entry
`i` of the array is entry `interleaveIndex i` of `l` (`modred/era.py` lines 47-50). -/
def interleaveIndex (i : Nat) : Nat := if i % 2 = 0 then i / 2 else (i - 1) / 2 + 1

/-- `make_sampled_format` (`modred/era.py` lines 34-51): time step indices and Markov parameters.
For equal first two times Python divides by zero and stores not-a-number as integers; this is
`undefinedError` here. -/
def makeSampledFormat {T : Type*} [Field T] [LinearOrder T] [FloorRing T] (cast : K → K)
    (times : List T) (m : Markovs K) (dtTol : T) : Except Err (List Int × Markovs K) :=
  if m.nt ≠ times.length then .error .runtimeError
  else
    match times with
    | t0 :: t1 :: rest =>
      let dt := t1 - t0
      if ∃ d ∈ npDiff (t0 :: t1 :: rest), dtTol < |d - dt| then .error .valueError
      else if dt = 0 then .error .undefinedError
      else
        let timeSteps := (t0 :: t1 :: rest).map fun t => npRound ((t - t0) / dt)
        let n := (m.nt - 1) * 2
        .ok ((List.range n).map fun i => timeSteps.getD (interleaveIndex i) 0,
          ⟨n, m.no, m.ni, fun i a b => cast (m.at_ (interleaveIndex i) a b)⟩)
    | _ => .error .indexError

/-! ### Hankel arrays -/

/-- `ERA._set_Markovs` (`modred/era.py` lines 288-305). -/
def setMarkovs : MarkovsIn K → Except Err (Markovs K)
  | .d0 _ => .error .valueError
  | .d1 n f => .ok ⟨if n % 2 ≠ 0 then n - 1 else n, 1, 1, fun i _ _ => f i⟩
  | .d2 n m f => .ok ⟨if n % 2 ≠ 0 then n - 1 else n, m, 1, fun i a _ => f i a⟩
  | .d3 m => .ok { m with nt := if m.nt % 2 ≠ 0 then m.nt - 1 else m.nt }
  | .higher => .error .runtimeError

/-- Numbers of block rows and columns (`modred/era.py` lines 327-330). -/
def blockCounts (nt : Nat) (mc mo : Option Int) : Int × Int :=
  match mo, mc with
  | some mo, some mc => (mo, mc)
  | _, _ => (((nt : Int) - 2) / 4, ((nt : Int) - 2) / 4)

/-- The two Hankel arrays. -/
structure HankelPair (K : Type*) where
  rows : Nat
  cols : Nat
  h : Nat → Nat → K
  h2 : Nat → Nat → K

/-- `a[r:r+no, c:c+ni] = block` (`modred/era.py` lines 344-349). -/
def setBlock (cast : K → K) (a : Nat → Nat → K) (r no c ni : Nat) (block : Nat → Nat → K) :
    Nat → Nat → K :=
  fun i j => if (r ≤ i ∧ i < r + no) ∧ (c ≤ j ∧ j < c + ni) then cast (block (i - r) (j - c)) else a i j

/-- Body of the double loop (`modred/era.py` lines 344-349). -/
def hankelStep (cast : K → K) (m : Markovs K) (acc : Except Err (HankelPair K)) (rc : Nat × Nat) :
    Except Err (HankelPair K) :=
  match acc with
  | .error e => .error e
  | .ok a =>
    if 2 * (rc.1 + rc.2) + 1 < m.nt then
      .ok { a with
        h := setBlock cast a.h (rc.1 * m.no) m.no (rc.2 * m.ni) m.ni (m.at_ (2 * (rc.1 + rc.2)))
        h2 := setBlock cast a.h2 (rc.1 * m.no) m.no (rc.2 * m.ni) m.ni
          (m.at_ (2 * (rc.1 + rc.2) + 1)) }
    else .error .indexError

/-- `ERA._assemble_Hankel` (`modred/era.py` lines 327-349).  `np.zeros` refuses negative sizes. -/
def assembleHankel [Zero K] (cast : K → K) (m : Markovs K) (mc mo : Option Int) :
    Except Err (HankelPair K) :=
  let b := blockCounts m.nt mc mo
  if b.1 + b.2 + 2 > m.nt then .error .valueError
  else if (m.no : Int) * b.1 < 0 ∨ (m.ni : Int) * b.2 < 0 then .error .valueError
  else
    let positions := (List.range b.1.toNat).flatMap fun row =>
      (List.range b.2.toNat).map fun col => (row, col)
    positions.foldl (hankelStep cast m)
      (.ok ⟨m.no * b.1.toNat, m.ni * b.2.toNat, fun _ _ => 0, fun _ _ => 0⟩)

/-! ### The object -/

/-- The attributes `mc` and `mo` of an `ERA` object. -/
structure EraObj where
  mc : Option Int
  mo : Option Int

/-- `ERA.__init__` (`modred/era.py` lines 144-145). -/
def eraInit (mc mo : Option Int) : EraObj := ⟨mc, mo⟩

/-- The beginning of `ERA.compute_model` (`modred/era.py` lines 195-199): the object afterwards and the
Hankel arrays of which the model is computed. -/
def eraHankel [Zero K] (cast : K → K) (self : EraObj) (markovs : MarkovsIn K) (mc mo : Option Int) :
    Except Err (EraObj × HankelPair K) :=
  match setMarkovs markovs with
  | .error e => .error e
  | .ok m =>
    let self := { self with mc := mc }
    let self := { self with mo := mo }
    match assembleHankel cast m self.mc self.mo with
    | .error e => .error e
    | .ok h =>
      let b := blockCounts m.nt self.mc self.mo
      .ok ({ self with mc := some b.2, mo := some b.1 }, h)

end Modred
