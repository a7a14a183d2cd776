import Verif.Model.Trapz
import Verif.Model.Sanity
import Verif.Model.Era
import Verif.Model.Assign
import Verif.Model.Equality
import Mathlib.Analysis.SpecialFunctions.Trigonometric.Basic

/-!
# The tutorials (`modred/examples/tutorial_ex2.py` to `tutorial_ex6.py` and `customvector.py`)

Arithmetic is exact.  Random data are any data.
-/

namespace Modred

/-! ### `tutorial_ex2.py` -/

/-- `np.linspace`. -/
noncomputable def npLinspace (start stop : ℝ) (num : Nat) : List ℝ :=
  (List.range num).map fun i : Nat => start + (i : ℝ) * ((stop - start) / (num - 1))

/-- `x_grid` (`modred/examples/tutorial_ex2.py` line 12, also in `tutorial_ex4.py`). -/
noncomputable def tutorialGrid (nx : Nat) : List ℝ := (npLinspace 0 Real.pi nx).map fun x => 1 - Real.cos x

/-- `weights` (`modred/examples/tutorial_ex2.py` lines 13-15).  With fewer than two points `x_diff[0]` raises
`IndexError`. -/
noncomputable def tutorialWeights (xGrid : List ℝ) : Except Err (List ℝ) :=
  let xDiff := npDiff xGrid
  match xDiff.head?, xDiff.getLast? with
  | some first, some last =>
    .ok ((first :: List.zipWith (fun a b => a + b) xDiff.dropLast (xDiff.drop 1) ++ [last]).map fun d => 0.5 * d)
  | _, _ => .error .indexError

/-! ### `tutorial_ex3.py` -/

/-- The snapshots put in `modred/examples/tutorial_ex3.py` lines 23-25: `sin(x * i)`.  They are read back as they are put. -/
noncomputable def tutorialDirect (i : Nat) : Fin 200 → ℝ := fun k => Real.sin ((npLinspace 0 Real.pi 200).getD k 0 * i)

/-- The snapshots put in `modred/examples/tutorial_ex3.py` lines 26-27: `cos(0.5 * x * i)`. -/
noncomputable def tutorialAdjoint (i : Nat) : Fin 200 → ℝ :=
  fun k => Real.cos (0.5 * (npLinspace 0 Real.pi 200).getD k 0 * i)

/-! ### `tutorial_ex5.py` -/

/-- The vectors that the handles of `modred/examples/tutorial_ex5.py` lines 18-22 return: the base vector is subtracted, then
the result is scaled. -/
def tutorialScaled (𝕜 : Type*) {E : Type*} [RCLike 𝕜] [AddCommGroup E] [Module 𝕜 E] {m : Nat} (vecs : Fin m → E) (base : E)
    (quadWeights : Fin m → ℝ) : Fin m → E := fun j => (quadWeights j : 𝕜) • (vecs j - base)

/-! ### `tutorial_ex6.py` -/

/-- `num_modes` (`modred/examples/tutorial_ex6.py` lines 42-43).  If no entry is larger than 0.9 (also for a sum of zero, where
numpy divides zero by zero), `[0][0]` raises `IndexError`. -/
noncomputable def tutorialNumModes (singVals : List ℝ) : Except Err Nat :=
  match (cumsum (singVals.map fun s => s / singVals.sum)).findIdx? (fun x => decide (0.9 < x)) with
  | some i => .ok (i + 1)
  | none => .error .indexError

/-! ### `customvector.py` -/

variable {𝕜 : Type*} [RCLike 𝕜]

/-- `CustomVector` (`modred/examples/customvector.py` lines 9-13). -/
structure CustomVector (𝕜 : Type*) where
  grids : List (List ℝ)
  data : NArr 𝕜

/-- `CustomVector.__init__` (`modred/examples/customvector.py` lines 10-13). -/
def CustomVector.new (grids : List (List ℝ)) (data : NArr 𝕜) : Except Err (CustomVector 𝕜) :=
  match innerProductTrapzInit grids with
  | .error e => .error e
  | .ok _ => .ok ⟨grids, data⟩

/-- `CustomVector.__add__` (`modred/examples/customvector.py` lines 16-20) for data of equal shape.  Other shapes that numpy can
broadcast are not modelled. -/
def CustomVector.add (v w : CustomVector 𝕜) : Except Err (CustomVector 𝕜) :=
  if v.data.shape = w.data.shape then .ok ⟨v.grids, ⟨v.data.shape, fun idx => v.data.at_ idx + w.data.at_ idx⟩⟩
  else .error .valueError

/-- `CustomVector.__mul__` (`modred/examples/customvector.py` lines 23-27). -/
def CustomVector.mul (v : CustomVector 𝕜) (c : 𝕜) : CustomVector 𝕜 :=
  ⟨v.grids, ⟨v.data.shape, fun idx => v.data.at_ idx * c⟩⟩

/-- `Vector.__sub__` (`modred/vectors.py` lines 224-225) of custom vectors. -/
def CustomVector.sub (v w : CustomVector 𝕜) : Except Err (CustomVector 𝕜) := v.add (vectorRmul CustomVector.mul (-1) w)

/-- `CustomVector.inner_product` and the function `inner_product` (`modred/examples/customvector.py` lines 30-31 and 55-56). -/
def CustomVector.innerProduct (v w : CustomVector 𝕜) : Except Err 𝕜 := innerProductTrapz v.grids v.data w.data

/-- The operations on objects: both make a deep copy of `self` and replace its data.  Data of different shapes are not
modelled here. -/
def customOps : VecOps 𝕜 (CustomVector 𝕜) where
  mul o v c :=
    let (o, w) := o.deepcopy v
    (⟨o.next, fun i => if i = w then (o.content w).mul c else o.content i⟩, w)
  add o v v' :=
    let (o, w) := o.deepcopy v
    (⟨o.next, fun i => if i = w then ⟨(o.content w).grids, ⟨(o.content v).data.shape, fun idx =>
      (o.content v).data.at_ idx + (o.content v').data.at_ idx⟩⟩ else o.content i⟩, w)

/-- What `CustomVecHandle._put` writes: two pickles one after the other. -/
structure CustomFile (𝕜 : Type*) where
  first : List (List ℝ)
  second : NArr 𝕜

/-- `CustomVecHandle._put` (`modred/examples/customvector.py` lines 48-52). -/
def customPut (v : CustomVector 𝕜) : CustomFile 𝕜 := ⟨v.grids, v.data⟩

/-- `CustomVecHandle._get` (`modred/examples/customvector.py` lines 40-45). -/
def customGet (file : CustomFile 𝕜) : Except Err (CustomVector 𝕜) := CustomVector.new file.first file.second

end Modred
