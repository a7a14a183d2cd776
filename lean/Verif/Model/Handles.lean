import Verif.Model.Basic
import Mathlib.Tactic.TypeStar

/-!
# Vector handles (`modred/vectors.py` lines 14-134)

A handle reads from and writes to a place: an attribute of the handle object (`VecHandleInMemory`),
a text file (`VecHandleArrayText`) or a pickle file (`VecHandlePickle`).  Simplified: files exist and
can be read; the contents of a text file are an arbitrary type `T` with functions for loading (as
real or complex numbers) and saving, see `Verif/Model/Text.lean` for these.
-/

namespace Modred

/-- Where a handle keeps its vector: `VecHandleInMemory` (`modred/vectors.py` lines 66-79; each object
has its own slot), `VecHandleArrayText` (lines 89-105, with the flag `is_complex`) and
`VecHandlePickle` (lines 114-129). -/
inductive Place where
  | memory (slot : Nat)
  | text (path : String) (isComplex : Bool)
  | pickle (path : String)
deriving DecidableEq

/-- A handle: its place, base vector handle and scale (`modred/vectors.py` lines 20-22). -/
inductive Handle (K : Type*) where
  | mk (place : Place) (base : Option (Handle K)) (scale : Option K)

/-- Where the vectors are. -/
structure Storage (V T : Type*) where
  mem : Nat → V
  txt : String → T
  pkl : String → V

/-- Storage together with the class attributes `cached_base_vec_handle` and `cached_base_vec`
(`modred/vectors.py` lines 16-17; both `None` at first). -/
structure HandleState (V T K : Type*) where
  store : Storage V T
  cache : Option (Handle K × V)

/-- Format of text files: `util.load_array_text` and `util.save_array_text`. -/
structure TextFormat (V T : Type*) where
  load : Bool → T → V
  save : V → T

variable {V T K : Type*}

/-- `handle.__base_vec_handle`. -/
def Handle.base : Handle K → Option (Handle K)
  | .mk _ b _ => b

/-- The place of a handle. -/
def Handle.place : Handle K → Place
  | .mk p _ _ => p

/-- `handle._get()` (`modred/vectors.py` lines 73-75, 98-100, 120-124). -/
def rawGet (fmt : TextFormat V T) (st : Storage V T) : Place → V
  | .memory slot => st.mem slot
  | .text path isComplex => fmt.load isComplex (st.txt path)
  | .pickle path => st.pkl path

/-- `handle._put(vec)` (`modred/vectors.py` lines 78-80, 103-105, 126-129). -/
def rawPut (fmt : TextFormat V T) (st : Storage V T) (v : V) : Place → Storage V T
  | .memory slot => { st with mem := fun s => if s = slot then v else st.mem s }
  | .text path _ => { st with txt := fun s => if s = path then fmt.save v else st.txt s }
  | .pickle path => { st with pkl := fun s => if s = path then v else st.pkl s }

/-- `handle == other` (`modred/vectors.py` lines 83-86, 108-111, 131-134): handles of one type are
equal if their vectors (in memory) or their paths (files) are. -/
def handleEq [DecidableEq V] (st : Storage V T) (a b : Handle K) : Bool :=
  match a.place, b.place with
  | .memory s, .memory s' => decide (st.mem s = st.mem s')
  | .text p _, .text p' _ => decide (p = p')
  | .pickle p, .pickle p' => decide (p = p')
  | _, _ => false

/-- `handle.__scale_vec(vec)` (`modred/vectors.py` lines 59-63). -/
def scaleVec (mul : V → K → V) (v : V) : Option K → V
  | some c => mul v c
  | none => v

/-- `handle.get()` (`modred/vectors.py` lines 25-40). -/
def Handle.get [DecidableEq V] [Sub V] (fmt : TextFormat V T) (mul : V → K → V) :
    Handle K → HandleState V T K → V × HandleState V T K
  | .mk place base scale, s =>
    let vec := rawGet fmt s.store place
    match base with
    | none => (scaleVec mul vec scale, s)
    | some b =>
      match s.cache with
      | some (cachedHandle, cachedVec) =>
        if handleEq s.store b cachedHandle then (scaleVec mul (vec - cachedVec) scale, s)
        else
          let (baseVec, s') := b.get fmt mul s
          (scaleVec mul (vec - baseVec) scale, { s' with cache := some (b, baseVec) })
      | none =>
        let (baseVec, s') := b.get fmt mul s
        (scaleVec mul (vec - baseVec) scale, { s' with cache := some (b, baseVec) })

/-- `handle.put(vec)` (`modred/vectors.py` lines 43-46). -/
def Handle.put (fmt : TextFormat V T) (h : Handle K) (v : V) (s : HandleState V T K) :
    HandleState V T K :=
  { s with store := rawPut fmt s.store v h.place }

/-- A call of a user. -/
inductive Op (V K : Type*) where
  | get (h : Handle K)
  | put (h : Handle K) (v : V)

/-- Run calls in order and list the vectors returned by the `get` calls. -/
def runOps [DecidableEq V] [Sub V] (fmt : TextFormat V T) (mul : V → K → V) :
    List (Op V K) → HandleState V T K → List V
  | [], _ => []
  | .get h :: ops, s => (h.get fmt mul s).1 :: runOps fmt mul ops (h.get fmt mul s).2
  | .put h v :: ops, s => runOps fmt mul ops (h.put fmt v s)

end Modred
