import Verif.Model.Handles
import Verif.Model.Text

/-!
# Vector handles with exceptions (`modred/vectors.py` lines 14-134)

Files may be missing or broken, directories may be missing, and subtraction, multiplication and the
formats of files may raise exceptions.  A vector in memory may be anything, also `None`; operations
that do not work for it raise.  Otherwise as in `Verif/Model/Handles.lean`.
-/

namespace Modred

/-- A pickle file. -/
inductive PickleFile (V : Type*) where
  | missing
  /-- Opened for writing, but not written completely. -/
  | broken
  | holds (v : V)

/-- Where the vectors are.  `txt path = none` means that there is no such file.  `dir path` says that
a file of this name can be opened for writing. -/
structure FallibleStorage (V T : Type*) where
  mem : Nat → V
  txt : String → Option T
  pkl : String → PickleFile V
  dir : String → Bool

/-- Operations that may raise.  `save` is `util.save_array_text`: it may raise before or after
`np.savetxt` opens the file (first or second case), which leaves an empty file, `empty`. -/
structure FallibleOps (V T K : Type*) where
  load : Bool → T → Except Err V
  save : V → Except (Err ⊕ Err) T
  empty : T
  dump : V → Except Err Unit
  broken : Err
  sub : V → V → Except Err V
  mul : V → K → Except Err V

/-- Storage and cache, see `HandleState`. -/
structure FallibleState (V T K : Type*) where
  store : FallibleStorage V T
  cache : Option (Handle K × V)

variable {V T K : Type*}

/-- `handle._get()` (`modred/vectors.py` lines 73-75, 98-100, 120-124). -/
def tryRead (ops : FallibleOps V T K) (st : FallibleStorage V T) : Place → Except Err V
  | .memory slot => .ok (st.mem slot)
  | .text path isComplex =>
    match st.txt path with
    | none => .error .osError
    | some t => ops.load isComplex t
  | .pickle path =>
    match st.pkl path with
    | .missing => .error .osError
    | .broken => .error ops.broken
    | .holds v => .ok v

/-- `handle._put(vec)` (`modred/vectors.py` lines 78-80, 103-105, 126-129; `modred/util.py` lines
76-89): the exception, if any, and what is stored then. -/
def tryWrite (ops : FallibleOps V T K) (st : FallibleStorage V T) (v : V) :
    Place → Option Err × FallibleStorage V T
  | .memory slot => (none, { st with mem := fun s => if s = slot then v else st.mem s })
  | .text path _ =>
    let written := fun t => { st with txt := fun s => if s = path then some t else st.txt s }
    match ops.save v with
    | .error (.inl e) => (some e, st)
    | .error (.inr e) => if st.dir path then (some e, written ops.empty) else (some .osError, st)
    | .ok t => if st.dir path then (none, written t) else (some .osError, st)
  | .pickle path =>
    let written := fun f => { st with pkl := fun s => if s = path then f else st.pkl s }
    if st.dir path then
      match ops.dump v with
      | .error e => (some e, written .broken)
      | .ok _ => (none, written (.holds v))
    else (some .osError, st)

/-- `handle == other`, see `handleEq`. -/
def tryHandleEq [DecidableEq V] (st : FallibleStorage V T) (a b : Handle K) : Bool :=
  match a.place, b.place with
  | .memory s, .memory s' => decide (st.mem s = st.mem s')
  | .text p _, .text p' _ => decide (p = p')
  | .pickle p, .pickle p' => decide (p = p')
  | _, _ => false

/-- `handle.__scale_vec(vec)` (`modred/vectors.py` lines 59-63). -/
def tryScale (ops : FallibleOps V T K) (v : V) : Option K → Except Err V
  | some c => ops.mul v c
  | none => .ok v

/-- The last line of `get`: `self.__scale_vec(vec - base_vec)` (`modred/vectors.py` line 40). -/
def trySubScale (ops : FallibleOps V T K) (vec baseVec : V) (scale : Option K) : Except Err V :=
  match ops.sub vec baseVec with
  | .error e => .error e
  | .ok d => tryScale ops d scale

/-- `handle.get()` (`modred/vectors.py` lines 25-40): the vector or the exception, and the state. -/
def Handle.tryGet [DecidableEq V] (ops : FallibleOps V T K) :
    Handle K → FallibleState V T K → Except Err V × FallibleState V T K
  | .mk place base scale, s =>
    match tryRead ops s.store place with
    | .error e => (.error e, s)
    | .ok vec =>
      match base with
      | none => (tryScale ops vec scale, s)
      | some b =>
        let computed : Except Err V × FallibleState V T K :=
          match b.tryGet ops s with
          | (.error e, s') => (.error e, s')
          | (.ok baseVec, s') =>
            (trySubScale ops vec baseVec scale, { s' with cache := some (b, baseVec) })
        match s.cache with
        | some (cachedHandle, cachedVec) =>
          if tryHandleEq s.store b cachedHandle then (trySubScale ops vec cachedVec scale, s)
          else computed
        | none => computed

/-- `handle.put(vec)` (`modred/vectors.py` lines 43-46). -/
def Handle.tryPut (ops : FallibleOps V T K) (h : Handle K) (v : V) (s : FallibleState V T K) :
    Option Err × FallibleState V T K :=
  ((tryWrite ops s.store v h.place).1, { s with store := (tryWrite ops s.store v h.place).2 })

/-- Run calls in order, whether they raise or not, and list what they return: a vector for `get`,
nothing for `put`, or an exception. -/
def tryOps [DecidableEq V] (ops : FallibleOps V T K) :
    List (Op V K) → FallibleState V T K → List (Except Err (Option V))
  | [], _ => []
  | .get h :: calls, s => (h.tryGet ops s).1.map some :: tryOps ops calls (h.tryGet ops s).2
  | .put h v :: calls, s =>
    (match (h.tryPut ops v s).1 with
      | some e => .error e
      | none => .ok none) :: tryOps ops calls (h.tryPut ops v s).2

/-- `util.save_array_text` in a `put` (`modred/util.py` lines 76-89): `np.savetxt` refuses arrays without
dimensions after it has opened the file, all other exceptions come before.  (For a complex number,
`array.view(float)` raises.) -/
def saveForPut {R : Type*} (floatOfBits : Int → R) (a : NpArray R) :
    Except (Err ⊕ Err) (List (List R)) :=
  match saveArrayText floatOfBits a with
  | .ok t => .ok t
  | .error e =>
    match a with
    | .float (.d0 _) => .error (.inr e)
    | .int (.d0 _) => .error (.inr e)
    | _ => .error (.inl e)

/-- What `util.load_array_text` returns in `get`, as an array (`modred/util.py` lines 107-123). -/
def loadForGet {R : Type*} (isComplex : Bool) (file : List (List R)) : Except Err (NpArray R) :=
  match loadArrayText file isComplex with
  | .error e => .error e
  | .ok (.float rows) => .ok (.float (.d2 rows false))
  | .ok (.complex rows) => .ok (.complex (.d2 rows false))

end Modred
