import Verif.Model.Tlsqr
import Verif.Model.PodObjects

/-!
# What mode indices choose

A result with all modes, and the same result with the modes of some indices only.  Negative indices count from the end,
indices may repeat, and an index outside is an `IndexError`.
-/

namespace Modred

open Matrix

/-- All indices are among `K` modes, counted from the start or from the end. -/
def InRange (K : Nat) (idx : List Int) : Prop := ∀ i ∈ idx, -(K : Int) ≤ i ∧ i < K

theorem InRange.lt {K : Nat} {idx : List Int} (h : InRange K idx) {i : Int} (hi : i ∈ idx) : (i % K).toNat < K := by
  have := h i hi
  have hK : (0 : Int) < K := by omega
  have h1 := Int.emod_lt_of_pos i hK
  have h2 := Int.emod_nonneg i hK.ne'
  omega

variable {𝕜 : Type*} {n m : Nat} {E : Type*}

open Classical in
/-- Columns of an array: the one at position `k` is that of the index at position `k`. -/
noncomputable def chooseCols (idx : List Int) (a : Cols 𝕜 n) : Except Err (Cols 𝕜 n) :=
  if h : InRange a.k idx then
    .ok ⟨idx.length, Matrix.of fun i k => a.a i ⟨(idx[k] % a.k).toNat, h.lt (List.getElem_mem _)⟩⟩
  else .error .indexError

open Classical in
/-- The same for vectors. -/
noncomputable def chooseVecs (idx : List Int) (a : Vecs E) : Except Err (Vecs E) :=
  if h : InRange a.k idx then .ok ⟨idx.length, fun k => a.v ⟨(idx[k] % a.k).toNat, h.lt (List.getElem_mem _)⟩⟩
  else .error .indexError

/-- Other modes and everything else as before. -/
noncomputable def PodResult.choose (idx : List Int) (res : PodResult 𝕜 n m) : Except Err (PodResult 𝕜 n m) := do
  return { res with modes := ← chooseCols idx res.modes }

/-- Indices for direct and for adjoint modes; `None` means all. -/
noncomputable def BpodResult.choose {md ma : Nat} (direct adjoint : Option (List Int)) (res : BpodResult 𝕜 n md ma) :
    Except Err (BpodResult 𝕜 n md ma) := do
  let directModes ← match direct with
    | some idx => chooseCols idx res.directModes
    | none => .ok res.directModes
  let adjointModes ← match adjoint with
    | some idx => chooseCols idx res.adjointModes
    | none => .ok res.adjointModes
  return { res with directModes := directModes, adjointModes := adjointModes }

/-- The same indices for all kinds of modes. -/
noncomputable def DmdResult.choose (idx : List Int) (res : DmdResult 𝕜 n m) : Except Err (DmdResult 𝕜 n m) := do
  let exactModes ← chooseCols idx res.exactModes
  let projModes ← chooseCols idx res.projModes
  let adjointModes ← chooseCols idx res.adjointModes
  return { res with exactModes := exactModes, projModes := projModes, adjointModes := adjointModes }

/-- The same indices for all kinds of modes. -/
noncomputable def TlsResult.choose (idx : List Int) (res : TlsResult 𝕜 n m) : Except Err (TlsResult 𝕜 n m) := do
  let exactModes ← chooseCols idx res.exactModes
  let projModes ← chooseCols idx res.projModes
  let adjointModes ← chooseCols idx res.adjointModes
  return { res with exactModes := exactModes, projModes := projModes, adjointModes := adjointModes }

end Modred
