import Verif.Model.Stages
import Verif.Spec.Shared
import Verif.Spec.VectorSpace

/-!
# What stages compute

The meaning of stages for one object and one store, without processes, rounds and limits on memory.
-/

namespace Modred

variable {X Y V K : Type*}

/-- One stage leads from an object and a store to an object and a store.  `fit` sums fit into one round of `lin_combine`; with
more sums, vectors must not be replaced by sums. -/
inductive StageMeans [AddCommMonoid V] [Zero K] [Star K] (fit : Nat) (ip : V → V → K) (cast : K → K → K) (mul : V → K → V) :
    Stage X Y V K → X → (Nat → V) → X → (Nat → V) → Prop
  | innerProducts {rows cols : List Nat} {set : X → Matrix (Fin rows.length) (Fin cols.length) K → X} {x : X} {w : Nat → V}
      (hrows : rows ≠ []) (hcols : cols ≠ [])
      (hcast : ∀ a ∈ rows ++ cols, ∀ b ∈ rows ++ cols, ∀ i ∈ rows ++ cols, ∀ j ∈ rows ++ cols,
        cast (ip (w a) (w b)) (ip (w i) (w j)) = ip (w i) (w j))
      (hsymm : cols.length < rows.length → ∀ i ∈ rows, ∀ j ∈ cols, ip (w i) (w j) = star (ip (w j) (w i))) :
      StageMeans fit ip cast mul (.innerProducts rows cols set) x w
        (set x (Matrix.of fun i j => ip (w rows[i]) (w cols[j]))) w
  | symmInnerProducts {vecs : List Nat} {set : X → Matrix (Fin vecs.length) (Fin vecs.length) K → X} {x : X} {w : Nat → V}
      (hvecs : vecs ≠ [])
      (hcast : ∀ a ∈ vecs, ∀ i ∈ vecs, ∀ j ∈ vecs, cast (ip (w a) (w a)) (ip (w i) (w j)) = ip (w i) (w j))
      (hsymm : ∀ i ∈ vecs, ∀ j ∈ vecs, ip (w i) (w j) = star (ip (w j) (w i))) :
      StageMeans fit ip cast mul (.symmInnerProducts vecs set) x w
        (set x (Matrix.of fun i j => ip (w vecs[i]) (w vecs[j]))) w
  | callAndBcast {f : X → Except Err Y} {set : X → Y → X} {x : X} {w : Nat → V} {y : Y} (h : f x = .ok y) :
      StageMeans fit ip cast mul (.callAndBcast f set) x w (set x y) w
  | compute {f : X → Except Err X} {x x' : X} {w : Nat → V} (h : f x = .ok x') :
      StageMeans fit ip cast mul (.compute f) x w x' w
  | linCombine {sums basis : List Nat} {coeff : X → Except Err (CoeffArray K)} {indices : Option (List Int)} {x : X}
      {w w' : Nat → V} {c : CoeffArray K} (hc : coeff x = .ok c) (hbasis : basis ≠ []) (hsums : sums.Nodup)
      (halias : (∀ q ∈ basis, q ∉ sums) ∨ sums.length ≤ fit)
      (hsel : selectionOk (specShape basis.length c).2 indices) (hrows : (specShape basis.length c).1 = basis.length)
      (hcols : numSelected (specShape basis.length c).2 indices = sums.length)
      (h : Combined mul basis sums
        (fun i k => specEntry basis.length c i (specColumn (specShape basis.length c).2 indices k)) w w') :
      StageMeans fit ip cast mul (.linCombine sums basis coeff indices) x w x w'

/-- Stages one after another. -/
inductive StagesMean [AddCommMonoid V] [Zero K] [Star K] (fit : Nat) (ip : V → V → K) (cast : K → K → K) (mul : V → K → V) :
    List (Stage X Y V K) → X → (Nat → V) → X → (Nat → V) → Prop
  | nil (x : X) (w : Nat → V) : StagesMean fit ip cast mul [] x w x w
  | cons {stage : Stage X Y V K} {rest : List (Stage X Y V K)} {x x' x'' : X} {w w' w'' : Nat → V}
      (h : StageMeans fit ip cast mul stage x w x' w') (ht : StagesMean fit ip cast mul rest x' w' x'' w'') :
      StagesMean fit ip cast mul (stage :: rest) x w x'' w''

end Modred
