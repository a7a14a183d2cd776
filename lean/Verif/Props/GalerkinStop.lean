import Verif.Props.StagesGalerkin
import Verif.Props.Stopping

/-!
# C85: Galerkin projection on several processes when the Gram array is singular
-/

namespace Modred

open Matrix

variable {𝕜 : Type*} [RCLike 𝕜] [DecidableEq 𝕜] {E : Type*} [AddCommGroup E] [Module 𝕜 E] {r : Nat}

/-- **C85.** If basis vectors are not said to be orthonormal and the inner products of adjoint basis and basis vectors form a
singular array, then on any number of processes, in every interleaving, all processes raise `LinAlgError` in `compute_model`,
and none waits for ever. -/
theorem C85_singular (procs nodes : Nat) (hp : 1 ≤ procs) (hn : 1 ≤ nodes) (request : Option Nat) (tag : Nat)
    (ip : E → E → 𝕜) (hsymm : ∀ u v, ip u v = star (ip v u)) (cast : 𝕜 → 𝕜 → 𝕜)
    (hcast : ∀ a b u v, cast (ip a b) (ip u v) = ip u v) (basis : Fin r → Nat) (adjoint : Option (Fin r → Nat))
    (hr : 0 < r) (a b : List Nat) (ha : a ≠ []) (c : Outputs 𝕜) (w : Nat → E)
    (hG : (handlesIp ip (fun i => w (adjoint.getD basis i)) (fun i => w (basis i))).det = 0) :
    EndsRaising procs
      (stagesProg procs tag (limits request procs nodes).perProc ip cast (fun v c => c • v)
        (galerkinModelStages (galerkinPlacesNew ip basis adjoint false) a b c))
      RankState.raised (fun _ => RankState.start ⟨galerkinPlacesNew ip basis adjoint false, none⟩) w
      fun _ => some .linAlgError := by
  have hne : ∀ f : Fin r → Nat, List.ofFn f ≠ [] := fun f h => hr.ne' (by simpa using congrArg List.length h)
  have hfi : ∀ (f : Fin r → Nat) (i : Fin r), w (f i) = w ((List.ofFn f)[i.1]'(by simp)) := fun f i => by simp
  have hinv : npInv (handlesIp ip (fun i => w (adjoint.getD basis i)) (fun i => w (basis i))) = .error .linAlgError := by
    rw [npInv, if_neg (by rw [hG]; exact not_isUnit_zero)]
  unfold galerkinModelStages galerkinReduceStages galerkinProjStages
  simp only [galerkinPlacesNew, Option.isSome_none, Bool.false_eq_true, if_false, if_true, List.cons_append,
    List.nil_append]
  have first := StageMeans.innerProducts (X := GalerkinLocal 𝕜 E r) (Y := Unit)
    (fit := procs * ((limits request procs nodes).perProc - 1)) (ip := ip) (cast := cast)
    (mul := fun (v : E) (c : 𝕜) => c • v) (rows := List.ofFn (adjoint.getD basis)) (cols := a)
    (set := fun g m => { g with self := { g.self with A := some ⟨_, resized List.length_ofFn.symm rfl m⟩ } })
    (x := ⟨galerkinPlacesNew ip basis adjoint false, none⟩) (w := w)
    (hne _) ha (fun _ _ _ _ _ _ _ _ => hcast _ _ _ _) (fun _ _ _ _ _ => hsymm _ _)
  cases adjoint with
  | none =>
    refine C87_computation_partial procs nodes hp hn request tag ip cast _ (before := [_, _]) (.cons first (.cons
      (.symmInnerProducts (hne _) (fun _ _ _ _ _ _ => hcast _ _ _ _) fun _ _ _ _ => hsymm _ _) (.nil _ _))) ?_ _
    dsimp only
    rw [resized_ip ip w _ _ (by simp) (by simp) (fun i => w (basis i)) (fun i => w (basis i)) (hfi _) (hfi _)]
    rw [Option.getD_none] at hinv
    rw [hinv]
  | some f =>
    refine C87_computation_partial procs nodes hp hn request tag ip cast _ (before := [_, _]) (.cons first (.cons
      (.innerProducts (hne _) (hne _) (fun _ _ _ _ _ _ _ _ => hcast _ _ _ _) fun _ _ _ _ _ => hsymm _ _) (.nil _ _))) ?_ _
    dsimp only
    rw [resized_ip ip w _ _ (by simp) (by simp) (fun i => w ((some f).getD basis i)) (fun i => w (basis i))
      (hfi _) (hfi _)]
    rw [hinv]

/-- Two basis vectors on a line, on three processes. -/
example : EndsRaising 3
    (stagesProg 3 5 (limits none 3 2).perProc (fun u v : ℝ × ℝ => u.1 * v.1 + u.2 * v.2) (fun _ k => k) (fun v c => c • v)
      (galerkinModelStages (galerkinPlacesNew (fun u v : ℝ × ℝ => u.1 * v.1 + u.2 * v.2) (fun i : Fin 2 => i) none false) [2, 3] [4]
        (.rows 2 1 fun _ _ => 1)))
    RankState.raised
    (fun _ => RankState.start ⟨galerkinPlacesNew (fun u v : ℝ × ℝ => u.1 * v.1 + u.2 * v.2) (fun i : Fin 2 => i) none false, none⟩)
    (fun k : Nat => ((k : ℝ) + 1, 2 * ((k : ℝ) + 1))) fun _ => some .linAlgError :=
  C85_singular (𝕜 := ℝ) 3 2 (by decide) (by decide) none 5 (fun u v : ℝ × ℝ => u.1 * v.1 + u.2 * v.2)
    (fun u v => by simp [mul_comm]) (fun _ k => k) (fun _ _ _ _ => rfl) (fun i : Fin 2 => i) none (by decide) [2, 3] [4]
    (by decide) (.rows 2 1 fun _ _ => 1) (fun k : Nat => ((k : ℝ) + 1, 2 * ((k : ℝ) + 1)))
    (by
      rw [Matrix.det_fin_two]
      simp [handlesIp]
      norm_num)

end Modred
