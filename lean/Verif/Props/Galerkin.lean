import Verif.Spec.Galerkin
import Verif.Props.Arrays
import Verif.Props.EraModel
import Verif.Lemmas.HandlesLA
import Verif.Model.Derivs
import Mathlib.LinearAlgebra.Finsupp.LinearCombination

/-!
# Galerkin projection of linear systems (C38)
-/

namespace Modred

open Matrix

variable {𝕜 : Type*} [RCLike 𝕜]

/-! ### Arrays -/

section Arrays

variable {n r : Nat}

/-- What stays the same after any calls: the data of the object, and the cached array is the inverse. -/
structure ArraysInv (Φ Ψ : Matrix (Fin n) (Fin r) 𝕜) (flag : Bool) (ws : Weights 𝕜) (g : GalerkinArrays 𝕜 n r) :
    Prop where
  basis : g.basisVecs = Φ
  adjoint : g.adjointBasisVecs = Ψ
  symmetric : g.symmetric = true → Ψ = Φ
  orthonormal : g.isBasisOrthonormal = flag
  weights : g.vecSpace = ws
  proj : ∀ p, g.projArray = some p → ∃ G, ipArray ws Ψ Φ = .ok G ∧ IsUnit G.det ∧ p = G⁻¹

theorem arraysInv_init (Φ : Matrix (Fin n) (Fin r) 𝕜) (adj : Option (Matrix (Fin n) (Fin r) 𝕜)) (flag : Bool)
    (weights : Option (NdArray 𝕜)) (ws : Weights 𝕜) (hw : arraysInit weights = .ok ws) :
    ∃ g, galerkinArraysInit false Φ (adj.map fun a => ⟨n, r, a⟩) flag weights = .ok g ∧
      ArraysInv Φ (adj.getD Φ) flag ws g ∧ g.A = none ∧ g.B = none ∧ g.C = none := by
  cases adj with
  | none =>
    refine ⟨⟨Φ, Φ, true, flag, ws, none, none, none, none⟩, ?_, ⟨rfl, rfl, fun _ => rfl, rfl, rfl, ?_⟩, rfl, rfl, rfl⟩
    · simp [galerkinArraysInit, hw]
    · intro p hp
      cases hp
  | some a =>
    refine ⟨⟨Φ, a, false, flag, ws, none, none, none, none⟩, ?_, ⟨rfl, rfl, ?_, rfl, rfl, ?_⟩, rfl, rfl, rfl⟩
    · simp [galerkinArraysInit, hw]
    · intro h
      cases h
    · intro p hp
      cases hp

theorem galerkinProjArrays_spec {Φ Ψ : Matrix (Fin n) (Fin r) 𝕜} {flag : Bool} {ws : Weights 𝕜}
    {g : GalerkinArrays 𝕜 n r} (h : ArraysInv Φ Ψ flag ws g) :
    ArraysInv Φ Ψ flag ws (galerkinProjArrays g).2 ∧ (galerkinProjArrays g).2.A = g.A ∧
      (galerkinProjArrays g).2.B = g.B ∧ (galerkinProjArrays g).2.C = g.C ∧
      ∀ G, ipArray ws Ψ Φ = .ok G → (galerkinProjArrays g).1 = npInv G := by
  unfold galerkinProjArrays
  have hip : (if g.symmetric then symmIpArray g.vecSpace g.basisVecs
      else ipArray g.vecSpace g.adjointBasisVecs g.basisVecs) = ipArray ws Ψ Φ := by
    by_cases hs : g.symmetric = true
    · rw [if_pos hs, symmIpArray, h.basis, h.weights, h.symmetric hs]
    · rw [if_neg hs, h.basis, h.weights, h.adjoint]
  rw [hip]
  cases hp : g.projArray with
  | some p =>
    obtain ⟨G, hG, hu, rfl⟩ := h.proj p hp
    refine ⟨h, rfl, rfl, rfl, fun G' hG' => ?_⟩
    rw [hG] at hG'
    cases hG'
    rw [npInv, if_pos hu]
  | none =>
    cases hG : ipArray ws Ψ Φ with
    | error e => exact ⟨h, rfl, rfl, rfl, fun G' hG' => by cases hG'⟩
    | ok G =>
      by_cases hu : IsUnit G.det
      · have : npInv G = .ok G⁻¹ := by rw [npInv, if_pos hu]
        dsimp only
        rw [this]
        refine ⟨⟨h.basis, h.adjoint, h.symmetric, h.orthonormal, h.weights, ?_⟩, rfl, rfl, rfl, ?_⟩
        · intro p hp
          cases hp
          exact ⟨G, hG, hu, rfl⟩
        · intro G' hG'
          cases hG'
          exact this.symm
      · have : npInv G = .error .linAlgError := by rw [npInv, if_neg hu]
        dsimp only
        rw [this]
        refine ⟨h, rfl, rfl, rfl, ?_⟩
        intro G' hG'
        cases hG'
        exact this.symm


theorem reduceAArrays_spec {q : Nat} {Φ Ψ : Matrix (Fin n) (Fin r) 𝕜} {flag : Bool} {ws : Weights 𝕜}
    {g : GalerkinArrays 𝕜 n r} (h : ArraysInv Φ Ψ flag ws g) (X : Matrix (Fin n) (Fin q) 𝕜) :
    ArraysInv Φ Ψ flag ws (reduceAArrays g X).2 ∧ (reduceAArrays g X).2.B = g.B ∧ (reduceAArrays g X).2.C = g.C ∧
      (∀ R, (reduceAArrays g X).1 = .ok R → (reduceAArrays g X).2.A = some ⟨q, R⟩) ∧
      ∀ G P, ipArray ws Ψ Φ = .ok G → ipArray ws Ψ X = .ok P →
        GalerkinResult flag G P (reduceAArrays g X).1 ∧
        ((reduceAArrays g X).1 = .error .linAlgError → (reduceAArrays g X).2.A = some ⟨q, P⟩) := by
  obtain ⟨gb, ga, gs, gf, gw, gp, gA, gB, gC⟩ := g
  have h0 := h
  obtain ⟨rfl, rfl, hs, rfl, rfl, hp⟩ := h
  dsimp only at *
  unfold reduceAArrays
  dsimp only
  cases hP : ipArray gw ga X with
  | error e => exact ⟨h0, rfl, rfl, (fun R hR => by cases hR), fun G P _ hP => by cases hP⟩
  | ok P =>
    have h' : ArraysInv gb ga gf gw ⟨gb, ga, gs, gf, gw, gp, some ⟨q, P⟩, gB, gC⟩ := ⟨rfl, rfl, hs, rfl, rfl, hp⟩
    cases gf with
    | true =>
      refine ⟨h', rfl, rfl, ?_, ?_⟩
      · intro R hR
        cases hR
        rfl
      · intro G P' _ hP'
        cases hP'
        exact ⟨⟨fun _ => rfl, (fun hf => by cases hf), (fun hf => by cases hf)⟩, fun he => by cases he⟩
    | false =>
      dsimp only
      simp only [Bool.false_eq_true, if_false]
      obtain ⟨k1, k2, k3, k4, k5⟩ := galerkinProjArrays_spec h'
      generalize galerkinProjArrays (𝕜 := 𝕜) ⟨gb, ga, gs, false, gw, gp, some ⟨q, P⟩, gB, gC⟩ = o at k1 k2 k3 k4 k5 ⊢
      obtain ⟨res, g'⟩ := o
      dsimp only at k1 k2 k3 k4 k5
      cases res with
      | error e =>
        refine ⟨k1, k3, k4, (fun R hR => by cases hR), fun G P' hG hP' => ?_⟩
        cases hP'
        have := k5 G hG
        dsimp only
        unfold npInv at this
        refine ⟨⟨(fun hf' => by cases hf'), fun _ hu => ?_, fun _ hu => ?_⟩, fun _ => k2⟩
        · rw [if_pos hu] at this
          cases this
        · rw [if_neg hu] at this
          cases this
          rfl
      | ok p =>
        refine ⟨⟨k1.basis, k1.adjoint, k1.symmetric, k1.orthonormal, k1.weights, k1.proj⟩, k3, k4, ?_, fun G P' hG hP' => ?_⟩
        · intro R hR
          cases hR
          rfl
        · cases hP'
          have := k5 G hG
          unfold npInv at this
          refine ⟨⟨(fun hf' => by cases hf'), fun _ hu => ?_, fun _ hu => ?_⟩, fun he => by cases he⟩
          · rw [if_pos hu] at this
            cases this
            rfl
          · rw [if_neg hu] at this
            cases this

theorem reduceBArrays_spec {q : Nat} {Φ Ψ : Matrix (Fin n) (Fin r) 𝕜} {flag : Bool} {ws : Weights 𝕜}
    {g : GalerkinArrays 𝕜 n r} (h : ArraysInv Φ Ψ flag ws g) (X : Matrix (Fin n) (Fin q) 𝕜) :
    ArraysInv Φ Ψ flag ws (reduceBArrays g X).2 ∧ (reduceBArrays g X).2.A = g.A ∧ (reduceBArrays g X).2.C = g.C ∧
      (∀ R, (reduceBArrays g X).1 = .ok R → (reduceBArrays g X).2.B = some ⟨q, R⟩) ∧
      ∀ G P, ipArray ws Ψ Φ = .ok G → ipArray ws Ψ X = .ok P →
        GalerkinResult flag G P (reduceBArrays g X).1 ∧
        ((reduceBArrays g X).1 = .error .linAlgError → (reduceBArrays g X).2.B = some ⟨q, P⟩) := by
  obtain ⟨gb, ga, gs, gf, gw, gp, gA, gB, gC⟩ := g
  have h0 := h
  obtain ⟨rfl, rfl, hs, rfl, rfl, hp⟩ := h
  dsimp only at *
  unfold reduceBArrays
  dsimp only
  cases hP : ipArray gw ga X with
  | error e => exact ⟨h0, rfl, rfl, (fun R hR => by cases hR), fun G P _ hP => by cases hP⟩
  | ok P =>
    have h' : ArraysInv gb ga gf gw ⟨gb, ga, gs, gf, gw, gp, gA, some ⟨q, P⟩, gC⟩ := ⟨rfl, rfl, hs, rfl, rfl, hp⟩
    cases gf with
    | true =>
      refine ⟨h', rfl, rfl, ?_, ?_⟩
      · intro R hR
        cases hR
        rfl
      · intro G P' _ hP'
        cases hP'
        exact ⟨⟨fun _ => rfl, (fun hf => by cases hf), (fun hf => by cases hf)⟩, fun he => by cases he⟩
    | false =>
      dsimp only
      simp only [Bool.false_eq_true, if_false]
      obtain ⟨k1, k2, k3, k4, k5⟩ := galerkinProjArrays_spec h'
      generalize galerkinProjArrays (𝕜 := 𝕜) ⟨gb, ga, gs, false, gw, gp, gA, some ⟨q, P⟩, gC⟩ = o at k1 k2 k3 k4 k5 ⊢
      obtain ⟨res, g'⟩ := o
      dsimp only at k1 k2 k3 k4 k5
      cases res with
      | error e =>
        refine ⟨k1, k2, k4, (fun R hR => by cases hR), fun G P' hG hP' => ?_⟩
        cases hP'
        have := k5 G hG
        dsimp only
        unfold npInv at this
        refine ⟨⟨(fun hf' => by cases hf'), fun _ hu => ?_, fun _ hu => ?_⟩, fun _ => k3⟩
        · rw [if_pos hu] at this
          cases this
        · rw [if_neg hu] at this
          cases this
          rfl
      | ok p =>
        refine ⟨⟨k1.basis, k1.adjoint, k1.symmetric, k1.orthonormal, k1.weights, k1.proj⟩, k2, k4, ?_, fun G P' hG hP' => ?_⟩
        · intro R hR
          cases hR
          rfl
        · cases hP'
          have := k5 G hG
          unfold npInv at this
          refine ⟨⟨(fun hf' => by cases hf'), fun _ hu => ?_, fun _ hu => ?_⟩, fun he => by cases he⟩
          · rw [if_pos hu] at this
            cases this
            rfl
          · rw [if_neg hu] at this
            cases this

/-- All that `compute_model` does. -/
theorem galerkinModelArrays_spec {qa qb : Nat} {Φ Ψ : Matrix (Fin n) (Fin r) 𝕜} {flag : Bool} {ws : Weights 𝕜}
    {g : GalerkinArrays 𝕜 n r} (h : ArraysInv Φ Ψ flag ws g) (X : Matrix (Fin n) (Fin qa) 𝕜)
    (Y : Matrix (Fin n) (Fin qb) 𝕜) (c : Outputs 𝕜) :
    ArraysInv Φ Ψ flag ws (galerkinModelArrays g X Y c).2 ∧
      (∀ e, (reduceAArrays g X).1 = .error e → (galerkinModelArrays g X Y c).1 = .error e) ∧
      ∀ a, (reduceAArrays g X).1 = .ok a →
        (∀ e, (reduceBArrays (reduceAArrays g X).2 Y).1 = .error e → (galerkinModelArrays g X Y c).1 = .error e) ∧
        ∀ b, (reduceBArrays (reduceAArrays g X).2 Y).1 = .ok b →
          (galerkinModelArrays g X Y c).1 = .ok (some ⟨qa, a⟩, some ⟨qb, b⟩, some (reduceCArrays g c).1) := by
  obtain ⟨h1, _, _, h4, _⟩ := reduceAArrays_spec h X
  unfold galerkinModelArrays
  generalize reduceAArrays g X = o at *
  obtain ⟨ra, g1⟩ := o
  cases ra with
  | error e => exact ⟨h1, (fun e he => by cases he; rfl), fun a ha => by cases ha⟩
  | ok a =>
    dsimp only at *
    obtain ⟨k1, k2, _, k4, _⟩ := reduceBArrays_spec h1 Y
    generalize reduceBArrays g1 Y = o at *
    obtain ⟨rb, g2⟩ := o
    cases rb with
    | error e =>
      exact ⟨k1, (fun e he => by cases he), fun a _ => ⟨(fun e he => by cases he; rfl), fun b hb => by cases hb⟩⟩
    | ok b =>
      dsimp only at *
      refine ⟨⟨k1.basis, k1.adjoint, k1.symmetric, k1.orthonormal, k1.weights, k1.proj⟩, (fun e he => by cases he),
        fun a' ha => ?_⟩
      cases ha
      refine ⟨(fun e he => by cases he), fun b' hb => ?_⟩
      cases hb
      simp only [reduceCArrays]
      rw [k2, h4 a rfl, k4 b rfl]

theorem arraysInv_calls {Φ Ψ : Matrix (Fin n) (Fin r) 𝕜} {flag : Bool} {ws : Weights 𝕜}
    (calls : List (ArraysCall 𝕜 n)) (g : GalerkinArrays 𝕜 n r) (h : ArraysInv Φ Ψ flag ws g) :
    ArraysInv Φ Ψ flag ws (calls.foldl ArraysCall.after g) := by
  induction calls generalizing g with
  | nil => exact h
  | cons c cs ih =>
    refine ih _ ?_
    cases c with
    | reduceA x => exact (reduceAArrays_spec h x).1
    | reduceB x => exact (reduceBArrays_spec h x).1
    | reduceC c => exact ⟨h.basis, h.adjoint, h.symmetric, h.orthonormal, h.weights, h.proj⟩
    | model a b c => exact (galerkinModelArrays_spec h a b c).1

variable (Φ : Matrix (Fin n) (Fin r) 𝕜) (adj : Option (Matrix (Fin n) (Fin r) 𝕜)) (flag : Bool)
  (weights : Option (NdArray 𝕜)) (ws : Weights 𝕜) (g : GalerkinArrays 𝕜 n r) (calls : List (ArraysCall 𝕜 n))

include adj weights in
theorem arraysInv_reached (hw : arraysInit weights = .ok ws)
    (hg : galerkinArraysInit false Φ (adj.map fun a => ⟨n, r, a⟩) flag weights = .ok g) :
    ArraysInv Φ (adj.getD Φ) flag ws (calls.foldl ArraysCall.after g) := by
  obtain ⟨g', h1, h2, _⟩ := arraysInv_init Φ adj flag weights ws hw
  rw [hg] at h1
  cases h1
  exact arraysInv_calls calls g h2

/-- After any calls, also ones that raised exceptions, the reductions return
`(Psi^* W Phi)^-1 Psi^* W A Phi`, `(Psi^* W Phi)^-1 Psi^* W B` and `C Phi`, without the first factor if the
basis is said to be orthonormal. -/
theorem C38_arrays (hw : arraysInit weights = .ok ws) (hfit : ws.Fits n)
    (hg : galerkinArraysInit false Φ (adj.map fun a => ⟨n, r, a⟩) flag weights = .ok g) :
    (∀ q (X : Matrix (Fin n) (Fin q) 𝕜), GalerkinResult flag ((adj.getD Φ)ᴴ * ws.matrix n * Φ)
      ((adj.getD Φ)ᴴ * ws.matrix n * X) (reduceAArrays (calls.foldl ArraysCall.after g) X).1) ∧
    (∀ q (X : Matrix (Fin n) (Fin q) 𝕜), GalerkinResult flag ((adj.getD Φ)ᴴ * ws.matrix n * Φ)
      ((adj.getD Φ)ᴴ * ws.matrix n * X) (reduceBArrays (calls.foldl ArraysCall.after g) X).1) ∧
    (∀ k p x, (reduceCArrays (calls.foldl ArraysCall.after g) (.rows k p x)).1 = ⟨k, p, x⟩) ∧
    ∀ k x, (reduceCArrays (calls.foldl ArraysCall.after g) (.numbers k x)).1 = ⟨1, k, fun _ j => x j⟩ := by
  have h := arraysInv_reached Φ adj flag weights ws g calls hw hg
  refine ⟨fun q X => ?_, fun q X => ?_, fun k p x => rfl, fun k x => rfl⟩
  · exact ((reduceAArrays_spec h X).2.2.2.2 _ _ (C45_formula ws hfit _ _) (C45_formula ws hfit _ _)).1
  · exact ((reduceBArrays_spec h X).2.2.2.2 _ _ (C45_formula ws hfit _ _) (C45_formula ws hfit _ _)).1

/-- Weights of a wrong size raise `ValueError`. -/
theorem C38_arrays_wrong_weights (hw : arraysInit weights = .ok ws) (hfit : ¬ ws.Fits n)
    (hg : galerkinArraysInit false Φ (adj.map fun a => ⟨n, r, a⟩) flag weights = .ok g) {q : Nat}
    (X : Matrix (Fin n) (Fin q) 𝕜) :
    (reduceAArrays (calls.foldl ArraysCall.after g) X).1 = .error .valueError ∧
      (reduceBArrays (calls.foldl ArraysCall.after g) X).1 = .error .valueError := by
  have h := arraysInv_reached Φ adj flag weights ws g calls hw hg
  unfold reduceAArrays reduceBArrays
  rw [h.weights, C45_wrong_size ws hfit]
  exact ⟨rfl, rfl⟩

/-- The constructor: bases of different shapes raise `ValueError`, distributed execution `RuntimeError`. -/
theorem C38_arrays_constructor (a : Arr 𝕜) :
    galerkinArraysInit true Φ (some a) flag weights = .error .runtimeError ∧
      (¬ (a.m = n ∧ a.n = r) → galerkinArraysInit false Φ (some a) flag weights = .error .valueError) ∧
      (arraysInit weights = .ok ws → ∃ g, galerkinArraysInit false Φ (adj.map fun a => ⟨n, r, a⟩) flag weights = .ok g) := by
  refine ⟨rfl, fun h => ?_, fun hw => ?_⟩
  · simp [galerkinArraysInit, h]
  · obtain ⟨g, h, _⟩ := arraysInv_init Φ adj flag weights ws hw
    exact ⟨g, h⟩

/-- The attributes, which `put_A_reduced` and the others put, are what the last calls returned; a reduction
changes only its own. -/
theorem C38_arrays_attributes (hw : arraysInit weights = .ok ws)
    (hg : galerkinArraysInit false Φ (adj.map fun a => ⟨n, r, a⟩) flag weights = .ok g) {q : Nat}
    (X : Matrix (Fin n) (Fin q) 𝕜) (c : Outputs 𝕜) :
    let self := calls.foldl ArraysCall.after g
    ((∀ R, (reduceAArrays self X).1 = .ok R → (reduceAArrays self X).2.A = some ⟨q, R⟩) ∧
      (reduceAArrays self X).2.B = self.B ∧ (reduceAArrays self X).2.C = self.C) ∧
    ((∀ R, (reduceBArrays self X).1 = .ok R → (reduceBArrays self X).2.B = some ⟨q, R⟩) ∧
      (reduceBArrays self X).2.A = self.A ∧ (reduceBArrays self X).2.C = self.C) ∧
    (reduceCArrays self c).2.C = some (reduceCArrays self c).1 ∧
      (reduceCArrays self c).2.A = self.A ∧ (reduceCArrays self c).2.B = self.B := by
  have h := arraysInv_reached Φ adj flag weights ws g calls hw hg
  obtain ⟨_, h2, h3, h4, _⟩ := reduceAArrays_spec h X
  obtain ⟨_, k2, k3, k4, _⟩ := reduceBArrays_spec h X
  exact ⟨⟨h4, h2, h3⟩, ⟨k4, k2, k3⟩, rfl, rfl, rfl⟩

/-- `compute_model` returns the three results, or raises the first exception. -/
theorem C38_arrays_model (hw : arraysInit weights = .ok ws) (hfit : ws.Fits n)
    (hg : galerkinArraysInit false Φ (adj.map fun a => ⟨n, r, a⟩) flag weights = .ok g) {qa qb : Nat}
    (X : Matrix (Fin n) (Fin qa) 𝕜) (Y : Matrix (Fin n) (Fin qb) 𝕜) (c : Outputs 𝕜) :
    let self := calls.foldl ArraysCall.after g
    (∀ a b, (reduceAArrays self X).1 = .ok a → (reduceBArrays self Y).1 = .ok b →
      (galerkinModelArrays self X Y c).1 = .ok (some ⟨qa, a⟩, some ⟨qb, b⟩, some (reduceCArrays self c).1)) ∧
    ∀ e, (reduceAArrays self X).1 = .error e → (galerkinModelArrays self X Y c).1 = .error e := by
  intro self
  have h := arraysInv_reached Φ adj flag weights ws g calls hw hg
  obtain ⟨_, h2, h3⟩ := galerkinModelArrays_spec h X Y c
  refine ⟨fun a b ha hb => ?_, h2⟩
  refine (h3 a ha).2 b ?_
  rw [← hb]
  have k1 := ((reduceBArrays_spec (reduceAArrays_spec h X).1 Y).2.2.2.2 _ _ (C45_formula ws hfit _ _)
    (C45_formula ws hfit _ _)).1
  have k2 := ((reduceBArrays_spec h Y).2.2.2.2 _ _ (C45_formula ws hfit _ _) (C45_formula ws hfit _ _)).1
  cases hf : flag with
  | true => rw [k1.orthonormal hf, k2.orthonormal hf]
  | false =>
    by_cases hu : IsUnit ((adj.getD Φ)ᴴ * ws.matrix n * Φ).det
    · rw [k1.regular hf hu, k2.regular hf hu]
    · rw [k1.singular hf hu, k2.singular hf hu]

/-- If the projection array does not exist, the attribute keeps the array that is not projected. -/
theorem C38_arrays_attribute_after_error (hw : arraysInit weights = .ok ws) (hfit : ws.Fits n)
    (hg : galerkinArraysInit false Φ (adj.map fun a => ⟨n, r, a⟩) flag weights = .ok g) {q : Nat}
    (X : Matrix (Fin n) (Fin q) 𝕜) (he : (reduceAArrays (calls.foldl ArraysCall.after g) X).1 = .error .linAlgError) :
    (reduceAArrays (calls.foldl ArraysCall.after g) X).2.A = some ⟨q, (adj.getD Φ)ᴴ * ws.matrix n * X⟩ := by
  have h := arraysInv_reached Φ adj flag weights ws g calls hw hg
  exact ((reduceAArrays_spec h X).2.2.2.2 _ _ (C45_formula ws hfit _ _) (C45_formula ws hfit _ _)).2 he

end Arrays

/-! ### Consequences for arrays -/

section

variable {n r q : Nat} {W : Matrix (Fin n) (Fin n) 𝕜} {Φ Ψ : Matrix (Fin n) (Fin r) 𝕜} {flag : Bool}

/-- The residual `A Phi - Phi A_r` is orthogonal to the adjoint basis, and no other array has this
property. -/
theorem C38_residual (X : Matrix (Fin n) (Fin q) 𝕜) (res : Except Err (Matrix (Fin r) (Fin q) 𝕜))
    (R : Matrix (Fin r) (Fin q) 𝕜) (hflag : flag = true → Ψᴴ * W * Φ = 1)
    (h : GalerkinResult flag (Ψᴴ * W * Φ) (Ψᴴ * W * X) res) (hR : res = .ok R) (R' : Matrix (Fin r) (Fin q) 𝕜) :
    Ψᴴ * W * (X - Φ * R') = 0 ↔ R' = R := by
  have key : IsUnit (Ψᴴ * W * Φ).det ∧ R = (Ψᴴ * W * Φ)⁻¹ * (Ψᴴ * W * X) := by
    cases hf : flag with
    | true =>
      have h1 := h.orthonormal hf
      rw [hR] at h1
      cases h1
      rw [hflag hf]
      simp
    | false =>
      by_cases hu : IsUnit (Ψᴴ * W * Φ).det
      · have h1 := h.regular hf hu
        rw [hR] at h1
        cases h1
        exact ⟨hu, rfl⟩
      · have h1 := h.singular hf hu
        rw [hR] at h1
        cases h1
  obtain ⟨hu, hR'⟩ := key
  rw [Matrix.mul_sub, sub_eq_zero, ← Matrix.mul_assoc, hR']
  constructor
  · intro h1
    rw [h1, ← Matrix.mul_assoc, Matrix.nonsing_inv_mul _ hu, Matrix.one_mul]
  · intro h1
    rw [h1, ← Matrix.mul_assoc, Matrix.mul_nonsing_inv _ hu, Matrix.one_mul]

/-- For biorthonormal bases the flag makes no difference. -/
theorem C38_flag (X : Matrix (Fin n) (Fin q) 𝕜) (h : Ψᴴ * W * Φ = 1) (res res' : Except Err (Matrix (Fin r) (Fin q) 𝕜))
    (h1 : GalerkinResult true (Ψᴴ * W * Φ) (Ψᴴ * W * X) res)
    (h2 : GalerkinResult false (Ψᴴ * W * Φ) (Ψᴴ * W * X) res') : res = res' := by
  rw [h1.orthonormal rfl, h2.regular rfl (by rw [h]; simp), h]
  simp

/-- If `A` maps the basis into its span and the columns of `B` are in the span, the reduced model has the same
Markov parameters. -/
theorem C38_invariant_subspace {qb p : Nat} (A : Matrix (Fin n) (Fin n) 𝕜) (B : Matrix (Fin n) (Fin qb) 𝕜)
    (C : Matrix (Fin p) (Fin n) 𝕜) (M : Matrix (Fin r) (Fin r) 𝕜) (N : Matrix (Fin r) (Fin qb) 𝕜) (hA : A * Φ = Φ * M)
    (hB : B = Φ * N) (hflag : flag = true → Ψᴴ * W * Φ = 1) (resA : Except Err (Matrix (Fin r) (Fin r) 𝕜))
    (resB : Except Err (Matrix (Fin r) (Fin qb) 𝕜)) (Ar : Matrix (Fin r) (Fin r) 𝕜) (Br : Matrix (Fin r) (Fin qb) 𝕜)
    (hAr : GalerkinResult flag (Ψᴴ * W * Φ) (Ψᴴ * W * (A * Φ)) resA) (hArR : resA = .ok Ar)
    (hBr : GalerkinResult flag (Ψᴴ * W * Φ) (Ψᴴ * W * B) resB) (hBrR : resB = .ok Br) (k : Nat) :
    C * Φ * Ar ^ k * Br = C * A ^ k * B := by
  have h1 : M = Ar := (C38_residual _ _ _ hflag hAr hArR M).mp (by rw [hA, sub_self, Matrix.mul_zero])
  have h2 : N = Br := (C38_residual _ _ _ hflag hBr hBrR N).mp (by rw [hB, sub_self, Matrix.mul_zero])
  subst h1 h2
  have h3 : A ^ k * Φ = Φ * M ^ k := by
    induction k with
    | zero => simp
    | succ k ih => rw [pow_succ, pow_succ, Matrix.mul_assoc, hA, ← Matrix.mul_assoc, ih, Matrix.mul_assoc]
  rw [hB, Matrix.mul_assoc C, ← h3]
  simp only [Matrix.mul_assoc]

/-- The model of the time derivatives: if `A_r` is the model of one time step, the difference quotients
`(A Phi - Phi) / dt` give `(A_r - 1) / dt`. -/
theorem C57_derivatives (X : Matrix (Fin n) (Fin r) 𝕜) (dt : 𝕜) (hflag : flag = true → Ψᴴ * W * Φ = 1)
    (res res' : Except Err (Matrix (Fin r) (Fin r) 𝕜)) (R R' : Matrix (Fin r) (Fin r) 𝕜)
    (h : GalerkinResult flag (Ψᴴ * W * Φ) (Ψᴴ * W * X) res) (hR : res = .ok R)
    (h' : GalerkinResult flag (Ψᴴ * W * Φ) (Ψᴴ * W * computeDerivsArrays Φ X dt) res') (hR' : res' = .ok R') :
    R' = dt⁻¹ • (R - 1) := by
  refine ((C38_residual _ _ _ hflag h' hR' _).mp ?_).symm
  have h1 := (C38_residual _ _ _ hflag h hR R).mpr rfl
  have h2 : computeDerivsArrays Φ X dt - Φ * (dt⁻¹ • (R - 1)) = dt⁻¹ • (X - Φ * R) := by
    have h3 : computeDerivsArrays Φ X dt = dt⁻¹ • (X - Φ) := by
      ext i j
      simp [computeDerivsArrays, div_eq_inv_mul]
    rw [h3, Matrix.mul_smul, Matrix.mul_sub, Matrix.mul_one, ← smul_sub]
    congr 1
    abel
  rw [h2, Matrix.mul_smul, h1, smul_zero]

/-- A basis of the whole state space keeps every Markov parameter. -/
theorem C38_full_basis {qb p : Nat} {Φ Ψ : Matrix (Fin n) (Fin n) 𝕜} (A : Matrix (Fin n) (Fin n) 𝕜)
    (B : Matrix (Fin n) (Fin qb) 𝕜)
    (C : Matrix (Fin p) (Fin n) 𝕜) (hflag : flag = true → Ψᴴ * W * Φ = 1)
    (resA : Except Err (Matrix (Fin n) (Fin n) 𝕜)) (resB : Except Err (Matrix (Fin n) (Fin qb) 𝕜))
    (Ar : Matrix (Fin n) (Fin n) 𝕜) (Br : Matrix (Fin n) (Fin qb) 𝕜)
    (hAr : GalerkinResult flag (Ψᴴ * W * Φ) (Ψᴴ * W * (A * Φ)) resA) (hArR : resA = .ok Ar)
    (hBr : GalerkinResult flag (Ψᴴ * W * Φ) (Ψᴴ * W * B) resB) (hBrR : resB = .ok Br) (k : Nat) :
    C * Φ * Ar ^ k * Br = C * A ^ k * B := by
  have hu : IsUnit Φ.det := by
    have : IsUnit (Ψᴴ * W * Φ).det := by
      cases hf : flag with
      | true => rw [hflag hf]; simp
      | false =>
        by_contra hu
        have h1 := hAr.singular hf hu
        rw [hArR] at h1
        cases h1
    rw [Matrix.det_mul] at this
    exact isUnit_of_mul_isUnit_right this
  refine C38_invariant_subspace A B C (Φ⁻¹ * (A * Φ)) (Φ⁻¹ * B) ?_ ?_ hflag resA resB Ar Br hAr hArR hBr hBrR k <;>
    rw [← Matrix.mul_assoc, Matrix.mul_nonsing_inv _ hu, Matrix.one_mul]

end

/-! ### Handles -/

section Handles

variable {E : Type*} {r : Nat}

/-- What stays the same after any calls: the data of the object, and the cached array is the inverse. -/
structure HandlesInv (Φ Ψ : Fin r → E) (flag : Bool) (ip : E → E → 𝕜) (g : GalerkinHandles 𝕜 E r) :
    Prop where
  basis : g.basisVecs = Φ
  adjoint : g.adjointBasisVecs = Ψ
  symmetric : g.symmetric = true → Ψ = Φ
  orthonormal : g.isBasisOrthonormal = flag
  weights : g.vecSpace = ip
  proj : ∀ p, g.projArray = some p → ∃ G, handlesIpChecked ip Ψ Φ = .ok G ∧ IsUnit G.det ∧ p = G⁻¹

theorem galerkinProjHandles_spec {Φ Ψ : Fin r → E} {flag : Bool} {ip : E → E → 𝕜}
    {g : GalerkinHandles 𝕜 E r} (h : HandlesInv Φ Ψ flag ip g) :
    HandlesInv Φ Ψ flag ip (galerkinProjHandles g).2 ∧ (galerkinProjHandles g).2.A = g.A ∧
      (galerkinProjHandles g).2.B = g.B ∧ (galerkinProjHandles g).2.C = g.C ∧
      ∀ G, handlesIpChecked ip Ψ Φ = .ok G → (galerkinProjHandles g).1 = npInv G := by
  unfold galerkinProjHandles
  have hip : (if g.symmetric then (if r = 0 then .error .indexError else .ok (handlesSymmIp g.vecSpace g.basisVecs))
      else handlesIpChecked g.vecSpace g.adjointBasisVecs g.basisVecs) = handlesIpChecked ip Ψ Φ := by
    by_cases hs : g.symmetric = true
    · rw [if_pos hs, h.basis, h.weights, h.symmetric hs]
      simp [handlesIpChecked, handlesSymmIp]
    · rw [if_neg hs, h.basis, h.weights, h.adjoint]
  rw [hip]
  cases hp : g.projArray with
  | some p =>
    obtain ⟨G, hG, hu, rfl⟩ := h.proj p hp
    refine ⟨h, rfl, rfl, rfl, fun G' hG' => ?_⟩
    rw [hG] at hG'
    cases hG'
    rw [npInv, if_pos hu]
  | none =>
    cases hG : handlesIpChecked ip Ψ Φ with
    | error e => exact ⟨h, rfl, rfl, rfl, fun G' hG' => by cases hG'⟩
    | ok G =>
      by_cases hu : IsUnit G.det
      · have : npInv G = .ok G⁻¹ := by rw [npInv, if_pos hu]
        dsimp only
        rw [this]
        refine ⟨⟨h.basis, h.adjoint, h.symmetric, h.orthonormal, h.weights, ?_⟩, rfl, rfl, rfl, ?_⟩
        · intro p hp
          cases hp
          exact ⟨G, hG, hu, rfl⟩
        · intro G' hG'
          cases hG'
          exact this.symm
      · have : npInv G = .error .linAlgError := by rw [npInv, if_neg hu]
        dsimp only
        rw [this]
        refine ⟨h, rfl, rfl, rfl, ?_⟩
        intro G' hG'
        cases hG'
        exact this.symm


theorem reduceAHandles_spec {q : Nat} {Φ Ψ : Fin r → E} {flag : Bool} {ip : E → E → 𝕜}
    {g : GalerkinHandles 𝕜 E r} (h : HandlesInv Φ Ψ flag ip g) (X : Fin q → E) :
    HandlesInv Φ Ψ flag ip (reduceAHandles g X).2 ∧ (reduceAHandles g X).2.B = g.B ∧ (reduceAHandles g X).2.C = g.C ∧
      (∀ R, (reduceAHandles g X).1 = .ok R → (reduceAHandles g X).2.A = some ⟨q, R⟩) ∧
      ∀ G P, handlesIpChecked ip Ψ Φ = .ok G → handlesIpChecked ip Ψ X = .ok P →
        GalerkinResult flag G P (reduceAHandles g X).1 ∧
        ((reduceAHandles g X).1 = .error .linAlgError → (reduceAHandles g X).2.A = some ⟨q, P⟩) := by
  obtain ⟨gb, ga, gs, gf, gw, gp, gA, gB, gC⟩ := g
  have h0 := h
  obtain ⟨rfl, rfl, hs, rfl, rfl, hp⟩ := h
  dsimp only at *
  unfold reduceAHandles
  dsimp only
  cases hP : handlesIpChecked gw ga X with
  | error e => exact ⟨h0, rfl, rfl, (fun R hR => by cases hR), fun G P _ hP => by cases hP⟩
  | ok P =>
    have h' : HandlesInv gb ga gf gw ⟨gb, ga, gs, gf, gw, gp, some ⟨q, P⟩, gB, gC⟩ := ⟨rfl, rfl, hs, rfl, rfl, hp⟩
    cases gf with
    | true =>
      refine ⟨h', rfl, rfl, ?_, ?_⟩
      · intro R hR
        cases hR
        rfl
      · intro G P' _ hP'
        cases hP'
        exact ⟨⟨fun _ => rfl, (fun hf => by cases hf), (fun hf => by cases hf)⟩, fun he => by cases he⟩
    | false =>
      dsimp only
      simp only [Bool.false_eq_true, if_false]
      obtain ⟨k1, k2, k3, k4, k5⟩ := galerkinProjHandles_spec h'
      generalize galerkinProjHandles (𝕜 := 𝕜) ⟨gb, ga, gs, false, gw, gp, some ⟨q, P⟩, gB, gC⟩ = o at k1 k2 k3 k4 k5 ⊢
      obtain ⟨res, g'⟩ := o
      dsimp only at k1 k2 k3 k4 k5
      cases res with
      | error e =>
        refine ⟨k1, k3, k4, (fun R hR => by cases hR), fun G P' hG hP' => ?_⟩
        cases hP'
        have := k5 G hG
        dsimp only
        unfold npInv at this
        refine ⟨⟨(fun hf' => by cases hf'), fun _ hu => ?_, fun _ hu => ?_⟩, fun _ => k2⟩
        · rw [if_pos hu] at this
          cases this
        · rw [if_neg hu] at this
          cases this
          rfl
      | ok p =>
        refine ⟨⟨k1.basis, k1.adjoint, k1.symmetric, k1.orthonormal, k1.weights, k1.proj⟩, k3, k4, ?_, fun G P' hG hP' => ?_⟩
        · intro R hR
          cases hR
          rfl
        · cases hP'
          have := k5 G hG
          unfold npInv at this
          refine ⟨⟨(fun hf' => by cases hf'), fun _ hu => ?_, fun _ hu => ?_⟩, fun he => by cases he⟩
          · rw [if_pos hu] at this
            cases this
            rfl
          · rw [if_neg hu] at this
            cases this

theorem reduceBHandles_spec {q : Nat} {Φ Ψ : Fin r → E} {flag : Bool} {ip : E → E → 𝕜}
    {g : GalerkinHandles 𝕜 E r} (h : HandlesInv Φ Ψ flag ip g) (X : Fin q → E) :
    HandlesInv Φ Ψ flag ip (reduceBHandles g X).2 ∧ (reduceBHandles g X).2.A = g.A ∧ (reduceBHandles g X).2.C = g.C ∧
      (∀ R, (reduceBHandles g X).1 = .ok R → (reduceBHandles g X).2.B = some ⟨q, R⟩) ∧
      ∀ G P, handlesIpChecked ip Ψ Φ = .ok G → handlesIpChecked ip Ψ X = .ok P →
        GalerkinResult flag G P (reduceBHandles g X).1 ∧
        ((reduceBHandles g X).1 = .error .linAlgError → (reduceBHandles g X).2.B = some ⟨q, P⟩) := by
  obtain ⟨gb, ga, gs, gf, gw, gp, gA, gB, gC⟩ := g
  have h0 := h
  obtain ⟨rfl, rfl, hs, rfl, rfl, hp⟩ := h
  dsimp only at *
  unfold reduceBHandles
  dsimp only
  cases hP : handlesIpChecked gw ga X with
  | error e => exact ⟨h0, rfl, rfl, (fun R hR => by cases hR), fun G P _ hP => by cases hP⟩
  | ok P =>
    have h' : HandlesInv gb ga gf gw ⟨gb, ga, gs, gf, gw, gp, gA, some ⟨q, P⟩, gC⟩ := ⟨rfl, rfl, hs, rfl, rfl, hp⟩
    cases gf with
    | true =>
      refine ⟨h', rfl, rfl, ?_, ?_⟩
      · intro R hR
        cases hR
        rfl
      · intro G P' _ hP'
        cases hP'
        exact ⟨⟨fun _ => rfl, (fun hf => by cases hf), (fun hf => by cases hf)⟩, fun he => by cases he⟩
    | false =>
      dsimp only
      simp only [Bool.false_eq_true, if_false]
      obtain ⟨k1, k2, k3, k4, k5⟩ := galerkinProjHandles_spec h'
      generalize galerkinProjHandles (𝕜 := 𝕜) ⟨gb, ga, gs, false, gw, gp, gA, some ⟨q, P⟩, gC⟩ = o at k1 k2 k3 k4 k5 ⊢
      obtain ⟨res, g'⟩ := o
      dsimp only at k1 k2 k3 k4 k5
      cases res with
      | error e =>
        refine ⟨k1, k2, k4, (fun R hR => by cases hR), fun G P' hG hP' => ?_⟩
        cases hP'
        have := k5 G hG
        dsimp only
        unfold npInv at this
        refine ⟨⟨(fun hf' => by cases hf'), fun _ hu => ?_, fun _ hu => ?_⟩, fun _ => k3⟩
        · rw [if_pos hu] at this
          cases this
        · rw [if_neg hu] at this
          cases this
          rfl
      | ok p =>
        refine ⟨⟨k1.basis, k1.adjoint, k1.symmetric, k1.orthonormal, k1.weights, k1.proj⟩, k2, k4, ?_, fun G P' hG hP' => ?_⟩
        · intro R hR
          cases hR
          rfl
        · cases hP'
          have := k5 G hG
          unfold npInv at this
          refine ⟨⟨(fun hf' => by cases hf'), fun _ hu => ?_, fun _ hu => ?_⟩, fun he => by cases he⟩
          · rw [if_pos hu] at this
            cases this
            rfl
          · rw [if_neg hu] at this
            cases this

/-- All that `compute_model` does. -/
theorem galerkinModelHandles_spec {qa qb : Nat} {Φ Ψ : Fin r → E} {flag : Bool} {ip : E → E → 𝕜}
    {g : GalerkinHandles 𝕜 E r} (h : HandlesInv Φ Ψ flag ip g) (X : Fin qa → E)
    (Y : Fin qb → E) (c : Outputs 𝕜) :
    HandlesInv Φ Ψ flag ip (galerkinModelHandles g X Y c).2 ∧
      (∀ e, (reduceAHandles g X).1 = .error e → (galerkinModelHandles g X Y c).1 = .error e) ∧
      ∀ a, (reduceAHandles g X).1 = .ok a →
        (∀ e, (reduceBHandles (reduceAHandles g X).2 Y).1 = .error e → (galerkinModelHandles g X Y c).1 = .error e) ∧
        ∀ b, (reduceBHandles (reduceAHandles g X).2 Y).1 = .ok b →
          (galerkinModelHandles g X Y c).1 = .ok (some ⟨qa, a⟩, some ⟨qb, b⟩, some (reduceCHandles g c).1) := by
  obtain ⟨h1, _, _, h4, _⟩ := reduceAHandles_spec h X
  unfold galerkinModelHandles
  generalize reduceAHandles g X = o at *
  obtain ⟨ra, g1⟩ := o
  cases ra with
  | error e => exact ⟨h1, (fun e he => by cases he; rfl), fun a ha => by cases ha⟩
  | ok a =>
    dsimp only at *
    obtain ⟨k1, k2, _, k4, _⟩ := reduceBHandles_spec h1 Y
    generalize reduceBHandles g1 Y = o at *
    obtain ⟨rb, g2⟩ := o
    cases rb with
    | error e =>
      exact ⟨k1, (fun e he => by cases he), fun a _ => ⟨(fun e he => by cases he; rfl), fun b hb => by cases hb⟩⟩
    | ok b =>
      dsimp only at *
      refine ⟨⟨k1.basis, k1.adjoint, k1.symmetric, k1.orthonormal, k1.weights, k1.proj⟩, (fun e he => by cases he),
        fun a' ha => ?_⟩
      cases ha
      refine ⟨(fun e he => by cases he), fun b' hb => ?_⟩
      cases hb
      simp only [reduceCHandles]
      rw [k2, h4 a rfl, k4 b rfl]

theorem handlesInv_calls {Φ Ψ : Fin r → E} {flag : Bool} {ip : E → E → 𝕜}
    (calls : List (HandlesCall 𝕜 E)) (g : GalerkinHandles 𝕜 E r) (h : HandlesInv Φ Ψ flag ip g) :
    HandlesInv Φ Ψ flag ip (calls.foldl HandlesCall.after g) := by
  induction calls generalizing g with
  | nil => exact h
  | cons c cs ih =>
    refine ih _ ?_
    cases c with
    | reduceA x => exact (reduceAHandles_spec h x).1
    | reduceB x => exact (reduceBHandles_spec h x).1
    | reduceC c => exact ⟨h.basis, h.adjoint, h.symmetric, h.orthonormal, h.weights, h.proj⟩
    | model a b c => exact (galerkinModelHandles_spec h a b c).1

variable {s : Nat} (ip : E → E → 𝕜) (Φ : Fin r → E) (adj : Option (Fin r → E)) (flag : Bool) (g : GalerkinHandles 𝕜 E r)
  (calls : List (HandlesCall 𝕜 E))

theorem handlesInv_reached (hg : galerkinHandlesInit ip Φ adj flag = .ok g) :
    HandlesInv Φ (adj.getD Φ) flag ip (calls.foldl HandlesCall.after g) := by
  refine handlesInv_calls calls g ?_
  cases adj with
  | none =>
    cases hg
    exact ⟨rfl, rfl, fun _ => rfl, rfl, rfl, fun p hp => by cases hp⟩
  | some a =>
    simp only [galerkinHandlesInit, dif_pos] at hg
    cases hg
    exact ⟨rfl, rfl, (fun h => by cases h), rfl, rfl, fun p hp => by cases hp⟩

/-- The same for handles; the outputs of the basis vectors are the columns of `C Phi`. -/
theorem C38_handles (hr : 0 < r) (hg : galerkinHandlesInit ip Φ adj flag = .ok g) :
    (∀ q (X : Fin q → E), 0 < q → GalerkinResult flag (handlesIp ip (adj.getD Φ) Φ)
      (handlesIp ip (adj.getD Φ) X) (reduceAHandles (calls.foldl HandlesCall.after g) X).1) ∧
    (∀ q (X : Fin q → E), 0 < q → GalerkinResult flag (handlesIp ip (adj.getD Φ) Φ)
      (handlesIp ip (adj.getD Φ) X) (reduceBHandles (calls.foldl HandlesCall.after g) X).1) ∧
    (∀ k p x, (reduceCHandles (calls.foldl HandlesCall.after g) (.rows k p x)).1 = ⟨p, k, fun i j => x j i⟩) ∧
    ∀ k x, (reduceCHandles (calls.foldl HandlesCall.after g) (.numbers k x)).1 = ⟨k, 1, fun i _ => x i⟩ := by
  have h := handlesInv_reached ip Φ adj flag g calls hg
  have hip : ∀ q (X : Fin q → E), 0 < q → handlesIpChecked ip (adj.getD Φ) X = .ok (handlesIp ip (adj.getD Φ) X) := by
    intro q X hq
    unfold handlesIpChecked
    rw [if_neg (by omega)]
  refine ⟨fun q X hq => ?_, fun q X hq => ?_, fun k p x => rfl, fun k x => rfl⟩
  · exact ((reduceAHandles_spec h X).2.2.2.2 _ _ (hip _ _ hr) (hip _ _ hq)).1
  · exact ((reduceBHandles_spec h X).2.2.2.2 _ _ (hip _ _ hr) (hip _ _ hq)).1

/-- Without vectors or data the reductions raise `IndexError`. -/
theorem C38_handles_empty (hg : galerkinHandlesInit ip Φ adj flag = .ok g) {q : Nat} (h0 : r = 0 ∨ q = 0) (X : Fin q → E) :
    (reduceAHandles (calls.foldl HandlesCall.after g) X).1 = .error .indexError ∧
      (reduceBHandles (calls.foldl HandlesCall.after g) X).1 = .error .indexError := by
  unfold reduceAHandles reduceBHandles handlesIpChecked
  rw [if_pos h0]
  exact ⟨rfl, rfl⟩

/-- The constructor: different numbers of basis vectors raise `ValueError`. -/
theorem C38_handles_constructor (a : Fin s → E) :
    (s ≠ r → galerkinHandlesInit ip Φ (some a) flag = .error .valueError) ∧
      ∃ g, galerkinHandlesInit ip Φ adj flag = .ok g := by
  refine ⟨fun h => ?_, ?_⟩
  · simp [galerkinHandlesInit, h]
  · cases adj with
    | none => exact ⟨_, rfl⟩
    | some a => simp [galerkinHandlesInit]

/-- The attributes are what the last calls returned. -/
theorem C38_handles_attributes (hg : galerkinHandlesInit ip Φ adj flag = .ok g) {q : Nat} (X : Fin q → E) (c : Outputs 𝕜) :
    let self := calls.foldl HandlesCall.after g
    ((∀ R, (reduceAHandles self X).1 = .ok R → (reduceAHandles self X).2.A = some ⟨q, R⟩) ∧
      (reduceAHandles self X).2.B = self.B ∧ (reduceAHandles self X).2.C = self.C) ∧
    ((∀ R, (reduceBHandles self X).1 = .ok R → (reduceBHandles self X).2.B = some ⟨q, R⟩) ∧
      (reduceBHandles self X).2.A = self.A ∧ (reduceBHandles self X).2.C = self.C) ∧
    (reduceCHandles self c).2.C = some (reduceCHandles self c).1 ∧
      (reduceCHandles self c).2.A = self.A ∧ (reduceCHandles self c).2.B = self.B := by
  have h := handlesInv_reached ip Φ adj flag g calls hg
  obtain ⟨_, h2, h3, h4, _⟩ := reduceAHandles_spec h X
  obtain ⟨_, k2, k3, k4, _⟩ := reduceBHandles_spec h X
  exact ⟨⟨h4, h2, h3⟩, ⟨k4, k2, k3⟩, rfl, rfl, rfl⟩

/-- `compute_model` returns the three results, or raises the first exception. -/
theorem C38_handles_model (hr : 0 < r) (hg : galerkinHandlesInit ip Φ adj flag = .ok g) {qa qb : Nat} (hqb : 0 < qb)
    (X : Fin qa → E) (Y : Fin qb → E) (c : Outputs 𝕜) :
    let self := calls.foldl HandlesCall.after g
    (∀ a b, (reduceAHandles self X).1 = .ok a → (reduceBHandles self Y).1 = .ok b →
      (galerkinModelHandles self X Y c).1 = .ok (some ⟨qa, a⟩, some ⟨qb, b⟩, some (reduceCHandles self c).1)) ∧
    ∀ e, (reduceAHandles self X).1 = .error e → (galerkinModelHandles self X Y c).1 = .error e := by
  intro self
  have h := handlesInv_reached ip Φ adj flag g calls hg
  have hip : ∀ q (X : Fin q → E), 0 < q → handlesIpChecked ip (adj.getD Φ) X = .ok (handlesIp ip (adj.getD Φ) X) := by
    intro q X hq
    unfold handlesIpChecked
    rw [if_neg (by omega)]
  obtain ⟨_, h2, h3⟩ := galerkinModelHandles_spec h X Y c
  refine ⟨fun a b ha hb => ?_, h2⟩
  refine (h3 a ha).2 b ?_
  rw [← hb]
  have k1 := ((reduceBHandles_spec (reduceAHandles_spec h X).1 Y).2.2.2.2 _ _ (hip _ _ hr) (hip _ _ hqb)).1
  have k2 := ((reduceBHandles_spec h Y).2.2.2.2 _ _ (hip _ _ hr) (hip _ _ hqb)).1
  cases hf : flag with
  | true => rw [k1.orthonormal hf, k2.orthonormal hf]
  | false =>
    by_cases hu : IsUnit (handlesIp ip (adj.getD Φ) Φ).det
    · rw [k1.regular hf hu, k2.regular hf hu]
    · rw [k1.singular hf hu, k2.singular hf hu]

end Handles

/-! ### Consequences for handles -/

section

variable {E : Type*} [AddCommGroup E] [Module 𝕜 E] {r q : Nat} (ip : E →ₗ⋆[𝕜] E →ₗ[𝕜] 𝕜) {Φ Ψ : Fin r → E} {flag : Bool}

/-- The residuals are orthogonal to the adjoint basis, and no other array has this property. -/
theorem C38_handles_residual (X : Fin q → E) (res : Except Err (Matrix (Fin r) (Fin q) 𝕜))
    (R : Matrix (Fin r) (Fin q) 𝕜) (hflag : flag = true → handlesIp (fun x y => ip x y) Ψ Φ = 1)
    (h : GalerkinResult flag (handlesIp (fun x y => ip x y) Ψ Φ) (handlesIp (fun x y => ip x y) Ψ X) res)
    (hR : res = .ok R) (R' : Matrix (Fin r) (Fin q) 𝕜) :
    (∀ i j, ip (Ψ i) (X j - ∑ k, R' k j • Φ k) = 0) ↔ R' = R := by
  have key : IsUnit (handlesIp (fun x y => ip x y) Ψ Φ).det ∧
      R = (handlesIp (fun x y => ip x y) Ψ Φ)⁻¹ * handlesIp (fun x y => ip x y) Ψ X := by
    cases hf : flag with
    | true =>
      have h1 := h.orthonormal hf
      rw [hR] at h1
      cases h1
      rw [hflag hf]
      simp
    | false =>
      by_cases hu : IsUnit (handlesIp (fun x y => ip x y) Ψ Φ).det
      · have h1 := h.regular hf hu
        rw [hR] at h1
        cases h1
        exact ⟨hu, rfl⟩
      · have h1 := h.singular hf hu
        rw [hR] at h1
        cases h1
  obtain ⟨hu, hR'⟩ := key
  have e : (∀ i j, ip (Ψ i) (X j - ∑ k, R' k j • Φ k) = 0) ↔
      handlesIp (fun x y => ip x y) Ψ X = handlesIp (fun x y => ip x y) Ψ Φ * R' := by
    rw [← handlesIp_combine_right, ← Matrix.ext_iff]
    refine forall_congr' fun i => forall_congr' fun j => ?_
    rw [map_sub, sub_eq_zero]
    rfl
  rw [e, hR']
  constructor
  · intro h1
    rw [h1, ← Matrix.mul_assoc, Matrix.nonsing_inv_mul _ hu, Matrix.one_mul]
  · intro h1
    rw [h1, ← Matrix.mul_assoc, Matrix.mul_nonsing_inv _ hu, Matrix.one_mul]

/-- The model of the time derivatives, from handles. -/
theorem C57_derivatives_handles (X D : Fin r → E) (dt : 𝕜) (hD : ∀ j, D j = dt⁻¹ • (X j - Φ j))
    (hflag : flag = true → handlesIp (fun x y => ip x y) Ψ Φ = 1)
    (res res' : Except Err (Matrix (Fin r) (Fin r) 𝕜)) (R R' : Matrix (Fin r) (Fin r) 𝕜)
    (h : GalerkinResult flag (handlesIp (fun x y => ip x y) Ψ Φ) (handlesIp (fun x y => ip x y) Ψ X) res)
    (hR : res = .ok R)
    (h' : GalerkinResult flag (handlesIp (fun x y => ip x y) Ψ Φ) (handlesIp (fun x y => ip x y) Ψ D) res')
    (hR' : res' = .ok R') : R' = dt⁻¹ • (R - 1) := by
  refine ((C38_handles_residual ip _ _ _ hflag h' hR' _).mp fun i j => ?_).symm
  have h1 := (C38_handles_residual ip _ _ _ hflag h hR R).mpr rfl i j
  have h2 : D j - ∑ k, (dt⁻¹ • (R - 1)) k j • Φ k = dt⁻¹ • (X j - ∑ k, R k j • Φ k) := by
    rw [hD]
    simp only [Matrix.smul_apply, Matrix.sub_apply, smul_eq_mul, mul_smul, sub_smul, ← Finset.smul_sum,
      Finset.sum_sub_distrib, Matrix.one_apply, ite_smul, one_smul, zero_smul, Finset.sum_ite_eq', Finset.mem_univ,
      if_true]
    rw [← smul_sub]
    congr 1
    abel
  rw [h2, map_smul, h1, smul_zero]

/-- For biorthonormal bases the flag makes no difference. -/
theorem C38_handles_flag (ip : E → E → 𝕜) (X : Fin q → E) (h : handlesIp ip Ψ Φ = 1)
    (res res' : Except Err (Matrix (Fin r) (Fin q) 𝕜))
    (h1 : GalerkinResult true (handlesIp ip Ψ Φ) (handlesIp ip Ψ X) res)
    (h2 : GalerkinResult false (handlesIp ip Ψ Φ) (handlesIp ip Ψ X) res') : res = res' := by
  rw [h1.orthonormal rfl, h2.regular rfl (by rw [h]; simp), h]
  simp

/-- If the span of the basis contains `A Phi` and `B`, the reduced model has the same Markov parameters; this
holds for every basis of the whole state space. -/
theorem C38_handles_invariant_subspace {qb p : Nat} (A : E →ₗ[𝕜] E) (B : (Fin qb → 𝕜) →ₗ[𝕜] E) (C : E →ₗ[𝕜] (Fin p → 𝕜))
    (hA : ∀ j, A (Φ j) ∈ Submodule.span 𝕜 (Set.range Φ)) (hB : ∀ u, B u ∈ Submodule.span 𝕜 (Set.range Φ))
    (hflag : flag = true → handlesIp (fun x y => ip x y) Ψ Φ = 1) (resA : Except Err (Matrix (Fin r) (Fin r) 𝕜))
    (resB : Except Err (Matrix (Fin r) (Fin qb) 𝕜)) (Ar : Matrix (Fin r) (Fin r) 𝕜) (Br : Matrix (Fin r) (Fin qb) 𝕜)
    (hAr : GalerkinResult flag (handlesIp (fun x y => ip x y) Ψ Φ)
      (handlesIp (fun x y => ip x y) Ψ fun j => A (Φ j)) resA) (hArR : resA = .ok Ar)
    (hBr : GalerkinResult flag (handlesIp (fun x y => ip x y) Ψ Φ)
      (handlesIp (fun x y => ip x y) Ψ fun j => B (Pi.single j 1)) resB) (hBrR : resB = .ok Br)
    (Cr : Matrix (Fin p) (Fin r) 𝕜) (hCr : ∀ i j, Cr i j = C (Φ j) i) (k : Nat) (i : Fin p) (j : Fin qb) :
    (Cr * Ar ^ k * Br) i j = C ((A ^ k) (B (Pi.single j 1))) i := by
  simp only [Submodule.mem_span_range_iff_exists_fun] at hA hB
  choose M hM using hA
  choose N hN using fun j : Fin qb => hB (Pi.single j 1)
  have h1 : Matrix.of (fun i j => M j i) = Ar :=
    (C38_handles_residual ip _ _ _ hflag hAr hArR _).mp fun i j => by
      simp only [Matrix.of_apply]
      rw [hM, sub_self, map_zero]
  have h2 : Matrix.of (fun i j => N j i) = Br :=
    (C38_handles_residual ip _ _ _ hflag hBr hBrR _).mp fun i j => by
      simp only [Matrix.of_apply]
      rw [hN, sub_self, map_zero]
  have hA' : ∀ j, A (Φ j) = ∑ l, Ar l j • Φ l := fun j => by rw [← h1, ← hM]; rfl
  have hB' : ∀ j, B (Pi.single j 1) = ∑ l, Br l j • Φ l := fun j => by rw [← h2, ← hN]; rfl
  have hk : ∀ k, (A ^ k) (B (Pi.single j 1)) = ∑ l, (Ar ^ k * Br) l j • Φ l := by
    intro k
    induction k with
    | zero => simp [hB']
    | succ k ih =>
      rw [pow_succ', pow_succ', Module.End.mul_apply, ih, map_sum, Matrix.mul_assoc]
      simp only [map_smul, hA', Finset.smul_sum, smul_smul]
      rw [Finset.sum_comm]
      refine Finset.sum_congr rfl fun l _ => ?_
      rw [Matrix.mul_apply, Finset.sum_smul]
      refine Finset.sum_congr rfl fun l' _ => ?_
      rw [mul_comm]
  rw [hk, map_sum, Matrix.mul_assoc, Matrix.mul_apply, Finset.sum_apply]
  refine Finset.sum_congr rfl fun l _ => ?_
  rw [map_smul, Pi.smul_apply, smul_eq_mul, hCr, mul_comm]

end

/-- `standard_basis` returns the vectors on which `B` has to be evaluated. -/
theorem C38_standard_basis (n : Nat) :
    (standardBasis n : List (Fin n → 𝕜)).length = n ∧
      ∀ j (h : j < (standardBasis n : List (Fin n → 𝕜)).length) (h' : j < n),
        (standardBasis n : List (Fin n → 𝕜))[j] = Pi.single ⟨j, h'⟩ 1 := by
  unfold standardBasis
  refine ⟨by simp, fun j h h' => ?_⟩
  rw [List.getElem_ofFn]
  ext i
  rw [Matrix.one_apply, Pi.single_apply]
  simp only [eq_comm]

/-! ### Examples -/

/-- The state `(1, 1)` of the system that exchanges two states: the model has `A = 1`, `B = 3`, `C = 1`. -/
example : ∃ g, galerkinArraysInit false (!![1; 1] : Matrix (Fin 2) (Fin 1) ℝ) none false none = .ok g ∧
    (reduceAArrays g ((!![0, 1; 1, 0] : Matrix (Fin 2) (Fin 2) ℝ) * (!![1; 1] : Matrix (Fin 2) (Fin 1) ℝ))).1 = .ok !![1] ∧
    (reduceBArrays g (!![3; 3] : Matrix (Fin 2) (Fin 1) ℝ)).1 = .ok !![3] ∧
    ((!![0, 1; 1, 0] : Matrix (Fin 2) (Fin 2) ℝ) * (!![1; 1] : Matrix (Fin 2) (Fin 1) ℝ) =
      (!![1; 1] : Matrix (Fin 2) (Fin 1) ℝ) * (!![1] : Matrix (Fin 1) (Fin 1) ℝ)) := by
  obtain ⟨g, hg, -⟩ := arraysInv_init (!![1; 1] : Matrix (Fin 2) (Fin 1) ℝ) none false none .none rfl
  obtain ⟨hA, hB, -, -⟩ := C38_arrays (!![1; 1] : Matrix (Fin 2) (Fin 1) ℝ) none false none .none g [] rfl trivial hg
  have hu : IsUnit ((!![1; 1] : Matrix (Fin 2) (Fin 1) ℝ)ᴴ * (Weights.none (𝕜 := ℝ)).matrix 2 * (!![1; 1] : Matrix (Fin 2) (Fin 1) ℝ)).det := by
    simp [Weights.matrix, Matrix.mul_apply, Fin.sum_univ_two]
  have hAr := (hA 1 ((!![0, 1; 1, 0] : Matrix (Fin 2) (Fin 2) ℝ) * (!![1; 1] : Matrix (Fin 2) (Fin 1) ℝ))).regular rfl hu
  have hBr := (hB 1 (!![3; 3] : Matrix (Fin 2) (Fin 1) ℝ)).regular rfl hu
  have e1 := (C38_residual _ _ _ (fun h => by cases h) (hA 1 _) hAr !![1]).mp (by
    ext i j
    simp [Weights.matrix, Matrix.mul_apply, Fin.sum_univ_two])
  have e2 := (C38_residual _ _ _ (fun h => by cases h) (hB 1 _) hBr !![3]).mp (by
    ext i j
    simp [Weights.matrix, Matrix.mul_apply, Fin.sum_univ_two])
  refine ⟨g, hg, ?_, ?_, ?_⟩
  · rw [e1]
    exact hAr
  · rw [e2]
    exact hBr
  · ext i j
    fin_cases i <;> simp [Matrix.mul_apply]

/-- Handles: a basis of the plane that is not orthonormal has a regular array of inner products. -/
example : ∃ (ip : (Fin 2 → ℂ) →ₗ⋆[ℂ] (Fin 2 → ℂ) →ₗ[ℂ] ℂ) (g : GalerkinHandles ℂ (Fin 2 → ℂ) 2)
    (R : Matrix (Fin 2) (Fin 1) ℂ),
    galerkinHandlesInit (fun x y => ip x y) ![![1, 0], ![Complex.I, 2]] (none : Option (Fin 2 → _)) false = .ok g ∧
    (reduceBHandles g ![![Complex.I, 2]]).1 = .ok R ∧ R 0 0 = 0 ∧ R 1 0 = 1 := by
  let ip : (Fin 2 → ℂ) →ₗ⋆[ℂ] (Fin 2 → ℂ) →ₗ[ℂ] ℂ := LinearMap.mk₂'ₛₗ (starRingEnd ℂ) (RingHom.id ℂ)
    (fun x y => star x ⬝ᵥ y) (by intros; simp [add_dotProduct]) (by intros; simp) (by intros; simp [dotProduct_add])
    (by intros; simp)
  obtain ⟨g, hg⟩ := (C38_handles_constructor (fun x y => ip x y) ![![1, 0], ![Complex.I, 2]]
    (none : Option (Fin 2 → _)) false (![] : Fin 0 → _)).2
  obtain ⟨-, hB, -⟩ := C38_handles (fun x y => ip x y) ![![1, 0], ![Complex.I, 2]] none false g [] (by decide) hg
  have hG : handlesIp (fun x y => ip x y) ![![1, 0], ![Complex.I, 2]] ![![1, 0], ![Complex.I, 2]] =
      !![1, Complex.I; -Complex.I, 5] := by
    ext i j
    fin_cases i <;> fin_cases j <;> simp [handlesIp, ip, dotProduct, Fin.sum_univ_two]
    rw [map_ofNat]
    norm_num
  have hu : IsUnit (handlesIp (fun x y => ip x y) ![![1, 0], ![Complex.I, 2]] ![![1, 0], ![Complex.I, 2]]).det := by
    rw [hG]
    simp [Matrix.det_fin_two]
    norm_num
  have hBr := (hB 1 ![![Complex.I, 2]] (by decide)).regular rfl hu
  have e2 := (C38_handles_residual ip _ _ _ (fun h => by cases h) (hB 1 _ (by decide)) hBr !![0; 1]).mp (by
    intro i j
    fin_cases j
    simp [Fin.sum_univ_two])
  refine ⟨ip, g, _, hg, hBr, ?_⟩
  simp only [Option.getD_none] at e2 ⊢
  rw [← e2]
  simp

end Modred
