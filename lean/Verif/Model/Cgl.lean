import Verif.Model.Bpod
import Verif.Model.EraModel
import Verif.Model.Galerkin
import Verif.Model.Hermite
import Mathlib.Analysis.SpecialFunctions.Pow.Complex

/-!
# The example of the linearized complex Ginzburg-Landau equation (`modred/examples/main_CGL.py`)

The script runs once with fixed numbers; here these are parameters.  Printing and plotting are left out.  The matrix
exponential is a library routine about which nothing is assumed.  Arithmetic is exact.
-/

namespace Modred

open Matrix

/-- The trapezoidal weights (`modred/examples/main_CGL.py` lines 43-46).  With fewer than two nodes `x[1]` raises
`IndexError`. -/
noncomputable def cglWeights {n : Nat} (x : Fin n → ℝ) : Except Err (Fin n → ℝ) :=
  if h : 2 ≤ n then
    .ok fun i =>
      if i.val = 0 then 0.5 * (x ⟨1, by omega⟩ - x ⟨0, by omega⟩)
      else if hi : i.val + 1 < n then 0.5 * (x ⟨i + 1, hi⟩ - x ⟨i - 1, by omega⟩)
      else 0.5 * (x ⟨n - 1, by omega⟩ - x ⟨n - 2, by omega⟩)
  else .error .indexError

section

variable {𝕜 : Type*} [RCLike 𝕜]

/-- `np.linalg.solve` for one right side, with exact arithmetic. -/
noncomputable def npSolve {n : Nat} (a : Matrix (Fin n) (Fin n) 𝕜) (b : Fin n → 𝕜) : Except Err (Fin n → 𝕜) :=
  open scoped Classical in if IsUnit a.det then .ok (a⁻¹ *ᵥ b) else .error .linAlgError

/-- The variables of the loop that looks for the largest growth (`modred/examples/main_CGL.py` lines 58-65). -/
structure CglGrowth (𝕜 : Type*) (N : Nat) where
  expArray : Matrix (Fin (N + 1)) (Fin (N + 1)) 𝕜
  maxSingVal : ℝ
  optimalDist : Option (Fin (N + 1) → 𝕜)

/-- The loop (`modred/examples/main_CGL.py` lines 58-65). -/
noncomputable def cglGrowth {N : Nat}
    (svd : Matrix (Fin (N + 1)) (Fin (N + 1)) 𝕜 → SvdOut 𝕜 (N + 1) (N + 1))
    (Msqrt invMsqrt Adiscrete : Matrix (Fin (N + 1)) (Fin (N + 1)) 𝕜) : Nat → CglGrowth 𝕜 N
  | 0 => ⟨1, 0, none⟩
  | k + 1 =>
    let g := cglGrowth svd Msqrt invMsqrt Adiscrete k
    let e := g.expArray * Adiscrete
    let o := svd (Msqrt * (e * invMsqrt))
    let first : Fin (min (N + 1) (N + 1)) := ⟨0, by omega⟩
    if g.maxSingVal < o.S first then ⟨e, o.S first, some fun j => o.Vhᴴ j first⟩ else ⟨e, g.maxSingVal, g.optimalDist⟩

/-- The Crank-Nicolson steps from one vector (`modred/examples/main_CGL.py` lines 109-111 and 163-164). -/
noncomputable def cglSteps {n : Nat} (lhs rhs : Matrix (Fin n) (Fin n) 𝕜) : Nat → (Fin n → 𝕜) →
    Except Err (List (Fin n → 𝕜))
  | 0, q => .ok [q]
  | k + 1, q =>
    match npSolve lhs (rhs *ᵥ q) with
    | .error e => .error e
    | .ok q' =>
      match cglSteps lhs rhs k q' with
      | .error e => .error e
      | .ok l => .ok (q :: l)

/-- An impulse response (`modred/examples/main_CGL.py` lines 97-111 and 159-164).  The script advances direct and
adjoint vectors in one loop; both can only raise `LinAlgError`. -/
noncomputable def cglSnapshots {n : Nat} (A : Matrix (Fin n) (Fin n) 𝕜) (dt : ℝ) (q0 : Fin n → 𝕜) (nt : Nat) :
    Except Err (Matrix (Fin n) (Fin nt) 𝕜) :=
  if nt = 0 then .error .indexError
  else
    let lhs := 1 - ((dt / 2 : ℝ) : 𝕜) • A
    let rhs := 1 + ((dt / 2 : ℝ) : 𝕜) • A
    match cglSteps lhs rhs (nt - 1) q0 with
    | .error e => .error e
    | .ok l => .ok (Matrix.of fun i j => l.getD j 0 i)

/-- Weights and arrays of the system and its adjoint. -/
structure CglSystem (𝕜 : Type*) (N : Nat) where
  weights : Fin (N + 1) → ℝ
  A : Matrix (Fin (N + 1)) (Fin (N + 1)) 𝕜
  B : Fin (N + 1) → 𝕜
  C : Fin (N + 1) → 𝕜
  Aadj : Matrix (Fin (N + 1)) (Fin (N + 1)) 𝕜
  Cadj : Fin (N + 1) → 𝕜

/-- The arrays of the system, given the nodes and the state array (`modred/examples/main_CGL.py` lines 42-50 and
56-69).  `sensor` is the Gaussian, and `steps` is 99.  If no power has a positive singular value, `optimal_dist` is
not defined. -/
noncomputable def cglSystem {N : Nat} (svd : Matrix (Fin (N + 1)) (Fin (N + 1)) 𝕜 → SvdOut 𝕜 (N + 1) (N + 1))
    (steps : Nat) (x : Fin (N + 1) → ℝ) (A Adiscrete : Matrix (Fin (N + 1)) (Fin (N + 1)) 𝕜)
    (sensor : Fin (N + 1) → ℝ) : Except Err (CglSystem 𝕜 N) :=
  match cglWeights x with
  | .error e => .error e
  | .ok weights =>
    let M := diagonal fun i => (weights i : 𝕜)
    match npInv M with
    | .error e => .error e
    | .ok invM =>
      match (cglGrowth svd (diagPow (𝕜 := 𝕜) weights 0.5) (diagPow (𝕜 := 𝕜) weights (-0.5)) Adiscrete steps).optimalDist with
      | none => .error .undefinedError
      | some optimalDist =>
        let B := -(diagPow (𝕜 := 𝕜) weights (-0.5) *ᵥ optimalDist)
        let C := (fun i => (sensor i : 𝕜)) ᵥ* M
        .ok ⟨weights, A, B, C, invM * (Aᴴ * M), invM *ᵥ star C⟩

/-- What the script computes from the system. -/
structure CglResult (𝕜 : Type*) (n nt : Nat) where
  q : Matrix (Fin n) (Fin nt) 𝕜
  qAdj : Matrix (Fin n) (Fin nt) 𝕜
  bpod : BpodResult 𝕜 n nt nt
  Ar : Matrix (Fin bpod.directModes.k) (Fin bpod.directModes.k) 𝕜
  Br : Fin bpod.directModes.k → 𝕜
  Cr : Fin bpod.directModes.k → 𝕜
  y : Fin nt → 𝕜
  yr : Fin nt → 𝕜

/-- Impulse responses, modes, reduced model and outputs (`modred/examples/main_CGL.py` lines 97-111, 131-137 and
150-166).  `B` is one-dimensional in the script, so `B_reduced` is; here it is a column.  `compute_model` calls the two
reductions in this order and returns the outputs of the modes as they are. -/
noncomputable def cglModel {N : Nat} (svd : ∀ {m n : Nat}, Matrix (Fin m) (Fin n) 𝕜 → SvdOut 𝕜 m n) (dt : ℝ)
    (nt r : Nat) (s : CglSystem 𝕜 N) : Except Err (CglResult 𝕜 (N + 1) nt) :=
  match cglSnapshots s.A dt s.B nt with
  | .error e => .error e
  | .ok q =>
    match cglSnapshots s.Aadj dt s.Cadj nt with
    | .error e => .error e
    | .ok qAdj =>
      let weights : Option (NdArray 𝕜) := some ⟨[N + 1], fun i => if h : i < N + 1 then (s.weights ⟨i, h⟩ : 𝕜) else 0⟩
      match bpodArrays svd q qAdj 1 1 (some ((List.range r).map Int.ofNat)) (some ((List.range r).map Int.ofNat)) weights
        (some svdAtol) none with
      | .error e => .error e
      | .ok bpod =>
        match galerkinArraysInit false bpod.directModes.a (some ⟨N + 1, bpod.adjointModes.k, bpod.adjointModes.a⟩) true
          weights with
        | .error e => .error e
        | .ok projection =>
          match reduceAArrays projection (s.A * bpod.directModes.a) with
          | (.error e, _) => .error e
          | (.ok Ar, projection) =>
            match reduceBArrays projection (Matrix.of fun i (_ : Fin 1) => s.B i) with
            | (.error e, _) => .error e
            | (.ok Br, _) =>
              let Cr := s.C ᵥ* bpod.directModes.a
              match cglSnapshots Ar dt (fun i => Br i 0) nt with
              | .error e => .error e
              | .ok qr => .ok ⟨q, qAdj, bpod, Ar, fun i => Br i 0, Cr, s.C ᵥ* q, Cr ᵥ* qr⟩

end

/-- The numbers at the beginning (`modred/examples/main_CGL.py` lines 17-30), with the number of steps in the loop
for the optimal disturbance (line 60), of snapshots (line 102) and of modes (line 132); there are `N + 1` nodes. -/
structure CglParams where
  N : Nat := 219
  dt : ℝ := 1.0
  s : ℝ := 1.6
  U : ℝ := 2.0
  cu : ℝ := 0.2
  cd : ℝ := -1.0
  mu0 : ℝ := 0.38
  mu2 : ℝ := -0.01
  steps : Nat := 99
  nt : Nat := 300
  r : Nat := 10

/-- `gamma` and `chi` (`modred/examples/main_CGL.py` lines 29-30). -/
noncomputable def CglParams.gamma (p : CglParams) : ℂ := 1 + Complex.I * p.cd
noncomputable def CglParams.chi (p : CglParams) : ℂ := (-p.mu2 / (2 * p.gamma)) ^ (0.25 : ℂ)

/-- The system of the script (`modred/examples/main_CGL.py` lines 25-69). -/
noncomputable def cglScriptSystem (p : CglParams)
    (eigvalsh : Matrix (Fin (p.N + 1)) (Fin (p.N + 1)) ℝ → Fin (p.N + 1) → ℝ)
    (expm : Matrix (Fin (p.N + 1)) (Fin (p.N + 1)) ℂ → Matrix (Fin (p.N + 1)) (Fin (p.N + 1)) ℂ)
    (svd : ∀ {m n : Nat}, Matrix (Fin m) (Fin n) ℂ → SvdOut ℂ m n) : Except Err (CglSystem ℂ p.N) :=
  let x1 : ℝ := -(-2 * (p.mu0 - p.cu ^ 2) / p.mu2) ^ (0.5 : ℝ)
  let x2 := -x1
  let nu : ℂ := p.U + 2 * Complex.I * p.cu
  match herdif (p.N + 1) 2 p.chi.re eigvalsh with
  | .error e => .error e
  | .ok (x, Ds) =>
    match Ds with
    | D0 :: D1 :: _ =>
      let mu : Fin (p.N + 1) → ℝ := fun i => (p.mu0 - p.cu ^ 2) + p.mu2 * x i ^ 2 / 2
      let D0 : Matrix (Fin (p.N + 1)) (Fin (p.N + 1)) ℂ := D0.map fun t : ℝ => (t : ℂ)
      let D1 : Matrix (Fin (p.N + 1)) (Fin (p.N + 1)) ℂ := D1.map fun t : ℝ => (t : ℂ)
      let A := -nu • D0 + p.gamma • D1 + diagonal fun i => (mu i : ℂ)
      cglSystem svd p.steps x A (expm ((p.dt : ℂ) • A)) fun i => Real.exp (-((x i - x2) / p.s) ^ 2)
    | _ => .error .indexError

/-- The whole script. -/
noncomputable def cglScript (p : CglParams)
    (eigvalsh : Matrix (Fin (p.N + 1)) (Fin (p.N + 1)) ℝ → Fin (p.N + 1) → ℝ)
    (expm : Matrix (Fin (p.N + 1)) (Fin (p.N + 1)) ℂ → Matrix (Fin (p.N + 1)) (Fin (p.N + 1)) ℂ)
    (svd : ∀ {m n : Nat}, Matrix (Fin m) (Fin n) ℂ → SvdOut ℂ m n) :
    Except Err (CglSystem ℂ p.N × CglResult ℂ (p.N + 1) p.nt) :=
  match cglScriptSystem p eigvalsh expm svd with
  | .error e => .error e
  | .ok s =>
    match cglModel svd p.dt p.nt p.r s with
    | .error e => .error e
    | .ok res => .ok (s, res)

end Modred
