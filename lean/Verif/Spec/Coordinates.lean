import Verif.Model.Tlsqr
import Verif.Model.Bpod
import Verif.Model.Galerkin

/-!
# Changes of coordinates

Vectors may be described by other vectors: grid points in another order, other coordinates, other units.  If inner products are
described along with the vectors, all inner products keep their values.
-/

namespace Modred

variable {𝕜 E F : Type*}

/-- Inner products of images are inner products of the vectors. -/
def KeepsInner (ip : E → E → 𝕜) (ip' : F → F → 𝕜) (Ψ Φ : E → F) : Prop := ∀ x y, ip' (Ψ x) (Φ y) = ip x y

/-- The images of vectors. -/
def Vecs.map (Φ : E → F) (v : Vecs E) : Vecs F := ⟨v.k, fun i => Φ (v.v i)⟩

/-- The same object, with the images of vectors. -/
def PodHandles.map {m : Nat} (Φ : E → F) (p : PodHandles 𝕜 E m) : PodHandles 𝕜 F m :=
  ⟨Φ ∘ p.vecs, p.correlationArray, p.r, p.eigvals, p.eigvecs⟩

/-- The same object, with the images of vectors. -/
def BpodHandles.map {md ma h w : Nat} (Φ Ψ : E → F) (p : BpodHandles 𝕜 E md ma h w) : BpodHandles 𝕜 F md ma h w :=
  ⟨Φ ∘ p.directVecs, Ψ ∘ p.adjointVecs, p.hankel, p.r, p.singVals, p.L, p.R⟩

/-- The same object, with the images of vectors. -/
def DmdHandles.map (Φ : E → F) (g : DmdHandles 𝕜 E) : DmdHandles 𝕜 F :=
  ⟨g.vecs.map (List.map Φ), g.adv.map (List.map Φ), g.arrays, g.decomp⟩

/-- The same object, with the images of vectors. -/
def galerkinImage {r : Nat} (ip' : F → F → 𝕜) (Φ Ψ : E → F) (g : GalerkinHandles 𝕜 E r) : GalerkinHandles 𝕜 F r :=
  ⟨Φ ∘ g.basisVecs, Ψ ∘ g.adjointBasisVecs, g.symmetric, g.isBasisOrthonormal, ip', g.projArray, g.A, g.B, g.C⟩

/-- The same object, with the images of vectors. -/
def TlsHandles.map (Φ : E → F) (g : TlsHandles 𝕜 E) : TlsHandles 𝕜 F :=
  ⟨g.vecs.map (List.map Φ), g.adv.map (List.map Φ), g.arrays, g.decomp⟩

variable [Semiring 𝕜] {n n' m md ma : Nat} (G H : Matrix (Fin n') (Fin n) 𝕜)

/-- The images of the columns of an array. -/
def Cols.image (c : Cols 𝕜 n) : Cols 𝕜 n' := ⟨c.k, G * c.a⟩

/-- The same result, with the images of the modes. -/
def PodResult.image (r : PodResult 𝕜 n m) : PodResult 𝕜 n' m := ⟨r.r, r.eigvals, r.modes.image G, r.projCoeffs, r.eigvecs⟩

/-- The same result, with the images of the modes. -/
def BpodResult.image (r : BpodResult 𝕜 n md ma) : BpodResult 𝕜 n' md ma :=
  ⟨r.r, r.singVals, r.directModes.image G, r.adjointModes.image H, r.directProjCoeffs, r.adjointProjCoeffs, r.L, r.R, r.hankel⟩

/-- The same result, with the images of the modes. -/
def DmdResult.image (r : DmdResult 𝕜 n m) : DmdResult 𝕜 n' m :=
  ⟨r.decomp, r.spectralCoeffs, r.exactModes.image G, r.projModes.image G, r.adjointModes.image G, r.projCoeffs, r.advProjCoeffs⟩

/-- The same result, with the images of the modes. -/
def TlsResult.image (r : TlsResult 𝕜 n m) : TlsResult 𝕜 n' m :=
  ⟨r.decomp, r.spectralCoeffs, r.exactModes.image G, r.projModes.image G, r.adjointModes.image G, r.projCoeffs, r.advProjCoeffs⟩

/-- The same functions of libraries for data of both numbers of rows; the decompositions that are called for data, not for arrays of
inner products, may be any. -/
structure SameEigh {𝕜 : Type*} (lib : PodLib 𝕜 n m) (lib' : PodLib 𝕜 n' m) : Prop where
  eigh : lib'.eigh = lib.eigh
  argsort : lib'.argsort = lib.argsort

end Modred
