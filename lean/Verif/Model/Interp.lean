import Verif.Base.Launch
import Verif.Model.Coeff
import Mathlib.Algebra.Module.Defs
import Mathlib.Algebra.Order.Field.Basic

/-!
# Volume fields, interpolation to faces, face-normal gradient
-/
namespace NeoFOAM
variable {K V : Type}

/-- `VolumeField` (finiteVolume/cellCentred/fields/volumeField.hpp, fields/domainField.hpp:30-108,
fields/boundaryFields.hpp:29-152): one value per cell and, per boundary face, the boundary data. -/
structure VolField (K V : Type) where
  internal : List V
  bValue : List V
  bRefValue : List V
  bVF : List K
  bRefGrad : List V

section
variable [Add K] [Sub K] [Mul K] [Div K] [Neg K] [Zero K] [One K] [Add V] [Sub V] [Zero V] [SMul K V]

/-- Kernel of `computeLinearInterpolation` (src/…/interpolation/linear.cpp:33-43). -/
def linearBody (m : Mesh K) (src : VolField K V) (w : List K) (f : Nat) : Res (V → V) :=
  if f < m.nInternalFaces then do
    let own ← rd m.owner f
    let nei ← rd m.neighbour f
    let wf ← rd w f
    let a ← rd src.internal own
    let b ← rd src.internal nei
    return fun _ => wf • a + (1 - wf) • b
  else do
    let wf ← rd w f
    let b ← rd src.bValue (f - m.nInternalFaces)
    return fun _ => wf • b

/-- `computeLinearInterpolation(src, weights, dst)` (linear.cpp:12-46); `dst` is the list of all face values. -/
def computeLinearInterpolation (e : ExecKind) (m : Mesh K) (src : VolField K V) (w : List K) (dst : List V) :
    NR (List V) :=
  elemKernel e 0 dst.length (linearBody m src w) dst

/-- Kernel of `computeUpwindInterpolation` (src/…/interpolation/upwind.cpp:35-53). -/
def upwindBody [LinearOrder K] (m : Mesh K) (src : VolField K V) (flux w : List K) (f : Nat) : Res (V → V) :=
  if f < m.nInternalFaces then do
    let fl ← rd flux f
    if 0 ≤ fl then do
      let own ← rd m.owner f
      let a ← rd src.internal own
      return fun _ => a
    else do
      let nei ← rd m.neighbour f
      let b ← rd src.internal nei
      return fun _ => b
  else do
    let wf ← rd w f
    let b ← rd src.bValue (f - m.nInternalFaces)
    return fun _ => wf • b

/-- `computeUpwindInterpolation(src, flux, weights, dst)` (upwind.cpp:12-56). -/
def computeUpwindInterpolation [LinearOrder K] (e : ExecKind) (m : Mesh K) (src : VolField K V)
    (flux w : List K) (dst : List V) : NR (List V) :=
  elemKernel e 0 dst.length (upwindBody m src flux w) dst

/-- The registered interpolation schemes.
(interpolation/linear.hpp, interpolation/upwind.hpp) -/
inductive InterpScheme where
  | linear
  | upwind
  deriving DecidableEq, Repr

/-- `interpolate(flux, src, dst)` (linear.hpp:62-67, upwind.hpp:63-70): linear ignores the flux. `w` are the
weights of the geometry scheme. -/
def interpolateFlux [LinearOrder K] (s : InterpScheme) (e : ExecKind) (m : Mesh K) (w : List K)
    (flux : List K) (src : VolField K V) (dst : List V) : NR (List V) :=
  match s with
  | .linear => computeLinearInterpolation e m src w dst
  | .upwind => computeUpwindInterpolation e m src flux w dst

/-- `interpolate(src, dst)` (linear.hpp:57-60, upwind.hpp:55-61): upwind without a flux stops the program. -/
def interpolate (s : InterpScheme) (e : ExecKind) (m : Mesh K) (w : List K) (src : VolField K V) (dst : List V) :
    NR (List V) :=
  match s with
  | .linear => computeLinearInterpolation e m src w dst
  | .upwind => NR.lift .abort

/-- `weight.internalField() = linearWeight.internalField()` on the elements (fields/field.hpp:217-225): the target is resized (new
elements hold `junk`), then all elements are copied; the version on memory blocks is `assign`. -/
def copyInto {α : Type} (e : ExecKind) (junk : Nat → α) (w dst : List α) : NR (List α) :=
  elemKernel e 0 w.length (fun i => do
    let y ← rd w i
    return fun _ => y) ((List.range w.length).map fun i => dst.getD i (junk i))

/-- `SurfaceField<scalar>` with all its storage (fields/surfaceField.hpp, fields/domainField.hpp:30-108, fields/boundaryFields.hpp:145-158):
one value per face in the internal field, and the boundary field, which is separate storage. -/
structure FaceField (K : Type) where
  internal : List K
  bValue : List K
  bRefValue : List K
  bVF : List K
  bRefGrad : List K
  bTypes : List Int
  bOffset : List Nat

/-- What freshly allocated storage of a `FaceField` holds. -/
structure FaceJunk (K : Type) where
  real : Nat → K
  type : Nat → Int
  offset : Nat → Nat

/-- `weight.internalField() = w.internalField(); weight.boundaryField() = w.boundaryField()` (linear.hpp:72-73, 82-83): the second is
the implicit member-wise assignment of `BoundaryFields` (boundaryFields.hpp:145-158). Simplification: both fields are on executor `e`
(`Field::operator=` stops the program otherwise). -/
def FaceField.assignTo (e : ExecKind) (j : FaceJunk K) (w dst : FaceField K) : NR (FaceField K) := do
  let i ← copyInto e j.real w.internal dst.internal
  let v ← copyInto e j.real w.bValue dst.bValue
  let rv ← copyInto e j.real w.bRefValue dst.bRefValue
  let vf ← copyInto e j.real w.bVF dst.bVF
  let rg ← copyInto e j.real w.bRefGrad dst.bRefGrad
  let t ← copyInto e j.type w.bTypes dst.bTypes
  let o ← copyInto e j.offset w.bOffset dst.bOffset
  return ⟨i, v, rv, vf, rg, t, o⟩

/-- `weight(flux, src, weight)` (linear.hpp:76-85, upwind.hpp:77-84): the upwind scheme's body is commented out. `w` are the weights of
the geometry scheme. -/
def weightFlux (s : InterpScheme) (e : ExecKind) (j : FaceJunk K) (w dst : FaceField K) : NR (FaceField K) :=
  match s with
  | .linear => FaceField.assignTo e j w dst
  | .upwind => pure dst

/-- `weight(src, weight)` (linear.hpp:69-74, upwind.hpp:72-75). -/
def weightNoFlux (s : InterpScheme) (e : ExecKind) (j : FaceJunk K) (w dst : FaceField K) : NR (FaceField K) :=
  match s with
  | .linear => FaceField.assignTo e j w dst
  | .upwind => NR.lift .abort

/-- First kernel of `computeFaceNormalGrad` (src/…/faceNormalGradient/uncorrected.cpp:37-39). -/
def fngInternalBody (m : Mesh K) (src : VolField K V) (δ : List K) (f : Nat) : Res (V → V) := do
  let d ← rd δ f
  let nei ← rd m.neighbour f
  let own ← rd m.owner f
  let b ← rd src.internal nei
  let a ← rd src.internal own
  return fun _ => d • (b - a)

/-- Second kernel (uncorrected.cpp:45-50). -/
def fngBoundaryBody (m : Mesh K) (src : VolField K V) (δ : List K) (f : Nat) : Res (V → V) := do
  let own ← rd m.bnd.faceCells (f - m.nInternalFaces)
  let d ← rd δ f
  let b ← rd src.bValue (f - m.nInternalFaces)
  let a ← rd src.internal own
  return fun _ => d • (b - a)

/-- `computeFaceNormalGrad(volField, geometryScheme, surfaceField)` (uncorrected.cpp:11-52); `δ` are the
non-orthogonal delta coefficients of the geometry scheme. -/
def computeFaceNormalGrad (e : ExecKind) (m : Mesh K) (src : VolField K V) (δ : List K) (dst : List V) :
    NR (List V) := do
  let d ← elemKernel e 0 m.nInternalFaces (fngInternalBody m src δ) dst
  elemKernel e m.nInternalFaces d.length (fngBoundaryBody m src δ) d

end

end NeoFOAM
