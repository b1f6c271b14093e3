import Verif.Model.Interp
import Verif.Model.Dictionary

/-!
# Boundary conditions of volume and surface fields
-/
namespace NeoFOAM
variable {K V : Type}

/-- The registered volume boundary conditions (boundary/volume/*.hpp) with the members they hold:
`fixedValue_` (fixedValue.hpp:77), `fixedGradient_` (fixedGradient.hpp:92). -/
inductive VolBCKind (V : Type) where
  | fixedValue (v : V)
  | fixedGradient (g : V)
  | extrapolated
  | calculated
  | empty

/-- `VolumeBoundary` (boundary/volumeBoundaryFactory.hpp:44-78): the patch range and the condition. The
range is held twice in the code (by the object and by its strategy); only the one of the strategy is used. -/
structure VolumeBoundary (V : Type) where
  patch : Patch
  kind : VolBCKind V

/-- `VolumeBoundary(mesh, dict, patchID)` (volumeBoundaryFactory.hpp:49-58), `create(name, …)`
(core/runtimeSelectionFactory.hpp:259-264) and the constructors of the conditions (fixedValue.hpp:54-56,
fixedGradient.hpp:68-71, extrapolated.hpp:65-67, calculated.hpp, empty.hpp). `cast` is
`std::any_cast<ValueType>`. An unknown name stops the program. -/
def VolumeBoundary.create (cast : Any → Res V) (offsets : List Nat) (dict : Dict) (patchID : Nat) :
    Res (VolumeBoundary V) := do
  let p ← Patch.ofOffsets offsets patchID
  let ty ← dict.get .str "type"
  match ty with
  | .str "fixedValue" => do
    let a ← dict.index "fixedValue"
    let v ← cast a
    return ⟨p, .fixedValue v⟩
  | .str "fixedGradient" => do
    let a ← dict.index "fixedGradient"
    let g ← cast a
    return ⟨p, .fixedGradient g⟩
  | .str "extrapolated" => return ⟨p, .extrapolated⟩
  | .str "calculated" => return ⟨p, .calculated⟩
  | .str "empty" => return ⟨p, .empty⟩
  | _ => .abort

/-- The boundary arrays of type `ValueType` that a kernel of a boundary condition stores into.
(fields/boundaryFields.hpp:139-152) -/
inductive BArr | value | refValue | refGrad | internal
  deriving DecidableEq, Repr

/-- The value arrays of a volume field.
(fields/boundaryFields.hpp:139-152, fields/domainField.hpp:105-107) -/
def VolField.arrs (φ : VolField K V) : BArr → List V
  | .value => φ.bValue
  | .refValue => φ.bRefValue
  | .refGrad => φ.bRefGrad
  | .internal => φ.internal

/-- One kernel over the range of a patch that stores into the value arrays and into `valueFraction`.
The stores to `valueFraction` are listed in a loop of their own: the two loops touch different arrays, so
every outcome of the one loop of the code is an outcome of these two.
(core/parallelAlgorithms.hpp:26-63, called from fixedValue.hpp, fixedGradient.hpp and extrapolated.hpp) -/
def bcKernel (e : ExecKind) (p : Patch) (body : Nat → Res (List (Act BArr V))) (vf : K) (φ : VolField K V) :
    NR (VolField K V) := do
  let a ← launch e p.range.1 p.range.2 body φ.arrs
  let f ← launch1 e p.range.1 p.range.2 (fun i => .ok [Act.write () i vf]) φ.bVF
  return ⟨a .internal, a .value, a .refValue, f, a .refGrad⟩

section
variable [Add K] [Sub K] [Mul K] [Div K] [Neg K] [Zero K] [One K] [Add V] [Sub V] [Zero V] [SMul K V]

/-- Kernel of `setFixedValue` (boundary/volume/fixedValue.hpp:36-41). -/
def fixedValueBody (v : V) (i : Nat) : Res (List (Act BArr V)) :=
  .ok [Act.write .refValue i v, Act.write .value i v, Act.write .refGrad i v]

/-- Kernel of `setGradientValue` (boundary/volume/fixedGradient.hpp:45-52). -/
def fixedGradientBody (m : Mesh K) (φ : VolField K V) (g : V) (i : Nat) : Res (List (Act BArr V)) := do
  let c ← rd m.bnd.faceCells i
  let x ← rd φ.internal c
  let d ← rd m.bnd.deltaCoeffs i
  return [Act.write .refGrad i g, Act.write .value i (x + (1 / d) • g), Act.write .refValue i 0]

/-- Kernel of `extrapolateValue` (boundary/volume/extrapolated.hpp:42-49). -/
def extrapolatedBody (m : Mesh K) (φ : VolField K V) (i : Nat) : Res (List (Act BArr V)) := do
  let c ← rd m.bnd.faceCells i
  let x ← rd φ.internal c
  return [Act.write .value i x, Act.write .refValue i x, Act.write .refGrad i 0]

/-- `correctBoundaryCondition(domainField)` of each condition (fixedValue.hpp:58-61,
fixedGradient.hpp:73-76, extrapolated.hpp:69-73; calculated.hpp:27-29 and empty.hpp:27-29 do nothing). -/
def VolumeBoundary.correct (e : ExecKind) (m : Mesh K) (b : VolumeBoundary V) (φ : VolField K V) :
    NR (VolField K V) :=
  match b.kind with
  | .fixedValue v => bcKernel e b.patch (fixedValueBody v) 1 φ
  | .fixedGradient g => bcKernel e b.patch (fixedGradientBody m φ g) 0 φ
  | .extrapolated => bcKernel e b.patch (extrapolatedBody m φ) 1 φ
  | .calculated => pure φ
  | .empty => pure φ

/-- `VolumeField::correctBoundaryConditions` (fields/volumeField.hpp:144-150). -/
def correctBoundaryConditions (e : ExecKind) (m : Mesh K) : List (VolumeBoundary V) → VolField K V →
    NR (VolField K V)
  | [], φ => pure φ
  | b :: bs, φ => do
    let φ' ← b.correct e m φ
    correctBoundaryConditions e m bs φ'

end

/-- `SurfaceField` (fields/surfaceField.hpp, fields/domainField.hpp:30-108): one value per face, boundary
faces after the internal ones, and the boundary lists a surface condition touches. -/
structure SurfField (V : Type) where
  internal : List V
  bValue : List V
  bRefValue : List V

/-- The registered surface boundary conditions (boundary/surface/*.hpp). -/
inductive SurfBCKind (V : Type) where
  | fixedValue (v : V)
  | calculated
  | empty

/-- `SurfaceBoundary` (boundary/surfaceBoundaryFactory.hpp:42-74). -/
structure SurfaceBoundary (V : Type) where
  patch : Patch
  kind : SurfBCKind V

/-- The arrays of a surface field.
(fields/boundaryFields.hpp:139-152, fields/domainField.hpp:105-107) -/
def SurfField.arrs (φ : SurfField V) : BArr → List V
  | .value => φ.bValue
  | .refValue => φ.bRefValue
  | .refGrad => []
  | .internal => φ.internal

/-- Kernel of `setFixedValue` (boundary/surface/fixedValue.hpp:35-39). -/
def surfFixedValueBody (nInternalFaces : Nat) (v : V) (i : Nat) : Res (List (Act BArr V)) :=
  .ok [Act.write .refValue i v, Act.write .value i v, Act.write .internal (nInternalFaces + i) v]

/-- `correctBoundaryCondition(domainField)` (boundary/surface/fixedValue.hpp:56-59; calculated.hpp:28-30 and
empty.hpp:25-27 do nothing). -/
def SurfaceBoundary.correct (e : ExecKind) (m : Mesh K) (b : SurfaceBoundary V) (φ : SurfField V) :
    NR (SurfField V) :=
  match b.kind with
  | .fixedValue v => do
    let a ← launch e b.patch.range.1 b.patch.range.2 (surfFixedValueBody m.nInternalFaces v) φ.arrs
    return ⟨a .internal, a .value, a .refValue⟩
  | .calculated => pure φ
  | .empty => pure φ

/-- `SurfaceField::correctBoundaryConditions` (fields/surfaceField.hpp:105-111). -/
def correctSurfaceConditions (e : ExecKind) (m : Mesh K) : List (SurfaceBoundary V) → SurfField V →
    NR (SurfField V)
  | [], φ => pure φ
  | b :: bs, φ => do
    let φ' ← b.correct e m φ
    correctSurfaceConditions e m bs φ'

/-- `SurfaceBoundary(mesh, dict, patchID)` (boundary/surfaceBoundaryFactory.hpp:47-56) and the constructors of the surface conditions
(boundary/surface/fixedValue.hpp:52-54, calculated.hpp, empty.hpp); an unknown name stops the program. -/
def SurfaceBoundary.create (cast : Any → Res V) (offsets : List Nat) (dict : Dict) (patchID : Nat) : Res (SurfaceBoundary V) := do
  let p ← Patch.ofOffsets offsets patchID
  let ty ← dict.get .str "type"
  match ty with
  | .str "fixedValue" => do
    let a ← dict.index "fixedValue"
    let v ← cast a
    return ⟨p, .fixedValue v⟩
  | .str "calculated" => return ⟨p, .calculated⟩
  | .str "empty" => return ⟨p, .empty⟩
  | _ => .abort

/-- `createCalculatedBCs`/`createExtrapolatedBCs` for surface conditions (cellCentred/boundary.hpp:26-49). -/
def createSurfaceBCs (cast : Any → Res V) (m : Mesh K) (type : String) : Res (List (SurfaceBoundary V)) :=
  (List.range m.nBoundaries).mapM fun p =>
    SurfaceBoundary.create cast m.bnd.offset (Dict.ofInitList [("type", .str type)]) p

/-- `createCalculatedBCs`/`createExtrapolatedBCs` (cellCentred/boundary.hpp:26-49): one condition of the
type per patch, in patch order. -/
def createBCs (cast : Any → Res V) (m : Mesh K) (type : String) : Res (List (VolumeBoundary V)) :=
  (List.range m.nBoundaries).mapM fun p =>
    VolumeBoundary.create cast m.bnd.offset (Dict.ofInitList [("type", .str type)]) p

end NeoFOAM
