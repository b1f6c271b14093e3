import Verif.Model.Gauss

/-!
# Concrete explicit operators
-/
namespace NeoFOAM
variable {K V : Type} [Add K] [Sub K] [Mul K] [Div K] [Neg K] [Zero K] [One K] [Add V] [Sub V] [Zero V] [SMul K V]

/-- `a += b` on fields (fields/field.hpp:232-237, fieldFreeFunctions.hpp:104-115), on the elements; the
version on memory blocks is `fieldBinaryOp`. -/
def addAssign (e : ExecKind) (a b : List V) : NR (List V) :=
  if a.length ≠ b.length then NR.lift (.throw .dimensionMismatch)
  else elemKernel e 0 a.length (fun i => do
    let y ← rd b i
    return fun x => x + y) a

/-- `DivOperator::explicitOperation(source)` (operators/divOperator.hpp:129-136); `s = none` is an operator
whose strategy has not been built (`NF_ASSERT`). -/
def divExplicit [LinearOrder K] (e : ExecKind) (m : Mesh K) (s : Option InterpScheme) (w : List K) (junk : Nat → V)
    (faceFlux : List K) (phi : VolField K V) (scal : Coeff K) (source : List V) : NR (List V) :=
  match s with
  | none => NR.lift .abort
  | some s => do
    let tmp ← computeDivExp e m s w junk faceFlux phi scal (List.replicate source.length 0)
    addAssign e source tmp

/-- `GaussGreenDiv::div(faceFlux, phi, operatorScaling)` (operators/gaussGreenDiv.hpp:81-97); the result field
is freshly allocated (`Field(exec, size)`, field.hpp:60-69, does not initialise) and holds `junkR`. -/
def divReturned [LinearOrder K] (e : ExecKind) (m : Mesh K) (s : InterpScheme) (w : List K) (junk junkR : Nat → V)
    (faceFlux : List K) (phi : VolField K V) (scal : Coeff K) : NR (List V) :=
  computeDivExp e m s w junk faceFlux phi scal ((List.range m.nCells).map junkR)

/-- `SurfaceIntegrate::explicitOperation(source)` (operators/surfaceIntegrate.hpp:48-69). -/
def surfaceIntegrateExplicit (e : ExecKind) (m : Mesh K) (flux : List V) (scal : Coeff K) (source : List V) :
    NR (List V) := do
  let tmp ← surfaceIntegrate e m flux scal (List.replicate source.length 0)
  addAssign e source tmp

/-- `LaplacianOperator::explicitOperation(source)` (operators/laplacianOperator.hpp:124-131); `built` says
whether the strategy exists. -/
def laplacianExplicit (e : ExecKind) (m : Mesh K) (built : Bool) (δ : List K) (junk : Nat → V) (gamma : List K)
    (phi : VolField K V) (scal : Coeff K) (source : List V) : NR (List V) :=
  if built then do
    let tmp ← computeLaplacianExp e m δ junk gamma phi scal (List.replicate source.length 0)
    addAssign e source tmp
  else NR.lift .abort

/-- `SourceTerm::explicitOperation(source)` (src/…/operators/sourceTerm.cpp:18-31): the loop runs over the
source's range. -/
def sourceExplicit (e : ExecKind) (coeff : List K) (phi : VolField K V) (scal : Coeff K) (source : List V) :
    NR (List V) :=
  elemKernel e 0 source.length (fun c => do
    let s ← scal.get c
    let k ← rd coeff c
    let x ← rd phi.internal c
    return fun y => y + (s * k) • x) source

/-- `DdtOperator::explicitOperation(source, t, dt)` (src/…/operators/ddtOperator.cpp:16-31); `old` is the field
`oldTime` returns. The coefficient is not read. -/
def ddtExplicit (e : ExecKind) (m : Mesh K) (phi : VolField K V) (old : List V) (_scal : Coeff K) (dt : K)
    (source : List V) : NR (List V) :=
  let dtInver : K := 1 / dt
  elemKernel e 0 source.length (fun c => do
    let x ← rd phi.internal c
    let o ← rd old c
    let v ← rd m.cellVolumes c
    return fun y => y + v • (dtInver • (x - o))) source

end NeoFOAM
