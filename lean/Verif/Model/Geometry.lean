import Verif.Model.Interp
import Verif.Model.Reduce

/-!
# Geometry scheme and Courant number

`sqrt` is a parameter: any function that is a square root where the theorems need one.
-/
namespace NeoFOAM
variable {K : Type}

/-- `operator&(Vector, Vector)` (core/primitives/vector.hpp:155-159). -/
def vdot [Add K] [Mul K] (a b : Vec K) : K := a.1 * b.1 + a.2.1 * b.2.1 + a.2.2 * b.2.2

/-- `mag(Vector)` (vector.hpp:161-162). -/
def vmag [Add K] [Mul K] (sqrt : K → K) (a : Vec K) : K := sqrt (a.1 * a.1 + a.2.1 * a.2.1 + a.2.2 * a.2.2)

/-- `std::abs` (basicGeometryScheme.cpp:28-33). -/
def absOf [LinearOrder K] [Neg K] (a : K) : K := max a (-a)

/-- The literal `0.5` (basicGeometryScheme.cpp:39, coNum.cpp:87-88). -/
def half [Add K] [Div K] [One K] : K := 1 / (1 + 1)

/-- The literal `0.05` (basicGeometryScheme.cpp:113, 128): the number of type `scalar` nearest to 1/20, which is what the division of 1 by
20 gives. -/
def twentieth [Add K] [Mul K] [Div K] [One K] : K := 1 / ((1 + 1 + (1 + 1) + 1) * (1 + 1 + (1 + 1)))

theorem absOf_eq {K : Type} [Field K] [LinearOrder K] (a : K) : absOf a = |a| := rfl
theorem half_eq {K : Type} [Field K] : (half : K) = 1 / 2 := by rw [half]; norm_num
theorem twentieth_eq {K : Type} [Field K] : (twentieth : K) = 5 / 100 := by
  have h20 : ((1 : K) + 1 + (1 + 1) + 1) * (1 + 1 + (1 + 1)) = 20 := by norm_num
  rw [twentieth, h20]
  by_cases h5 : (5 : K) = 0
  · have : (20 : K) = 5 * 4 := by norm_num
    rw [this, h5]
    simp
  · have : (100 : K) = 5 * 20 := by norm_num
    rw [this, div_mul_eq_div_div, div_self h5]

section
variable [Add K] [Sub K] [Mul K] [Div K] [Neg K] [Zero K] [One K] [LinearOrder K]

/-- Kernel over the internal faces of `updateWeights`
(src/finiteVolume/cellCentred/stencil/basicGeometryScheme.cpp:27-41); `tiny` is `ROOTVSMALL`. -/
def weightsBody (m : Mesh K) (tiny : K) (f : Nat) : Res (K → K) := do
  let sf ← rd m.faceAreas f
  let cf ← rd m.faceCentres f
  let own ← rd m.owner f
  let co ← rd m.cellCentres own
  let nei ← rd m.neighbour f
  let cn ← rd m.cellCentres nei
  let sfdOwn := absOf (vdot sf (cf - co))
  let sfdNei := absOf (vdot sf (cn - cf))
  return fun _ => if tiny < absOf (sfdOwn + sfdNei) then sfdNei / (sfdOwn + sfdNei) else half

/-- `BasicGeometryScheme::updateWeights` (basicGeometryScheme.cpp:13-49). -/
def updateWeights (e : ExecKind) (m : Mesh K) (tiny : K) (w : List K) : NR (List K) := do
  let w ← elemKernel e 0 m.nInternalFaces (weightsBody m tiny) w
  elemKernel e m.nInternalFaces w.length (fun _ => .ok fun _ => 1) w

/-- `cellCentre[neighbour[facei]] - cellCentre[owner[facei]]` (basicGeometryScheme.cpp:67, 107). -/
def cellToCell (m : Mesh K) (f : Nat) : Res (Vec K) := do
  let nei ← rd m.neighbour f
  let cn ← rd m.cellCentres nei
  let own ← rd m.owner f
  let co ← rd m.cellCentres own
  return cn - co

/-- `cf[facei] - cellCentre[surfFaceCells[facei - nInternalFaces]]` (basicGeometryScheme.cpp:78-79,
121-122). -/
def cellToFace (m : Mesh K) (f : Nat) : Res (Vec K) := do
  let own ← rd m.bnd.faceCells (f - m.nInternalFaces)
  let cf ← rd m.faceCentres f
  let co ← rd m.cellCentres own
  return cf - co

/-- Kernels of `updateDeltaCoeffs` (basicGeometryScheme.cpp:66-69, 77-82). -/
def deltaBody (sqrt : K → K) (dist : Nat → Res (Vec K)) (f : Nat) : Res (K → K) := do
  let d ← dist f
  return fun _ => 1 / vmag sqrt d

/-- `BasicGeometryScheme::updateDeltaCoeffs` (basicGeometryScheme.cpp:51-84). -/
def updateDeltaCoeffs (e : ExecKind) (m : Mesh K) (sqrt : K → K) (a : List K) : NR (List K) := do
  let a ← elemKernel e 0 m.nInternalFaces (deltaBody sqrt (cellToCell m)) a
  elemKernel e m.nInternalFaces a.length (deltaBody sqrt (cellToFace m)) a

/-- Kernels of `updateNonOrthDeltaCoeffs` (basicGeometryScheme.cpp:106-114, 120-129). -/
def nonOrthBody (m : Mesh K) (sqrt : K → K) (dist : Nat → Res (Vec K)) (f : Nat) : Res (K → K) := do
  let d ← dist f
  let area ← rd m.magFaceAreas f
  let sf ← rd m.faceAreas f
  let n := (1 / area) • sf
  return fun _ => 1 / max (vdot n d) (twentieth * vmag sqrt d)

/-- `BasicGeometryScheme::updateNonOrthDeltaCoeffs` (basicGeometryScheme.cpp:87-131). -/
def updateNonOrthDeltaCoeffs (e : ExecKind) (m : Mesh K) (sqrt : K → K) (a : List K) : NR (List K) := do
  let a ← elemKernel e 0 a.length (fun _ => .ok fun _ => 0) a
  let a ← elemKernel e 0 m.nInternalFaces (nonOrthBody m sqrt (cellToCell m)) a
  elemKernel e m.nInternalFaces a.length (nonOrthBody m sqrt (cellToFace m)) a

/-- The three fields of a `GeometryScheme`; `nonOrthCorrectionVectors` is created but never computed
(geometryScheme.cpp:104-117) and left out. -/
structure Geometry (K : Type) where
  weights : List K
  deltaCoeffs : List K
  nonOrthDeltaCoeffs : List K

/-- `GeometryScheme(mesh)` (src/…/stencil/geometryScheme.cpp:75-100) with `update()` (104-117): fields of
one value per face, computed by the basic scheme. `junk` is the content of freshly allocated fields. -/
def geometryScheme (e : ExecKind) (m : Mesh K) (tiny : K) (sqrt : K → K) (junk : Nat → K) :
    NR (Geometry K) := do
  let w ← updateWeights e m tiny ((List.range m.nFaces).map junk)
  let d ← updateDeltaCoeffs e m sqrt ((List.range m.nFaces).map junk)
  let n ← updateNonOrthDeltaCoeffs e m sqrt ((List.range m.nFaces).map junk)
  return ⟨w, d, n⟩

/-- The weights of the geometry scheme as a surface field (geometryScheme.cpp:78, 104-111; basicGeometryScheme.cpp:22-48): `update` writes
the internal field only, the boundary field keeps what its fresh storage held. -/
def weightsField (e : ExecKind) (m : Mesh K) (tiny : K) (fresh : FaceField K) : NR (FaceField K) := do
  let w ← updateWeights e m tiny fresh.internal
  return { fresh with internal := w }

/-- A call of `parallelReduce` whose kernel reads arrays (core/parallelAlgorithms.hpp:107-142). -/
def reduceKernel (e : ExecKind) (kernel : Nat → Res (K → K)) (join : K → K → K) (init : K) (start stop : Nat)
    (value : K) : NR K := do
  let fs ← NR.lift ((List.range' start (stop - start)).mapM kernel)
  (fun out => ∃ v, parallelReduce e (fun i acc => fs.getD (i - start) id acc) join init start stop value v ∧
    out = .ok v : NR K)

/-- Kernel over the internal faces of `computeCoNum`
(src/finiteVolume/cellCentred/auxiliary/coNum.cpp:39-43). -/
def coInternal (m : Mesh K) (sqrt : K → K) (flux : List K) (i : Nat) : Res (List (Act Unit K)) := do
  let a ← rd flux i
  let own ← rd m.owner i
  let nei ← rd m.neighbour i
  return [Act.atomicAdd () own (sqrt (a * a)), Act.atomicAdd () nei (sqrt (a * a))]

/-- Kernel over the boundary faces of `computeCoNum` (coNum.cpp:49-53). -/
def coBoundary (m : Mesh K) (sqrt : K → K) (flux : List K) (i : Nat) : Res (List (Act Unit K)) := do
  let own ← rd m.bnd.faceCells (i - m.nInternalFaces)
  let a ← rd flux i
  return [Act.atomicAdd () own (sqrt (a * a))]

/-- Kernel of the maximum (coNum.cpp:63-66). -/
def coMaxBody (phi vol : List K) (c : Nat) : Res (K → K) := do
  let p ← rd phi c
  let v ← rd vol c
  return fun lmax => if lmax < p / v then p / v else lmax

/-- Kernels of the sums (coNum.cpp:75, 84). -/
def coSumBody (a : List K) (c : Nat) : Res (K → K) := do
  let x ← rd a c
  return fun lsum => lsum + x

/-- `computeCoNum(faceFlux, dt)` (coNum.cpp:17-95). The boundary conditions of `phi` are all calculated, so
correcting them does nothing. Returns the maximum and the mean it logs. `lowest` is
`Kokkos::reduction_identity<scalar>::max()`; the serial executor starts from zero instead. -/
def computeCoNum (e : ExecKind) (m : Mesh K) (sqrt : K → K) (lowest : K) (flux : List K) (dt : K) :
    NR (K × K) := do
  let phi ← launch1 e 0 m.nInternalFaces (coInternal m sqrt flux) (List.replicate m.nCells 0)
  let phi ← launch1 e m.nInternalFaces flux.length (coBoundary m sqrt flux) phi
  let mx ← reduceKernel e (coMaxBody phi m.cellVolumes) max lowest 0 m.nCells 0
  let sp ← reduceKernel e (coSumBody phi) (· + ·) 0 0 m.nCells 0
  let sv ← reduceKernel e (coSumBody m.cellVolumes) (· + ·) 0 0 m.nCells 0
  return (mx * half * dt, half * (sp / sv) * dt)

end
end NeoFOAM
