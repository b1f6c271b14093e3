import Verif.Model.Interp

/-!
# Gauss sums: explicit divergence, surface integral, gradient, Laplacian
-/
namespace NeoFOAM
variable {K V : Type} [Add K] [Sub K] [Mul K] [Div K] [Neg K] [Zero K] [One K] [Add V] [Sub V] [Zero V] [SMul K V]

/-- Kernel over internal faces with atomics: `atomic_add(&res[owner[i]], flux); atomic_sub(&res[neighbour[i]],
flux)` (gaussGreenDiv.cpp:65-69, surfaceIntegrate.cpp:29-32, gaussGreenGrad.cpp:48-52,
gaussGreenLaplacian.cpp:45-49). -/
def gaussInternal (m : Mesh K) (flux : Nat → Res V) (i : Nat) : Res (List (Act Unit V)) := do
  let fl ← flux i
  let own ← rd m.owner i
  let nei ← rd m.neighbour i
  return [Act.atomicAdd () own fl, Act.atomicSub () nei fl]

/-- Kernel over boundary faces with atomics (gaussGreenDiv.cpp:76-80, surfaceIntegrate.cpp:38-41,
gaussGreenGrad.cpp:58-62, gaussGreenLaplacian.cpp:55-59). -/
def gaussBoundary (m : Mesh K) (flux : Nat → Res V) (i : Nat) : Res (List (Act Unit V)) := do
  let own ← rd m.bnd.faceCells (i - m.nInternalFaces)
  let fl ← flux i
  return [Act.atomicAdd () own fl]

/-- Body of the serial loop over internal faces (gaussGreenDiv.cpp:42-44). -/
def gaussInternalPlain (m : Mesh K) (flux : Nat → Res V) (i : Nat) : Res (List (Act Unit V)) := do
  let fl ← flux i
  let own ← rd m.owner i
  let nei ← rd m.neighbour i
  return Act.plain i () own (· + fl) ++ Act.plain i () nei (· - fl)

/-- Body of the serial loop over boundary faces (gaussGreenDiv.cpp:49-51). -/
def gaussBoundaryPlain (m : Mesh K) (flux : Nat → Res V) (i : Nat) : Res (List (Act Unit V)) := do
  let own ← rd m.bnd.faceCells (i - m.nInternalFaces)
  let fl ← flux i
  return Act.plain i () own (· + fl)

/-- `res[celli] *= operatorScaling[celli] / v[celli]` (gaussGreenDiv.cpp:57, 87; surfaceIntegrate.cpp:47;
gaussGreenLaplacian.cpp:65). -/
def scaleBody (scal : Coeff K) (v : List K) (c : Nat) : Res (V → V) := do
  let s ← scal.get c
  let vol ← rd v c
  return fun x => (s / vol) • x

/-- `computeDiv` (src/…/operators/gaussGreenDiv.cpp:21-91) with the views computeDivExp passes (116-129): the
serial executor uses plain loops, the others kernels with atomics. -/
def computeDiv (e : ExecKind) (m : Mesh K) (faceFlux : List K) (phiF : List V) (scal : Coeff K) (res : List V) :
    NR (List V) :=
  let flux : Nat → Res V := fun i => do
    let a ← rd faceFlux i
    let b ← rd phiF i
    return a • b
  match e with
  | .serial => do
    let r ← launch1 .serial 0 m.nInternalFaces (gaussInternalPlain m flux) res
    let r ← launch1 .serial m.nInternalFaces (m.nInternalFaces + m.nBoundaryFaces) (gaussBoundaryPlain m flux) r
    elemKernel .serial 0 m.cellVolumes.length (scaleBody scal m.cellVolumes) r
  | .parallel => do
    let r ← launch1 .parallel 0 m.nInternalFaces (gaussInternal m flux) res
    let r ← launch1 .parallel m.nInternalFaces (m.nInternalFaces + m.nBoundaryFaces) (gaussBoundary m flux) r
    elemKernel .parallel 0 m.cellVolumes.length (scaleBody scal m.cellVolumes) r

/-- `computeDivExp` (gaussGreenDiv.cpp:93-130). `w` are the geometry scheme's weights, `junk` what the freshly
allocated face values contain. The boundary values copied to `phif` (line 112) are not read. -/
def computeDivExp [LinearOrder K] (e : ExecKind) (m : Mesh K) (s : InterpScheme) (w : List K) (junk : Nat → V)
    (faceFlux : List K) (phi : VolField K V) (scal : Coeff K) (divPhi : List V) : NR (List V) := do
  let phif ← interpolateFlux s e m w faceFlux phi ((List.range m.nFaces).map junk)
  computeDiv e m faceFlux phif scal divPhi

/-- `surfaceIntegrate` (src/…/operators/surfaceIntegrate.cpp:11-49) with the views
`SurfaceIntegrate::explicitOperation` passes. -/
def surfaceIntegrate (e : ExecKind) (m : Mesh K) (flux : List V) (scal : Coeff K) (res : List V) : NR (List V) := do
  let nB := m.bnd.faceCells.length
  let r ← launch1 e 0 m.nInternalFaces (gaussInternal m (rd flux)) res
  let r ← launch1 e m.nInternalFaces (m.nInternalFaces + nB) (gaussBoundary m (rd flux)) r
  elemKernel e 0 m.cellVolumes.length (scaleBody scal m.cellVolumes) r

/-- `computeLaplacianExp` (src/…/operators/gaussGreenLaplacian.cpp:11-67). `δ`: non-orthogonal delta
coefficients; `junk`: contents of the freshly allocated face values. The diffusivity `gamma` is not read. -/
def computeLaplacianExp (e : ExecKind) (m : Mesh K) (δ : List K) (junk : Nat → V) (_gamma : List K)
    (phi : VolField K V) (scal : Coeff K) (lapPhi : List V) : NR (List V) := do
  let fn ← computeFaceNormalGrad e m phi δ ((List.range m.nFaces).map junk)
  let flux : Nat → Res V := fun i => do
    let a ← rd m.magFaceAreas i
    let b ← rd fn i
    return a • b
  let r ← launch1 e 0 m.nInternalFaces (gaussInternal m flux) lapPhi
  let r ← launch1 e m.nInternalFaces fn.length (gaussBoundary m flux) r
  elemKernel e 0 m.nCells (scaleBody scal m.cellVolumes) r

end NeoFOAM

namespace NeoFOAM
variable {K : Type} [Add K] [Sub K] [Mul K] [Div K] [Neg K] [Zero K] [One K]

/-- `surfGradPhi[celli] *= 1 / surfV[celli]` (gaussGreenGrad.cpp:68). -/
def gradScaleBody (v : List K) (c : Nat) : Res (Vec K → Vec K) := do
  let vol ← rd v c
  return fun x => (1 / vol) • x

/-- `computeGrad` (src/…/operators/gaussGreenGrad.cpp:17-70) with the linear scheme that the constructor sets
up (72-75). `faceAreaS[i] * surfPhif[i]` is a vector times a scalar. -/
def computeGrad (e : ExecKind) (m : Mesh K) (w : List K) (junk : Nat → K) (phi : VolField K K)
    (out : List (Vec K)) : NR (List (Vec K)) := do
  let phif ← interpolate .linear e m w phi ((List.range m.nFaces).map junk)
  let flux : Nat → Res (Vec K) := fun i => do
    let a ← rd m.faceAreas i
    let b ← rd phif i
    return b • a
  let r ← launch1 e 0 m.nInternalFaces (gaussInternal m flux) out
  let r ← launch1 e m.nInternalFaces phif.length (gaussBoundary m flux) r
  elemKernel e 0 m.nCells (gradScaleBody m.cellVolumes) r

/-- `GaussGreenGrad::grad(phi, gradPhi)` (gaussGreenGrad.cpp:78-81). -/
def gradInto (e : ExecKind) (m : Mesh K) (w : List K) (junk : Nat → K) (phi : VolField K K)
    (gradPhi : List (Vec K)) : NR (List (Vec K)) :=
  computeGrad e m w junk phi gradPhi

/-- `GaussGreenGrad::grad(phi)` (gaussGreenGrad.cpp:83-90); `junkV`: contents of the freshly allocated field
before `fill`. -/
def grad (e : ExecKind) (m : Mesh K) (w : List K) (junk : Nat → K) (junkV : Nat → Vec K) (phi : VolField K K) :
    NR (List (Vec K)) := do
  let g ← elemKernel e 0 m.nCells (fun _ => .ok fun _ => (0 : Vec K)) ((List.range m.nCells).map junkV)
  computeGrad e m w junk phi g

end NeoFOAM
