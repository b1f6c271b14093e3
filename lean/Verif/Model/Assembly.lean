import Verif.Model.Operators

/-!
# Implicit operators: assembly into a linear system
-/
namespace NeoFOAM
variable {K : Type}

/-- The two arrays an assembly kernel writes.
(linearAlgebra/linearSystem.hpp:43-99) -/
inductive LSArr where
  | values
  | rhs
  deriving DecidableEq, Repr

/-- One `parallelFor` that writes the coefficients and the right hand side of a linear system.
(core/parallelAlgorithms.hpp:26-63) -/
def launchLS (e : ExecKind) (start stop : Nat) (body : Nat → Res (List (Act LSArr K))) (ls : LinearSystem K) :
    NR (LinearSystem K) := do
  let f ← launch e start stop body (fun a => match a with | .values => ls.matrix.values | .rhs => ls.rhs)
  return ⟨{ ls.matrix with values := f .values }, f .rhs⟩

variable [Add K] [Sub K] [Mul K] [Div K] [Neg K] [Zero K] [One K]

/-- First kernel of `computeDivImp` (src/…/operators/gaussGreenDiv.cpp:169-203), scalar fields. -/
def divImpInternal [LinearOrder K] (m : Mesh K) (sp : SparsityPattern) (rowOffs : List Nat) (flux : List K)
    (scal : Coeff K) (f : Nat) : Res (List (Act LSArr K)) := do
  let fl ← rd flux f
  let weight : K := if 0 ≤ fl then 1 else 0
  let own ← rd m.owner f
  let nei ← rd m.neighbour f
  let rowNei ← rd rowOffs nei
  let rowOwn ← rd rowOffs own
  let sNei ← scal.get nei
  let sOwn ← scal.get own
  let neiOff ← rd sp.neighbourOffset f
  let dOwn ← rd sp.diagOffset own
  let ownOff ← rd sp.ownerOffset f
  let dNei ← rd sp.diagOffset nei
  let value := -weight * fl
  let value2 := fl * (1 - weight)
  return Act.plain f .values (rowNei + neiOff) (· + value * sNei)
    ++ [Act.atomicSub .values (rowOwn + dOwn) (value * sOwn)]
    ++ Act.plain f .values (rowOwn + ownOff) (· + value2 * sOwn)
    ++ [Act.atomicSub .values (rowNei + dNei) (value2 * sNei)]

/-- Second kernel of `computeDivImp` (gaussGreenDiv.cpp:212-228): plain updates. -/
def divImpBoundary (m : Mesh K) (sp : SparsityPattern) (rowOffs : List Nat) (flux : List K) (phi : VolField K K)
    (scal : Coeff K) (f : Nat) : Res (List (Act LSArr K)) := do
  let b := f - m.nInternalFaces
  let fl ← rd flux f
  let own ← rd m.bnd.faceCells b
  let rowOwn ← rd rowOffs own
  let s ← scal.get own
  let d ← rd sp.diagOffset own
  let vf ← rd phi.bVF b
  let ref ← rd phi.bRefValue b
  return Act.plain f .values (rowOwn + d) (· + fl * s * (1 - vf)) ++ Act.plain f .rhs own (· - fl * s * (vf * ref))

/-- `computeDivImp(ls, faceFlux, phi, operatorScaling, sparsityPattern)` (gaussGreenDiv.cpp:145-229). -/
def computeDivImp [LinearOrder K] (e : ExecKind) (m : Mesh K) (sp : SparsityPattern) (flux : List K)
    (phi : VolField K K) (scal : Coeff K) (ls : LinearSystem K) : NR (LinearSystem K) := do
  let ls ← launchLS e 0 m.nInternalFaces (divImpInternal m sp ls.matrix.rowOffs flux scal) ls
  launchLS e m.nInternalFaces flux.length (divImpBoundary m sp ls.matrix.rowOffs flux phi scal) ls

/-- First kernel of `computeLaplacianImpl` (src/…/operators/gaussGreenLaplacian.cpp:116-147). -/
def lapImpInternal (m : Mesh K) (sp : SparsityPattern) (rowOffs : List Nat) (δ gamma : List K) (scal : Coeff K)
    (f : Nat) : Res (List (Act LSArr K)) := do
  let d ← rd δ f
  let g ← rd gamma f
  let a ← rd m.magFaceAreas f
  let fl := d * g * a
  let own ← rd m.owner f
  let nei ← rd m.neighbour f
  let rowNei ← rd rowOffs nei
  let rowOwn ← rd rowOffs own
  let sNei ← scal.get nei
  let sOwn ← scal.get own
  let neiOff ← rd sp.neighbourOffset f
  let dOwn ← rd sp.diagOffset own
  let ownOff ← rd sp.ownerOffset f
  let dNei ← rd sp.diagOffset nei
  return Act.plain f .values (rowNei + neiOff) (· + fl * sNei)
    ++ [Act.atomicSub .values (rowOwn + dOwn) (fl * sOwn)]
    ++ Act.plain f .values (rowOwn + ownOff) (· + fl * sOwn)
    ++ [Act.atomicSub .values (rowNei + dNei) (fl * sNei)]

/-- Second kernel of `computeLaplacianImpl` (gaussGreenLaplacian.cpp:156-175): plain updates. -/
def lapImpBoundary (m : Mesh K) (sp : SparsityPattern) (rowOffs : List Nat) (δ gamma : List K) (phi : VolField K K)
    (scal : Coeff K) (f : Nat) : Res (List (Act LSArr K)) := do
  let b := f - m.nInternalFaces
  let g ← rd gamma f
  let a ← rd m.magFaceAreas f
  let fl := g * a
  let own ← rd m.bnd.faceCells b
  let rowOwn ← rd rowOffs own
  let s ← scal.get own
  let dg ← rd sp.diagOffset own
  let vf ← rd phi.bVF b
  let d ← rd δ f
  let ref ← rd phi.bRefValue b
  let rg ← rd phi.bRefGrad b
  return Act.plain f .values (rowOwn + dg) (· - fl * s * vf * d)
    ++ Act.plain f .rhs own (· - fl * s * (vf * d * ref + (1 - vf) * rg))

/-- `computeLaplacianImpl` (gaussGreenLaplacian.cpp:82-175); `δ` are the non-orthogonal delta coefficients
(`Uncorrected::deltaCoeffs`, uncorrected.hpp:55-58). -/
def computeLaplacianImpl (e : ExecKind) (m : Mesh K) (sp : SparsityPattern) (δ gamma : List K) (phi : VolField K K)
    (scal : Coeff K) (ls : LinearSystem K) : NR (LinearSystem K) := do
  let ls ← launchLS e 0 m.nInternalFaces (lapImpInternal m sp ls.matrix.rowOffs δ gamma scal) ls
  launchLS e m.nInternalFaces gamma.length (lapImpBoundary m sp ls.matrix.rowOffs δ gamma phi scal) ls

/-- Kernel of `DdtOperator::implicitOperation` (src/…/operators/ddtOperator.cpp:47-54). -/
def ddtImpBody (m : Mesh K) (sp : SparsityPattern) (rowOffs : List Nat) (old : List K) (scal : Coeff K) (dtInver : K)
    (c : Nat) : Res (List (Act LSArr K)) := do
  let r ← rd rowOffs c
  let d ← rd sp.diagOffset c
  let s ← scal.get c
  let v ← rd m.cellVolumes c
  let o ← rd old c
  let common := s * v * dtInver
  return Act.plain c .values (r + d) (· + common) ++ Act.plain c .rhs c (· + common * o)

/-- `DdtOperator::implicitOperation(ls, t, dt)` (ddtOperator.cpp:33-55). -/
def ddtImplicit (e : ExecKind) (m : Mesh K) (sp : SparsityPattern) (old : List K) (scal : Coeff K) (dt : K)
    (ls : LinearSystem K) : NR (LinearSystem K) :=
  launchLS e 0 old.length (ddtImpBody m sp ls.matrix.rowOffs old scal (1 / dt)) ls

/-- Kernel of `SourceTerm::implicitOperation` (src/…/operators/sourceTerm.cpp:44-50). -/
def sourceImpBody (m : Mesh K) (sp : SparsityPattern) (rowOffs : List Nat) (coeff : List K) (scal : Coeff K)
    (c : Nat) : Res (List (Act LSArr K)) := do
  let r ← rd rowOffs c
  let d ← rd sp.diagOffset c
  let s ← scal.get c
  let k ← rd coeff c
  let v ← rd m.cellVolumes c
  return Act.plain c .values (r + d) (· + s * k * v)

/-- `SourceTerm::implicitOperation(ls)` (sourceTerm.cpp:33-50). -/
def sourceImplicit (e : ExecKind) (m : Mesh K) (sp : SparsityPattern) (coeff : List K) (scal : Coeff K)
    (ls : LinearSystem K) : NR (LinearSystem K) :=
  launchLS e 0 coeff.length (sourceImpBody m sp ls.matrix.rowOffs coeff scal) ls

end NeoFOAM
