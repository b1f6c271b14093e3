import Verif.Model.Solve
import Verif.Model.Calls

/-!
# Implicit operators on fields of any value type

The operators are templates over `ValueType` and are instantiated for `scalar` and `Vector`. `one` is `one<ValueType>()`
(core/primitives/scalar.hpp, core/primitives/vector.hpp:168-172). A plain load or store of a value is taken as one access, also when the
value has several components.
-/
namespace NeoFOAM
variable {K V : Type}

/-- `one<Vector>()` (core/primitives/vector.hpp:168-172). -/
def vecOne [One K] : Vec K := (1, 1, 1)

/-- One `parallelFor` that writes the coefficients and the right hand side of a linear system.
(core/parallelAlgorithms.hpp:26-63) -/
def launchLSV (e : ExecKind) (start stop : Nat) (body : Nat → Res (List (Act LSArr V))) (ls : LinearSystem V) :
    NR (LinearSystem V) := do
  let f ← launch e start stop body (fun a => match a with | .values => ls.matrix.values | .rhs => ls.rhs)
  return ⟨{ ls.matrix with values := f .values }, f .rhs⟩

section
variable [Add K] [Sub K] [Mul K] [Div K] [Neg K] [Zero K] [One K] [Add V] [Sub V] [Zero V] [SMul K V]

/-- First kernel of `computeDivImp<ValueType>` (src/…/operators/gaussGreenDiv.cpp:169-203). -/
def divImpInternalV [LinearOrder K] (one : V) (m : Mesh K) (sp : SparsityPattern) (rowOffs : List Nat) (flux : List K)
    (scal : Coeff K) (f : Nat) : Res (List (Act LSArr V)) := do
  let fl ← rd flux f
  let weight : K := if 0 ≤ fl then 1 else 0
  let own ← rd m.owner f
  let nei ← rd m.neighbour f
  let rowNei ← rd rowOffs nei
  let rowOwn ← rd rowOffs own
  let sNei ← scal.get nei
  let sOwn ← scal.get own
  let neiOff ← rd sp.neighbourOffset f
  let dOwn ← rd sp.diagOffset own
  let ownOff ← rd sp.ownerOffset f
  let dNei ← rd sp.diagOffset nei
  let value : V := (-weight * fl) • one
  let value2 : V := (fl * (1 - weight)) • one
  return Act.plain f .values (rowNei + neiOff) (· + sNei • value)
    ++ [Act.atomicSub .values (rowOwn + dOwn) (sOwn • value)]
    ++ Act.plain f .values (rowOwn + ownOff) (· + sOwn • value2)
    ++ [Act.atomicSub .values (rowNei + dNei) (sNei • value2)]

/-- Second kernel of `computeDivImp<ValueType>` (gaussGreenDiv.cpp:212-228). -/
def divImpBoundaryV (one : V) (m : Mesh K) (sp : SparsityPattern) (rowOffs : List Nat) (flux : List K) (phi : VolField K V)
    (scal : Coeff K) (f : Nat) : Res (List (Act LSArr V)) := do
  let b := f - m.nInternalFaces
  let fl ← rd flux f
  let own ← rd m.bnd.faceCells b
  let rowOwn ← rd rowOffs own
  let s ← scal.get own
  let d ← rd sp.diagOffset own
  let vf ← rd phi.bVF b
  let ref ← rd phi.bRefValue b
  return Act.plain f .values (rowOwn + d) (· + (fl * s * (1 - vf)) • one) ++ Act.plain f .rhs own (· - (fl * s) • (vf • ref))

/-- `computeDivImp<ValueType>(ls, faceFlux, phi, operatorScaling, sparsityPattern)` (gaussGreenDiv.cpp:145-236). -/
def computeDivImpV [LinearOrder K] (one : V) (e : ExecKind) (m : Mesh K) (sp : SparsityPattern) (flux : List K)
    (phi : VolField K V) (scal : Coeff K) (ls : LinearSystem V) : NR (LinearSystem V) := do
  let ls ← launchLSV e 0 m.nInternalFaces (divImpInternalV one m sp ls.matrix.rowOffs flux scal) ls
  launchLSV e m.nInternalFaces flux.length (divImpBoundaryV one m sp ls.matrix.rowOffs flux phi scal) ls

/-- First kernel of `computeLaplacianImpl<ValueType>` (src/…/operators/gaussGreenLaplacian.cpp:116-147). -/
def lapImpInternalV (one : V) (m : Mesh K) (sp : SparsityPattern) (rowOffs : List Nat) (δ gamma : List K) (scal : Coeff K)
    (f : Nat) : Res (List (Act LSArr V)) := do
  let d ← rd δ f
  let g ← rd gamma f
  let a ← rd m.magFaceAreas f
  let fl := d * g * a
  let own ← rd m.owner f
  let nei ← rd m.neighbour f
  let rowNei ← rd rowOffs nei
  let rowOwn ← rd rowOffs own
  let sNei ← scal.get nei
  let sOwn ← scal.get own
  let neiOff ← rd sp.neighbourOffset f
  let dOwn ← rd sp.diagOffset own
  let ownOff ← rd sp.ownerOffset f
  let dNei ← rd sp.diagOffset nei
  return Act.plain f .values (rowNei + neiOff) (· + sNei • (fl • one))
    ++ [Act.atomicSub .values (rowOwn + dOwn) (sOwn • (fl • one))]
    ++ Act.plain f .values (rowOwn + ownOff) (· + sOwn • (fl • one))
    ++ [Act.atomicSub .values (rowNei + dNei) (sNei • (fl • one))]

/-- Second kernel of `computeLaplacianImpl<ValueType>` (gaussGreenLaplacian.cpp:156-175). -/
def lapImpBoundaryV (one : V) (m : Mesh K) (sp : SparsityPattern) (rowOffs : List Nat) (δ gamma : List K) (phi : VolField K V)
    (scal : Coeff K) (f : Nat) : Res (List (Act LSArr V)) := do
  let b := f - m.nInternalFaces
  let g ← rd gamma f
  let a ← rd m.magFaceAreas f
  let fl := g * a
  let own ← rd m.bnd.faceCells b
  let rowOwn ← rd rowOffs own
  let s ← scal.get own
  let dg ← rd sp.diagOffset own
  let vf ← rd phi.bVF b
  let d ← rd δ f
  let ref ← rd phi.bRefValue b
  let rg ← rd phi.bRefGrad b
  return Act.plain f .values (rowOwn + dg) (· - (fl * s * vf * d) • one)
    ++ Act.plain f .rhs own (· - (fl * s) • ((vf * d) • ref + (1 - vf) • rg))

/-- `computeLaplacianImpl<ValueType>` (gaussGreenLaplacian.cpp:82-182). -/
def computeLaplacianImplV (one : V) (e : ExecKind) (m : Mesh K) (sp : SparsityPattern) (δ gamma : List K) (phi : VolField K V)
    (scal : Coeff K) (ls : LinearSystem V) : NR (LinearSystem V) := do
  let ls ← launchLSV e 0 m.nInternalFaces (lapImpInternalV one m sp ls.matrix.rowOffs δ gamma scal) ls
  launchLSV e m.nInternalFaces gamma.length (lapImpBoundaryV one m sp ls.matrix.rowOffs δ gamma phi scal) ls

/-- Kernel of `DdtOperator<ValueType>::implicitOperation` (src/…/operators/ddtOperator.cpp:47-54). -/
def ddtImpBodyV (one : V) (m : Mesh K) (sp : SparsityPattern) (rowOffs : List Nat) (old : List V) (scal : Coeff K) (dtInver : K)
    (c : Nat) : Res (List (Act LSArr V)) := do
  let r ← rd rowOffs c
  let d ← rd sp.diagOffset c
  let s ← scal.get c
  let v ← rd m.cellVolumes c
  let o ← rd old c
  let common := s * v * dtInver
  return Act.plain c .values (r + d) (· + common • one) ++ Act.plain c .rhs c (· + common • o)

/-- `DdtOperator<ValueType>::implicitOperation(ls, t, dt)` (ddtOperator.cpp:33-59). -/
def ddtImplicitV (one : V) (e : ExecKind) (m : Mesh K) (sp : SparsityPattern) (old : List V) (scal : Coeff K) (dt : K)
    (ls : LinearSystem V) : NR (LinearSystem V) :=
  launchLSV e 0 old.length (ddtImpBodyV one m sp ls.matrix.rowOffs old scal (1 / dt)) ls

/-- Kernel of `SourceTerm<ValueType>::implicitOperation` (src/…/operators/sourceTerm.cpp:44-50). -/
def sourceImpBodyV (one : V) (m : Mesh K) (sp : SparsityPattern) (rowOffs : List Nat) (coeff : List K) (scal : Coeff K)
    (c : Nat) : Res (List (Act LSArr V)) := do
  let r ← rd rowOffs c
  let d ← rd sp.diagOffset c
  let s ← scal.get c
  let k ← rd coeff c
  let v ← rd m.cellVolumes c
  return Act.plain c .values (r + d) (· + (s * k * v) • one)

/-- `SourceTerm<ValueType>::implicitOperation(ls)` (sourceTerm.cpp:33-56). -/
def sourceImplicitV (one : V) (e : ExecKind) (m : Mesh K) (sp : SparsityPattern) (coeff : List K) (scal : Coeff K)
    (ls : LinearSystem V) : NR (LinearSystem V) :=
  launchLSV e 0 coeff.length (sourceImpBodyV one m sp ls.matrix.rowOffs coeff scal) ls

/-- A term of an equation for a field of any value type. `of = none`: the field the equation is solved for.
(operators/divOperator.hpp:83-195, operators/laplacianOperator.hpp:79-183, operators/sourceTerm.hpp:19-42,
operators/surfaceIntegrate.hpp:31-86, operators/ddtOperator.hpp:19-39) -/
inductive TermV (K V : Type) where
  | div (type : OpType) (flux : List K) (of : Option (VolField K V)) (coeff : Coeff K)
  | laplacian (type : OpType) (gamma : List K) (of : Option (VolField K V)) (coeff : Coeff K)
  | source (type : OpType) (k : List K) (of : Option (VolField K V)) (coeff : Coeff K)
  | surface (flux : List V) (coeff : Coeff K)
  | ddt (type : OpType) (coeff : Coeff K)

/-- The operator model of a term (the same citations); the operators are taken as built with the selected schemes (C48), `junk` are the
contents of fresh memory. -/
def TermV.op [LinearOrder K] (S : Setting K) (one : V) (junk : Nat → V) (st : TimeState K V) : TermV K V → OpModel K V
  | .div type flux of coeff =>
    { type, coeff
      expl := some fun c _ _ src => divExplicit S.e S.m (some S.sch) S.w junk flux (of.getD st.sol) c src
      impl := some fun c _ _ ls => computeDivImpV one S.e S.m S.sp flux (of.getD st.sol) c ls }
  | .laplacian type gamma of coeff =>
    { type, coeff
      expl := some fun c _ _ src => laplacianExplicit S.e S.m true S.δ junk gamma (of.getD st.sol) c src
      impl := some fun c _ _ ls => computeLaplacianImplV one S.e S.m S.sp S.δ gamma (of.getD st.sol) c ls }
  | .source type k of coeff =>
    { type, coeff
      expl := some fun c _ _ src => sourceExplicit S.e k (of.getD st.sol) c src
      impl := some fun c _ _ ls => sourceImplicitV one S.e S.m S.sp k c ls }
  | .surface flux coeff =>
    { type := .explicit, coeff
      expl := some fun c _ _ src => surfaceIntegrateExplicit S.e S.m flux c src
      impl := none }
  | .ddt type coeff =>
    { type, coeff
      expl := some fun c _ dt src => ddtExplicit S.e S.m st.sol st.oldTime c dt src
      impl := some fun c _ dt ls => ddtImplicitV one S.e S.m S.sp st.oldTime c dt ls }

/-- The operators of a list of terms. (operators/*.hpp) -/
def termOpsV [LinearOrder K] (S : Setting K) (one : V) (junk : Nat → V) (ts : List (TermV K V)) : OpsOf K V :=
  fun st => ts.map (·.op S one junk st)

end
end NeoFOAM
