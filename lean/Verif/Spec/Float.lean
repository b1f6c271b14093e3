import Verif.Spec.Fields
import Verif.Model.Coeff

/-!
# Specification: floating-point arithmetic
-/
namespace NeoFOAM
open Finset
variable {F K : Type}

/-- The standard model of floating-point arithmetic (as for IEEE numbers while no operation overflows or underflows): a number `a` of
type `F` stands for the exact value `val a`, every operation gives the exact result up to the relative error `u` (the unit
roundoff), comparisons are those of the values. Nothing else is assumed: no operation need be associative or distributive. -/
structure FloatArith (F : Type) {K : Type} [Add F] [Sub F] [Mul F] [Div F] [Neg F] [Zero F] [One F] [LinearOrder F] [Field K]
    [LinearOrder K] (val : F → K) (u : K) : Prop where
  roundoff : 0 ≤ u
  zero : val 0 = 0
  one : val 1 = 1
  neg : ∀ a : F, val (-a) = -val a
  add : ∀ a b : F, |val (a + b) - (val a + val b)| ≤ u * |val a + val b|
  sub : ∀ a b : F, |val (a - b) - (val a - val b)| ≤ u * |val a - val b|
  mul : ∀ a b : F, |val (a * b) - val a * val b| ≤ u * |val a * val b|
  div : ∀ a b : F, val b ≠ 0 → |val (a / b) - val a / val b| ≤ u * |val a / val b|
  le : ∀ a b : F, a ≤ b ↔ val a ≤ val b

/-- The exact vector a vector of floating-point numbers stands for. -/
def vecVal (val : F → K) (v : Vec F) : Vec K := (val v.1, val v.2.1, val v.2.2)

/-- The boundary mesh with the exact values of its numbers. -/
def BoundaryMesh.exact (val : F → K) (b : BoundaryMesh F) : BoundaryMesh K where
  faceCells := b.faceCells
  cf := b.cf.map (vecVal val)
  cn := b.cn.map (vecVal val)
  sf := b.sf.map (vecVal val)
  magSf := b.magSf.map val
  nf := b.nf.map (vecVal val)
  delta := b.delta.map (vecVal val)
  weights := b.weights.map val
  deltaCoeffs := b.deltaCoeffs.map val
  offset := b.offset

/-- The mesh with the exact values of its numbers. -/
def Mesh.exact (val : F → K) (m : Mesh F) : Mesh K where
  points := m.points.map (vecVal val)
  cellVolumes := m.cellVolumes.map val
  cellCentres := m.cellCentres.map (vecVal val)
  faceAreas := m.faceAreas.map (vecVal val)
  faceCentres := m.faceCentres.map (vecVal val)
  magFaceAreas := m.magFaceAreas.map val
  owner := m.owner
  neighbour := m.neighbour
  nCells := m.nCells
  nInternalFaces := m.nInternalFaces
  nBoundaryFaces := m.nBoundaryFaces
  nBoundaries := m.nBoundaries
  nFaces := m.nFaces
  bnd := m.bnd.exact val

/-- The field with the exact values of its numbers. -/
def VolField.exact (val : F → K) (φ : VolField F F) : VolField K K :=
  ⟨φ.internal.map val, φ.bValue.map val, φ.bRefValue.map val, φ.bVF.map val, φ.bRefGrad.map val⟩

/-- The coefficient with the exact values of its numbers. -/
def Coeff.exact (val : F → K) (s : Coeff F) : Coeff K := ⟨val s.coeff, s.view.map val, s.hasView⟩

/-- Sum over the faces of a cell. -/
def Mesh.faceSum {G : Type} [AddCommMonoid G] (m : Mesh K) (φ : Nat → G) (c : Nat) : G :=
  (∑ f ∈ range m.nInternalFaces, ((if m.own f = c then φ f else 0) + (if m.nbr f = c then φ f else 0)))
    + ∑ b ∈ range m.nBoundaryFaces, if m.fc b = c then φ (m.nInternalFaces + b) else 0

/-- Number of faces of a cell. -/
def Mesh.faceCount (m : Mesh K) (c : Nat) : Nat := m.faceSum (fun _ => 1) c

section
variable [Field K] [LinearOrder K]

/-- Size of the terms of an interpolated face value. -/
def Mesh.faceSize (s : InterpScheme) (m : Mesh K) (w flux : Nat → K) (φ : VolField K K) (f : Nat) : K :=
  if f < m.nInternalFaces then
    match s with
    | .linear => |w f| * |φ.cell (m.own f)| + |1 - w f| * |φ.cell (m.nbr f)|
    | .upwind => if 0 ≤ flux f then |φ.cell (m.own f)| else |φ.cell (m.nbr f)|
  else |w f| * |φ.bnd (f - m.nInternalFaces)|

/-- Size of the terms of a face-normal gradient. -/
def Mesh.fnGradSize (m : Mesh K) (δ : Nat → K) (φ : VolField K K) (f : Nat) : K :=
  if f < m.nInternalFaces then |δ f| * (|φ.cell (m.nbr f)| + |φ.cell (m.own f)|)
  else |δ f| * (|φ.bnd (f - m.nInternalFaces)| + |φ.cell (m.fc (f - m.nInternalFaces))|)

end

end NeoFOAM
