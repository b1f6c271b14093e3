import Verif.Model.Mesh
import Mathlib.Algebra.BigOperators.Group.Finset.Basic

/-!
# Specification: valid meshes and Gauss sums
-/
namespace NeoFOAM
open Finset
variable {K : Type}

/-- Owner cell of a face. -/
def Mesh.own (m : Mesh K) (f : Nat) : Nat := m.owner.getD f 0
/-- Neighbour cell of an internal face. -/
def Mesh.nbr (m : Mesh K) (f : Nat) : Nat := m.neighbour.getD f 0
/-- Cell next to a boundary face. -/
def Mesh.fc (m : Mesh K) (b : Nat) : Nat := m.bnd.faceCells.getD b 0
/-- Volume of a cell. -/
def Mesh.vol [Zero K] (m : Mesh K) (c : Nat) : K := m.cellVolumes.getD c 0

/-- Valid connectivity: every array has the size the mesh says, every index refers to a cell, internal
faces join two different cells, and the faces after the internal ones are the boundary faces. -/
structure Mesh.WF (m : Mesh K) : Prop where
  faces : m.nFaces = m.nInternalFaces + m.nBoundaryFaces
  ownLen : m.owner.length = m.nFaces
  nbrLen : m.neighbour.length = m.nInternalFaces
  fcLen : m.bnd.faceCells.length = m.nBoundaryFaces
  volLen : m.cellVolumes.length = m.nCells
  ctrLen : m.cellCentres.length = m.nCells
  areaLen : m.faceAreas.length = m.nFaces
  fctrLen : m.faceCentres.length = m.nFaces
  magLen : m.magFaceAreas.length = m.nFaces
  bcfLen : m.bnd.cf.length = m.nBoundaryFaces
  bsfLen : m.bnd.sf.length = m.nBoundaryFaces
  bmagLen : m.bnd.magSf.length = m.nBoundaryFaces
  bdcLen : m.bnd.deltaCoeffs.length = m.nBoundaryFaces
  bwLen : m.bnd.weights.length = m.nBoundaryFaces
  own_lt : ∀ f < m.nFaces, m.own f < m.nCells
  nbr_lt : ∀ f < m.nInternalFaces, m.nbr f < m.nCells
  fc_lt : ∀ b < m.nBoundaryFaces, m.fc b < m.nCells
  ne : ∀ f < m.nInternalFaces, m.own f ≠ m.nbr f
  bown : ∀ b < m.nBoundaryFaces, m.own (m.nInternalFaces + b) = m.fc b

/-- What leaves cell `c` minus what enters it, for face values `φ` counted positive from owner to
neighbour and outwards on the boundary. -/
def Mesh.netOutflow {G : Type} [AddCommGroup G] (m : Mesh K) (φ : Nat → G) (c : Nat) : G :=
  (∑ f ∈ range m.nInternalFaces, if m.own f = c then φ f else 0)
    - (∑ f ∈ range m.nInternalFaces, if m.nbr f = c then φ f else 0)
    + ∑ b ∈ range m.nBoundaryFaces, if m.fc b = c then φ (m.nInternalFaces + b) else 0

/-- The outward face area vectors of every cell add up to zero. -/
def Mesh.Closed [AddCommGroup K] (m : Mesh K) : Prop :=
  ∀ c < m.nCells, m.netOutflow (fun f => m.faceAreas.getD f 0) c = 0

/-- Patch offsets: start at zero, never decrease, end at the number of boundary faces. -/
def ValidOffsets (offs : List Nat) (n : Nat) : Prop :=
  offs ≠ [] ∧ offs.Pairwise (· ≤ ·) ∧ offs.head? = some 0 ∧ offs.getLast? = some n

end NeoFOAM
