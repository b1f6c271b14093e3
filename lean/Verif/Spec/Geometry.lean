import Verif.Spec.Fields
import Verif.Model.Geometry

/-!
# Specification: face geometry
-/
namespace NeoFOAM
open Finset
variable {K : Type}

/-- `sqrt` is a square root on the non-negative numbers. -/
def IsSqrt [Field K] [LinearOrder K] (sqrt : K → K) : Prop := ∀ x, 0 ≤ x → 0 ≤ sqrt x ∧ sqrt x * sqrt x = x

/-- Centre of a cell. -/
def Mesh.ctr [Zero K] (m : Mesh K) (c : Nat) : Vec K := m.cellCentres.getD c 0
/-- Centre of a face. -/
def Mesh.fctr [Zero K] (m : Mesh K) (f : Nat) : Vec K := m.faceCentres.getD f 0
/-- Area vector of a face. -/
def Mesh.sf [Zero K] (m : Mesh K) (f : Nat) : Vec K := m.faceAreas.getD f 0

/-- The vector between the two points a face-normal gradient at face `f` uses: owner to neighbour centre, or
cell centre to face centre on the boundary. -/
def Mesh.span [Zero K] [Sub K] (m : Mesh K) (f : Nat) : Vec K :=
  if f < m.nInternalFaces then m.ctr (m.nbr f) - m.ctr (m.own f)
  else m.fctr f - m.ctr (m.fc (f - m.nInternalFaces))

/-- Squared length. -/
def normSq [Add K] [Mul K] (a : Vec K) : K := vdot a a

/-- Sum of the flux magnitudes over the faces of a cell. -/
def Mesh.absFlux [Field K] [LinearOrder K] (m : Mesh K) (flux : Nat → K) (c : Nat) : K :=
  (∑ f ∈ range m.nInternalFaces, ((if m.own f = c then |flux f| else 0) + (if m.nbr f = c then |flux f| else 0)))
    + ∑ b ∈ range m.nBoundaryFaces, if m.fc b = c then |flux (m.nInternalFaces + b)| else 0

end NeoFOAM
