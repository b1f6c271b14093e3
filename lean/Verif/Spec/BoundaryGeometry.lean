import Verif.Spec.Geometry

/-!
# Specification: the boundary arrays of a mesh repeat what the face and cell arrays say
-/
namespace NeoFOAM
variable {K : Type} [Field K]

/-- Boundary face `b` as the arrays of the boundary mesh describe it: the cell, centre, area vector and its size are those of face `nInternalFaces + b`; the normal is the
area vector scaled to length 1; the distance vector leads from the centre of the cell to the centre of the face, and its coefficient is the inverse of its length. -/
structure BoundaryFaceAgrees (m : Mesh K) (b : Nat) (cell : Nat) (cf sf nf delta centre : Vec K) (magSf coeff : K) : Prop where
  cells : m.bnd.faceCells[b]? = some cell ∧ m.owner[m.nInternalFaces + b]? = some cell
  centres : m.bnd.cf[b]? = some cf ∧ m.faceCentres[m.nInternalFaces + b]? = some cf
  areas : m.bnd.sf[b]? = some sf ∧ m.faceAreas[m.nInternalFaces + b]? = some sf
  sizes : m.bnd.magSf[b]? = some magSf ∧ m.magFaceAreas[m.nInternalFaces + b]? = some magSf
  normals : m.bnd.nf[b]? = some nf
  deltas : m.bnd.delta[b]? = some delta
  coeffs : m.bnd.deltaCoeffs[b]? = some coeff
  weights : m.bnd.weights[b]? = some 1
  cellCentres : m.cellCentres[cell]? = some centre
  size : normSq sf = magSf * magSf
  normal : normSq nf = 1 ∧ sf = (magSf * nf.1, magSf * nf.2.1, magSf * nf.2.2)
  delta_eq : delta = (cf.1 - centre.1, cf.2.1 - centre.2.1, cf.2.2 - centre.2.2)
  coeff_eq : coeff * coeff * normSq delta = 1

/-- All boundary faces are described alike. -/
def BoundaryAgrees (m : Mesh K) : Prop :=
  ∀ b < m.nBoundaryFaces, ∃ cell cf sf nf delta centre magSf coeff, BoundaryFaceAgrees m b cell cf sf nf delta centre magSf coeff

/-- The centres of the cells at the boundary, as the boundary mesh stores them, are the centres of those cells. -/
def BoundaryCentresAgree (m : Mesh K) : Prop :=
  ∀ b < m.nBoundaryFaces, ∃ cell centre, m.bnd.faceCells[b]? = some cell ∧ m.cellCentres[cell]? = some centre ∧ m.bnd.cn[b]? = some centre

end NeoFOAM
