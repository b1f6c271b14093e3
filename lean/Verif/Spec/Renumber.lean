import Verif.Spec.Geometry
import Verif.Spec.Boundary

/-!
# Specification: the same mesh with other numbers and face orientations
-/
namespace NeoFOAM
open Finset
variable {K V : Type}

/-- New numbers for the cells, the internal faces and the boundary faces, and which internal faces are turned round (owner and
neighbour change places). -/
structure Renumbering where
  cell : Nat → Nat
  face : Nat → Nat
  bface : Nat → Nat
  turned : Nat → Bool

/-- New number of a face (internal faces first, as in the code). -/
def Renumbering.num (r : Renumbering) (m : Mesh K) (f : Nat) : Nat :=
  if f < m.nInternalFaces then r.face f else m.nInternalFaces + r.bface (f - m.nInternalFaces)

/-- The face is an internal face that is turned round. -/
def Renumbering.turns (r : Renumbering) (m : Mesh K) (f : Nat) : Prop := f < m.nInternalFaces ∧ r.turned f = true

instance (r : Renumbering) (m : Mesh K) (f : Nat) : Decidable (r.turns m f) := by unfold Renumbering.turns; infer_instance

/-- The numbers `< n` are permuted. -/
def Permutes (n : Nat) (p : Nat → Nat) : Prop := (∀ i < n, p i < n) ∧ ∀ i < n, ∀ j < n, p i = p j → i = j

/-- `m'` has the cells and faces of `m` under the numbers `r` gives them, with the same volumes. -/
structure Renumbering.Of [Zero K] (r : Renumbering) (m m' : Mesh K) : Prop where
  nCells : m'.nCells = m.nCells
  nInternal : m'.nInternalFaces = m.nInternalFaces
  nBoundary : m'.nBoundaryFaces = m.nBoundaryFaces
  cell : Permutes m.nCells r.cell
  face : Permutes m.nInternalFaces r.face
  bface : Permutes m.nBoundaryFaces r.bface
  kept : ∀ f < m.nInternalFaces, r.turned f = false → m'.own (r.face f) = r.cell (m.own f) ∧ m'.nbr (r.face f) = r.cell (m.nbr f)
  turned : ∀ f < m.nInternalFaces, r.turned f = true → m'.own (r.face f) = r.cell (m.nbr f) ∧ m'.nbr (r.face f) = r.cell (m.own f)
  bnd : ∀ b < m.nBoundaryFaces, m'.fc (r.bface b) = r.cell (m.fc b)
  vol : ∀ c < m.nCells, m'.vol (r.cell c) = m.vol c

/-- Face data that does not depend on the orientation. -/
def Renumbering.Even (r : Renumbering) (m : Mesh K) (x x' : Nat → V) : Prop := ∀ f < m.nFaces, x' (r.num m f) = x f

/-- Face data that changes sign when the face is turned round: fluxes, area vectors. -/
def Renumbering.Odd [Neg V] (r : Renumbering) (m : Mesh K) (x x' : Nat → V) : Prop :=
  ∀ f < m.nFaces, x' (r.num m f) = if r.turns m f then - x f else x f

/-- Weights of the owner: a turned face has the weight of the former neighbour. -/
def Renumbering.Weights [One K] [Sub K] (r : Renumbering) (m : Mesh K) (w w' : Nat → K) : Prop :=
  ∀ f < m.nFaces, w' (r.num m f) = if r.turns m f then 1 - w f else w f

/-- The same values in the cells. -/
def Renumbering.Cells (r : Renumbering) (m : Mesh K) (x x' : Nat → V) : Prop := ∀ c < m.nCells, x' (r.cell c) = x c

/-- The same values in the cells and on the boundary. -/
structure Renumbering.Values [Zero V] (r : Renumbering) (m : Mesh K) (φ φ' : VolField K V) : Prop where
  cells : r.Cells m φ.cell φ'.cell
  bnd : ∀ b < m.nBoundaryFaces, φ'.bnd (r.bface b) = φ.bnd b

/-- The same field: same values in the cells and the same boundary data (value, reference value, fraction, reference gradient). -/
structure Renumbering.Same [Field K] [AddCommGroup V] [Module K V] (r : Renumbering) (m : Mesh K) (φ φ' : VolField K V) : Prop where
  cells : r.Cells m φ.cell φ'.cell
  bnd : ∀ b < m.nBoundaryFaces, φ'.entry (r.bface b) = φ.entry b

/-- The same points and areas. -/
structure Renumbering.Geometry [Zero K] [Neg K] (r : Renumbering) (m m' : Mesh K) : Prop where
  ctr : r.Cells m m.ctr m'.ctr
  fctr : r.Even m m.fctr m'.fctr
  sf : r.Odd m m.sf m'.sf
  mag : r.Even m (fun f => m.magFaceAreas.getD f 0) (fun f => m'.magFaceAreas.getD f 0)

/-- The same boundary conditions: of the same kinds, in the same order, on the same faces. -/
def Renumbering.Conditions (r : Renumbering) (m : Mesh K) (bcs bcs' : List (VolumeBoundary V)) : Prop :=
  List.Forall₂ (fun c c' => c'.kind = c.kind ∧ ∀ b < m.nBoundaryFaces, (c'.patch.Has (r.bface b) ↔ c.patch.Has b)) bcs bcs'

end NeoFOAM
