import Verif.Spec.Mesh
import Verif.Model.Sparsity

/-!
# Specification: which matrix entries a mesh needs, and faces of a cell
-/
namespace NeoFOAM
open Finset
variable {K : Type}

/-- The entries a mesh needs: one per cell and two per internal face. -/
inductive Slot where
  | diag (c : Nat)
  | upper (f : Nat)   -- row owner, column neighbour
  | lower (f : Nat)   -- row neighbour, column owner
  deriving DecidableEq, Repr

/-- Cells and internal faces of the mesh. -/
def Slot.Valid (m : Mesh K) : Slot → Prop
  | diag c => c < m.nCells
  | upper f => f < m.nInternalFaces
  | lower f => f < m.nInternalFaces

/-- Row of an entry. -/
def Slot.row (m : Mesh K) : Slot → Nat
  | diag c => c
  | upper f => m.own f
  | lower f => m.nbr f

/-- Column of an entry. -/
def Slot.col (m : Mesh K) : Slot → Nat
  | diag c => c
  | upper f => m.nbr f
  | lower f => m.own f

/-- Number of internal faces of a cell. -/
def Mesh.deg (m : Mesh K) (c : Nat) : Nat :=
  ((range m.nInternalFaces).filter (m.own · = c)).card + ((range m.nInternalFaces).filter (m.nbr · = c)).card

/-- Every cell owns at most one internal face and is neighbour of at most one. -/
def Mesh.Chain (m : Mesh K) : Prop :=
  (∀ f < m.nInternalFaces, ∀ g < m.nInternalFaces, m.own f = m.own g → f = g) ∧
  ∀ f < m.nInternalFaces, ∀ g < m.nInternalFaces, m.nbr f = m.nbr g → f = g

/-- `addr` names, for every entry the mesh needs, a position inside the entry's row that holds the
entry's column; different entries have different positions, and every position is used. -/
structure Addresses (m : Mesh K) (rowPtrs colIdxs : List Nat) (addr : Slot → Nat) : Prop where
  inRow : ∀ s, s.Valid m → rowPtrs.getD (s.row m) 0 ≤ addr s ∧ addr s < rowPtrs.getD (s.row m + 1) 0
  column : ∀ s, s.Valid m → colIdxs[addr s]? = some (s.col m)
  inj : ∀ s t, s.Valid m → t.Valid m → addr s = addr t → s = t
  surj : ∀ p < colIdxs.length, ∃ s, s.Valid m ∧ addr s = p

/-- Row pointers of a mesh matrix: `nCells + 1` of them, from 0 to the number of entries, each row
having one entry more than the cell has internal faces. -/
structure RowsOK (m : Mesh K) (rowPtrs colIdxs : List Nat) : Prop where
  len : rowPtrs.length = m.nCells + 1
  nnz : colIdxs.length = m.nCells + 2 * m.nInternalFaces
  first : rowPtrs.getD 0 0 = 0
  last : rowPtrs.getD m.nCells 0 = colIdxs.length
  size : ∀ c < m.nCells, rowPtrs.getD (c + 1) 0 = rowPtrs.getD c 0 + (1 + m.deg c)

/-- The position the offsets of a pattern name. -/
def SparsityPattern.addr (m : Mesh K) (sp : SparsityPattern) : Slot → Nat
  | .diag c => sp.rowPtrs.getD c 0 + sp.diagOffset.getD c 0
  | .upper f => sp.rowPtrs.getD (m.own f) 0 + sp.ownerOffset.getD f 0
  | .lower f => sp.rowPtrs.getD (m.nbr f) 0 + sp.neighbourOffset.getD f 0

/-- The faces of cell `c`: internal faces it owns or neighbours and its boundary faces. -/
def Mesh.IsFaceOf (m : Mesh K) (c f : Nat) : Prop :=
  (f < m.nInternalFaces ∧ (m.own f = c ∨ m.nbr f = c)) ∨
  ∃ b < m.nBoundaryFaces, f = m.nInternalFaces + b ∧ m.fc b = c

end NeoFOAM
