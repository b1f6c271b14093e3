import Verif.Spec.Matrix
import Verif.Spec.Sparsity
import Verif.Spec.Fields
import Verif.Base.Sched

/-!
# Specification: systems on a mesh and what assembly changes
-/
namespace NeoFOAM
open Finset
variable {K V : Type}

/-- A pattern that addresses every entry the mesh needs (what `SparsityPattern`'s constructor delivers when no
cell has more than 255 internal faces, see `pattern_for`). -/
structure SparsityPattern.For (sp : SparsityPattern) (m : Mesh K) : Prop where
  rows : RowsOK m sp.rowPtrs sp.colIdxs
  adr : Addresses m sp.rowPtrs sp.colIdxs (sp.addr m)
  olen : sp.ownerOffset.length = m.nInternalFaces
  nlen : sp.neighbourOffset.length = m.nInternalFaces
  dlen : sp.diagOffset.length = m.nCells

/-- A linear system with the structure of the pattern. -/
structure LinearSystem.On (ls : LinearSystem V) (sp : SparsityPattern) (m : Mesh K) : Prop where
  cols : ls.matrix.colIdxs = sp.colIdxs
  rowsEq : ls.matrix.rowOffs = sp.rowPtrs
  vals : ls.matrix.values.length = sp.colIdxs.length
  rhsLen : ls.rhs.length = m.nCells

/-- `ls'` is `ls` with `dv s` added to the coefficient of each entry `s` and `dr c` to each right hand side. -/
structure Assembles [AddCommGroup V] (m : Mesh K) (sp : SparsityPattern) (ls ls' : LinearSystem V) (dv : Slot → V) (dr : Nat → V) :
    Prop where
  on : ls'.On sp m
  coef : ∀ s : Slot, s.Valid m → ls'.matrix.val (sp.addr m s) = ls.matrix.val (sp.addr m s) + dv s
  rhs : ∀ c < m.nCells, ls'.rhs.getD c 0 = ls.rhs.getD c 0 + dr c

/-- No two boundary faces belong to the same cell. -/
def Mesh.BndDistinct (m : Mesh K) : Prop :=
  ∀ b < m.nBoundaryFaces, ∀ b' < m.nBoundaryFaces, m.fc b = m.fc b' → b = b'

/-- Schedules cannot matter: the executor is serial; or every cell owns at most one internal face, is neighbour of at most one and has at most one
boundary face (lines of cells). -/
def Mesh.Reproducible (m : Mesh K) (e : ExecKind) : Prop := e = .serial ∨ m.Chain ∧ m.BndDistinct

end NeoFOAM
