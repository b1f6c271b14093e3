import Verif.Base.NR
import Verif.Base.Ticket
import Verif.Model.Mesh
import Verif.Model.Reduce

/-!
# Sparsity pattern and cell-to-face stencil
-/
namespace NeoFOAM

/-- The arrays of a ticket kernel before it starts.
(not in the code: the views of sparsityPattern.cpp:47-114) -/
def tMem (cnt col off : List Nat) : TMem :=
  ⟨fun a => match a with | .cnt => cnt | .col => col | .off => off, fun _ _ => 0⟩

/-- Launch a kernel that takes tickets: counters `cnt`, slots `col`, offsets `off`. A kernel whose own
reads are out of range is undefined.
(core/parallelAlgorithms.hpp:26-63) -/
def ticketRun (e : ExecKind) (ts : Res (List (List TAct))) (cnt col off : List Nat) :
    NR (List Nat × List Nat × List Nat) := fun out =>
  match ts with
  | .ok ts => ∃ l, Schedule e ts l ∧
      match runActs LMem.step (tMem cnt col off) l with
      | .ok s => out = .ok (s.arr .cnt, s.arr .col, s.arr .off)
      | .throw x => out = .throw x
      | .abort => out = .abort
      | .ub => out = .ub
  | .throw x => out = .throw x
  | .abort => out = .abort
  | .ub => out = .ub

/-- `SparsityPattern` (linearAlgebra/sparsityPattern.hpp:51-61). -/
structure SparsityPattern where
  rowPtrs : List Nat
  colIdxs : List Nat
  ownerOffset : List Nat
  neighbourOffset : List Nat
  diagOffset : List Nat
  deriving DecidableEq, Repr

variable {K : Type}

/-- First loop of `update` (src/…/sparsityPattern.cpp:47-58): one atomic increment per side of the face. -/
def countBody (m : Mesh K) (f : Nat) : Res (List TAct) := do
  let owner ← rd m.owner f
  let neighbour ← rd m.neighbour f
  return [TAct.fetchAdd f 0 owner, TAct.fetchAdd f 1 neighbour]

/-- Lower triangle (sparsityPattern.cpp:67-84). -/
def lowerBody (m : Mesh K) (rowPtrs : List Nat) (f : Nat) : Res (List TAct) := do
  let neighbour ← rd m.neighbour f
  let owner ← rd m.owner f
  let start ← rd rowPtrs neighbour
  return [TAct.fetchAdd f 0 neighbour, TAct.putOff f 0 f, TAct.putCol f 0 start owner]

/-- Diagonal (sparsityPattern.cpp:86-94); `map` stores the returned value into the counter. -/
def diagBody (rowPtrs : List Nat) (c : Nat) : Res (List TAct) := do
  let start ← rd rowPtrs c
  return [TAct.loadCnt c 0 c, TAct.putOff c 0 c, TAct.putCol c 0 start c, TAct.storeCnt c 0 c]

/-- Upper triangle (sparsityPattern.cpp:97-114). -/
def upperBody (m : Mesh K) (rowPtrs : List Nat) (f : Nat) : Res (List TAct) := do
  let neighbour ← rd m.neighbour f
  let owner ← rd m.owner f
  let start ← rd rowPtrs owner
  return [TAct.fetchAdd f 0 owner, TAct.putOff f 0 f, TAct.putCol f 0 start neighbour]

/-- Constructor and `update()` (sparsityPattern.cpp:10-18, 30-115). Simplification: 32-bit labels are
unbounded natural numbers; the 8-bit offsets are modelled with their wrap-around. -/
def sparsityUpdate (e : ExecKind) (m : Mesh K) : NR SparsityPattern := do
  let nInt := m.nInternalFaces
  let (cnt, _, _) ← ticketRun e ((List.range nInt).mapM (countBody m)) (List.replicate m.nCells 1) [] []
  let (_, rowPtrs) ← (segmentsFromIntervals cnt (List.replicate (m.nCells + 1) 0) : NR (Nat × List Nat))
  let cnt ← (ParElem e cnt 0 cnt.length (fun _ _ => 0) : NR (List Nat))
  let (cnt, col, nbrOff) ← ticketRun e ((List.range nInt).mapM (lowerBody m rowPtrs)) cnt
    (List.replicate (m.nCells + 2 * nInt) 0) (List.replicate nInt 0)
  let (cnt, col, diagOff) ← ticketRun e ((List.range cnt.length).mapM (diagBody rowPtrs)) cnt col
    (List.replicate m.nCells 0)
  let (_, col, ownOff) ← ticketRun e ((List.range nInt).mapM (upperBody m rowPtrs)) cnt col
    (List.replicate nInt 0)
  return ⟨rowPtrs, col, ownOff, nbrOff, diagOff⟩

/-- Second counting loop of `computeStencil` (src/…/cellToFaceStencil.cpp:33-39). -/
def stencilCountBnd (m : Mesh K) (b : Nat) : Res (List TAct) := do
  let c ← rd m.bnd.faceCells b
  return [TAct.fetchAdd b 0 c]

/-- Third loop (cellToFaceStencil.cpp:46-64). -/
def stencilInternal (m : Mesh K) (segment : List Nat) (f : Nat) : Res (List TAct) := do
  let owner ← rd m.owner f
  let neighbour ← rd m.neighbour f
  let startOwn ← rd segment owner
  let startNei ← rd segment neighbour
  return [TAct.fetchAdd f 0 owner, TAct.fetchAdd f 1 neighbour, TAct.putCol f 0 startOwn f,
    TAct.putCol f 1 startNei f]

/-- Fourth loop (cellToFaceStencil.cpp:66-78); thread `b` handles face `nInternalFaces + b`. -/
def stencilBoundary (m : Mesh K) (segment : List Nat) (b : Nat) : Res (List TAct) := do
  let owner ← rd m.bnd.faceCells b
  let startOwn ← rd segment owner
  return [TAct.fetchAdd b 0 owner, TAct.putCol b 0 startOwn (m.nInternalFaces + b)]

/-- `CellToFaceStencil::computeStencil` (cellToFaceStencil.cpp:11-81): values and segment offsets.
`junk` is what the freshly allocated values contain (segmentedField.hpp:148 resizes without filling). -/
def computeStencil (e : ExecKind) (m : Mesh K) (junk : Nat → Nat) : NR (List Nat × List Nat) := do
  let nInt := m.nInternalFaces
  let (cnt, _, _) ← ticketRun e ((List.range nInt).mapM (countBody m)) (List.replicate m.nCells 0) [] []
  let nB := m.bnd.faceCells.length
  let (cnt, _, _) ← ticketRun e ((List.range nB).mapM (stencilCountBnd m)) cnt [] []
  let (total, segment) ← (segmentedField cnt : NR (Nat × List Nat))
  let cnt ← (ParElem e cnt 0 cnt.length (fun _ _ => 0) : NR (List Nat))
  let (cnt, values, _) ← ticketRun e ((List.range nInt).mapM (stencilInternal m segment)) cnt
    ((List.range total).map junk) []
  let (_, values, _) ← ticketRun e ((List.range nB).mapM (stencilBoundary m segment)) cnt values []
  return (values, segment)

end NeoFOAM
