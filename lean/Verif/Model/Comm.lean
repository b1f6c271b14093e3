import Verif.Model.AMap

/-!
# Message buffers (core/mpi/halfDuplexCommBuffer.hpp, core/mpi/fullDuplexCommBuffer.hpp)

Release builds: the `NF_DEBUG_ASSERT`s are empty. Sizes are natural numbers (no wrap-around of `size_t`).
-/
namespace NeoFOAM

/-- `bufferHash(str)` (core/mpi/halfDuplexCommBuffer.hpp:28-36). `hash` is `std::hash<std::string>`, which may be any
function. -/
def bufferHash (hash : String → Nat) (s : String) : Int :=
  let tag := hash s % 2 ^ 31
  ((tag % (32767 - 10) + 10 : Nat) : Int)

/-- `HalfDuplexCommBuffer` (halfDuplexCommBuffer.hpp:200-207). `sizeRank` is the number of ranks of its MPI environment. A
request handle is `none` for `MPI_REQUEST_NULL` or the number of an MPI operation of this process. -/
structure HalfBuf where
  sizeRank : Nat
  tag : Int
  commName : String
  typeSize : Nat
  request : List (Option Nat)
  bytes : List UInt8
  rankOffset : List Nat
  deriving DecidableEq, Repr

namespace HalfBuf

/-- The members' default values (halfDuplexCommBuffer.hpp:200-207). -/
def unsized (sizeRank : Nat) : HalfBuf := ⟨sizeRank, -1, "unassigned", 1, [], [], []⟩

/-- `isCommInit()` (halfDuplexCommBuffer.hpp:87). -/
def isCommInit (b : HalfBuf) : Bool := b.tag ≠ -1

/-- `vector::resize(n, v)`.
(C++ standard library; used at halfDuplexCommBuffer.hpp:95-109, 235-246) -/
def resizeList {α : Type} (l : List α) (n : Nat) (v : α) : List α := l.take n ++ List.replicate (n - l.length) v

/-- One round of the loop of `updateDataSize` (halfDuplexCommBuffer.hpp:239-243): the offsets so far and `dataSize`. -/
def offsetStep (rankSize : Nat → Res Nat) (newSize : Nat) (st : List Nat × Nat) (rank : Nat) : Res (List Nat × Nat) := do
  let o ← wr st.1 rank st.2
  let s ← rankSize rank
  return (o, st.2 + s * newSize)

/-- `updateDataSize(rankSize, newSize)` (halfDuplexCommBuffer.hpp:235-246). `back()` of an empty vector is undefined. -/
def updateDataSize (b : HalfBuf) (rankSize : Nat → Res Nat) (newSize : Nat) : Res HalfBuf := do
  let st ← (List.range b.sizeRank).foldlM (offsetStep rankSize newSize) (b.rankOffset, 0)
  let offs ← wr st.1 (st.1.length - 1) st.2
  return { b with
    rankOffset := offs
    bytes := if b.bytes.length < st.2 then resizeList b.bytes st.2 0 else b.bytes }

/-- `setCommRankSize<valueType>(rankCommSize)` (halfDuplexCommBuffer.hpp:95-109); `size` is `sizeof(valueType)`. -/
def setCommRankSize (b : HalfBuf) (size : Nat) (rankCommSize : List Nat) : Res HalfBuf :=
  updateDataSize { b with
    typeSize := size
    rankOffset := resizeList b.rankOffset (rankCommSize.length + 1) 0
    request := resizeList b.request rankCommSize.length none } (rd rankCommSize) size

/-- `HalfDuplexCommBuffer(mpiEnviron, rankCommSize)` (halfDuplexCommBuffer.hpp:69-73). -/
def create (sizeRank : Nat) (rankCommSize : List Nat) : Res HalfBuf :=
  (unsized sizeRank).setCommRankSize 1 rankCommSize

/-- The size of a rank's part in elements, as `setType` and `get` compute it.
(halfDuplexCommBuffer.hpp:169-178, 212-226) -/
def rankCount (b : HalfBuf) (size rank : Nat) : Res Nat := do
  let e ← rd b.rankOffset (rank + 1)
  let s ← rd b.rankOffset rank
  return (e - s) / size

/-- `setType<valueType>()` (halfDuplexCommBuffer.hpp:212-226). -/
def setType (b : HalfBuf) (size : Nat) : Res HalfBuf :=
  if b.typeSize = size then .ok b
  else do
    let b' ← b.updateDataSize (b.rankCount b.typeSize) size
    return { b' with typeSize := size }

/-- `initComm<valueType>(commName)` (halfDuplexCommBuffer.hpp:117-126). -/
def initComm (hash : String → Nat) (b : HalfBuf) (size : Nat) (name : String) : Res HalfBuf := do
  let b' ← b.setType size
  return { b' with commName := name, tag := bufferHash hash name }

/-- `finaliseComm()` (src/core/mpi/halfDuplexCommBuffer.cpp:71-81). -/
def finaliseComm (b : HalfBuf) : HalfBuf := { b with tag := -1, commName := "unassigned" }

/-- `get<valueType>(rank)` (halfDuplexCommBuffer.hpp:169-178, 187-196): where the span starts, in bytes, and its number of
elements. -/
def get (b : HalfBuf) (size rank : Nat) : Res (Nat × Nat) := do
  let s ← rd b.rankOffset rank
  let n ← b.rankCount size rank
  return (s, n)

end HalfBuf

/-- A call on a buffer, for histories.
(the calls of halfDuplexCommBuffer.hpp) -/
inductive BufCall where
  | setSizes (typeSize : Nat) (sizes : List Nat)
  | init (typeSize : Nat) (name : String)
  | finalise

/-- One call.
(the calls of halfDuplexCommBuffer.hpp) -/
def HalfBuf.call (hash : String → Nat) (b : HalfBuf) : BufCall → Res HalfBuf
  | .setSizes t sizes => b.setCommRankSize t sizes
  | .init t name => b.initComm hash t name
  | .finalise => .ok b.finaliseComm

/-- A history of calls.
(the calls of halfDuplexCommBuffer.hpp) -/
def HalfBuf.calls (hash : String → Nat) (b : HalfBuf) (l : List BufCall) : Res HalfBuf := l.foldlM (HalfBuf.call hash) b

end NeoFOAM
