import Verif.Model.Comm

/-!
# Halo exchange (mesh/unstructured/communicator.hpp, core/mpi/fullDuplexCommBuffer.hpp, core/mpi/operators.hpp)

Release builds: the `NF_DEBUG_ASSERT`s are empty. `Communicator::startComm/finaliseComm` read and write the field with
`field(i)`; `Field` has no such operator (fields/field.hpp), so the templates do not compile; they are modelled with the element
access that is meant. A field of a trivially copyable type is the list of the bytes of its elements.

A process is a communicator and the list of the MPI operations it has issued; `MPI_Request` handles are positions in that list.
-/
namespace NeoFOAM

/-- The bytes of one element.
(core/mpi/halfDuplexCommBuffer.hpp:169-196) -/
abbrev Elem := List UInt8

/-- `FullDuplexCommBuffer` (core/mpi/fullDuplexCommBuffer.hpp:151-152). -/
structure FullBuf where
  send : HalfBuf
  recv : HalfBuf
  deriving DecidableEq, Repr

namespace FullBuf

/-- `FullDuplexCommBuffer(mpiEnviron, sendSize, receiveSize)` (fullDuplexCommBuffer.hpp:43-48). -/
def create (sizeRank : Nat) (sendSize recvSize : List Nat) : Res FullBuf := do
  let s ← HalfBuf.create sizeRank sendSize
  let r ← HalfBuf.create sizeRank recvSize
  return ⟨s, r⟩

/-- `isCommInit()` (fullDuplexCommBuffer.hpp:54). -/
def isCommInit (b : FullBuf) : Bool := b.send.isCommInit && b.recv.isCommInit

/-- `initComm<valueType>(commName)` (fullDuplexCommBuffer.hpp:61-66). -/
def initComm (hash : String → Nat) (b : FullBuf) (size : Nat) (name : String) : Res FullBuf := do
  let s ← b.send.initComm hash size name
  let r ← b.recv.initComm hash size name
  return ⟨s, r⟩

/-- `finaliseComm()` (fullDuplexCommBuffer.hpp:143-147). -/
def finaliseComm (b : FullBuf) : FullBuf := ⟨b.send.finaliseComm, b.recv.finaliseComm⟩

end FullBuf

/-- A `bufferType*` into the vector `buffers`: the allocation it points into and the position.
(mesh/unstructured/communicator.hpp:147-154) -/
structure BufPtr where
  gen : Nat
  idx : Nat
  deriving DecidableEq, Repr

/-- An MPI operation issued by `isend`/`irecv` (core/mpi/operators.hpp:173-212): direction, other rank, tag, and the memory
`[off, off+len)` of the send or receive bytes of a buffer. `payload` is what MPI has read from the send buffer, `matched` says that
the message has gone into a receive buffer, `done` that the request is complete. -/
structure MpiOp where
  isSend : Bool
  peer : Nat
  tag : Int
  buf : BufPtr
  off : Nat
  len : Nat
  payload : Option (List UInt8)
  matched : Bool
  done : Bool
  deriving DecidableEq, Repr

/-- `Communicator` (mesh/unstructured/communicator.hpp:147-154). `cap` is the capacity of `buffers` and `gen` counts its
allocations. Local indices are natural numbers. -/
structure Communicator where
  sizeRank : Nat
  sendMap : List (List Nat)
  recvMap : List (List Nat)
  buffers : List FullBuf
  cap : Nat
  gen : Nat
  table : AMap String (Option BufPtr)
  deriving DecidableEq, Repr

/-- A process: its communicator and its MPI operations.
(not in the code: one MPI process with its communicator.hpp object) -/
structure Proc where
  comm : Communicator
  ops : List MpiOp
  deriving DecidableEq, Repr

/-- Bytes `[pos, pos+n)` of a buffer; outside is undefined.
(core/mpi/halfDuplexCommBuffer.hpp:169-196) -/
def getBytes (bytes : List UInt8) (pos n : Nat) : Res (List UInt8) :=
  if pos + n ≤ bytes.length then .ok ((bytes.drop pos).take n) else .ub

/-- Overwrite the bytes from `pos` on; outside is undefined.
(core/mpi/halfDuplexCommBuffer.hpp:169-196) -/
def putBytes (bytes : List UInt8) (pos : Nat) (e : List UInt8) : Res (List UInt8) :=
  if pos + e.length ≤ bytes.length then .ok (bytes.take pos ++ e ++ bytes.drop (pos + e.length)) else .ub

namespace Communicator

/-- `Communicator(mpiEnviron, rankSendMap, rankReceiveMap)` (communicator.hpp:70-81). -/
def create (sizeRank : Nat) (sendMap recvMap : List (List Nat)) : Communicator := ⟨sizeRank, sendMap, recvMap, [], 0, 0, []⟩

/-- `*p` for a pointer into `buffers`: undefined when the vector has been reallocated since.
(communicator.hpp:90-143) -/
def deref (c : Communicator) (p : BufPtr) : Res FullBuf := if p.gen = c.gen then rd c.buffers p.idx else .ub

/-- Write through a pointer.
(communicator.hpp:90-143) -/
def assign (c : Communicator) (p : BufPtr) (b : FullBuf) : Res Communicator :=
  if p.gen = c.gen then do
    let l ← wr c.buffers p.idx b
    return { c with buffers := l }
  else .ub

/-- `findDuplexBuffer()` (src/mesh/unstructured/communicator.cpp:17-22): the first buffer that is not initialised. -/
def findDuplexBuffer (c : Communicator) : Option BufPtr :=
  (c.buffers.findIdx? fun b => !b.isCommInit).map fun i => ⟨c.gen, i⟩

/-- The sizes of the parts of a map (communicator.cpp:27-33). -/
def mapSizes (n : Nat) (map : List (List Nat)) : Res (List Nat) :=
  (List.range n).mapM fun rank => do
    let l ← rd map rank
    return l.length

/-- `createNewDuplexBuffer()` (communicator.cpp:24-36). `emplace_back` on a full vector allocates twice the capacity (at least
one) and copies the buffers: the old ones, with the memory of their bytes, are freed. -/
def createNewDuplexBuffer (c : Communicator) : Res (Communicator × BufPtr) := do
  let s ← mapSizes c.sizeRank c.sendMap
  let r ← mapSizes c.sizeRank c.recvMap
  let b ← FullBuf.create c.sizeRank s r
  let full := c.buffers.length = c.cap
  let gen := if full then c.gen + 1 else c.gen
  return ({ c with
    buffers := c.buffers ++ [b]
    cap := if full then max 1 (2 * c.cap) else c.cap
    gen := gen }, ⟨gen, c.buffers.length⟩)

/-- The buffer a new exchange gets (communicator.hpp:97-101). -/
def acquire (c : Communicator) (name : String) : Res (Communicator × BufPtr) :=
  match c.findDuplexBuffer with
  | some p => .ok ({ c with table := c.table.assign name (some p) }, p)
  | none => do
    let (c', p) ← { c with table := c.table.assign name none }.createNewDuplexBuffer
    return ({ c' with table := c'.table.assign name (some p) }, p)

end Communicator

/-- Filling the part of one rank (communicator.hpp:107-108): `rankBuffer[data] = field(local_idx)`. -/
def fillRank (size : Nat) (field : List Elem) (map : List Nat) (off : Nat) (bytes : List UInt8) : Res (List UInt8) :=
  (List.range map.length).foldlM (fun bytes data => do
    let i ← rd map data
    let e ← rd field i
    putBytes bytes (off + data * size) e) bytes

/-- Filling the send buffer (communicator.hpp:104-109). -/
def fillSend (n size : Nat) (field : List Elem) (maps : List (List Nat)) (b : HalfBuf) : Res HalfBuf :=
  (List.range n).foldlM (fun b rank => do
    let (off, _) ← b.get size rank
    let map ← rd maps rank
    let bytes ← fillRank size field map off b.bytes
    return { b with bytes := bytes }) b

/-- `isend`/`irecv` for one rank (src/core/mpi/halfDuplexCommBuffer.cpp:31-39, 49-57). -/
def postRank (isSend : Bool) (p : BufPtr) (st : HalfBuf × List MpiOp) (rank : Nat) : Res (HalfBuf × List MpiOp) := do
  let e ← rd st.1.rankOffset (rank + 1)
  let s ← rd st.1.rankOffset rank
  if e - s = 0 then .ok st
  else do
    let req ← wr st.1.request rank (some st.2.length)
    return ({ st.1 with request := req }, st.2 ++ [⟨isSend, rank, st.1.tag, p, s, e - s, none, false, false⟩])

/-- `send()` and `receive()` (halfDuplexCommBuffer.cpp:25-41, 43-59). The operations are posted in one step of the process. -/
def post (isSend : Bool) (p : BufPtr) (b : HalfBuf) (ops : List MpiOp) : Res (HalfBuf × List MpiOp) :=
  (List.range b.sizeRank).foldlM (postRank isSend p) (b, ops)

/-- `startComm<valueType>(field, commName)` (communicator.hpp:90-111, fullDuplexCommBuffer.hpp:119-123). -/
def Proc.startComm (hash : String → Nat) (pr : Proc) (size : Nat) (field : List Elem) (name : String) : Res Proc := do
  let (c, p) ← pr.comm.acquire name
  let b ← c.deref p
  let b ← b.initComm hash size name
  let s ← fillSend c.sizeRank size field c.sendMap b.send
  let (s, ops) ← post true p s pr.ops
  let (r, ops) ← post false p b.recv ops
  let c ← c.assign p ⟨s, r⟩
  return ⟨c, ops⟩

/-- Is operation `i` of the process complete?
(the flag of `MPI_Test`, halfDuplexCommBuffer.cpp:18) -/
def opDone (ops : List MpiOp) (i : Nat) : Bool :=
  match ops[i]? with
  | some o => o.done
  | none => false

/-- The loop of `isComplete()` (halfDuplexCommBuffer.cpp:16-21): `MPI_Test` on a complete request makes the handle null, and
reports completion for a null handle. -/
def testAll (done : Nat → Bool) : List (Option Nat) → Bool × List (Option Nat)
  | [] => (true, [])
  | none :: l => ((testAll done l).1, none :: (testAll done l).2)
  | some i :: l => if done i then ((testAll done l).1, none :: (testAll done l).2) else (false, some i :: l)

/-- `HalfDuplexCommBuffer::isComplete()` (halfDuplexCommBuffer.cpp:12-23): without requests the flag is never set. -/
def HalfBuf.isComplete (done : Nat → Bool) (b : HalfBuf) : Res (Bool × HalfBuf) :=
  if b.request = [] then .ub
  else .ok ((testAll done b.request).1, { b with request := (testAll done b.request).2 })

/-- `FullDuplexCommBuffer::isComplete()` (fullDuplexCommBuffer.hpp:129). -/
def FullBuf.isComplete (done : Nat → Bool) (b : FullBuf) : Res (Bool × FullBuf) := do
  let (f, s) ← b.send.isComplete done
  if f then do
    let (g, r) ← b.recv.isComplete done
    return (g, ⟨s, r⟩)
  else return (false, ⟨s, b.recv⟩)

/-- `CommBuffer_[commName]->`: an absent name adds a null pointer; a null pointer is undefined.
(communicator.hpp:90-143, communicator.cpp:8-15) -/
def Communicator.lookup (c : Communicator) (name : String) : Res BufPtr :=
  match c.table.find? name with
  | some (some p) => .ok p
  | _ => .ub

/-- `Communicator::isComplete(commName)` (communicator.cpp:8-15). -/
def Proc.isComplete (pr : Proc) (name : String) : Res (Bool × Proc) := do
  let p ← pr.comm.lookup name
  let b ← pr.comm.deref p
  let (f, b) ← b.isComplete (opDone pr.ops)
  let c ← pr.comm.assign p b
  return (f, { pr with comm := c })

/-- Reading the part of one rank (communicator.hpp:138-139): `field(local_idx) = rankBuffer[data]`. -/
def readRank (size : Nat) (bytes : List UInt8) (map : List Nat) (off : Nat) (field : List Elem) : Res (List Elem) :=
  (List.range map.length).foldlM (fun field data => do
    let i ← rd map data
    let e ← getBytes bytes (off + data * size) size
    wr field i e) field

/-- Reading the receive buffer (communicator.hpp:135-140). -/
def readRecv (n size : Nat) (b : HalfBuf) (maps : List (List Nat)) (field : List Elem) : Res (List Elem) :=
  (List.range n).foldlM (fun field rank => do
    let (off, _) ← b.get size rank
    let map ← rd maps rank
    readRank size b.bytes map off field) field

/-- `finaliseComm<valueType>(field, commName)` (communicator.hpp:126-143). `waitComplete` (halfDuplexCommBuffer.cpp:61-69,
fullDuplexCommBuffer.hpp:134-138) calls `isComplete` until it is true; the result is `none` while it is not. -/
def Proc.finaliseComm (pr : Proc) (size : Nat) (field : List Elem) (name : String) : Res (Option (List Elem × Proc)) := do
  let p ← pr.comm.lookup name
  let b ← pr.comm.deref p
  let (f, b) ← b.isComplete (opDone pr.ops)
  if f then do
    let field ← readRecv pr.comm.sizeRank size b.recv pr.comm.recvMap field
    let c ← pr.comm.assign p b.finaliseComm
    return some (field, { pr with comm := { c with table := c.table.assign name none } })
  else return none

/-! ### MPI -/

/-- MPI reads the memory of a send, at any time before the request is complete.
(MPI standard, for core/mpi/operators.hpp:173-186) -/
def Proc.capture (pr : Proc) (i : Nat) : Res Proc := do
  let o ← rd pr.ops i
  let b ← pr.comm.deref o.buf
  let bytes ← getBytes b.send.bytes o.off o.len
  let ops ← wr pr.ops i { o with payload := some bytes }
  return { pr with ops := ops }

/-- MPI puts a message into the memory of receive operation `i`, which is then complete. A message longer than the receive
buffer is an error.
(MPI standard, for core/mpi/operators.hpp:200-212) -/
def Proc.accept (pr : Proc) (i : Nat) (bytes : List UInt8) : Res Proc := do
  let o ← rd pr.ops i
  let b ← pr.comm.deref o.buf
  if o.len < bytes.length then .ub
  else do
    let new ← putBytes b.recv.bytes o.off bytes
    let c ← pr.comm.assign o.buf ⟨b.send, { b.recv with bytes := new }⟩
    let ops ← wr pr.ops i { o with done := true }
    return ⟨c, ops⟩

/-- An unmatched message to `peer` with the tag.
(MPI standard, for core/mpi/operators.hpp:173-212) -/
def MpiOp.isMessage (o : MpiOp) (peer : Nat) (tag : Int) : Prop := o.isSend = true ∧ o.peer = peer ∧ o.tag = tag ∧ o.matched = false

/-- A posted receive from `peer` with the tag.
(MPI standard, for core/mpi/operators.hpp:173-212) -/
def MpiOp.isReceive (o : MpiOp) (peer : Nat) (tag : Int) : Prop := o.isSend = false ∧ o.peer = peer ∧ o.tag = tag ∧ o.done = false

/-- Operation `i` is the first that satisfies `p`.
(MPI standard (non-overtaking), for core/mpi/operators.hpp:173-212) -/
def FirstOp (ops : List MpiOp) (p : MpiOp → Prop) (i : Nat) (o : MpiOp) : Prop :=
  ops[i]? = some o ∧ p o ∧ ∀ j < i, ∀ o', ops[j]? = some o' → ¬ p o'

end NeoFOAM
