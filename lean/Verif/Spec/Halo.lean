import Verif.Model.Halo
import Mathlib.Logic.Function.Basic

/-!
# Specification: halo exchanges on all ranks
-/
namespace NeoFOAM

/-- The fields of a rank, by number. -/
abbrev Fields := Nat → List Elem

/-- One exchange of the program all ranks run: `startComm(field src, name)`, local work `mid`, `finaliseComm(field dst, name)`, local
work `post`. `size` is the size of an element. -/
structure Exchange where
  name : String
  size : Nat
  src : Nat
  dst : Nat
  mid : Nat → Fields → Fields
  post : Nat → Fields → Fields

/-- Number of ranks, maps of every rank, initial fields, and a program of `N` exchanges. `hash` is `std::hash<std::string>`. -/
structure Halo where
  P : Nat
  hash : String → Nat
  sendMap : Nat → List (List Nat)
  recvMap : Nat → List (List Nat)
  N : Nat
  ex : Nat → Exchange
  init : Nat → Fields

/-- What rank `r` sends to rank `s` when its field is `f`. -/
def Halo.outgoing (H : Halo) (f : List Elem) (r s : Nat) : List Elem := ((H.sendMap r).getD s []).map fun i => f.getD i []

/-- Write values to the listed positions, one after the other. -/
def writeAt (f : List Elem) (pos : List Nat) (vals : List Elem) : List Elem :=
  (pos.zip vals).foldl (fun f x => f.set x.1 x.2) f

/-- Write what comes from every rank to the positions of the receive map, in the order of the ranks. -/
def Halo.scatter (H : Halo) (r : Nat) (vals : Nat → List Elem) (f : List Elem) : List Elem :=
  (List.range H.P).foldl (fun f s => writeAt f ((H.recvMap r).getD s []) (vals s)) f

/-- The fields of the ranks if exchange after exchange were done by all ranks at once. -/
def Halo.state (H : Halo) : Nat → Nat → Fields
  | 0, r => H.init r
  | k + 1, r =>
    let x := H.ex k
    let f := x.mid r (H.state k r)
    x.post r (Function.update f x.dst (H.scatter r (fun s => H.outgoing (H.state k s x.src) s r) (f x.dst)))

/-- The maps of all ranks fit together, and every exchange reads and writes within the fields. -/
structure Halo.Fits (H : Halo) : Prop where
  sendLen : ∀ r < H.P, (H.sendMap r).length = H.P
  recvLen : ∀ r < H.P, (H.recvMap r).length = H.P
  counts : ∀ r < H.P, ∀ s < H.P, ((H.sendMap r).getD s []).length = ((H.recvMap s).getD r []).length
  pos : ∀ k < H.N, 0 < (H.ex k).size
  sends : ∀ k < H.N, ∀ r < H.P, ∀ s < H.P, ∀ i ∈ (H.sendMap r).getD s [],
    i < (H.state k r (H.ex k).src).length ∧ ((H.state k r (H.ex k).src).getD i []).length = (H.ex k).size
  recvs : ∀ k < H.N, ∀ r < H.P, ∀ s < H.P, ∀ i ∈ (H.recvMap r).getD s [], i < ((H.ex k).mid r (H.state k r) (H.ex k).dst).length

/-- A rank: the exchange it is at, whether it has started it, its fields and its process. -/
structure HRank where
  pc : Nat
  opened : Bool
  fields : Fields
  proc : Proc

/-- All ranks. -/
abbrev HWorld := Nat → HRank

/-- Before the first exchange. -/
def Halo.start (H : Halo) : HWorld := fun r => ⟨0, false, H.init r, ⟨Communicator.create H.P (H.sendMap r) (H.recvMap r), []⟩⟩

/-- What can happen next, with its outcome. `sync` forbids MPI to read a message before the receive is posted (no buffering). -/
inductive HStep (H : Halo) (sync : Bool) (w : HWorld) : Res HWorld → Prop where
  /-- a rank starts its next exchange and does the local work -/
  | start (r : Nat) (hr : r < H.P) (hk : (w r).pc < H.N) (ho : (w r).opened = false) :
    HStep H sync w (do
      let x := H.ex (w r).pc
      let pr ← (w r).proc.startComm H.hash x.size ((w r).fields x.src) x.name
      return Function.update w r ⟨(w r).pc, true, x.mid r (w r).fields, pr⟩)
  /-- a rank whose requests are complete finalises its exchange and does the local work -/
  | finalise (r : Nat) (hr : r < H.P) (ho : (w r).opened = true)
    (hw : (w r).proc.finaliseComm (H.ex (w r).pc).size ((w r).fields (H.ex (w r).pc).dst) (H.ex (w r).pc).name ≠ .ok none) :
    HStep H sync w (do
      let x := H.ex (w r).pc
      let o ← (w r).proc.finaliseComm x.size ((w r).fields x.dst) x.name
      match o with
      | some (f, pr) => return Function.update w r ⟨(w r).pc + 1, false, x.post r (Function.update (w r).fields x.dst f), pr⟩
      | none => return w)
  /-- MPI reads a message from the send buffer -/
  | capture (r i : Nat) (o : MpiOp) (hr : r < H.P) (hi : (w r).proc.ops[i]? = some o) (hs : o.isSend = true) (hp : o.payload = none)
    (hsync : sync = true → ∃ j o', FirstOp (w o.peer).proc.ops (·.isReceive r o.tag) j o') :
    HStep H sync w (do
      let pr ← (w r).proc.capture i
      return Function.update w r { w r with proc := pr })
  /-- MPI delivers the first message with a tag to the first receive with that tag -/
  | deliver (r i : Nat) (o : MpiOp) (s j : Nat) (o' : MpiOp) (tag : Int) (bytes : List UInt8) (hr : r < H.P) (hs : s < H.P)
    (h1 : FirstOp (w r).proc.ops (·.isMessage s tag) i o) (h2 : FirstOp (w s).proc.ops (·.isReceive r tag) j o')
    (hp : o.payload = some bytes) :
    HStep H sync w (do
      let pr ← (w s).proc.accept j bytes
      let w' := Function.update w s { w s with proc := pr }
      let ops ← wr (w' r).proc.ops i { o with matched := true }
      return Function.update w' r { w' r with proc := { (w' r).proc with ops := ops } })
  /-- a send request whose memory has been read becomes complete -/
  | sent (r i : Nat) (o : MpiOp) (hr : r < H.P) (hi : (w r).proc.ops[i]? = some o) (hs : o.isSend = true) (hp : o.payload.isSome = true)
    (hd : o.done = false) :
    HStep H sync w (do
      let ops ← wr (w r).proc.ops i { o with done := true }
      return Function.update w r { w r with proc := { (w r).proc with ops := ops } })

/-- A rank asks whether its open exchange is complete (`isComplete`, also called by `waitComplete`). -/
def Halo.poll (H : Halo) (w : HWorld) (r : Nat) : Res (Bool × HWorld) := do
  let (f, pr) ← (w r).proc.isComplete (H.ex (w r).pc).name
  return (f, Function.update w r { w r with proc := pr })

/-- States that can occur after `n` steps, for all interleavings of the ranks and of MPI. Polls are not counted. -/
inductive Halo.Run (H : Halo) : Nat → HWorld → Prop where
  | init : Run H 0 H.start
  | step {n : Nat} {w w' : HWorld} {sync : Bool} : Run H n w → HStep H sync w (.ok w') → Run H (n + 1) w'
  | poll {n : Nat} {w w' : HWorld} {r : Nat} {f : Bool} : Run H n w → r < H.P → (w r).opened = true → H.poll w r = .ok (f, w') → Run H n w'

end NeoFOAM
