import Verif.Base.Res
/-!
# Starting and stopping MPI
-/
namespace NeoFOAM

/-- What MPI has been told: nothing, `MPI_Init`, `MPI_Finalize` (MPI standard, section 11.2: each at most once; other calls only in between).
Models what include/NeoFOAM/core/mpi/environment.hpp:34-49 calls. -/
inductive MpiPhase | fresh | active | finished
  deriving DecidableEq

/-- MPI and the `MPIInit` objects (include/NeoFOAM/core/mpi/environment.hpp:25-50), which have no members: which of them are alive. -/
structure InitWorld where
  phase : MpiPhase
  alive : Nat → Bool

/-- The start of the program (include/NeoFOAM/core/mpi/environment.hpp:25-50): no objects, nothing called. -/
def InitWorld.start : InitWorld := ⟨.fresh, fun _ => false⟩

/-- What a program does: construct an `MPIInit`, copy one (the class declares a destructor, hence has an implicit copy constructor and no move constructor: moving is
copying), destroy one, or make any call that needs MPI, such as constructing an `MPIEnvironment` or reducing (include/NeoFOAM/core/mpi/environment.hpp:25-50, 65-70). -/
inductive InitOp
  | construct (i : Nat)
  | copy (i j : Nat)
  | destroy (i : Nat)
  | call

/-- One step. Constructing calls `MPI_Init` or, if the build requires threads, `MPI_Init_thread` with a check of what the library provides (environment.hpp:33-44); the
implicit copy constructor calls nothing; the destructor calls `MPI_Finalize` (environment.hpp:49). Constructing over a living object, using a dead one and calls at the
wrong time are undefined. Source: include/NeoFOAM/core/mpi/environment.hpp:33-49. -/
def InitOp.run (required provided : Bool) (w : InitWorld) : InitOp → Res InitWorld
  | .construct i =>
    if w.alive i then .ub
    else if w.phase ≠ .fresh then .ub
    else if required && !provided then .abort
    else .ok ⟨.active, fun k => if k = i then true else w.alive k⟩
  | .copy i j => if w.alive i && !w.alive j then .ok ⟨w.phase, fun k => if k = j then true else w.alive k⟩ else .ub
  | .destroy i =>
    if !w.alive i then .ub
    else if w.phase ≠ .active then .ub
    else .ok ⟨.finished, fun k => if k = i then false else w.alive k⟩
  | .call => if w.phase = .active then .ok w else .ub

/-- A program (include/NeoFOAM/core/mpi/environment.hpp:25-50). -/
def initRun (required provided : Bool) (w : InitWorld) : List InitOp → Res InitWorld
  | [] => .ok w
  | op :: ops => do
    let w ← op.run required provided w
    initRun required provided w ops

end NeoFOAM
