import Verif.Base.Res
import Verif.Model.Field
import Mathlib.Logic.Function.Basic

/-!
# The wrapper of SUNDIALS vectors

`timeIntegration/sundials.hpp` keeps SUNDIALS Kokkos vectors in wrappers with the three executors' spaces as alternatives. A wrapper holds the vector itself and a raw
pointer to its `N_Vector`. The SUNDIALS class is taken by its documentation: a vector owns its data and its `N_Vector`, it converts to that `N_Vector`, the copy constructor makes
another vector of the same length and space (what it holds is left open, `lib`), a move keeps the `N_Vector`, the destructor frees both.
-/
namespace NeoFOAM
open Function

variable {K : Type}

/-- What an `N_Vector` refers to: data in the memory of an executor (sundials.hpp:279, 304, 339). Where Kokkos was built with fewer spaces, the spaces of
several executors are the same; they are told apart here. -/
structure SunVec (K : Type) where
  space : Exec
  data : List K

/-- A wrapper `SKVector` (sundials.hpp:373-489): the alternative of the variant, the vector it owns (`kvector_`, null by default) and the raw pointer (`svector_`)
(sundials.hpp:290-291, 325-326, 362-363). -/
structure SunWrapper where
  kind : Exec
  own : Option Nat
  handle : Option Nat

/-- All SUNDIALS vectors, `none` for freed ones, and all wrappers of a program, by name; `next` is the next address.
(sundials.hpp:265-489) -/
structure SunWorld (K : Type) where
  heap : Nat → Option (SunVec K)
  next : Nat
  wraps : Nat → Option SunWrapper

/-- Before the program starts.
(sundials.hpp:265-489) -/
def SunWorld.start : SunWorld K := ⟨fun _ => none, 0, fun _ => none⟩

/-- Using a wrapper that is not alive is undefined.
(C++; sundials.hpp:373-489) -/
def SunWorld.wrap (w : SunWorld K) (i : Nat) : Res SunWrapper :=
  match w.wraps i with
  | some x => .ok x
  | none => .ub

/-- A declaration makes a new object.
(C++; sundials.hpp:385, 396, 407) -/
def SunWorld.declare (w : SunWorld K) (i : Nat) (x : SunWrapper) : Res (SunWorld K) :=
  match w.wraps i with
  | some _ => .ub
  | none => .ok { w with wraps := update w.wraps i (some x) }

/-- The destructor of the SUNDIALS vector in a wrapper; freeing twice is undefined.
(SUNDIALS; the default destructors sundials.hpp:270, 307, 342, 390) -/
def SunWorld.free (w : SunWorld K) (o : Option Nat) : Res (SunWorld K) :=
  match o with
  | none => .ok w
  | some h =>
    match w.heap h with
    | some _ => .ok { w with heap := update w.heap h none }
    | none => .ub

/-- A new SUNDIALS vector.
(SUNDIALS; used at sundials.hpp:282, 317, 352) -/
def SunWorld.alloc (w : SunWorld K) (v : SunVec K) : Nat × SunWorld K := (w.next, { w with heap := update w.heap w.next (some v), next := w.next + 1 })

/-- `GetVec<...>(vector)`: following a null pointer or a pointer to a freed vector is undefined.
(SUNDIALS; used at sundials.hpp:88, 139) -/
def SunWorld.deref (w : SunWorld K) (o : Option Nat) : Res (Nat × SunVec K) :=
  match o with
  | none => .ub
  | some h =>
    match w.heap h with
    | some v => .ok (h, v)
    | none => .ub

/-- What a program does with wrappers and fields. -/
inductive SunOp (K : Type) where
  | new (i : Nat)
  | setExecutor (i : Nat) (e : Exec)
  | initNVector (i n : Nat)
  | copy (i j : Nat)
  | move (i j : Nat)
  | destroy (i : Nat)
  | write (i : Nat) (e : Exec) (field : List K)
  | read (i : Nat) (e : Exec) (n : Nat)

/-- One operation; the value is what `read` puts into the field.
* `SKVector()` (sundials.hpp:385) is a host vector without memory;
* `setExecutor` (sundials.hpp:418-440) destroys the vector and makes a default one of the executor's kind;
* `initNVector` (sundials.hpp:280-284, 315-319, 350-354, 447-452): the assignment destroys the old vector, the pointer is taken from the new one; new
  memory is zero (Kokkos); the context is taken as valid;
* copying (sundials.hpp:271-272, 308-309, 343-344, 396): `svector_(other.kvector_)` takes the pointer of the *other* vector;
* moving (sundials.hpp:273-274, 310-311, 345-346, 407): a raw pointer that is moved from keeps its value;
* `fieldToSunNVector` (sundials.hpp:85-125): the executor of the field decides as what the vector is read; the length is not checked;
* `sunNVectorToField` (sundials.hpp:136-175): the same. -/
def SunOp.run [Zero K] (lib : List K → List K) (w : SunWorld K) : SunOp K → Res (Option (List K) × SunWorld K)
  | .new i => do
    let w ← w.declare i ⟨.cpu, none, none⟩
    return (none, w)
  | .setExecutor i e => do
    let x ← w.wrap i
    let w ← w.free x.own
    return (none, { w with wraps := update w.wraps i (some ⟨e, none, none⟩) })
  | .initNVector i n => do
    let x ← w.wrap i
    let (h, w) := w.alloc ⟨x.kind, List.replicate n 0⟩
    let w ← w.free x.own
    return (none, { w with wraps := update w.wraps i (some ⟨x.kind, some h, some h⟩) })
  | .copy i j => do
    let x ← w.wrap i
    match x.own with
    | none => do
      let w ← w.declare j ⟨x.kind, none, none⟩
      return (none, w)
    | some h => do
      let (_, v) ← w.deref (some h)
      let (h', w) := w.alloc ⟨v.space, lib v.data⟩
      let w ← w.declare j ⟨x.kind, some h', some h⟩
      return (none, w)
  | .move i j => do
    let x ← w.wrap i
    let w ← w.declare j x
    return (none, { w with wraps := update w.wraps i (some ⟨x.kind, none, x.handle⟩) })
  | .destroy i => do
    let x ← w.wrap i
    let w ← w.free x.own
    return (none, { w with wraps := update w.wraps i none })
  | .write i e field => do
    let x ← w.wrap i
    let (h, v) ← w.deref x.handle
    if v.space = e ∧ field.length ≤ v.data.length then
      return (none, { w with heap := update w.heap h (some ⟨v.space, field ++ v.data.drop field.length⟩) })
    else .ub
  | .read i e n => do
    let x ← w.wrap i
    let (_, v) ← w.deref x.handle
    if v.space = e ∧ n ≤ v.data.length then return (some (v.data.take n), w) else .ub

/-- A program; the values are what its reads return, in their order.
(sundials.hpp:78-489) -/
def sunRun [Zero K] (lib : List K → List K) : List (SunOp K) → SunWorld K → Res (List (List K) × SunWorld K)
  | [], w => .ok ([], w)
  | o :: ops, w => do
    let (r, w) ← o.run lib w
    let (rs, w) ← sunRun lib ops w
    return (r.toList ++ rs, w)

end NeoFOAM
