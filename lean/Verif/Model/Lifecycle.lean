import Verif.Base.Res

/-!
# Storage of fields over their life time

Which blocks of memory are allocated, and which block each live `Field` object holds (contents: `Model/Field.lean`). Kokkos is
modelled by its documented behaviour and source: `kokkos_malloc` of zero bytes returns a null pointer, `kokkos_realloc` always
makes a new block, also of zero bytes, and releases the old one, `kokkos_free` of a null pointer does nothing. Out of memory is
not modelled.
-/
namespace NeoFOAM

/-- Allocated blocks: number of elements by address (`none`: not allocated), and the next address.
(memory behind core/executor/serialExecutor.hpp:50-57) -/
structure Blocks where
  live : Nat → Option Nat
  next : Nat

/-- No memory allocated. (before any `exec.alloc`, core/executor/serialExecutor.hpp:50) -/
def Blocks.empty : Blocks := ⟨fun _ => none, 0⟩

/-- A new block of `n` elements. (Kokkos, used at core/executor/serialExecutor.hpp:50-55) -/
def Blocks.grow (b : Blocks) (n : Nat) : Blocks := ⟨fun q => if q = b.next then some n else b.live q, b.next + 1⟩

/-- The block at `p` is released. (Kokkos, used at core/executor/serialExecutor.hpp:52-57) -/
def Blocks.drop (b : Blocks) (p : Nat) : Blocks := ⟨fun q => if q = p then none else b.live q, b.next⟩

/-- `exec.alloc(n * sizeof(T))` (core/executor/serialExecutor.hpp:50, CPUExecutor.hpp:38, GPUExecutor.hpp:52). -/
def kAlloc (n : Nat) (b : Blocks) : Option Nat × Blocks := if n = 0 then (none, b) else (some b.next, b.grow n)

/-- `exec.realloc(ptr, n * sizeof(T))` (core/executor/serialExecutor.hpp:52-55): undefined for a pointer that is not allocated. -/
def kRealloc (ptr : Option Nat) (n : Nat) (b : Blocks) : Res (Option Nat × Blocks) :=
  match ptr with
  | none => .ub
  | some p => if (b.live p).isSome then .ok (some b.next, (b.grow n).drop p) else .ub

/-- `exec.free(ptr)` (core/executor/serialExecutor.hpp:57): undefined for a pointer that is not allocated (double free). -/
def kFree (ptr : Option Nat) (b : Blocks) : Res Blocks :=
  match ptr with
  | none => .ok b
  | some p => if (b.live p).isSome then .ok (b.drop p) else .ub

/-- A `Field` object: size and pointer (fields/field.hpp:419-420). -/
structure FieldVar where
  size : Nat
  ptr : Option Nat

/-- All live `Field` objects of a program, by variable, and the memory.
(fields/field.hpp:419-421) -/
structure World where
  objs : Nat → Option FieldVar
  mem : Blocks

/-- Nothing constructed. (before any constructor of fields/field.hpp:60-140) -/
def World.empty : World := ⟨fun _ => none, .empty⟩

/-- Bind a variable. (constructors and updates of the members, fields/field.hpp:60-140, 326-327) -/
def World.bind (w : World) (x : Nat) (o : Option FieldVar) : World := ⟨fun y => if y = x then o else w.objs y, w.mem⟩

/-- Reading or writing every element through the pointer (kernels, `deep_copy`; fields/field.hpp:29-38): undefined unless the
block is allocated and large enough. -/
def touch (o : FieldVar) (w : World) : Res Unit :=
  if o.size = 0 then .ok ()
  else match o.ptr with
    | none => .ub
    | some p => match w.mem.live p with
      | some n => if o.size ≤ n then .ok () else .ub
      | none => .ub

/-- `Field(exec, size)` (fields/field.hpp:60-69). -/
def fCreate (x n : Nat) (w : World) : Res World :=
  let (p, b) := kAlloc n w.mem
  .ok ((World.mk w.objs b).bind x (some ⟨n, p⟩))

/-- The copy constructors (fields/field.hpp:78-91, 115-130): allocate, then copy. -/
def fCopy (x : Nat) (src : FieldVar) (w : World) : Res World := do
  let (p, b) := kAlloc src.size w.mem
  let w' := (World.mk w.objs b).bind x (some ⟨src.size, p⟩)
  touch src w'
  touch ⟨src.size, p⟩ w'
  return w'

/-- The move constructor (fields/field.hpp:132-140). -/
def fMove (x y : Nat) (src : FieldVar) (w : World) : Res World := .ok ((w.bind x (some src)).bind y (some ⟨0, none⟩))

/-- `resize(n)` (fields/field.hpp:308-328). -/
def fResize (x : Nat) (o : FieldVar) (n : Nat) (w : World) : Res World :=
  if o.size ≠ 0 then do
    let (p, b) ← kRealloc o.ptr n w.mem
    return (World.mk w.objs b).bind x (some ⟨n, p⟩)
  else
    let (p, b) := kAlloc n w.mem
    .ok ((World.mk w.objs b).bind x (some ⟨n, p⟩))

/-- `if (size() != rhs.size()) resize(rhs.size())` (fields/field.hpp:220-223). -/
def fMatch (x : Nat) (o : FieldVar) (n : Nat) (w : World) : Res World := if o.size ≠ n then fResize x o n w else .ok w

/-- `operator=(const Field&)` (fields/field.hpp:217-225): resize if the sizes differ, then copy every element. -/
def fAssign (x y : Nat) (o : FieldVar) (n : Nat) (w : World) : Res World := do
  let w' ← fMatch x o n w
  match w'.objs x, w'.objs y with
  | some a, some b => do
    touch a w'
    touch b w'
    return w'
  | _, _ => .ub

/-- The destructor (fields/field.hpp:142-149). -/
def fDestroy (x : Nat) (o : FieldVar) (w : World) : Res World := do
  let b ← kFree o.ptr w.mem
  return (World.mk w.objs b).bind x none

/-- What a program can do with its fields. (the members of fields/field.hpp:60-328) -/
inductive FieldCall where
  | create (x n : Nat)
  | copy (x y : Nat)
  | move (x y : Nat)
  | assign (x y : Nat)
  | resize (x n : Nat)
  | use (x : Nat)
  | destroy (x : Nat)
  deriving DecidableEq, Repr

/-- One call. C++ programs construct only new objects and use only live ones; calls that violate this cannot be written and are
skipped. (fields/field.hpp:60-328) -/
def World.step (w : World) : FieldCall → Res World
  | .create x n => match w.objs x with
    | none => fCreate x n w
    | some _ => .ok w
  | .copy x y => match w.objs x, w.objs y with
    | none, some src => fCopy x src w
    | _, _ => .ok w
  | .move x y => match w.objs x, w.objs y with
    | none, some src => fMove x y src w
    | _, _ => .ok w
  | .assign x y => match w.objs x, w.objs y with
    | some a, some b => fAssign x y a b.size w
    | _, _ => .ok w
  | .resize x n => match w.objs x with
    | some o => fResize x o n w
    | none => .ok w
  | .use x => match w.objs x with
    | some o => do
      touch o w
      return w
    | none => .ok w
  | .destroy x => match w.objs x with
    | some o => fDestroy x o w
    | none => .ok w

/-- A history of calls. (fields/field.hpp:60-328) -/
def World.run (w : World) (cs : List FieldCall) : Res World := cs.foldlM World.step w

end NeoFOAM
