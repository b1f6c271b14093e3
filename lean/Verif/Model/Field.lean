import Verif.Base.LMem

/-!
# Fields

Model of `Field` and its free functions. A field owns a block of memory named by its pointer; memory
of all executors is one heap (an access from the wrong memory space is not modelled: the operations
assume, as the code's debug assertions do, that operands live on the same executor). Freshly allocated
memory holds arbitrary values.
-/
namespace NeoFOAM

/-- `Executor` (include/NeoFOAM/core/executor/executor.hpp:16). -/
inductive Exec where
  | serial
  | cpu
  | gpu
  deriving DecidableEq, Repr

/-- Which schedules an executor allows: the serial executor runs a plain loop, the others Kokkos
threads (parallelAlgorithms.hpp:26-50). -/
def Exec.kind : Exec → ExecKind
  | .serial => .serial
  | _ => .parallel

/-- Memory blocks by pointer; `garbage p i` is what a fresh block at `p` contains at `i`.
(memory from core/executor/serialExecutor.hpp:50-57) -/
structure Heap (K : Type u) where
  mem : Nat → List K
  next : Nat
  garbage : Nat → Nat → K

/-- `Field` (field.hpp:419-421): size, data pointer, executor. -/
structure FieldObj where
  size : Nat
  ptr : Nat
  exec : Exec
  deriving DecidableEq, Repr

/-- Nondeterministic computations on the heap: `m h out` – `m` started in `h` can end with `out`.
(not in the code: memory is changed in place, fields/field.hpp) -/
def NM (K : Type u) (α : Type v) := Heap K → Res α × Heap K → Prop

namespace NM
variable {K : Type u} {α β : Type v}
/-- Sequencing.
(not in the code: see `NM`, fields/field.hpp) -/
def bind (x : NM K α) (f : α → NM K β) : NM K β := fun h out =>
  ∃ r, x h r ∧ match r with
    | (.ok a, h') => f a h' out
    | (.throw e, h') => out = (.throw e, h')
    | (.abort, h') => out = (.abort, h')
    | (.ub, h') => out = (.ub, h')
instance : Monad (NM K) where
  pure a := fun h out => out = (.ok a, h)
  bind := bind
/-- A result that does not touch the heap.
(not in the code: see `NM`, fields/field.hpp) -/
def lift (r : Res α) : NM K α := fun h out => out = (r, h)
/-- The computation has exactly one outcome.
(not in the code: see `NM`, fields/field.hpp) -/
def Det (x : NM K α) (h : Heap K) (r : Res α × Heap K) : Prop := ∀ out, x h out ↔ out = r
end NM

variable {K : Type u}

/-- Replace one block.
(not in the code: see `Heap`, fields/field.hpp) -/
def Heap.put (h : Heap K) (p : Nat) (x : List K) : Heap K :=
  ⟨fun q => if q = p then x else h.mem q, h.next, h.garbage⟩

/-- `exec.alloc(size * sizeof(ValueType))` (serialExecutor.hpp:50). -/
def alloc (n : Nat) : NM K Nat := fun h out =>
  out = (.ok h.next, ⟨fun q => if q = h.next then (List.range n).map (h.garbage h.next) else h.mem q,
    h.next + 1, h.garbage⟩)

/-- `exec.realloc(ptr, size)` (serialExecutor.hpp:52-55): the block may move; its first elements are
kept and the old block is gone. -/
def realloc (p n : Nat) : NM K Nat := fun h out =>
  out = (.ok h.next, ⟨fun q => if q = h.next then (h.mem p).take n ++
      ((List.range n).map (h.garbage h.next)).drop (h.mem p).length
    else if q = p then [] else h.mem q, h.next + 1, h.garbage⟩)

/-- `Kokkos::deep_copy` of `n` elements (field.hpp:29-38). -/
def deepCopy (n src dst : Nat) : NM K Unit := fun h out =>
  if (h.mem src).length < n ∨ (h.mem dst).length < n then out = (.ub, h)
  else out = (.ok (), h.put dst ((h.mem src).take n ++ (h.mem dst).drop n))

/-- `parallelFor(exec, {start, end}, kernel)` (parallelAlgorithms.hpp:26-50): one thread per index. -/
def parallelFor (e : Exec) (start stop : Nat) (body : Nat → List (LAct Nat K (List K))) : NM K Unit :=
  fun h out => ∃ l, Schedule e.kind ((List.range' start (stop - start)).map body) l ∧
    match runActs LMem.step ⟨h.mem, fun _ => []⟩ l with
    | .ok s => out = (.ok (), ⟨s.arr, h.next, h.garbage⟩)
    | .throw x => out = (.throw x, h)
    | .abort => out = (.abort, h)
    | .ub => out = (.ub, h)

/-- A kernel that loads element `i` of each block in `ins` and stores a value to element `i` of `a`.
(the kernels of fields/fieldFreeFunctions.hpp:28-115) -/
def kern (ins : List Nat) (a : Nat) (g : Nat → List K → K) (i : Nat) : List (LAct Nat K (List K)) :=
  ins.map (fun p => LAct.load i p i) ++
    [LAct.store i a i (fun l => g i (l.take ins.length).reverse)]

/-- The `end` of a range: zero stands for the size of the field (fieldFreeFunctions.hpp:32-35, 57-60,
83-86). -/
def rangeEnd (a : FieldObj) (stop : Nat) : Nat := if stop = 0 then a.size else stop

/-- `map(a, inner, range)` (fieldFreeFunctions.hpp:28-40). -/
def fmap (a : FieldObj) (inner : Nat → K) (start stop : Nat) : NM K Unit :=
  parallelFor a.exec start (rangeEnd a stop) (kern [] a.ptr (fun i _ => inner i))

/-- `fill(a, value, range)` (fieldFreeFunctions.hpp:49-65). -/
def fill (a : FieldObj) (v : K) (start stop : Nat) : NM K Unit :=
  parallelFor a.exec start (rangeEnd a stop) (kern [] a.ptr (fun _ _ => v))


/-- `setField(a, b, range)` (fieldFreeFunctions.hpp:75-91); `b` is given by its block. -/
def setField [Inhabited K] (a : FieldObj) (b : Nat) (start stop : Nat) : NM K Unit :=
  parallelFor a.exec start (rangeEnd a stop) (kern [b] a.ptr (fun _ l => l.headD default))

/-- `scalarMul(a, value)` (fieldFreeFunctions.hpp:93-100): `view[i] = view[i] * value` for all `i`
(parallelAlgorithms.hpp:73-99). -/
def scalarMul [Inhabited K] (mulS : K → K) (a : FieldObj) : NM K Unit :=
  parallelFor a.exec 0 a.size (kern [a.ptr] a.ptr (fun _ l => mulS (l.headD default)))

/-- `detail::fieldBinaryOp(a, b, op)` (fieldFreeFunctions.hpp:104-115). -/
def fieldBinaryOp [Inhabited K] (op : K → K → K) (a b : FieldObj) : NM K Unit :=
  if a.size ≠ b.size then NM.lift (.throw .dimensionMismatch)
  else parallelFor a.exec 0 a.size
    (kern [a.ptr, b.ptr] a.ptr (fun _ l => op (l.headD default) (l.getD 1 default)))

/-- `operator+=`, `operator-=`, `operator*=(Field)` (field.hpp:232-237, 244-249, 284-290), release build: the
assertions of `validateOtherField` are empty. -/
def assignOp [Inhabited K] (op : K → K → K) (a b : FieldObj) : NM K Unit := fieldBinaryOp op a b

/-- `Field(exec, size)` (field.hpp:60-69). -/
def newField (e : Exec) (n : Nat) : NM K FieldObj := do
  let p ← alloc n
  return ⟨n, p, e⟩

/-- `Field(exec, in, size, hostExec)` (field.hpp:78-91). -/
def newFieldFrom (e : Exec) (src n : Nat) : NM K FieldObj := do
  let f ← newField e n
  deepCopy n src f.ptr
  return f

/-- `Field(exec, size, value)` (field.hpp:99-108). -/
def newFieldUniform (e : Exec) (n : Nat) (v : K) : NM K FieldObj := do
  let f ← newField e n
  fill f v 0 0
  return f

/-- Copy constructors (field.hpp:122-130). -/
def copyField (e : Exec) (f : FieldObj) : NM K FieldObj := newFieldFrom e f.ptr f.size

/-- `resize` (field.hpp:308-328): returns the resized field. -/
def resize (f : FieldObj) (n : Nat) : NM K FieldObj :=
  if f.size = 0 then do
    let p ← alloc n
    return ⟨n, p, f.exec⟩
  else do
    let p ← realloc f.ptr n
    return ⟨n, p, f.exec⟩

/-- `resize` when the sizes differ (field.hpp:220-223). -/
def matchSize (a : FieldObj) (n : Nat) : NM K FieldObj := if a.size ≠ n then resize a n else pure a

/-- `operator=(const Field&)` (field.hpp:217-225); returns the assigned field. `a = a` is the case
`b = a`. -/
def assign [Inhabited K] (a b : FieldObj) : NM K FieldObj :=
  if a.exec ≠ b.exec then NM.lift .abort
  else do
    let a' ← matchSize a b.size
    setField a' b.ptr 0 0
    return a'

/-- `operator=(const ValueType&)` (field.hpp:209). -/
def assignValue (a : FieldObj) (v : K) : NM K Unit := fill a v 0 0

/-- `operator+(Field lhs, const Field& rhs)`, `operator-` (field.hpp:440-458). -/
def plusOp [Inhabited K] (op : K → K → K) (a b : FieldObj) : NM K FieldObj := do
  let l ← copyField a.exec a
  assignOp op l b
  return l

/-- `operator*(const Field<scalar>&)` (field.hpp:256-263). -/
def timesOp [Inhabited K] (op : K → K → K) (a b : FieldObj) : NM K FieldObj := do
  let r ← newField a.exec a.size
  let r ← assign r a
  fieldBinaryOp op r b
  return r

/-- `operator*(const scalar)` (field.hpp:271-277). -/
def timesScalar [Inhabited K] (mulS : K → K) (a : FieldObj) : NM K FieldObj := do
  let r ← newField a.exec a.size
  let r ← assign r a
  scalarMul mulS r
  return r

/-- `copyToExecutor` (field.hpp:167-175); returning `*this` by value copies. -/
def copyToExecutor (f : FieldObj) (e : Exec) : NM K FieldObj :=
  if e = f.exec then copyField f.exec f
  else do
    let r ← newField e f.size
    deepCopy f.size f.ptr r.ptr
    return r

end NeoFOAM
