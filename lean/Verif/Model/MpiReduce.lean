import Verif.Base.NR
import Verif.Model.Mesh
import Mathlib.Algebra.Order.Field.Basic

/-!
# Collective reductions (core/mpi/operators.hpp:23-158, core/mpi/environment.hpp:53-108)
-/
namespace NeoFOAM

/-- `ReduceOp` (operators.hpp:24-36). -/
inductive ReduceOp where
  | max | min | sum | prod | land | band | lor | bor | maxloc | minloc
  deriving DecidableEq

/-- The predefined reduction operations of MPI that `getOp` can return. -/
inductive ReduceFn where
  | MAX | MIN | SUM | PROD | LAND | BAND | LOR | BOR | MAXLOC | MINLOC
  deriving DecidableEq

/-- `getOp(op)` (operators.hpp:44-72). -/
def getOp : ReduceOp → ReduceFn
  | .max => .MAX
  | .min => .MIN
  | .sum => .SUM
  | .prod => .PROD
  | .land => .LAND
  | .band => .BAND
  | .lor => .LOR
  | .bor => .BOR
  | .maxloc => .MAXLOC
  | .minloc => .MINLOC

/-- C++ types a caller may reduce; `other` is any type not listed in `getType`. -/
inductive CxxType where
  | char | wchar | short | int | long | longLong | ushort | uint | ulong | ulongLong
  | float | double | longDouble | bool | cfloat | cdouble | clongDouble | other
  deriving DecidableEq

/-- The MPI datatypes `getType` can return. -/
inductive MpiType where
  | CHAR | WCHAR | SHORT | INT | LONG | LONG_LONG | UNSIGNED_SHORT | UNSIGNED | UNSIGNED_LONG | UNSIGNED_LONG_LONG
  | FLOAT | DOUBLE | LONG_DOUBLE | CXX_BOOL | CXX_FLOAT_COMPLEX | CXX_DOUBLE_COMPLEX | CXX_LONG_DOUBLE_COMPLEX
  deriving DecidableEq

/-- `getType<valueType>()` (operators.hpp:80-117): a type that is not listed stops the program. -/
def getType : CxxType → Res MpiType
  | .char => .ok .CHAR
  | .wchar => .ok .WCHAR
  | .short => .ok .SHORT
  | .int => .ok .INT
  | .long => .ok .LONG
  | .longLong => .ok .LONG_LONG
  | .ushort => .ok .UNSIGNED_SHORT
  | .uint => .ok .UNSIGNED
  | .ulong => .ok .UNSIGNED_LONG
  | .ulongLong => .ok .UNSIGNED_LONG_LONG
  | .float => .ok .FLOAT
  | .double => .ok .DOUBLE
  | .longDouble => .ok .LONG_DOUBLE
  | .bool => .ok .CXX_BOOL
  | .cfloat => .ok .CXX_FLOAT_COMPLEX
  | .cdouble => .ok .CXX_DOUBLE_COMPLEX
  | .clongDouble => .ok .CXX_LONG_DOUBLE_COMPLEX
  | .other => .abort

/-- How a C++ type stores values (LP64, for operators.hpp:80-117). -/
inductive Repr where
  | chr (w : Nat)
  | int (signed : Bool) (w : Nat)
  | flt (w : Nat)
  | bool
  | cplx (w : Nat)
  deriving DecidableEq

/-- The representation of the C++ types (Linux, 64 bit); characters are only stored and moved. -/
def CxxType.repr : CxxType → Repr
  | .char => .chr 8
  | .wchar => .chr 32
  | .short => .int true 16
  | .int => .int true 32
  | .long | .longLong => .int true 64
  | .ushort => .int false 16
  | .uint => .int false 32
  | .ulong | .ulongLong => .int false 64
  | .float => .flt 32
  | .double => .flt 64
  | .longDouble => .flt 128
  | .bool => .bool
  | .cfloat => .cplx 32
  | .cdouble => .cplx 64
  | .clongDouble => .cplx 128
  | .other => .chr 8

/-- The representation MPI takes a buffer of a datatype to have (MPI standard, predefined datatypes; LP64). -/
def MpiType.repr : MpiType → Repr
  | .CHAR => .chr 8
  | .WCHAR => .chr 32
  | .SHORT => .int true 16
  | .INT => .int true 32
  | .LONG | .LONG_LONG => .int true 64
  | .UNSIGNED_SHORT => .int false 16
  | .UNSIGNED => .int false 32
  | .UNSIGNED_LONG | .UNSIGNED_LONG_LONG => .int false 64
  | .FLOAT => .flt 32
  | .DOUBLE => .flt 64
  | .LONG_DOUBLE => .flt 128
  | .CXX_BOOL => .bool
  | .CXX_FLOAT_COMPLEX => .cplx 32
  | .CXX_DOUBLE_COMPLEX => .cplx 64
  | .CXX_LONG_DOUBLE_COMPLEX => .cplx 128

/-- Values of a representation; floating-point numbers of any width are taken as elements of a field `K`, complex numbers as pairs. -/
@[reducible] def Repr.Val (K : Type) : Repr → Type
  | .chr w => BitVec w
  | .int _ w => BitVec w
  | .flt _ => K
  | .bool => Bool
  | .cplx _ => K × K

section
variable {K : Type} [Field K] [LinearOrder K]

/-- Floating point: `MAX MIN SUM PROD` (MPI standard, predefined reduction operations, for operators.hpp:130-158; the same below). `none`: MPI reports an error. -/
def floatOp : ReduceFn → Option (K → K → K)
  | .MAX => some fun a b => max a b
  | .MIN => some fun a b => min a b
  | .SUM => some fun a b => a + b
  | .PROD => some fun a b => a * b
  | _ => none

/-- Complex numbers: `SUM PROD` (MPI standard). -/
def complexOp : ReduceFn → Option (K × K → K × K → K × K)
  | .SUM => some fun a b => a + b
  | .PROD => some fun a b => (a.1 * b.1 - a.2 * b.2, a.1 * b.2 + a.2 * b.1)
  | _ => none

/-- C integers: everything but `MAXLOC MINLOC` (MPI standard); sums and products modulo the width. -/
def intOp (signed : Bool) (w : Nat) : ReduceFn → Option (BitVec w → BitVec w → BitVec w)
  | .MAX => some fun a b => if signed then (if a.toInt ≤ b.toInt then b else a) else (if a.toNat ≤ b.toNat then b else a)
  | .MIN => some fun a b => if signed then (if a.toInt ≤ b.toInt then a else b) else (if a.toNat ≤ b.toNat then a else b)
  | .SUM => some fun a b => a + b
  | .PROD => some fun a b => a * b
  | .LAND => some fun a b => if a ≠ 0 ∧ b ≠ 0 then 1 else 0
  | .LOR => some fun a b => if a ≠ 0 ∨ b ≠ 0 then 1 else 0
  | .BAND => some fun a b => a &&& b
  | .BOR => some fun a b => a ||| b
  | _ => none

/-- Logical values: `LAND LOR` (MPI standard). -/
def boolOp : ReduceFn → Option (Bool → Bool → Bool)
  | .LAND => some fun a b => a && b
  | .LOR => some fun a b => a || b
  | _ => none

/-- What a predefined operation does with two values; characters cannot be reduced (MPI standard). -/
def ReduceFn.apply (op : ReduceFn) : (r : Repr) → Option (r.Val K → r.Val K → r.Val K)
  | .flt _ => floatOp op
  | .cplx _ => complexOp op
  | .int s w => intOp s w op
  | .bool => boolOp op
  | .chr _ => none

end

/-- The library combines the values of the ranks pairwise, in any order and grouping (MPI standard: the predefined operations are associative and
commutative and may be applied in any order). -/
inductive Combined {α : Type} (f : α → α → α) : List α → α → Prop where
  | one (a : α) : Combined f [a] a
  | two {l l1 l2 : List α} {a b : α} : l.Perm (l1 ++ l2) → Combined f l1 a → Combined f l2 b → Combined f l (f a b)

section
variable {K : Type} [Field K] [LinearOrder K]

/-- `MPI_Allreduce(MPI_IN_PLACE, &value, 1, type, op, comm)` called by every rank: `vals` are the values of the ranks before, the result those
after, each rank's obtained in its own order. An operation that is not defined for the type stops the program (the default error handler of MPI). -/
def mpiAllreduce (r : Repr) (op : ReduceFn) (vals : List (r.Val K)) : NR (List (r.Val K)) := fun out =>
  match ReduceFn.apply (K := K) op r with
  | none => out = .abort
  | some f => ∃ res : List (r.Val K), out = .ok res ∧ res.length = vals.length ∧ ∀ x ∈ res, Combined f vals x

/-- `allReduce(value, op, comm)` (operators.hpp:129-136), called by every rank. Handing MPI a datatype that does not match the representation of the C++ type is
undefined behaviour. -/
def allReduce (t : CxxType) (op : ReduceOp) (vals : List (t.repr.Val K)) : NR (List (t.repr.Val K)) := do
  let ty ← NR.lift (getType t)
  if ty.repr = t.repr then mpiAllreduce t.repr (getOp op) vals else NR.lift .ub

/-- `Vector::size()` (primitives/vector.hpp). -/
def vectorSize : Nat := 3

/-- `allReduce(Vector&, op, comm)` (operators.hpp:147-158): `vectorSize` scalars starting at the first component. MPI reduces each element of the buffer by
itself. -/
def allReduceVector (op : ReduceOp) (vals : List (Vec K)) : NR (List (Vec K)) := do
  let x ← mpiAllreduce (K := K) (.flt 64) (getOp op) (if 0 < vectorSize then vals.map (·.1) else [])
  let y ← mpiAllreduce (K := K) (.flt 64) (getOp op) (if 1 < vectorSize then vals.map (·.2.1) else [])
  let z ← mpiAllreduce (K := K) (.flt 64) (getOp op) (if 2 < vectorSize then vals.map (·.2.2) else [])
  return (x.zip (y.zip z))

end

/-- `MPIEnvironment(commGroup)` on every rank of a communicator of `size` processes, `none` for the null communicator: rank and size
(environment.hpp:65-70, 78-85, 102-107). -/
def mpiEnvironments (comm : Option Nat) : Res (List (Nat × Nat)) :=
  match comm with
  | none => .abort
  | some size => .ok ((List.range size).map fun r => (r, size))

end NeoFOAM
