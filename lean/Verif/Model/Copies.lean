import Verif.Model.Field
import Verif.Model.LinearSystem

/-!
# Copies between executors, conversion of index types, comparison

Fields are given by their executor and their elements; that `Field::copyToExecutor` itself preserves the elements is proved on
the memory level in `Props/C09_Fields.lean`.
-/
namespace NeoFOAM

/-- A `Field`: executor and elements (fields/field.hpp:419-421). -/
structure Arr (α : Type u) where
  exec : Exec
  data : List α
  deriving DecidableEq

/-- `Field::copyToExecutor(dst)` and `Field(exec, in)` (fields/field.hpp:167-175, 115-119). -/
def Arr.copyTo {α : Type u} (f : Arr α) (dst : Exec) : Arr α := if dst = f.exec then f else ⟨dst, f.data⟩

/-- `Field::copyToHost()` (fields/field.hpp:181). -/
def Arr.copyToHost {α : Type u} (f : Arr α) : Arr α := f.copyTo .serial

/-- `CSRMatrix` with its executors (linearAlgebra/CSRMatrix.hpp:217-219). -/
structure CsrOn (K : Type) where
  values : Arr K
  colIdxs : Arr Nat
  rowOffs : Arr Nat

/-- The constructor (CSRMatrix.hpp:95-104): `NF_ASSERT` stops the program. -/
def CsrOn.create {K : Type} (values : Arr K) (colIdxs rowOffs : Arr Nat) : Res (CsrOn K) :=
  if values.exec ≠ colIdxs.exec then .abort else if values.exec ≠ rowOffs.exec then .abort else .ok ⟨values, colIdxs, rowOffs⟩

/-- `CSRMatrix::exec` (CSRMatrix.hpp:117). -/
def CsrOn.exec {K : Type} (A : CsrOn K) : Exec := A.values.exec

/-- The matrix without executors (CSRMatrix.hpp:217-219). -/
def CsrOn.content {K : Type} (A : CsrOn K) : CSR K := ⟨A.values.data, A.colIdxs.data, A.rowOffs.data⟩

/-- `CSRMatrix::copyToExecutor(dst)` (CSRMatrix.hpp:176-186). -/
def CsrOn.copyToExecutor {K : Type} (A : CsrOn K) (dst : Exec) : Res (CsrOn K) :=
  if dst = A.exec then .ok A
  else CsrOn.create A.values.copyToHost A.colIdxs.copyToHost A.rowOffs.copyToHost

/-- `CSRMatrix::copyToHost()` (CSRMatrix.hpp:192-195). -/
def CsrOn.copyToHost {K : Type} (A : CsrOn K) : Res (CsrOn K) := A.copyToExecutor .serial

/-- `LinearSystem` with its executors (linearAlgebra/linearSystem.hpp:97-98). -/
structure SysOn (K : Type) where
  matrix : CsrOn K
  rhs : Arr K

/-- The constructor (linearSystem.hpp:47-52). -/
def SysOn.create {K : Type} (A : CsrOn K) (b : Arr K) : Res (SysOn K) :=
  if A.exec ≠ b.exec then .abort else if A.content.nRows ≠ b.data.length then .abort else .ok ⟨A, b⟩

/-- `LinearSystem::copyToHost()` (linearSystem.hpp:68-71). -/
def SysOn.copyToHost {K : Type} (s : SysOn K) : Res (SysOn K) := do
  let A ← s.matrix.copyToHost
  SysOn.create A s.rhs.copyToHost

/-- `BoundaryFields` (fields/boundaryFields.hpp:138-150). -/
structure BFieldsOn (T S : Type) where
  exec : Exec
  value : Arr T
  refValue : Arr T
  valueFraction : Arr S
  refGrad : Arr T
  boundaryTypes : Arr Int
  offset : Arr Nat
  nBoundaries : Nat
  nBoundaryFaces : Nat

/-- `BoundaryFields(exec, rhs)` (boundaryFields.hpp:52-58). -/
def BFieldsOn.copyOn {T S : Type} (e : Exec) (b : BFieldsOn T S) : BFieldsOn T S :=
  ⟨b.exec, b.value.copyTo e, b.refValue.copyTo e, b.valueFraction.copyTo e, b.refGrad.copyTo e, b.boundaryTypes.copyTo e,
    b.offset.copyTo e, b.nBoundaries, b.nBoundaryFaces⟩

/-- `BoundaryFields(exec, offsets)` (boundaryFields.hpp:61-67): `back()` of an empty vector is undefined; `g…` is what fresh
memory holds. -/
def BFieldsOn.new {T S : Type} (e : Exec) (offsets : List Nat) (gv gr gg : Nat → T) (gf : Nat → S) (gt : Nat → Int) : Res (BFieldsOn T S) :=
  match offsets.getLast? with
  | none => .ub
  | some n => .ok ⟨e, ⟨e, (List.range n).map gv⟩, ⟨e, (List.range n).map gr⟩, ⟨e, (List.range n).map gf⟩, ⟨e, (List.range n).map gg⟩,
      ⟨e, (List.range (offsets.length - 1)).map gt⟩, ⟨e, offsets⟩, offsets.length - 1, n⟩

/-- Conversion `uint32_t` → `int` (C++20: modulo 2^32, into the range of `int`), as `IndexTypeOut(in.colIdxs[i])`
(CSRMatrix.hpp:235). -/
def u32ToInt (n : Nat) : Int := if n % 2 ^ 32 < 2 ^ 31 then (n % 2 ^ 32 : Nat) else (n % 2 ^ 32 : Nat) - 2 ^ 32

/-- A matrix with `int` indices (the type `convert` returns, CSRMatrix.hpp:227). -/
structure CsrInt (K : Type) where
  values : List K
  colIdxs : List Int
  rowOffs : List Int

/-- `convert<ValueType, localIdx, ValueType, int>(exec, in)` (CSRMatrix.hpp:226-245): two fresh fields (holding `gc`, `gr`) and a
copy of the values, each overwritten by a loop. -/
def csrConvert {K : Type} (e : ExecKind) (gc gr : Nat → Int) (A : CSR K) : NR (CsrInt K) := do
  let col ← elemKernel e 0 A.colIdxs.length (fun i => do
    let c ← rd A.colIdxs i
    return fun _ => u32ToInt c) ((List.range A.colIdxs.length).map gc)
  let row ← elemKernel e 0 A.rowOffs.length (fun i => do
    let c ← rd A.rowOffs i
    return fun _ => u32ToInt c) ((List.range A.rowOffs.length).map gr)
  let val ← elemKernel e 0 A.values.length (fun i => do
    let v ← rd A.values i
    return fun _ => v) A.values
  return ⟨val, col, row⟩

/-- The comparison loop (fields/fieldFreeFunctions.hpp:159-165, 180-186): `n` elements left, now at `i`. -/
def equalLoop {α : Type} [BEq α] (a : List α) (b : Nat → Res α) : Nat → Nat → Res Bool
  | 0, _ => .ok true
  | n + 1, i => do
    let x ← rd a i
    let y ← b i
    if x != y then .ok false else equalLoop a b n (i + 1)

/-- `equal(field, value)` (fieldFreeFunctions.hpp:155-167). -/
def equalValue {α : Type} [BEq α] (f : Arr α) (v : α) : Res Bool :=
  let h := f.copyToHost
  equalLoop h.data (fun _ => .ok v) h.data.length 0

/-- `equal(field, field2)` (fieldFreeFunctions.hpp:169-189). -/
def equalField {α : Type} [BEq α] (f g : Arr α) : Res Bool :=
  let h := f.copyToHost
  let h2 := g.copyToHost
  if h.data.length ≠ h2.data.length then .ok false else equalLoop h.data (fun i => rd h2.data i) h.data.length 0

end NeoFOAM
