import Verif.Base.Kernel
import Verif.Model.Field

/-!
# Reductions and scans
-/
namespace NeoFOAM

/-- `v` results from joining the values of the list in order, with any bracketing; the neutral value
may be used for empty parts. This is what Kokkos does with partial results of its work items.
(Kokkos, for core/parallelAlgorithms.hpp:107-178) -/
inductive Bracket {K : Type u} (join : K → K → K) (init : K) : List K → K → Prop where
  | empty : Bracket join init [] init
  | leaf (x : K) : Bracket join init [x] x
  | node {l₁ l₂ : List K} {a b : K} : Bracket join init l₁ a → Bracket join init l₂ b →
      Bracket join init (l₁ ++ l₂) (join a b)

/-- `Kokkos::parallel_reduce`: the indices are distributed over work items in any way; each item starts
from the neutral value and applies the kernel to its indices; the partial results are joined in any
bracketing; the result overwrites the output.
(Kokkos, for core/parallelAlgorithms.hpp:107-178) -/
def KokkosReduce {K : Type u} (kernel : Nat → K → K) (join : K → K → K) (init : K)
    (start stop : Nat) (v : K) : Prop :=
  ∃ chunks : List (List Nat), chunks.flatten.Perm (List.range' start (stop - start)) ∧
    Bracket join init (chunks.map fun c => c.foldl (fun acc i => kernel i acc) init) v

/-- `parallelReduce(exec, {start, end}, kernel, value)` (parallelAlgorithms.hpp:107-178): the serial
executor runs the kernel on the variable it is given; the others call Kokkos. -/
def parallelReduce {K : Type u} (e : ExecKind) (kernel : Nat → K → K) (join : K → K → K) (init : K)
    (start stop : Nat) (value v : K) : Prop :=
  match e with
  | .serial => v = (List.range' start (stop - start)).foldl (fun acc i => kernel i acc) value
  | .parallel => KokkosReduce kernel join init start stop v

/-- `SumKernel` (fields/operations/sum.hpp:11-53): `Kokkos::parallel_reduce` on every executor. -/
def sumField {K : Type u} [Add K] [Zero K] (x : List K) (v : K) : Prop :=
  KokkosReduce (fun i acc => match x[i]? with | some y => acc + y | none => acc) (· + ·) 0 0 x.length v

/-- One pass over a work item of the scan kernel in `segmentsFromIntervals`: `update += in[i]`, and the
stores `offs[i] = update` that the final pass makes (segmentedField.hpp:35-41; `offs` is the view from
element 1, so index `i` is element `i + 1` of the field). -/
def scanPass {K : Type u} [Add K] (inp : List K) : List Nat → K → Res (K × List (Act Unit K))
  | [], u => .ok (u, [])
  | i :: c, u => do
    let x ← rd inp i
    let r ← scanPass inp c (u + x)
    return (r.1, Act.write () (i + 1) (u + x) :: r.2)

/-- `Kokkos::parallel_scan` with the kernel above: the range is cut into consecutive work items; a
first pass computes each item's total; the final pass of an item starts from the joined totals of the
items before it; the final passes run concurrently.
(Kokkos, for fields/segmentedField.hpp:23-46) -/
def KokkosScan {K : Type u} [Add K] [Zero K] (inp offs : List K) (n : Nat) (out : Res (K × List K)) :
    Prop :=
  ∃ chunks : List (List Nat), chunks.flatten = List.range n ∧
    match chunks.mapM (fun c => scanPass inp c 0) with
    | .ok first => ∃ bases : List K, bases.length = chunks.length ∧
        (∀ k b, bases[k]? = some b → Bracket (· + ·) 0 ((first.map Prod.fst).take k) b) ∧
        ∃ total, Bracket (· + ·) 0 (first.map Prod.fst) total ∧
        match (chunks.zip bases).mapM (fun p => scanPass inp p.1 p.2) with
        | .ok fin => ∃ l, Interleave (fin.map Prod.snd) l ∧
            match runActs Mem.step (⟨fun _ => offs, fun _ => none⟩ : Mem Unit K) l with
            | .ok s => out = .ok (total, s.arr ())
            | _ => out = .ub
        | _ => out = .ub
    | _ => out = .ub

/-- `segmentsFromIntervals(intervals, offsets)` (segmentedField.hpp:23-46): returns the total and the
new contents of `offsets`. -/
def segmentsFromIntervals {K : Type u} [Add K] [Zero K] (inp offs : List K)
    (out : Res (K × List K)) : Prop :=
  if offs.length = 0 then out = .ub           -- subspan(1) of an empty view
  else if inp.length ≠ offs.length - 1 then out = .abort
  else KokkosScan inp offs (offs.length - 1) out

/-- `SegmentedField(intervals)` (segmentedField.hpp:143-149): offsets and number of values. -/
def segmentedField {K : Type u} [Add K] [Zero K] (inp : List K) (out : Res (K × List K)) : Prop :=
  segmentsFromIntervals inp (List.replicate (inp.length + 1) 0) out

/-- `SegmentedFieldView::bounds` (segmentedField.hpp:73-77). -/
def segBounds {K : Type u} (segs : List K) (i : Nat) : Res (K × K) := do
  let a ← rd segs i
  let b ← rd segs (i + 1)
  return (a, b)

end NeoFOAM
