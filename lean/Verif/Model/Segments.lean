import Verif.Model.Reduce
import Verif.Model.LinearSystem
import Verif.Base.Launch
import Mathlib.Data.ZMod.Basic

/-!
# Segmented fields (fields/segmentedField.hpp) with 32-bit offsets

`IndexType` is `localIdx`, an unsigned 32-bit integer: sums and differences of offsets wrap.
-/
namespace NeoFOAM
variable {α : Type}

/-- `SegmentedField` (segmentedField.hpp:210-213): the values of all segments and the offsets, `[start, end)` of segment `i` at `i`,
`i+1`. The common executor is left out. -/
structure SegField (α : Type) where
  values : List α
  segments : List Nat
  deriving DecidableEq, Repr

/-- `SegmentedField(intervals)` (segmentedField.hpp:143-149): the offsets are computed in 32 bits; `junk` is what the new values
field contains. -/
def SegField.ofIntervals (junk : Nat → α) (lengths : List Nat) : NR (SegField α) := do
  let r ← (segmentedField (lengths.map (Nat.cast : ℕ → ZMod (2 ^ 32))) : NR (ZMod (2 ^ 32) × List (ZMod (2 ^ 32))))
  return ⟨(List.range r.1.val).map junk, r.2.map ZMod.val⟩

/-- `SegmentedField(values, segments)` (segmentedField.hpp:157-161): only the executors are compared. -/
def SegField.ofParts (valuesExec segmentsExec : Exec) (values : List α) (segments : List Nat) : Res (SegField α) :=
  if valuesExec = segmentsExec then .ok ⟨values, segments⟩ else .abort

/-- `SegmentedField(exec, size, numSegments)` (segmentedField.hpp:134-136): neither values nor offsets are initialised. -/
def SegField.sized (junk : Nat → α) (junkI : Nat → Nat) (size numSegments : Nat) : SegField α :=
  ⟨(List.range size).map junk, (List.range (numSegments + 1)).map junkI⟩

/-- `size()` (segmentedField.hpp:174). -/
def SegField.size (f : SegField α) : Nat := f.values.length

/-- `numSegments()` (segmentedField.hpp:180): without offsets the unsigned difference wraps. -/
def SegField.numSegments (f : SegField α) : Nat := szSub f.segments.length 1

/-- `SegmentedFieldView::range` (segmentedField.hpp:85-91): start and length. -/
def SegField.range (f : SegField α) (i : Nat) : Res (Nat × Nat) := do
  let a ← rd f.segments i
  let b ← rd f.segments (i + 1)
  return (a, u32Sub b a)

/-- `SegmentedFieldView::span` (segmentedField.hpp:100-104): reading it; a sub-span that does not lie in the values is undefined. -/
def SegField.span (f : SegField α) (i : Nat) : Res (List α) := do
  let (start, length) ← f.range i
  if start + length ≤ f.values.length then .ok ((f.values.drop start).take length) else .ub

/-- `view().span(i)[k] = x` (segmentedField.hpp:100-104, 186-189): the span refers to the values of the field. -/
def SegField.write (f : SegField α) (i k : Nat) (x : α) : Res (SegField α) := do
  let s ← f.span i
  let (start, _) ← f.range i
  if k < s.length then do
    let v ← wr f.values (start + k) x
    return { f with values := v }
  else .ub

/-- A kernel in which the thread of segment `i` stores `g i k` into element `k` of `span(i)`, for all its elements
(the use the view is made for; cf. cellToFaceStencil.cpp:52-81, segmentedField.hpp:100-104). -/
def SegField.fillBody (f : SegField α) (g : Nat → Nat → α) (i : Nat) : Res (List (Act Unit α)) := do
  let s ← f.span i
  let (start, _) ← f.range i
  return (List.range s.length).map fun k => Act.write () (start + k) (g i k)

/-- The launch of that kernel over all segments (parallelAlgorithms.hpp:30-60). -/
def SegField.fillAll (e : ExecKind) (f : SegField α) (g : Nat → Nat → α) : NR (SegField α) := do
  let v ← launch1 e 0 f.numSegments (f.fillBody g) f.values
  return { f with values := v }

end NeoFOAM
