import Verif.Base.Kernel
import Verif.Model.Field
import Mathlib.Algebra.Group.Prod
import Mathlib.Algebra.Order.Field.Basic
import Mathlib.Algebra.Module.Prod

/-!
# Unstructured mesh and its boundary
-/
namespace NeoFOAM

/-- `Vector` (core/primitives/vector.hpp:22): three components. -/
abbrev Vec (K : Type) := K × K × K

/-- `BoundaryMesh` (mesh/unstructured/boundaryMesh.hpp:215-276). Labels are natural numbers. -/
structure BoundaryMesh (K : Type) where
  faceCells : List Nat
  cf : List (Vec K)
  cn : List (Vec K)
  sf : List (Vec K)
  magSf : List K
  nf : List (Vec K)
  delta : List (Vec K)
  weights : List K
  deltaCoeffs : List K
  offset : List Nat

/-- `UnstructuredMesh` (mesh/unstructured/unstructuredMesh.hpp:200-285). -/
structure Mesh (K : Type) where
  points : List (Vec K)
  cellVolumes : List K
  cellCentres : List (Vec K)
  faceAreas : List (Vec K)
  faceCentres : List (Vec K)
  magFaceAreas : List K
  owner : List Nat
  neighbour : List Nat
  nCells : Nat
  nInternalFaces : Nat
  nBoundaryFaces : Nat
  nBoundaries : Nat
  nFaces : Nat
  bnd : BoundaryMesh K

/-- `extractSubSpan` (src/mesh/unstructured/boundaryMesh.cpp:29-36): the part of a boundary array that
belongs to patch `i`. Offsets past the end, in the wrong order or outside the array are undefined. -/
def extractSubSpan {α : Type} (field : List α) (offsets : List Nat) (i : Nat) : Res (List α) := do
  let s ← rd offsets i
  let e ← rd offsets (i + 1)
  if s ≤ e ∧ e ≤ field.length then .ok ((field.drop s).take (e - s)) else .ub

/-- `BoundaryFields::range` (fields/boundaryFields.hpp:134-137). -/
def boundaryRange (offsets : List Nat) (patch : Nat) : Res (Nat × Nat) := do
  let s ← rd offsets patch
  let e ← rd offsets (patch + 1)
  return (s, e)

/-- `BoundaryPatchMixin` (boundary/boundaryPatchMixin.hpp:55-58). -/
structure Patch where
  patchID : Nat
  start_ : Nat
  end_ : Nat
  deriving DecidableEq, Repr

/-- Constructor from mesh and patch index (boundaryPatchMixin.hpp:34-37). -/
def Patch.ofOffsets (offsets : List Nat) (patch : Nat) : Res Patch := do
  let s ← rd offsets patch
  let e ← rd offsets (patch + 1)
  return ⟨patch, s, e⟩

/-- `patchStart()` (boundaryPatchMixin.hpp:43). -/
def Patch.patchStart (p : Patch) : Nat := p.start_
/-- `patchEnd()` (boundaryPatchMixin.hpp:45): returns the start. -/
def Patch.patchEnd (p : Patch) : Nat := p.start_
/-- `patchSize()` (boundaryPatchMixin.hpp:47). -/
def Patch.patchSize (p : Patch) : Nat := p.end_ - p.start_
/-- `range()` (boundaryPatchMixin.hpp:51). -/
def Patch.range (p : Patch) : Nat × Nat := (p.start_, p.end_)

/-- A `parallelFor(exec, {start, stop}, …)` whose thread `i` stores `g i old` into element `i` of one
array.
(core/parallelAlgorithms.hpp:26-63) -/
def ParElem {α : Type} (e : ExecKind) (a : List α) (start stop : Nat) (g : Nat → α → α)
    (out : Res (List α)) : Prop :=
  ∃ l, Schedule e ((List.range' start (stop - start)).map
      fun i => Act.plain (A := Unit) i () i (g i)) l ∧
    match runActs Mem.step (⟨fun _ => a, fun _ => none⟩ : Mem Unit α) l with
    | .ok s => out = .ok (s.arr ())
    | .throw x => out = .throw x
    | .abort => out = .abort
    | .ub => out = .ub

/-- As `ParElem` for two arrays that the same thread writes one after the other.
(core/parallelAlgorithms.hpp:26-63) -/
def ParElem2 {α : Type} (e : ExecKind) (a b : List α) (start stop : Nat) (g h : Nat → α)
    (out : Res (List α × List α)) : Prop :=
  ∃ l, Schedule e ((List.range' start (stop - start)).map
      fun i => [Act.write (A := Bool) false i (g i), Act.write true i (h i)]) l ∧
    match runActs Mem.step (⟨fun x => if x then b else a, fun _ => none⟩ : Mem Bool α) l with
    | .ok s => out = .ok (s.arr false, s.arr true)
    | .throw x => out = .throw x
    | .abort => out = .abort
    | .ub => out = .ub

/-- Subtraction of `size_t` values below `2^64` (wraps around).
(used at boundaryPatchMixin.hpp:47) -/
def szSub (a b : Nat) : Nat := if b ≤ a then a - b else 2 ^ 64 - (b - a)

/-- `createSingleCellMesh` (src/mesh/unstructured/unstructuredMesh.cpp:68-110). -/
def createSingleCellMesh (K : Type) [Field K] : Mesh K where
  points := [(0, 0, 0), (0, 1, 0), (1, 1, 0), (1, 0, 0)]
  cellVolumes := [1]
  cellCentres := [(1/2, 1/2, 0)]
  faceAreas := [(-1, 0, 0), (0, 1, 0), (1, 0, 0), (0, -1, 0)]
  faceCentres := [(0, 1/2, 0), (1/2, 1, 0), (1, 1/2, 0), (1/2, 0, 0)]
  magFaceAreas := [1, 1, 1, 1]
  owner := [0, 0, 0, 0]
  neighbour := []
  nCells := 1
  nInternalFaces := 0
  nBoundaryFaces := 4
  nBoundaries := 4
  nFaces := 4
  bnd := {
    faceCells := [0, 0, 0, 0]
    cf := [(0, 1/2, 0), (1/2, 1, 0), (1, 1/2, 0), (1/2, 0, 0)]
    cn := [(-1, 0, 0), (0, 1, 0), (1, 0, 0), (0, -1, 0)]
    sf := [(-1, 0, 0), (0, 1, 0), (1, 0, 0), (0, -1, 0)]
    magSf := [1, 1, 1, 1]
    nf := [(-1, 0, 0), (0, 1, 0), (1, 0, 0), (0, -1, 0)]
    delta := [(-1/2, 0, 0), (0, 1/2, 0), (1/2, 0, 0), (0, -1/2, 0)]
    weights := [1, 1, 1, 1]
    deltaCoeffs := [2, 2, 2, 2]
    offset := [0, 1, 2, 3, 4] }

/-- `create1DUniformMesh(exec, nCells)` (src/mesh/unstructured/unstructuredMesh.cpp:112-219).
`e` is the executor, `mag` the vector norm, `junk` what freshly allocated label memory contains.
Labels are natural numbers (no wrap-around of 32-bit labels). -/
def create1DUniformMesh {K : Type} [Field K] (e : ExecKind) (mag : Vec K → K) (junk : Nat → Nat)
    (nCells : Nat) (out : Res (Mesh K)) : Prop :=
  let left : Vec K := (0, 0, 0)
  let right : Vec K := (1, 0, 0)
  let h : K := (right.1 - left.1) / (nCells : K)
  -- lines 121-124
  match (do let p ← wr (List.replicate (nCells + 1) ((0, 0, 0) : Vec K)) (szSub nCells 1) left
            wr p nCells right) with
  | .ok hostPoints => ∃ pts, ParElem e hostPoints 0 (szSub nCells 1)
        (fun i p => (left.1 + ((i + 1 : Nat) : K) * h, p.2)) pts ∧           -- lines 130-136
    match pts with
    | .ok points => ∃ ctr, ParElem e (List.replicate nCells ((0, 0, 0) : Vec K)) 0 nCells
          (fun i p => (1 / 2 * h + h * (i : K), p.2)) ctr ∧                      -- lines 140-148
      match ctr with
      | .ok centres =>
        match (do let fa ← wr (List.replicate (nCells + 1) ((1, 0, 0) : Vec K)) (szSub nCells 1) (-1, 0, 0)
                  let o ← wr ((List.range (nCells + 1)).map junk) (szSub nCells 1) 0
                  let o ← wr o nCells (nCells - 1)
                  let c0 ← rd centres 0
                  let cn ← rd centres (szSub nCells 1)
                  return (fa, o, c0, cn)) with                               -- lines 151-165, 184-185
        | .ok (fa, o, c0, cn) =>
          ∃ on, ParElem2 e o ((List.range (szSub nCells 1)).map junk) 0 (szSub nCells 1)
              (fun i => i) (fun i => i + 1) on ∧                             -- lines 168-177
          match on with
          | .ok (owner, nbr) =>
            let d0 : Vec K := (left.1 - c0.1, 0, 0)
            let d1 : Vec K := (right.1 - cn.1, 0, 0)
            out = .ok {
              points := points
              cellVolumes := List.replicate nCells h
              cellCentres := centres
              faceAreas := fa
              faceCentres := points
              magFaceAreas := List.replicate (nCells + 1) 1
              owner := owner
              neighbour := nbr
              nCells := nCells
              nInternalFaces := szSub nCells 1
              nBoundaryFaces := 2
              nBoundaries := 2
              nFaces := nCells + 1
              bnd := {
                faceCells := [0, nCells - 1]
                cf := [left, right]
                cn := [c0, cn]
                sf := [(-1, 0, 0), (1, 0, 0)]
                magSf := [1, 1]
                nf := [(-1, 0, 0), (1, 0, 0)]
                delta := [d0, d1]
                weights := [1, 1]
                deltaCoeffs := [1 / mag d0, 1 / mag d1]
                offset := [0, 1, 2] } }
          | .throw x => out = .throw x
          | .abort => out = .abort
          | .ub => out = .ub
        | .throw x => out = .throw x
        | .abort => out = .abort
        | .ub => out = .ub
      | .throw x => out = .throw x
      | .abort => out = .abort
      | .ub => out = .ub
    | .throw x => out = .throw x
    | .abort => out = .abort
    | .ub => out = .ub
  | .throw x => out = .throw x
  | .abort => out = .abort
  | .ub => out = .ub

end NeoFOAM
