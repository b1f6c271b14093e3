import Verif.Spec.Sparsity
import Mathlib.Tactic.IntervalCases
import Mathlib.Data.Rat.Defs
import Mathlib.Algebra.Order.Field.Rat

/-!
# Concrete meshes used to show that hypotheses can be met
-/
namespace NeoFOAM
open Finset

/-- A mesh with given connectivity: unit volumes, unit face areas along x. -/
def topoMesh (n : Nat) (own nbr fc : List Nat) : Mesh ℚ where
  points := []
  cellVolumes := List.replicate n 1
  cellCentres := (List.range n).map fun i => ((i : ℚ), 0, 0)
  faceAreas := List.replicate (own.length + fc.length) (1, 0, 0)
  faceCentres := List.replicate (own.length + fc.length) (0, 0, 0)
  magFaceAreas := List.replicate (own.length + fc.length) 1
  owner := own ++ fc
  neighbour := nbr
  nCells := n
  nInternalFaces := own.length
  nBoundaryFaces := fc.length
  nBoundaries := 1
  nFaces := own.length + fc.length
  bnd := {
    faceCells := fc
    cf := List.replicate fc.length (0, 0, 0)
    cn := List.replicate fc.length (0, 0, 0)
    sf := List.replicate fc.length (1, 0, 0)
    magSf := List.replicate fc.length 1
    nf := List.replicate fc.length (1, 0, 0)
    delta := List.replicate fc.length (1, 0, 0)
    weights := List.replicate fc.length 1
    deltaCoeffs := List.replicate fc.length 1
    offset := [0, fc.length] }

theorem topoMesh_wf (n : Nat) (own nbr fc : List Nat) (hl : own.length = nbr.length)
    (ho : ∀ f < own.length, own.getD f 0 < n) (hn : ∀ f < own.length, nbr.getD f 0 < n)
    (hf : ∀ b < fc.length, fc.getD b 0 < n) (hne : ∀ f < own.length, own.getD f 0 ≠ nbr.getD f 0) :
    (topoMesh n own nbr fc).WF := by
  have hb : ∀ b, (own ++ fc).getD (own.length + b) 0 = fc.getD b 0 := by
    intro b; simp [List.getD, List.getElem?_append_right]
  have ha : ∀ f < own.length, (own ++ fc).getD f 0 = own.getD f 0 := by
    intro f hf; simp [List.getD, List.getElem?_append_left hf]
  constructor
  case own_lt =>
    intro f hf'
    simp only [topoMesh] at hf'
    by_cases h : f < own.length
    · simp only [Mesh.own, topoMesh]; rw [ha f h]; exact ho f h
    · obtain ⟨b, rfl⟩ := Nat.exists_eq_add_of_le (Nat.le_of_not_lt h)
      simp only [Mesh.own, topoMesh]; rw [hb]; exact hf b (by omega)
  case nbr_lt => exact hn
  case fc_lt => exact hf
  case ne =>
    intro f hf'
    have : f < own.length := hf'
    simp only [Mesh.own, Mesh.nbr, topoMesh]; rw [ha f this]; exact hne f this
  case bown => intro b _; simp only [Mesh.own, Mesh.fc, topoMesh]; exact hb b
  all_goals simp [topoMesh, hl]

/-- Three cells in a row, with two boundary faces. -/
def row3 : Mesh ℚ := topoMesh 3 [0, 1] [1, 2] [0, 2]
theorem row3_wf : row3.WF := topoMesh_wf 3 [0, 1] [1, 2] [0, 2] rfl (by decide) (by decide) (by decide)
  (by decide)

/-- One cell with `k` neighbours. -/
def star (k : Nat) : Mesh ℚ := topoMesh (k + 1) (List.replicate k 0) ((List.range k).map (· + 1)) []
theorem star_wf (k : Nat) : (star k).WF := by
  refine topoMesh_wf _ _ _ _ (by simp) ?_ ?_ (by simp) ?_
  · intro f hf; simp at hf; simp [List.getD, hf]
  · intro f hf; simp at hf; simp [List.getD, List.getElem?_range hf]; omega
  · intro f hf; simp at hf; simp [List.getD, hf, List.getElem?_range hf]

theorem star_deg (k : Nat) : (star k).deg 0 = k := by
  unfold Mesh.deg
  have hi : (star k).nInternalFaces = k := by simp [star, topoMesh]
  rw [hi]
  have e1 : (range k).filter ((star k).own · = 0) = range k := by
    rw [filter_eq_self]
    intro f hf
    have hf := mem_range.1 hf
    simp [star, topoMesh, Mesh.own, List.getD, hf]
  have e2 : (range k).filter ((star k).nbr · = 0) = ∅ := by
    rw [filter_eq_empty_iff]
    intro f hf
    have hf := mem_range.1 hf
    simp [star, topoMesh, Mesh.nbr, List.getD, List.getElem?_range hf]
  rw [e1, e2]; simp

end NeoFOAM
