import Verif.Spec.Assembly

/-!
# Specification: lost updates at the boundary

The loops over boundary faces add to the rows of the cells without atomics. `m.Lost L` describes what can go missing.
-/
namespace NeoFOAM
open Finset
variable {K : Type}

/-- A set of boundary faces that does not contain all the boundary faces of any cell. -/
def Mesh.Lost (m : Mesh K) (L : Finset Nat) : Prop :=
  (∀ b ∈ L, b < m.nBoundaryFaces) ∧ ∀ b < m.nBoundaryFaces, ∃ b' < m.nBoundaryFaces, m.fc b' = m.fc b ∧ b' ∉ L

/-- Sum of `d` over those faces of `L` that belong to cell `c`. -/
def Mesh.sumAt [AddCommMonoid K] (m : Mesh K) (L : Finset Nat) (c : Nat) (d : Nat → K) : K := ∑ b ∈ L with m.fc b = c, d b

end NeoFOAM
