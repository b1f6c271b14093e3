import Verif.Spec.ExplicitDiff
import Verif.Spec.SteadyDiff

/-!
# Specification: the same boundary conditions for explicit and implicit transport with diffusion
-/
namespace NeoFOAM
variable {K : Type} [Field K] [LinearOrder K]

/-- On every boundary face the conditions `bcs`, which explicit steps apply, and the boundary data of `φ`, which implicit equations are assembled with, both say: zero gradient, or,
where the flow does not leave, a fixed value within the bounds. -/
def FlowBC (m : Mesh K) (flux : Nat → K) (bcs : List (VolumeBoundary K)) (lo hi : K) (φ : VolField K K) : Prop :=
  ∀ b < m.nBoundaryFaces,
    (∃ k, Decides bcs b k ∧ k.ZeroGradient ∧ Prescribes m φ b (.fixedGradient 0) (φ.entry b)) ∨
    (flux (m.nInternalFaces + b) ≤ 0 ∧ ∃ v, lo ≤ v ∧ v ≤ hi ∧ Decides bcs b (.fixedValue v) ∧ Prescribes m φ b (.fixedValue v) (φ.entry b))

end NeoFOAM
