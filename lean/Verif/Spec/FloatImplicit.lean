import Verif.Spec.FloatSystem
import Verif.Spec.FloatTransport
import Verif.Spec.ConvDiff

/-!
# Specification: implicit transport with diffusion in floating point
-/
namespace NeoFOAM
variable {F K : Type} [Field K] [LinearOrder K]

/-- The system with the exact values of its numbers. -/
def LinearSystem.exact (val : F → K) (ls : LinearSystem F) : LinearSystem K :=
  ⟨⟨ls.matrix.values.map val, ls.matrix.colIdxs, ls.matrix.rowOffs⟩, ls.rhs.map val⟩

/-- A linear solver in floating point: whenever it returns, the values it returns satisfy the equation of each row `c` of the system it was given up
to `τ c` (all in exact arithmetic). Nothing is said about when it returns. -/
def SolvesWithin (val : F → K) (τ : Nat → K) (m : Mesh F) (solver : LinSolver F) : Prop :=
  ∀ ls x y, (∃ sp : SparsityPattern, sp.For m ∧ ls.On sp m) → x.length = m.nCells → solver ls x (.ok y) →
    y.length = m.nCells ∧ ∀ c < m.nCells, |(ls.exact val).residual (ix (y.map val)) c| ≤ τ c

/-- How strongly a cell is connected: the sizes of the fluxes through its faces and twice the diffusion over them. -/
def Mesh.exchange (m : Mesh K) (flux δ gamma : Nat → K) (c : Nat) : K :=
  m.faceSum (fun f => |flux f| + 2 * |gamma f * δ f * ix m.magFaceAreas f|) c

/-- Diffusion coefficients are not negative; each boundary face has zero gradient, or a value of size at most `M` and, if the flow leaves there, diffusion at
least as strong as the flow. -/
structure TameData (m : Mesh K) (flux δ gamma : Nat → K) (M : K) (φ : VolField K K) : Prop where
  diff : ∀ f < m.nFaces, 0 ≤ gamma f * δ f * ix m.magFaceAreas f
  bnd : ∀ b < m.nBoundaryFaces, ((φ.entry b).fraction = 0 ∧ (φ.entry b).refGrad = 0) ∨ ((φ.entry b).fraction = 1 ∧ |(φ.entry b).refValue| ≤ M ∧
    flux (m.nInternalFaces + b) ≤ gamma (m.nInternalFaces + b) * δ (m.nInternalFaces + b) * ix m.magFaceAreas (m.nInternalFaces + b))

end NeoFOAM
