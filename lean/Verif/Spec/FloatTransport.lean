import Verif.Spec.Transport
import Verif.Spec.Float
import Verif.Spec.Components

/-!
# Specification: explicit transport in floating point

`val` gives the number a floating-point number stands for; `m.exact val`, `φ.exact val` and the lists mapped by `val` are the exact data.
-/
namespace NeoFOAM
variable {F K : Type} [Field K] [LinearOrder K]

/-- The state with the exact values of its numbers. -/
def TimeState.exact (val : F → K) (st : TimeState F F) : TimeState K K := ⟨st.sol.exact val, st.old.map (·.map val)⟩

/-- Courant number at most 1 in every cell. -/
def SmallCourant (m : Mesh K) (flux : Nat → K) (dt : K) : Prop := ∀ c < m.nCells, 1 / 2 * dt * (m.absFlux flux c / m.vol c) ≤ 1

/-- No cell takes in more than it gives by a fraction of more than `η` of its volume during a step; `η = 0` for divergence-free fluxes. -/
def SmallInflow (m : Mesh K) (flux : Nat → K) (dt η : K) : Prop := ∀ c < m.nCells, -η ≤ dt * (m.netOutflow flux c / m.vol c)

end NeoFOAM
