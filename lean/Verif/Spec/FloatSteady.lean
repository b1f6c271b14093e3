import Verif.Spec.FloatImplicit
import Verif.Spec.SteadyDiff

/-!
# Specification: steady transport with diffusion, solved to a tolerance in floating point
-/
namespace NeoFOAM
open Finset
variable {K : Type} [Field K] [LinearOrder K]

/-- The field `x` balances: with the boundary conditions of `φ`, in each cell as much enters as leaves. -/
def Balanced (m : Mesh K) (flux δ gamma : Nat → K) (φ : VolField K K) (x : Nat → K) : Prop :=
  ∀ c < m.nCells, m.netOutflow (φ.outFlux m flux δ gamma x) c = 0

/-- What leaves through face `f` when all prescribed values and gradients are zero. -/
def VolField.outFlux0 (φ : VolField K K) (m : Mesh K) (flux δ gamma : Nat → K) (x : Nat → K) (f : Nat) : K :=
  if f < m.nInternalFaces then
    flux f * (if 0 ≤ flux f then x (m.own f) else x (m.nbr f)) - gamma f * ix m.magFaceAreas f * (δ f * (x (m.nbr f) - x (m.own f)))
  else
    flux f * ((1 - (φ.entry (f - m.nInternalFaces)).fraction) * x (m.fc (f - m.nInternalFaces)))
      + gamma f * ix m.magFaceAreas f * ((φ.entry (f - m.nInternalFaces)).fraction * (δ f * x (m.fc (f - m.nInternalFaces))))

/-- `w` shows how well conditioned the problem is: positive values, at most `W`, for which at least the volume of each cell leaves it when all prescribed
values and gradients are zero. For pure diffusion over a distance `L`, `W` is of the size of `L²` over the diffusivity. -/
structure Barrier (m : Mesh K) (flux δ gamma : Nat → K) (φ : VolField K K) (W : K) (w : Nat → K) : Prop where
  pos : ∀ c < m.nCells, 0 < w c
  le : ∀ c < m.nCells, w c ≤ W
  out : ∀ c < m.nCells, m.vol c ≤ m.netOutflow (φ.outFlux0 m flux δ gamma w) c

end NeoFOAM
