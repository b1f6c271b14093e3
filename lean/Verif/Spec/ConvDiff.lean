import Verif.Spec.Transport

/-!
# Specification: implicit transport with diffusion, `ddt(u) + div(flux, u) - laplacian(gamma, u) = 0`
-/
namespace NeoFOAM
open Finset
section
variable {K : Type} [Add K] [Sub K] [Mul K] [Div K] [Neg K] [Zero K] [One K] [LinearOrder K]

/-- The three operators a user creates: `imp::ddt(u)`, `imp::div(flux, u)` and `imp::laplacian(gamma, u)`, with the default coefficient. -/
def convDiffOps (e : ExecKind) (m : Mesh K) (sp : SparsityPattern) (sch : InterpScheme) (w : List K) (junk : Nat → K)
    (flux δ gamma : List K) : OpsOf K K := fun st =>
  [ddtOp e m sp st.sol st.oldTime .implicit Coeff.default,
   divOp e m sp (some sch) w junk flux st.sol .implicit Coeff.default,
   laplacianOp e m sp true δ junk gamma st.sol .implicit Coeff.default]

/-- The expression a user writes: `ddt(u) + div(flux, u) - laplacian(gamma, u)`. -/
def convDiffTree : ExT K := .subEO (.addOO (.var .temporal 0) (.var .spatial 1)) (.var .spatial 2) rfl

end

variable {K : Type} [Field K] [LinearOrder K]

/-- What leaves through face `f` when the cells have the values `x`: transported with the upwind value (on a boundary face the mix of
reference value and cell value by the value fraction) minus diffused down the face-normal gradient. -/
def VolField.outFlux (φ : VolField K K) (m : Mesh K) (flux δ gamma : Nat → K) (x : Nat → K) (f : Nat) : K :=
  if f < m.nInternalFaces then
    flux f * (if 0 ≤ flux f then x (m.own f) else x (m.nbr f)) - gamma f * ix m.magFaceAreas f * (δ f * (x (m.nbr f) - x (m.own f)))
  else
    let b := φ.entry (f - m.nInternalFaces)
    let y := x (m.fc (f - m.nInternalFaces))
    flux f * (b.fraction * b.refValue + (1 - b.fraction) * y)
      - gamma f * ix m.magFaceAreas f * (b.fraction * (δ f * (b.refValue - y)) + (1 - b.fraction) * b.refGrad)

/-- One implicit Euler step: in every cell, volume times change over `dt` plus what leaves through its faces, at the new values, is zero;
the boundary data is kept. -/
structure ImplicitStep (m : Mesh K) (flux δ gamma : Nat → K) (dt : K) (φ φ' : VolField K K) : Prop where
  on : φ'.On m
  bnd : ∀ b, φ'.entry b = φ.entry b
  cells : ∀ c < m.nCells, m.vol c * (φ'.cell c - φ.cell c) / dt + m.netOutflow (φ.outFlux m flux δ gamma φ'.cell) c = 0

/-- Conditions at the boundary for which the implicit equations have bounded solutions: zero gradient, or a value within the bounds
where the flow enters or where diffusion over the boundary face is at least as strong as the outflow. -/
def ImplicitBC (m : Mesh K) (flux δ gamma : Nat → K) (lo hi : K) (φ : VolField K K) : Prop :=
  ∀ b < m.nBoundaryFaces, ∃ k, Prescribes m φ b k (φ.entry b) ∧ (k = .fixedGradient 0 ∨
    ∃ v, k = .fixedValue v ∧ lo ≤ v ∧ v ≤ hi ∧
      flux (m.nInternalFaces + b) ≤ gamma (m.nInternalFaces + b) * δ (m.nInternalFaces + b) * ix m.magFaceAreas (m.nInternalFaces + b))

end NeoFOAM
