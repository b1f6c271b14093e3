import Verif.Spec.Transport

/-!
# Specification: explicit transport with diffusion, `ddt(u) + div(flux, u) - κ laplacian(u) = 0`
-/
namespace NeoFOAM
open Finset
section
variable {K : Type} [Add K] [Sub K] [Mul K] [Div K] [Neg K] [Zero K] [One K] [LinearOrder K]

/-- The three operators a user creates: `imp::ddt(u)`, `exp::div(flux, u)` and an explicit `LaplacianOperator` of `u`, with the default coefficient. -/
def explicitDiffOps (e : ExecKind) (m : Mesh K) (sp : SparsityPattern) (sch : InterpScheme) (w : List K) (junk : Nat → K) (flux δ gamma : List K) :
    OpsOf K K := fun st =>
  [ddtOp e m sp st.sol st.oldTime .implicit Coeff.default,
   divOp e m sp (some sch) w junk flux st.sol .explicit Coeff.default,
   laplacianOp e m sp true δ junk gamma st.sol .explicit Coeff.default]

/-- The expression a user writes: `ddt(u) + div(flux, u) - κ * laplacian(gamma, u)`. -/
def explicitDiffTree (κ : K) : ExT K := .subEO (.addOO (.var .temporal 0) (.var .spatial 1)) (.smul κ (.var .spatial 2)) rfl

end
variable {K : Type} [Field K] [LinearOrder K]

/-- What leaves through face `f`: transported with the upwind value, minus diffused down the difference of the values on its two sides; on a boundary face the
value of the boundary is used for both. -/
def VolField.outflow (φ : VolField K K) (m : Mesh K) (flux δ : Nat → K) (κ : K) (f : Nat) : K :=
  if f < m.nInternalFaces then
    flux f * (if 0 ≤ flux f then φ.cell (m.own f) else φ.cell (m.nbr f)) - κ * (ix m.magFaceAreas f * (δ f * (φ.cell (m.nbr f) - φ.cell (m.own f))))
  else
    flux f * φ.bnd (f - m.nInternalFaces) - κ * (ix m.magFaceAreas f * (δ f * (φ.bnd (f - m.nInternalFaces) - φ.cell (m.fc (f - m.nInternalFaces)))))

/-- The step is small enough: in every cell, half the sum of the fluxes plus the sum of the diffusive conductances `κ |S| δ` of its faces, times the time step,
is at most the volume. -/
def SmallStep (m : Mesh K) (flux δ : Nat → K) (κ dt : K) : Prop :=
  ∀ c < m.nCells, dt * (1 / 2 * m.absFlux flux c + κ * m.absFlux (fun f => ix m.magFaceAreas f * δ f) c) ≤ m.vol c

/-- Boundary conditions with bounds: zero gradient where the flow leaves the domain, zero gradient or a fixed value within the bounds elsewhere. -/
structure BoundedBC (m : Mesh K) (flux : Nat → K) (bcs : List (VolumeBoundary K)) (lo hi : K) : Prop where
  outflow : ∀ b < m.nBoundaryFaces, 0 < flux (m.nInternalFaces + b) → ∃ k, Decides bcs b k ∧ k.ZeroGradient
  other : ∀ b < m.nBoundaryFaces, ∃ k, Decides bcs b k ∧ (k.ZeroGradient ∨ ∃ v, k = .fixedValue v ∧ lo ≤ v ∧ v ≤ hi)

/-- A field within the bounds in the cells and on the boundary; where the flow leaves, the boundary value is the cell value. -/
structure VolField.Bounded (m : Mesh K) (flux : Nat → K) (lo hi : K) (φ : VolField K K) : Prop where
  cells : ∀ c < m.nCells, lo ≤ φ.cell c ∧ φ.cell c ≤ hi
  bnd : ∀ b < m.nBoundaryFaces, lo ≤ φ.bnd b ∧ φ.bnd b ≤ hi
  outflow : ∀ b < m.nBoundaryFaces, 0 < flux (m.nInternalFaces + b) → φ.bnd b = φ.cell (m.fc b)

end NeoFOAM
