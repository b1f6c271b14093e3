import Verif.Spec.Solve
import Verif.Spec.Geometry

/-!
# Specification: explicit transport `ddt(u) + div(flux, u) = 0`
-/
namespace NeoFOAM
open Finset
variable {K : Type}

section
variable [Add K] [Sub K] [Mul K] [Div K] [Neg K] [Zero K] [One K] [LinearOrder K]

/-- The two operators a user creates: `imp::ddt(u)` and `exp::div(flux, u)`, both with the default coefficient. -/
def transportOps (e : ExecKind) (m : Mesh K) (sp : SparsityPattern) (sch : InterpScheme) (w : List K) (junk : Nat → K) (flux : List K) :
    OpsOf K K := fun st =>
  [ddtOp e m sp st.sol st.oldTime .implicit Coeff.default,
   divOp e m sp (some sch) w junk flux st.sol .explicit Coeff.default]

/-- The expression a user writes: `ddt(u) + div(flux, u)`. -/
def transportTree : ExT K := .addOO (.var .temporal 0) (.var .spatial 1)

end

variable [Field K] [LinearOrder K]

/-- `volume · u` summed over the cells. -/
def VolField.total (m : Mesh K) (φ : VolField K K) : K := ∑ c ∈ range m.nCells, m.vol c * φ.cell c

/-- What leaves through the boundary per unit of time. -/
def VolField.boundaryFlux (m : Mesh K) (flux : Nat → K) (φ : VolField K K) : K :=
  ∑ b ∈ range m.nBoundaryFaces, flux (m.nInternalFaces + b) * φ.bnd b

/-- The condition that decides the data of boundary face `b`: the last one storing into its patch. -/
def Decides {V : Type} (bcs : List (VolumeBoundary V)) (b : Nat) (k : VolBCKind V) : Prop :=
  ∃ pre c post, bcs = pre ++ c :: post ∧ c.kind = k ∧ k.Writes ∧ c.patch.Has b ∧ ∀ c' ∈ post, c'.kind.Writes → ¬ c'.patch.Has b

/-- Copies the adjacent cell value to the boundary. -/
def VolBCKind.ZeroGradient : VolBCKind K → Prop
  | .extrapolated => True
  | .fixedGradient g => g = 0
  | _ => False

/-- Nothing accumulates in any cell. -/
def Mesh.DivergenceFree (m : Mesh K) (flux : Nat → K) : Prop := ∀ c < m.nCells, m.netOutflow flux c = 0

/-- Suitable boundary conditions for transport by `flux` with bounds `lo` and `hi`: zero gradient where the flow leaves the
domain, and zero gradient or a fixed value within the bounds where it enters. -/
structure TransportBC (m : Mesh K) (flux : Nat → K) (bcs : List (VolumeBoundary K)) (lo hi : K) : Prop where
  outflow : ∀ b < m.nBoundaryFaces, 0 < flux (m.nInternalFaces + b) → ∃ k, Decides bcs b k ∧ k.ZeroGradient
  inflow : ∀ b < m.nBoundaryFaces, flux (m.nInternalFaces + b) < 0 →
    ∃ k, Decides bcs b k ∧ (k.ZeroGradient ∨ ∃ v, k = .fixedValue v ∧ lo ≤ v ∧ v ≤ hi)

/-- A field within the bounds: in the cells and where the flow enters; where it leaves, the boundary value is the cell value. -/
structure VolField.Within (m : Mesh K) (flux : Nat → K) (lo hi : K) (φ : VolField K K) : Prop where
  cells : ∀ c < m.nCells, lo ≤ φ.cell c ∧ φ.cell c ≤ hi
  inflow : ∀ b < m.nBoundaryFaces, flux (m.nInternalFaces + b) < 0 → lo ≤ φ.bnd b ∧ φ.bnd b ≤ hi
  outflow : ∀ b < m.nBoundaryFaces, 0 < flux (m.nInternalFaces + b) → φ.bnd b = φ.cell (m.fc b)

end NeoFOAM
