import Verif.Spec.ConvDiff

/-!
# Specification: steady transport with diffusion, `div(flux, u) - laplacian(gamma, u) = 0`
-/
namespace NeoFOAM
open Finset
section
variable {K : Type} [Add K] [Sub K] [Mul K] [Div K] [Neg K] [Zero K] [One K] [LinearOrder K]

/-- The two operators a user creates: `imp::div(flux, u)` and `imp::laplacian(gamma, u)`, with the default coefficient. -/
def steadyOps (e : ExecKind) (m : Mesh K) (sp : SparsityPattern) (sch : InterpScheme) (w : List K) (junk : Nat → K)
    (flux δ gamma : List K) : OpsOf K K := fun st =>
  [divOp e m sp (some sch) w junk flux st.sol .implicit Coeff.default,
   laplacianOp e m sp true δ junk gamma st.sol .implicit Coeff.default]

/-- The expression a user writes: `div(flux, u) - laplacian(gamma, u)`. -/
def steadyTree : ExT K := .subOO (.var .spatial 0) (.var .spatial 1)

end

variable {K : Type} [Field K] [LinearOrder K]

/-- A prescribed boundary value reaches the cell: it has a boundary face with a fixed value (not swept away by the outflow), or it has
such a cell as a neighbour across a face with diffusion, or upstream. -/
inductive Fed (m : Mesh K) (flux δ gamma : Nat → K) (φ : VolField K K) : Nat → Prop where
  | boundary (b : Nat) (hb : b < m.nBoundaryFaces) (hfr : (φ.entry b).fraction = 1)
      (hlt : flux (m.nInternalFaces + b) < gamma (m.nInternalFaces + b) * δ (m.nInternalFaces + b) * ix m.magFaceAreas (m.nInternalFaces + b)) :
      Fed m flux δ gamma φ (m.fc b)
  | own (f : Nat) (hf : f < m.nInternalFaces) (hn : Fed m flux δ gamma φ (m.nbr f)) (hlt : 0 < gamma f * δ f * ix m.magFaceAreas f ∨ flux f < 0) :
      Fed m flux δ gamma φ (m.own f)
  | nbr (f : Nat) (hf : f < m.nInternalFaces) (hn : Fed m flux δ gamma φ (m.own f)) (hlt : 0 < gamma f * δ f * ix m.magFaceAreas f ∨ 0 < flux f) :
      Fed m flux δ gamma φ (m.nbr f)

/-- The operator a user creates for steady diffusion alone: `imp::laplacian(gamma, u)`. -/
def diffusionOps (e : ExecKind) (m : Mesh K) (sp : SparsityPattern) (junk : Nat → K) (δ gamma : List K) : OpsOf K K := fun st =>
  [laplacianOp e m sp true δ junk gamma st.sol .implicit Coeff.default]

/-- The expression a user writes: `Expression(laplacian(gamma, u))`. -/
def diffusionTree : ExT K := .one (.var .spatial 0)

end NeoFOAM
