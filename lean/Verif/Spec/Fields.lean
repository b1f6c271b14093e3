import Verif.Spec.Mesh
import Verif.Model.Interp

/-!
# Specification: fields on a mesh and their face values
-/
namespace NeoFOAM
open Finset
variable {K V : Type}

/-- A volume field of the mesh: one value per cell, one entry of each boundary list per boundary face. -/
structure VolField.On (φ : VolField K V) (m : Mesh K) : Prop where
  int : φ.internal.length = m.nCells
  val : φ.bValue.length = m.nBoundaryFaces
  ref : φ.bRefValue.length = m.nBoundaryFaces
  vf : φ.bVF.length = m.nBoundaryFaces
  grad : φ.bRefGrad.length = m.nBoundaryFaces

/-- Value in a cell. -/
def VolField.cell [Zero V] (φ : VolField K V) (c : Nat) : V := φ.internal.getD c 0
/-- Value at a boundary face. -/
def VolField.bnd [Zero V] (φ : VolField K V) (b : Nat) : V := φ.bValue.getD b 0

section
variable [Sub K] [One K] [Zero K] [Add V] [Sub V] [Zero V] [SMul K V]

/-- Linear interpolation at face `f` (faces after the internal ones are boundary faces). -/
def Mesh.linearFace (m : Mesh K) (w : Nat → K) (φ : VolField K V) (f : Nat) : V :=
  if f < m.nInternalFaces then w f • φ.cell (m.own f) + (1 - w f) • φ.cell (m.nbr f)
  else w f • φ.bnd (f - m.nInternalFaces)

/-- Upwind value at face `f`: the cell the flux comes from. -/
def Mesh.upwindFace [LinearOrder K] (m : Mesh K) (w flux : Nat → K) (φ : VolField K V) (f : Nat) : V :=
  if f < m.nInternalFaces then (if 0 ≤ flux f then φ.cell (m.own f) else φ.cell (m.nbr f))
  else w f • φ.bnd (f - m.nInternalFaces)

/-- Face value of a scheme. -/
def Mesh.schemeFace [LinearOrder K] (s : InterpScheme) (m : Mesh K) (w flux : Nat → K) (φ : VolField K V)
    (f : Nat) : V :=
  match s with
  | .linear => m.linearFace w φ f
  | .upwind => m.upwindFace w flux φ f

/-- Face-normal gradient at face `f`. -/
def Mesh.fnGrad (m : Mesh K) (δ : Nat → K) (φ : VolField K V) (f : Nat) : V :=
  if f < m.nInternalFaces then δ f • (φ.cell (m.nbr f) - φ.cell (m.own f))
  else δ f • (φ.bnd (f - m.nInternalFaces) - φ.cell (m.fc (f - m.nInternalFaces)))
end

/-- A coefficient that can be read in each of `n` cells, with the values `v`. -/
def Coeff.On [Mul K] (s : Coeff K) (n : Nat) (v : Nat → K) : Prop := ∀ c < n, s.get c = .ok (v c)

/-- The list as a function, zero outside. -/
def ix [Zero V] (l : List V) : Nat → V := fun i => l.getD i 0

end NeoFOAM
