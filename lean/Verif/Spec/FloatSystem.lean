import Verif.Spec.Float
import Verif.Spec.Assembly

/-!
# Specification: linear systems in floating point
-/
namespace NeoFOAM
open Finset
variable {F K : Type} [Field K] [LinearOrder K]

/-- `A`, a system of floating-point numbers, stands for `E`: they have the same structure, the coefficient of each entry `s` is that of `E` up to
`(1 + u)^(n s) - 1` times `S s`, the right hand side of each cell `c` up to `(1 + u)^(k c) - 1` times `T c`; `S` and `T` are at least the sizes of `E`'s numbers. -/
structure SysNear [Zero F] (val : F → K) (u : K) (m : Mesh F) (sp : SparsityPattern) (A : LinearSystem F) (E : LinearSystem K) (n : Slot → Nat) (S : Slot → K)
    (k : Nat → Nat) (T : Nat → K) : Prop where
  onA : A.On sp m
  onE : E.On sp m
  coef : ∀ s : Slot, s.Valid m → |val (A.matrix.val (sp.addr m s)) - E.matrix.val (sp.addr m s)| ≤ ((1 + u) ^ n s - 1) * S s
  size : ∀ s : Slot, s.Valid m → |E.matrix.val (sp.addr m s)| ≤ S s
  rhs : ∀ c < m.nCells, |val (ix A.rhs c) - ix E.rhs c| ≤ ((1 + u) ^ k c - 1) * T c
  rhsSize : ∀ c < m.nCells, |ix E.rhs c| ≤ T c

/-- How often an operator that works on faces rounds when it adds to an entry: once per face of the cell on the diagonal. -/
def Mesh.roundings (m : Mesh F) : Slot → Nat
  | .diag c => m.faceCount c
  | _ => 1

/-- Sizes of the terms the implicit Laplacian adds to the matrix. -/
def lapSize (m : Mesh K) (δ gamma vf s : Nat → K) : Slot → K
  | .diag c => |s c| * m.faceSum (fun f => |gamma f * δ f * ix m.magFaceAreas f| * (if f < m.nInternalFaces then 1 else |vf (f - m.nInternalFaces)|)) c
  | .upper f => |gamma f * δ f * ix m.magFaceAreas f| * |s (m.own f)|
  | .lower f => |gamma f * δ f * ix m.magFaceAreas f| * |s (m.nbr f)|

/-- Sizes of the terms it adds to the right hand side. -/
def lapRhsSize (m : Mesh K) (δ gamma vf ref rg s : Nat → K) (c : Nat) : K :=
  |s c| * ∑ b ∈ range m.nBoundaryFaces, if m.fc b = c then |gamma (m.nInternalFaces + b) * ix m.magFaceAreas (m.nInternalFaces + b)| *
    (|vf b * δ (m.nInternalFaces + b) * ref b| + |(1 - vf b) * rg b|) else 0

/-- Sizes of the terms the implicit divergence adds to the matrix. -/
def divSize (m : Mesh K) (flux vf s : Nat → K) : Slot → K
  | .diag c => |s c| * ((∑ f ∈ range m.nInternalFaces, ((if m.own f = c then (if 0 ≤ flux f then |flux f| else 0) else 0)
      + (if m.nbr f = c then (if 0 ≤ flux f then 0 else |flux f|) else 0)))
      + ∑ b ∈ range m.nBoundaryFaces, if m.fc b = c then |flux (m.nInternalFaces + b)| * |1 - vf b| else 0)
  | .upper f => (if 0 ≤ flux f then 0 else |flux f|) * |s (m.own f)|
  | .lower f => (if 0 ≤ flux f then |flux f| else 0) * |s (m.nbr f)|

/-- Sizes of the terms it adds to the right hand side. -/
def divRhsSize (m : Mesh K) (flux vf ref s : Nat → K) (c : Nat) : K :=
  |s c| * ∑ b ∈ range m.nBoundaryFaces, if m.fc b = c then |flux (m.nInternalFaces + b)| * |vf b * ref b| else 0

/-- Sizes on the diagonal only. -/
def diagSize (d : Nat → K) : Slot → K
  | .diag c => d c
  | _ => 0

end NeoFOAM
