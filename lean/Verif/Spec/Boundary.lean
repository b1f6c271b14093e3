import Verif.Spec.Fields
import Verif.Model.Boundary

/-!
# Specification: what a boundary condition prescribes
-/
namespace NeoFOAM
variable {K V : Type}

/-- Does the condition store anything? -/
def VolBCKind.Writes : VolBCKind V → Prop
  | .calculated => False
  | .empty => False
  | _ => True

/-- Boundary face `b` belongs to the patch. -/
def Patch.Has (p : Patch) (b : Nat) : Prop := p.start_ ≤ b ∧ b < p.end_

/-- Boundary data of one face: value, reference value, value fraction, reference gradient. -/
structure BEntry (K V : Type) where
  value : V
  refValue : V
  fraction : K
  refGrad : V

section
variable [Div K] [Zero K] [One K] [Add V] [Zero V] [SMul K V]

/-- Boundary data of a field at a boundary face. -/
def VolField.entry (φ : VolField K V) (b : Nat) : BEntry K V :=
  ⟨φ.bValue.getD b 0, φ.bRefValue.getD b 0, φ.bVF.getD b 0, φ.bRefGrad.getD b 0⟩

/-- What a condition prescribes at face `b`, from the values in the cells; `1 / δ` is the distance from the
cell centre to the face. -/
def Prescribes (m : Mesh K) (φ : VolField K V) (b : Nat) : VolBCKind V → BEntry K V → Prop
  | .fixedValue v, x => x.value = v ∧ x.refValue = v ∧ x.fraction = 1
  | .fixedGradient g, x => x.value = φ.cell (m.fc b) + (1 / m.bnd.deltaCoeffs.getD b 0) • g ∧
      x.refGrad = g ∧ x.fraction = 0
  | .extrapolated, x => x.value = φ.cell (m.fc b) ∧ x.refValue = x.value ∧ x.fraction = 1
  | .calculated, x => x = φ.entry b
  | .empty, x => x = φ.entry b

end
end NeoFOAM
