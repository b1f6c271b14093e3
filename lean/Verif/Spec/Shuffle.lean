import Verif.Spec.Solve
import Verif.Spec.Expression

/-!
# Specification: equations whose neighbours have been exchanged

On the parallel executors `solve` numbers the entries of a row anew, the operators keep the numbering they have. The coefficient of a
face then multiplies the value of another neighbour of the same cell.
-/
namespace NeoFOAM
open Finset
variable {K : Type}

/-- `π` exchanges entries within the rows of a matrix: the diagonal stays, an entry that belongs to a face the cell owns goes to such an
entry of the same cell, an entry that belongs to a face the cell is neighbour of goes to such an entry of the same cell, no two entries
to the same place. -/
structure Mesh.Shuffles (m : Mesh K) (π : Slot → Slot) : Prop where
  diag : ∀ c < m.nCells, π (.diag c) = .diag c
  upper : ∀ f < m.nInternalFaces, ∃ g < m.nInternalFaces, π (.upper f) = .upper g ∧ m.own g = m.own f
  lower : ∀ f < m.nInternalFaces, ∃ g < m.nInternalFaces, π (.lower f) = .lower g ∧ m.nbr g = m.nbr f
  inj : ∀ s s' : Slot, s.Valid m → s'.Valid m → π s = π s' → s = s'

/-- `implicitResidual` when the coefficient of entry `s` multiplies the value that belongs to entry `π s`. -/
def shuffledResidual [Field K] (m : Mesh K) (π : Slot → Slot) (dv : Slot → K) (dr : Nat → K) (x : Nat → K) (c : Nat) : K :=
  dv (.diag c) * x ((π (.diag c)).col m)
    + (∑ f ∈ range m.nInternalFaces, if m.own f = c then dv (.upper f) * x ((π (.upper f)).col m) else 0)
    + (∑ f ∈ range m.nInternalFaces, if m.nbr f = c then dv (.lower f) * x ((π (.lower f)).col m) else 0)
    - dr c

/-- The same system with other column indices. -/
def LinearSystem.columns {V : Type} (ls : LinearSystem V) (c : List Nat) : LinearSystem V := ⟨{ ls.matrix with colIdxs := c }, ls.rhs⟩

/-- The operator assembles the same numbers whatever the column indices of the system are, and leaves those alone. -/
def OpModel.IgnoresColumns {V : Type} (o : OpModel K V) : Prop :=
  ∀ f, o.impl = some f → ∀ (c : Coeff K) (t dt : K) (ls : LinearSystem V) (cols : List Nat) (out : Res (LinearSystem V)),
    f c t dt (ls.columns cols) out ↔ ∃ o, f c t dt ls o ∧ out = o.bind fun l => .ok (l.columns cols)

end NeoFOAM
