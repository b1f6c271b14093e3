import Verif.Spec.ConvDiff

/-!
# Specification: linear solvers for the systems of a mesh
-/
namespace NeoFOAM
variable {K : Type}

/-- A square system with the matrix in valid compressed row storage, sizes within `int`. -/
structure LinearSystem.Valid (ls : LinearSystem K) : Prop where
  rows : ls.matrix.rowOffs.length = ls.rhs.length + 1
  last : ls.matrix.rs ls.rhs.length = ls.matrix.values.length
  cols : ls.matrix.colIdxs.length = ls.matrix.values.length
  ascending : ∀ i < ls.rhs.length, ls.matrix.rs i ≤ ls.matrix.rs (i + 1)
  inRange : ∀ c ∈ ls.matrix.colIdxs, c < ls.rhs.length
  small : ls.rhs.length < 2 ^ 31 ∧ ls.matrix.values.length < 2 ^ 31

end NeoFOAM
