import Verif.Model.Copies

/-!
# The PETSc solver

PETSc itself is modelled from its manual: `MatSetPreallocationCOO(A, n, i, j)` declares the positions (row `i[k]`, column `j[k]`),
`MatSetValuesCOO(A, v, ADD_VALUES)` adds `v[k]` there, entries at the same position add up and positions with a negative index are
ignored; a new matrix or vector is zero. The sizes of the variable length arrays on the stack (petscSolverContext.hpp:73-75) are not
limited here. `PetscInt` is `int`.
-/
namespace NeoFOAM
variable {K : Type}

/-- The loop that expands the row pointers (linearAlgebra/petscSolverContext.hpp:103-111): `n` entries left, now at `index`. -/
def petscRowLoop (rowPtr : List Nat) : Nat → Nat → Nat → Nat → Res (List Int)
  | 0, _, _, _ => .ok []
  | n + 1, index, rowI, rowOffset =>
    if index = rowOffset then do
      let rowOffset ← rd rowPtr (rowI + 1 + 1)
      let rest ← petscRowLoop rowPtr n (index + 1) (rowI + 1) rowOffset
      return u32ToInt (rowI + 1) :: rest
    else do
      let rest ← petscRowLoop rowPtr n (index + 1) rowI rowOffset
      return u32ToInt rowI :: rest

/-- What PETSc holds after the set-up: coordinates (`cooI` rows, `cooJ` columns) with values, and the right hand side.
(petscSolverContext.hpp:69-146, petsc.hpp:86-98) -/
structure PetscSys (K : Type) where
  cooI : List Int
  cooJ : List Int
  vals : List K
  rhs : List K

/-- The matrix PETSc builds from coordinates (see the head of this file).
(petscSolverContext.hpp:138, petsc.hpp:98) -/
def PetscSys.entry [Add K] [Zero K] (P : PetscSys K) (i j : Nat) : K :=
  ((List.range P.vals.length).map fun p => if P.cooI[p]? = some (i : Int) ∧ P.cooJ[p]? = some (j : Int) then P.vals.getD p 0 else 0).sum

/-- `petscSolverContext::initialize` followed by the two `SetValuesCOO` calls of `solve` (petscSolverContext.hpp:69-146,
petsc.hpp:86-98). The first argument after the size of `MatSetPreallocationCOO` are the rows: the code passes `colIdx`. -/
def petscSetup (sys : LinearSystem K) : Res (PetscSys K) := do
  let size := sys.matrix.values.length
  let colIdx ← (List.range size).mapM fun i => u32ToInt <$> rd sys.matrix.colIdxs i
  let rowOffset ← rd sys.matrix.rowOffs (0 + 1)
  let rowIdx ← petscRowLoop sys.matrix.rowOffs size 0 0 rowOffset
  return ⟨colIdx, rowIdx, sys.matrix.values, sys.rhs⟩

/-- `petscSolver::solve` (petsc.hpp:78-119) around `KSPSolve`, here any function of the number of rows, the matrix and the right hand
side; `x` becomes a copy of PETSc's vector. The dictionary the solver was created with is not used. -/
def petscSolve [Add K] [Zero K] (ksp : Nat → (Nat → Nat → K) → List K → List K) (sys : LinearSystem K) (_x : List K) : Res (List K) := do
  let P ← petscSetup sys
  return ksp sys.rhs.length P.entry P.rhs

end NeoFOAM
