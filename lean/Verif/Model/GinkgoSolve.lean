import Verif.Model.Copies

/-!
# The Ginkgo solver

Ginkgo itself is modelled from its documentation: `gko::array` owns its elements or is a view of memory owned elsewhere; copying an
array, owned or view, makes an array that owns a copy of the elements, moving keeps a view a view; `Csr::create` and `Dense::create`
take arrays by value, keep them, and throw if their sizes do not fit. What `apply` computes is any function of the number of rows,
the matrix, the right hand side and the initial guess.
-/
namespace NeoFOAM
variable {K α : Type}

/-- Memory blocks holding arrays, by number; `none` if freed. (`~Field`, fields/field.hpp:145-149, frees) -/
abbrev Arena (α : Type) := List (Option (List α))

/-- `gko::array` (Ginkgo; made by `createGkoArray`, linearAlgebra/utilities.hpp:24-28). -/
inductive GkoArr (α : Type) where
  | owned (l : List α)
  | view (addr : Nat)

/-- Reading the elements: undefined if the memory has been freed. (Ginkgo; see the head of this file; used at
linearAlgebra/ginkgo.hpp:55) -/
def GkoArr.read (mem : Arena α) : GkoArr α → Res (List α)
  | .owned l => .ok l
  | .view a => match mem[a]? with
    | some (some l) => .ok l
    | _ => .ub

/-- The copy constructor of `gko::array` (Ginkgo; used by the by-value arguments at linearAlgebra/utilities.hpp:49-51). -/
def GkoArr.copy (mem : Arena α) (a : GkoArr α) : Res (GkoArr α) := do
  let l ← a.read mem
  return .owned l

/-- `gko::matrix::Csr<ValueType, int>` (Ginkgo; linearAlgebra/utilities.hpp:37-52). -/
structure GkoCsr (K : Type) where
  nrows : Nat
  values : GkoArr K
  colIdxs : GkoArr Int
  rowPtrs : GkoArr Int

/-- What the destructors of the converted matrix `mtx` leave of its memory (linearAlgebra/utilities.hpp:45, 52). -/
def freed (mem : Arena α) : Arena α := mem.map fun _ => none

/-- `createGkoMtx(exec, sys)` (linearAlgebra/utilities.hpp:37-52): `mtx` is converted into new memory, views of it are passed as
lvalues (so copied), and it is destroyed on return. Returned: the memory after the call and the matrix. -/
def createGkoMtx (e : ExecKind) (gc gr : Nat → Int) (sys : LinearSystem K) : NR ((Arena K × Arena Int) × GkoCsr K) := do
  let mtx ← csrConvert e gc gr sys.matrix
  let memV : Arena K := [some mtx.values]
  let memI : Arena Int := [some mtx.colIdxs, some mtx.rowOffs]
  let vals : GkoArr K := .view 0
  let col : GkoArr Int := .view 0
  let row : GkoArr Int := .view 1
  let v ← NR.lift (vals.copy memV)
  let c ← NR.lift (col.copy memI)
  let r ← NR.lift (row.copy memI)
  return ((freed memV, freed memI), ⟨sys.rhs.length, v, c, r⟩)

/-- The coefficient at row `i`, column `j` of a matrix in compressed row storage with `int` indices.
(Ginkgo; used at linearAlgebra/ginkgo.hpp:55) -/
def CsrInt.entry [Add K] [Zero K] (A : CsrInt K) (i j : Nat) : K :=
  ((List.range A.values.length).map fun p : Nat =>
    if A.rowOffs.getD i 0 ≤ (p : Int) ∧ (p : Int) < A.rowOffs.getD (i + 1) 0 ∧ A.colIdxs[p]? = some (j : Int) then A.values.getD p 0 else 0).sum

/-- The row ranges and columns of the matrix lie within its arrays and the vectors.
(Ginkgo; otherwise linearAlgebra/ginkgo.hpp:55 accesses memory out of bounds) -/
def CsrInt.inBounds (A : CsrInt K) (n : Nat) : Bool :=
  A.rowOffs.all (fun r => decide (0 ≤ r ∧ r ≤ (A.values.length : Int))) && A.colIdxs.all (fun c => decide (0 ≤ c ∧ c < (n : Int)))

/-- `GinkgoSolver::solve(sys, x)` (linearAlgebra/ginkgo.hpp:41-61) around `apply`, `gko x0 n M b`: the matrix and the right hand
side are Ginkgo's own copies, the solution vector is a view of the first `n` elements of the field. -/
def gkoSolve [Add K] [Zero K] (gko : List K → Nat → (Nat → Nat → K) → List K → List K) (e : ExecKind) (gc gr : Nat → Int)
    (sys : LinearSystem K) (x : List K) : NR (List K) := do
  let n := sys.rhs.length
  let (mem, A) ← createGkoMtx e gc gr sys
  let v ← NR.lift (A.values.read mem.1)
  let c ← NR.lift (A.colIdxs.read mem.2)
  let r ← NR.lift (A.rowPtrs.read mem.2)
  if v.length ≠ c.length ∨ r.length ≠ A.nrows + 1 then NR.lift (.throw .runtimeError)
  else if x.length < n ∨ CsrInt.inBounds ⟨v, c, r⟩ n = false then NR.lift .ub
  else
    let y := gko (x.take n) A.nrows (CsrInt.entry ⟨v, c, r⟩) sys.rhs
    return (List.range n).map (fun i => y.getD i 0) ++ x.drop n

end NeoFOAM
