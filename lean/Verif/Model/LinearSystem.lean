import Verif.Base.NR
import Verif.Model.Sparsity

/-!
# CSR matrix, linear system, residual
-/
namespace NeoFOAM
variable {K : Type}

/-- `CSRMatrix` (linearAlgebra/CSRMatrix.hpp:84-220). Labels are natural numbers. -/
structure CSR (K : Type) where
  values : List K
  colIdxs : List Nat
  rowOffs : List Nat

/-- `LinearSystem` (linearAlgebra/linearSystem.hpp:43-99). -/
structure LinearSystem (K : Type) where
  matrix : CSR K
  rhs : List K

/-- `CSRMatrix::nRows` (CSRMatrix.hpp:123-127). -/
def CSR.nRows (A : CSR K) : Nat := A.rowOffs.length - (if A.rowOffs.length = 0 then 0 else 1)

/-- `CSRMatrix::nNonZeros` (CSRMatrix.hpp:133). -/
def CSR.nNonZeros (A : CSR K) : Nat := A.values.length

/-- `LinearSystem(matrix, rhs)` (linearSystem.hpp:47-52): `NF_ASSERT` stops the program. The executors
are not part of this model. -/
def LinearSystem.mk' (A : CSR K) (rhs : List K) : Res (LinearSystem K) :=
  if A.nRows = rhs.length then .ok ⟨A, rhs⟩ else .abort

/-- Unsigned 32-bit subtraction (`rowOffs[i + 1] - rowOffs[i]`).
(CSRMatrix.hpp:48-62) -/
def u32Sub (a b : Nat) : Nat := if b ≤ a then a - b else 2 ^ 32 - (b - a)

/-- The loop of `entry(i, j)` with `n` iterations left (CSRMatrix.hpp:51-61); the result is the position
of the value the returned reference refers to. -/
def CSR.entryLoop (A : CSR K) (j base : Nat) : Nat → Nat → Res Nat
  | 0, _ => .abort                                   -- Kokkos::abort
  | n + 1, ic => do
    let col ← rd A.colIdxs (base + ic)
    if col = j then
      if base + ic < A.values.length then .ok (base + ic) else .ub
    else if col > j then .abort                      -- break, then Kokkos::abort
    else A.entryLoop j base n (ic + 1)

/-- `CSRMatrixView::entry(i, j)` (CSRMatrix.hpp:48-62). -/
def CSR.entry (A : CSR K) (i j : Nat) : Res Nat := do
  let stop ← rd A.rowOffs (i + 1)
  let start ← rd A.rowOffs i
  A.entryLoop j start (u32Sub stop start) 0

/-- Reading through the reference `entry(i, j)` gives.
(CSRMatrix.hpp:48-62) -/
def CSR.getEntry (A : CSR K) (i j : Nat) : Res K := do
  let p ← A.entry i j
  rd A.values p

/-- Writing through the reference `entry(i, j)` gives.
(CSRMatrix.hpp:48-62) -/
def CSR.setEntry (A : CSR K) (i j : Nat) (v : K) : Res (CSR K) := do
  let p ← A.entry i j
  let vals ← wr A.values p v
  return { A with values := vals }

/-- A loop over `{start, stop}` whose thread `i` first computes, from arrays the loop does not write, how
element `i` of one array changes, and then changes it (load, store).
(core/parallelAlgorithms.hpp:26-63) -/
def elemKernel {α : Type} (e : ExecKind) (start stop : Nat) (body : Nat → Res (α → α)) (a : List α) :
    NR (List α) := do
  let fs ← NR.lift ((List.range' start (stop - start)).mapM body)
  (ParElem e a start stop (fun i => fs.getD (i - start) id) : NR (List α))

/-- The loop over one row in `spmv` (linearSystem.hpp:119-122). -/
def rowSum [Add K] [Mul K] (A : CSR K) (x : List K) (rowStart rowEnd : Nat) (zero : K) : Res K :=
  (List.range' rowStart (rowEnd - rowStart)).foldlM (fun sum p => do
    let v ← rd A.values p
    let c ← rd A.colIdxs p
    let y ← rd x c
    return sum + v * y) zero

/-- Body of the kernel of `spmv` and of `operator&` (linearSystem.hpp:115-124,
cellCentred/dsl/expression.hpp:207-216): a store into `result[row]`. -/
def residualBody [Add K] [Sub K] [Mul K] [Zero K] (ls : LinearSystem K) (x : List K) (row : Nat) :
    Res (K → K) := do
  let rowStart ← rd ls.matrix.rowOffs row
  let rowEnd ← rd ls.matrix.rowOffs (row + 1)
  let sum ← rowSum ls.matrix x rowStart rowEnd 0
  let b ← rd ls.rhs row
  return fun _ => sum - b

/-- `spmv(ls, x)` (linearSystem.hpp:102-128). -/
def spmv [Add K] [Sub K] [Mul K] [Zero K] (e : ExecKind) (ls : LinearSystem K) (x : List K) : NR (List K) :=
  elemKernel e 0 ls.matrix.nRows (residualBody ls x) (List.replicate ls.rhs.length 0)

/-- `expr & psi` (cellCentred/dsl/expression.hpp:187-220), internal field of the result, which starts as a
copy of psi's. (The structured binding in line 202 names three members of a view that has two, so the
template does not compile when used; it is modelled as if it named the matrix's three arrays.) -/
def ampersand [Add K] [Sub K] [Mul K] [Zero K] (e : ExecKind) (ls : LinearSystem K) (psi : List K) :
    NR (List K) :=
  elemKernel e 0 psi.length (residualBody ls psi) psi

/-- `LinearSystem::reset` (linearSystem.hpp:73-77): two fills. -/
def LinearSystem.reset [Zero K] (e : ExecKind) (ls : LinearSystem K) : NR (LinearSystem K) := do
  let v ← elemKernel e 0 ls.matrix.values.length (fun _ => .ok fun _ => 0) ls.matrix.values
  let b ← elemKernel e 0 ls.rhs.length (fun _ => .ok fun _ => 0) ls.rhs
  return ⟨{ ls.matrix with values := v }, b⟩

/-- `createEmptyLinearSystem(sparsity)` (linearSystem.hpp:147-161); `rows()` is the size of the diagonal
offsets (sparsityPattern.hpp:38-44). -/
def createEmptyLinearSystem [Zero K] (sp : SparsityPattern) : Res (LinearSystem K) :=
  LinearSystem.mk' ⟨List.replicate sp.colIdxs.length 0, sp.colIdxs, sp.rowPtrs⟩
    (List.replicate sp.diagOffset.length 0)

end NeoFOAM
