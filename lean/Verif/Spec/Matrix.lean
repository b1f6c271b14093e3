import Verif.Model.LinearSystem
import Mathlib.Algebra.BigOperators.Group.Finset.Basic
import Mathlib.Algebra.BigOperators.Intervals

/-!
# Specification: CSR matrices
-/
namespace NeoFOAM
open Finset
variable {K : Type}

/-- Start of row `i`. -/
def CSR.rs (A : CSR K) (i : Nat) : Nat := A.rowOffs.getD i 0
/-- Column stored at position `p`. -/
def CSR.col (A : CSR K) (p : Nat) : Nat := A.colIdxs.getD p 0
/-- Coefficient stored at position `p`. -/
def CSR.val [Zero K] (A : CSR K) (p : Nat) : K := A.values.getD p 0

/-- Valid row pointers and one column per value. -/
structure CSR.WF (A : CSR K) : Prop where
  pos : 0 < A.rowOffs.length
  mono : ∀ i < A.nRows, A.rs i ≤ A.rs (i + 1)
  last : ∀ i ≤ A.nRows, A.rs i ≤ A.colIdxs.length
  len : A.values.length = A.colIdxs.length

/-- Position `p` lies in row `i` and stores column `j`. -/
def CSR.Stored (A : CSR K) (i j p : Nat) : Prop :=
  A.rs i ≤ p ∧ p < A.rs (i + 1) ∧ A.colIdxs[p]? = some j

/-- The columns of row `i` never decrease. -/
def CSR.RowSorted (A : CSR K) (i : Nat) : Prop :=
  ∀ p q, A.rs i ≤ p → p ≤ q → q < A.rs (i + 1) → A.col p ≤ A.col q

/-- Coefficient of row `i` and column `j` (all stored entries for that column added up). -/
def CSR.coef [AddCommMonoid K] (A : CSR K) (i j : Nat) : K :=
  ∑ p ∈ Ico (A.rs i) (A.rs (i + 1)), if A.col p = j then A.val p else 0

/-- `(A x - b)` in row `i`. -/
def LinearSystem.residual [AddCommGroup K] [Mul K] (ls : LinearSystem K) (x : Nat → K) (i : Nat) : K :=
  (∑ p ∈ Ico (ls.matrix.rs i) (ls.matrix.rs (i + 1)), ls.matrix.val p * x (ls.matrix.col p)) - ls.rhs.getD i 0

end NeoFOAM
