import Verif.Model.Expression
import Verif.Spec.Assembly

/-!
# Specification: expression trees and what they stand for
-/
namespace NeoFOAM
variable {K V : Type}

/-- What a user writes to get an operator: a variable holding an operator (`h`), or a multiple of an operator. -/
inductive OpT (K : Type) where
  | var (k : OpSort) (h : Nat)
  | smul (r : K) (t : OpT K)
  | cmul (c : Coeff K) (t : OpT K)
  | fmul (f : List K) (t : OpT K)

/-- Temporal or spatial. -/
def OpT.sort : OpT K → OpSort
  | var k _ => k
  | smul _ t => t.sort
  | cmul _ t => t.sort
  | fmul _ t => t.sort

/-- The variable it is a multiple of. -/
def OpT.leaf : OpT K → Nat
  | var _ h => h
  | smul _ t => t.leaf
  | cmul _ t => t.leaf
  | fmul _ t => t.leaf

/-- What a user writes to get an expression: a variable holding an expression, or sums, differences and multiples.
There is no overload for an expression plus a temporal operator. -/
inductive ExT (K : Type) where
  | obj (e : Expr)
  | one (a : OpT K)
  | addOO (a b : OpT K)
  | subOO (a b : OpT K)
  | addEE (x y : ExT K)
  | subEE (x y : ExT K)
  | addEO (x : ExT K) (b : OpT K) (hb : b.sort = .spatial)
  | subEO (x : ExT K) (b : OpT K) (hb : b.sort = .spatial)
  | smul (r : K) (x : ExT K)

section build
variable [Mul K] [One K] [Neg K]

/-- Running the operator-valued part. -/
def OpT.build : OpT K → HM K V Nat
  | .var _ h => pure h
  | .smul r t => do let h ← t.build; opScale r h
  | .cmul c t => do let h ← t.build; opCoeff c h
  | .fmul f t => do let h ← t.build; opField f h

/-- Running the composition. -/
def ExT.build : ExT K → HM K V Expr
  | .obj e => pure e
  | .one a => do let h ← a.build; Expr.empty.addOperator a.sort h
  | .addOO a b => do let x ← a.build; let y ← b.build; opsAdd a.sort x b.sort y
  | .subOO a b => do let x ← a.build; let y ← b.build; opsSub a.sort x b.sort y
  | .addEE x y => do let l ← x.build; let r ← y.build; exprAdd l r
  | .subEE x y => do let l ← x.build; let r ← y.build; exprSub l r
  | .addEO x b _ => do let l ← x.build; let h ← b.build; exprAddOp l h
  | .subEO x b _ => do let l ← x.build; let h ← b.build; exprSubOp l h
  | .smul r x => do let l ← x.build; exprScale r l

end build

/-- Number of terms. -/
def ExT.terms : ExT K → Nat
  | .obj e => e.temporal.length + e.spatial.length
  | .one _ => 1
  | .addOO _ _ => 2
  | .subOO _ _ => 2
  | .addEE x y => x.terms + y.terms
  | .subEE x y => x.terms + y.terms
  | .addEO x _ _ => x.terms + 1
  | .subEO x _ _ => x.terms + 1
  | .smul _ x => x.terms

/-- The operators of one sort the composition refers to. -/
def ExT.leaves (k : OpSort) : ExT K → List Nat
  | .obj e => match k with | .temporal => e.temporal | .spatial => e.spatial
  | .one a => if a.sort = k then [a.leaf] else []
  | .addOO a b => (if a.sort = k then [a.leaf] else []) ++ if b.sort = k then [b.leaf] else []
  | .subOO a b => (if a.sort = k then [a.leaf] else []) ++ if b.sort = k then [b.leaf] else []
  | .addEE x y => x.leaves k ++ y.leaves k
  | .subEE x y => x.leaves k ++ y.leaves k
  | .addEO x b _ => x.leaves k ++ if b.sort = k then [b.leaf] else []
  | .subEO x b _ => x.leaves k ++ if b.sort = k then [b.leaf] else []
  | .smul _ x => x.leaves k

/-- A variable is not composed. -/
def ExT.isVar : ExT K → Bool
  | .obj _ => true
  | _ => false

/-- Value of a coefficient at a cell. -/
def Coeff.value [Field K] (c : Coeff K) (i : Nat) : K := if c.hasView then c.view.getD i 0 * c.coeff else c.coeff

/-- Has the operator, after the multiplications, a field as coefficient? -/
def OpT.hasField (s : OpHeap K V) : OpT K → Bool
  | .var _ h => match s[h]? with | some o => o.coeff.hasView | none => false
  | .smul _ t => t.hasField s
  | .cmul c t => c.hasView || t.hasField s
  | .fmul _ _ => true

/-- No operator is multiplied by two fields, and every field has a value for each of the `n` cells. -/
def OpT.FieldsOK (s : OpHeap K V) (n : Nat) : OpT K → Prop
  | .var _ _ => True
  | .smul _ t => t.FieldsOK s n
  | .cmul c t => t.FieldsOK s n ∧ (c.hasView = true → t.hasField s = false ∧ n ≤ c.view.length)
  | .fmul f t => t.FieldsOK s n ∧ t.hasField s = false ∧ n ≤ f.length

/-- The same in all operators of a composition. -/
def ExT.FieldsOK (s : OpHeap K V) (n : Nat) : ExT K → Prop
  | .obj _ => True
  | .one a => a.FieldsOK s n
  | .addOO a b => a.FieldsOK s n ∧ b.FieldsOK s n
  | .subOO a b => a.FieldsOK s n ∧ b.FieldsOK s n
  | .addEE x y => x.FieldsOK s n ∧ y.FieldsOK s n
  | .subEE x y => x.FieldsOK s n ∧ y.FieldsOK s n
  | .addEO x b _ => x.FieldsOK s n ∧ b.FieldsOK s n
  | .subEO x b _ => x.FieldsOK s n ∧ b.FieldsOK s n
  | .smul _ x => x.FieldsOK s n

section value
variable [Field K] [AddCommGroup V] [Module K V] {ι : Type}

/-- What a multiple of an operator contributes, given what each operator variable contributes (`val h i`); coefficients
are taken at the cell `loc i`. -/
def OpT.value (loc : ι → Nat) (val : Nat → ι → V) : OpT K → ι → V
  | .var _ h, i => val h i
  | .smul r t, i => r • t.value loc val i
  | .cmul c t, i => c.value (loc i) • t.value loc val i
  | .fmul f t, i => f.getD (loc i) 0 • t.value loc val i

/-- Its contribution to the terms of sort `k`. -/
def OpT.valueOf (k : OpSort) (loc : ι → Nat) (val : Nat → ι → V) (t : OpT K) (i : ι) : V :=
  if t.sort = k then t.value loc val i else 0

/-- The signed, scaled sum a composition stands for. -/
def ExT.value (k : OpSort) (loc : ι → Nat) (val : Nat → ι → V) : ExT K → ι → V
  | .obj e, i => ((match k with | .temporal => e.temporal | .spatial => e.spatial).map fun h => val h i).sum
  | .one a, i => a.valueOf k loc val i
  | .addOO a b, i => a.valueOf k loc val i + b.valueOf k loc val i
  | .subOO a b, i => a.valueOf k loc val i - b.valueOf k loc val i
  | .addEE x y, i => x.value k loc val i + y.value k loc val i
  | .subEE x y, i => x.value k loc val i - y.value k loc val i
  | .addEO x b _, i => x.value k loc val i + b.valueOf k loc val i
  | .subEO x b _, i => x.value k loc val i - b.valueOf k loc val i
  | .smul r x, i => r • x.value k loc val i

end value

/-- A system operation adds `dv` to the coefficients and `dr` to the right hand side, and has one outcome. -/
def AssemblesTo [AddCommGroup V] (m : Mesh V) (sp : SparsityPattern) (op : LinearSystem V → NR (LinearSystem V))
    (dv : Slot → V) (dr : Nat → V) : Prop :=
  ∀ ls : LinearSystem V, ls.On sp m → ∃ ls', Assembles m sp ls ls' dv dr ∧ ∀ out, op ls out ↔ out = .ok ls'

end NeoFOAM
