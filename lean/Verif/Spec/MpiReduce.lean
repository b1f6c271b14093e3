import Verif.Model.MpiReduce
import Mathlib.Algebra.BigOperators.Group.List.Basic

/-!
# Specification: what a reduction over all ranks returns
-/
namespace NeoFOAM
variable {K : Type} [Field K] [LinearOrder K]

/-- The operations that make sense for a representation. -/
def Reducible : Repr → ReduceOp → Prop
  | .flt _, op => op = .max ∨ op = .min ∨ op = .sum ∨ op = .prod
  | .cplx _, op => op = .sum ∨ op = .prod
  | .int _ _, op => op ≠ .maxloc ∧ op ≠ .minloc
  | .bool, op => op = .land ∨ op = .lor
  | .chr _, _ => False

/-- The value of an integer. -/
def intValue (signed : Bool) {w : Nat} (x : BitVec w) : Int := if signed then x.toInt else x.toNat

/-- The integer of width `w` with the value `i` modulo `2^w`. -/
def wrap (w : Nat) (i : Int) : BitVec w := BitVec.ofInt w i

/-- `x` is the reduction of the values: the largest, the smallest, the sum, the product, all, any. -/
def Reduced : (r : Repr) → ReduceOp → List (r.Val K) → r.Val K → Prop
  | .flt _, .max, vals, x => x ∈ vals ∧ ∀ v ∈ vals, v ≤ x
  | .flt _, .min, vals, x => x ∈ vals ∧ ∀ v ∈ vals, x ≤ v
  | .flt _, .sum, vals, x => x = vals.sum
  | .flt _, .prod, vals, x => x = vals.prod
  | .cplx _, .sum, vals, x => x = ((vals.map (·.1)).sum, (vals.map (·.2)).sum)
  | .cplx _, .prod, vals, x => x = vals.foldr (fun a b => (a.1 * b.1 - a.2 * b.2, a.1 * b.2 + a.2 * b.1)) (1, 0)
  | .int s _, .max, vals, x => x ∈ vals ∧ ∀ v ∈ vals, intValue s v ≤ intValue s x
  | .int s _, .min, vals, x => x ∈ vals ∧ ∀ v ∈ vals, intValue s x ≤ intValue s v
  | .int s w, .sum, vals, x => x = wrap w (vals.map (intValue s)).sum
  | .int s w, .prod, vals, x => x = wrap w (vals.map (intValue s)).prod
  | .int _ _, .land, vals, x => x ≠ 0 ↔ ∀ v ∈ vals, v ≠ 0
  | .int _ _, .lor, vals, x => x ≠ 0 ↔ ∃ v ∈ vals, v ≠ 0
  | .int _ _, .band, vals, x => ∀ i : Nat, x.getLsbD i = true ↔ ∀ v ∈ vals, v.getLsbD i = true
  | .int _ _, .bor, vals, x => ∀ i : Nat, x.getLsbD i = true ↔ ∃ v ∈ vals, v.getLsbD i = true
  | .bool, .land, vals, x => x = true ↔ ∀ v ∈ vals, v = true
  | .bool, .lor, vals, x => x = true ↔ ∃ v ∈ vals, v = true
  | _, _, _, _ => False

end NeoFOAM
