import Verif.Spec.Float
import Verif.Spec.BinFloat
import Verif.Spec.Geometry

/-!
# Specification: roots and faithful rounding in floating point
-/
namespace NeoFOAM
variable {F K : Type} [Field K] [LinearOrder K]

/-- `root` is the square root of a floating-point number up to the relative error `u`. Written with squares, so that the exact numbers need not
have roots. -/
def FloatRoot (val : F → K) (u : K) (root : F → F) : Prop :=
  ∀ a, 0 ≤ val a → 0 ≤ val (root a) ∧ (1 - u) ^ 2 * val a ≤ val (root a) ^ 2 ∧ val (root a) ^ 2 ≤ (1 + u) ^ 2 * val a

/-- Rounding is faithful: no floating-point number lies between the exact and the rounded result of a sum or quotient. -/
structure Faithful (F : Type) {K : Type} [Add F] [Div F] [Field K] [LinearOrder K] (val : F → K) : Prop where
  add_le : ∀ a b c : F, val a + val b ≤ val c → val (a + b) ≤ val c
  le_add : ∀ a b c : F, val c ≤ val a + val b → val c ≤ val (a + b)
  div_le : ∀ a b c : F, val b ≠ 0 → val a / val b ≤ val c → val (a / b) ≤ val c
  le_div : ∀ a b c : F, val b ≠ 0 → val c ≤ val a / val b → val c ≤ val (a / b)

/-- The computed number `a` and the exact number `x` are not negative and differ by `n` roundings at most. -/
def RelNear (u : K) (n : Nat) (a x : K) : Prop := 0 ≤ x ∧ x * (1 - u) ^ n ≤ a ∧ a * (1 - u) ^ n ≤ x

end NeoFOAM
