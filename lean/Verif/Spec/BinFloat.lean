import Verif.Spec.Float
import Mathlib.Data.Int.Log
import Mathlib.Algebra.Order.Round
import Mathlib.Data.Rat.Floor
import Mathlib.Tactic.Linarith
import Mathlib.Tactic.Positivity
import Mathlib.Tactic.Ring
import Mathlib.Tactic.FieldSimp

/-!
# Binary floating-point numbers

Numbers `m · 2^e` with a significand of `p` bits (`p = 53` for the code's `double`, `p = 24` for `float`) and round-to-nearest. The
exponent is not bounded: overflow, underflow and the special values are not modelled.
-/
namespace NeoFOAM

/-- The numbers with a significand of `p` bits. -/
def IsBin (p : Nat) (x : ℚ) : Prop := ∃ m e : ℤ, |m| ≤ 2 ^ p ∧ x = m * 2 ^ e

/-- Binary floating-point numbers. -/
def BinFloat (p : Nat) : Type := {x : ℚ // IsBin p x}

/-- Weight of the last bit of the significand. -/
def ulpExp (p : Nat) (x : ℚ) : ℤ := Int.log 2 |x| + 1 - p

/-- Rounding to a nearest number (ties upward; the theorems hold for every way of breaking ties, see `FloatArith`). -/
def roundBin (p : Nat) (x : ℚ) : ℚ := round (x / 2 ^ ulpExp p x) * 2 ^ ulpExp p x

theorem two_zpow_pos (e : ℤ) : (0 : ℚ) < 2 ^ e := zpow_pos (by norm_num) e

theorem abs_lt_ulp (p : Nat) (x : ℚ) : |x / 2 ^ ulpExp p x| < 2 ^ p := by
  rw [abs_div, abs_of_pos (two_zpow_pos _), div_lt_iff₀ (two_zpow_pos _)]
  have h := Int.lt_zpow_succ_log_self (b := 2) (by norm_num) |x|
  have e : ((2 : ℕ) : ℚ) ^ (Int.log 2 |x| + 1) = 2 ^ p * 2 ^ ulpExp p x := by
    rw [ulpExp, ← zpow_natCast (2 : ℚ) p, ← zpow_add₀ (by norm_num)]
    norm_num
  rwa [e] at h

theorem roundBin_isBin (p : Nat) (x : ℚ) : IsBin p (roundBin p x) := by
  refine ⟨round (x / 2 ^ ulpExp p x), ulpExp p x, ?_, rfl⟩
  have h := abs_lt.1 (abs_lt_ulp p x)
  have h1 := abs_le.1 (abs_sub_round (x / 2 ^ ulpExp p x))
  rw [abs_le]
  constructor
  · by_contra hn
    have : round (x / 2 ^ ulpExp p x) ≤ -2 ^ p - 1 := by omega
    have : ((round (x / 2 ^ ulpExp p x) : ℤ) : ℚ) ≤ -2 ^ p - 1 := by exact_mod_cast this
    linarith [h.1, h1.2]
  · by_contra hn
    have : 2 ^ p + 1 ≤ round (x / 2 ^ ulpExp p x) := by omega
    have : (2 ^ p + 1 : ℚ) ≤ ((round (x / 2 ^ ulpExp p x) : ℤ) : ℚ) := by exact_mod_cast this
    linarith [h.2, h1.1]

theorem roundBin_error (p : Nat) (x : ℚ) : |roundBin p x - x| ≤ 1 / 2 ^ p * |x| := by
  by_cases hx : x = 0
  · subst hx
    simp [roundBin]
  · have e : roundBin p x - x = -(x / 2 ^ ulpExp p x - round (x / 2 ^ ulpExp p x)) * 2 ^ ulpExp p x := by
      rw [roundBin]
      field_simp
      ring
    rw [e, abs_mul, abs_neg, abs_of_pos (two_zpow_pos _)]
    have h1 := abs_sub_round (x / 2 ^ ulpExp p x)
    have h2 := Int.zpow_log_le_self (b := 2) (by norm_num) (abs_pos.2 hx)
    have e2 : (1 / 2 : ℚ) * 2 ^ ulpExp p x = 1 / 2 ^ p * ((2 : ℕ) : ℚ) ^ Int.log 2 |x| := by
      rw [ulpExp, zpow_sub₀ (by norm_num), zpow_add₀ (by norm_num), zpow_natCast]
      push_cast
      field_simp
    calc _ ≤ (1 / 2 : ℚ) * 2 ^ ulpExp p x := mul_le_mul_of_nonneg_right h1 (two_zpow_pos _).le
      _ = _ := e2
      _ ≤ _ := mul_le_mul_of_nonneg_left h2 (by positivity)

variable (p : Nat)

/-- The exact value of a floating-point number. -/
def BinFloat.val (x : BinFloat p) : ℚ := x.1

instance : Zero (BinFloat p) := ⟨⟨0, 0, 0, by simp, by simp⟩⟩
instance : One (BinFloat p) := ⟨⟨1, 1, 0, by simpa using one_le_pow₀ (by norm_num), by simp⟩⟩
instance : Neg (BinFloat p) := ⟨fun a => ⟨-a.1, by obtain ⟨m, e, h1, h2⟩ := a.2; exact ⟨-m, e, by rwa [abs_neg], by rw [h2]; push_cast; ring⟩⟩⟩
instance : Add (BinFloat p) := ⟨fun a b => ⟨roundBin p (a.1 + b.1), roundBin_isBin p _⟩⟩
instance : Sub (BinFloat p) := ⟨fun a b => ⟨roundBin p (a.1 - b.1), roundBin_isBin p _⟩⟩
instance : Mul (BinFloat p) := ⟨fun a b => ⟨roundBin p (a.1 * b.1), roundBin_isBin p _⟩⟩
instance : Div (BinFloat p) := ⟨fun a b => ⟨roundBin p (a.1 / b.1), roundBin_isBin p _⟩⟩
instance : LinearOrder (BinFloat p) := inferInstanceAs (LinearOrder {x : ℚ // IsBin p x})

/-- Binary floating-point numbers meet the standard model with the unit roundoff `2^-p`. -/
theorem binFloat_arith : FloatArith (BinFloat p) (BinFloat.val p) (1 / 2 ^ p) where
  roundoff := by positivity
  zero := rfl
  one := rfl
  neg := fun _ => rfl
  add := fun a b => roundBin_error p (a.1 + b.1)
  sub := fun a b => roundBin_error p (a.1 - b.1)
  mul := fun a b => roundBin_error p (a.1 * b.1)
  div := fun a b _ => roundBin_error p (a.1 / b.1)
  le := fun _ _ => Iff.rfl

/-- A number of the code's `double` that is given by its value. -/
def BinFloat.of (x : ℚ) (h : IsBin p x) : BinFloat p := ⟨x, h⟩

end NeoFOAM
