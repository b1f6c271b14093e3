import Verif.Spec.BinFloat

/-!
# Rounding to binary floating-point numbers: numbers that are kept
-/
namespace NeoFOAM

/-- Rounding keeps the numbers that can be stored. -/
theorem roundBin_eq {p : Nat} (hp : 0 < p) {x : ℚ} (h : IsBin p x) : roundBin p x = x := by
  by_cases hx : x = 0
  · subst hx; simp [roundBin]
  suffices hi : ∃ n : ℤ, x / 2 ^ ulpExp p x = n by
    obtain ⟨n, hn⟩ := hi
    have h2 := (two_zpow_pos (ulpExp p x)).ne'
    rw [roundBin, hn, round_intCast, ← hn, div_mul_cancel₀ _ h2]
  obtain ⟨m, e, hm, he⟩ := h
  have h2e := two_zpow_pos e
  rcases hm.lt_or_eq with hlt | heq
  · have hle : ulpExp p x ≤ e := by
      have : |x| < (2 : ℕ) ^ ((p : ℤ) + e) := by
        rw [he, abs_mul, abs_of_pos h2e, Nat.cast_ofNat, zpow_add₀ (by norm_num), zpow_natCast]
        exact mul_lt_mul_of_pos_right (by exact_mod_cast hlt) h2e
      have := (Int.lt_zpow_iff_log_lt (by norm_num) (abs_pos.2 hx)).1 this
      unfold ulpExp
      omega
    obtain ⟨k, hk⟩ := Int.eq_ofNat_of_zero_le (sub_nonneg.2 hle)
    refine ⟨m * 2 ^ k, ?_⟩
    have : (2 : ℚ) ^ e = 2 ^ k * 2 ^ ulpExp p x := by
      rw [← zpow_natCast (2 : ℚ) k, ← zpow_add₀ (by norm_num)]
      congr 1
      omega
    rw [div_eq_iff (two_zpow_pos _).ne']
    nth_rw 1 [he]
    rw [this]
    push_cast
    ring
  · have habs : |x| = (2 : ℕ) ^ ((p : ℤ) + e) := by
      rw [he, abs_mul, abs_of_pos h2e, Nat.cast_ofNat, zpow_add₀ (by norm_num), zpow_natCast]
      congr 1
      exact_mod_cast heq
    have hu : ulpExp p x = e + 1 := by
      unfold ulpExp
      rw [habs, Int.log_zpow (by norm_num)]
      omega
    obtain ⟨q, rfl⟩ : ∃ q, p = q + 1 := ⟨p - 1, by omega⟩
    have hm2 : ∃ s : ℤ, m = s * 2 ^ q := by
      rcases abs_eq (by positivity) |>.1 heq with h | h
      · exact ⟨2, by rw [h, pow_succ]; ring⟩
      · exact ⟨-2, by rw [h, pow_succ]; ring⟩
    obtain ⟨s, hs⟩ := hm2
    have hs2 : ∃ s' : ℤ, s = 2 * s' := by
      have hq : (2 : ℤ) ^ q ≠ 0 := by positivity
      rcases abs_eq (by positivity) |>.1 heq with h | h
      · exact ⟨1, mul_right_cancel₀ hq (by rw [← hs, h, pow_succ]; ring)⟩
      · exact ⟨-1, mul_right_cancel₀ hq (by rw [← hs, h, pow_succ]; ring)⟩
    obtain ⟨s', rfl⟩ := hs2
    refine ⟨s' * 2 ^ q, ?_⟩
    rw [hu, div_eq_iff (two_zpow_pos _).ne', zpow_add₀ (by norm_num), zpow_one]
    nth_rw 1 [he]
    rw [hs]
    push_cast
    ring

variable {p : Nat}

theorem BinFloat.ext {a b : BinFloat p} (h : a.1 = b.1) : a = b := Subtype.ext h

theorem BinFloat.add_val (a b : BinFloat p) : (a + b).1 = roundBin p (a.1 + b.1) := rfl
theorem BinFloat.sub_val (a b : BinFloat p) : (a - b).1 = roundBin p (a.1 - b.1) := rfl
theorem BinFloat.mul_val (a b : BinFloat p) : (a * b).1 = roundBin p (a.1 * b.1) := rfl
theorem BinFloat.div_val (a b : BinFloat p) : (a / b).1 = roundBin p (a.1 / b.1) := rfl

theorem BinFloat.add_comm (a b : BinFloat p) : a + b = b + a := BinFloat.ext (by rw [add_val, add_val, _root_.add_comm])
theorem BinFloat.mul_comm (a b : BinFloat p) : a * b = b * a := BinFloat.ext (by rw [mul_val, mul_val, _root_.mul_comm])
theorem BinFloat.sub_self (a : BinFloat p) : a - a = 0 := BinFloat.ext (by rw [sub_val, _root_.sub_self]; simp [roundBin]; rfl)
theorem BinFloat.zero_add (hp : 0 < p) (a : BinFloat p) : 0 + a = a :=
  BinFloat.ext (by rw [add_val, show (0 : BinFloat p).1 = 0 from rfl, _root_.zero_add, roundBin_eq hp a.2])
theorem BinFloat.one_mul (hp : 0 < p) (a : BinFloat p) : 1 * a = a :=
  BinFloat.ext (by rw [mul_val, show (1 : BinFloat p).1 = 1 from rfl, _root_.one_mul, roundBin_eq hp a.2])
theorem BinFloat.div_one (hp : 0 < p) (a : BinFloat p) : a / 1 = a :=
  BinFloat.ext (by rw [div_val, show (1 : BinFloat p).1 = 1 from rfl, _root_.div_one, roundBin_eq hp a.2])
theorem BinFloat.mul_zero (a : BinFloat p) : a * 0 = 0 :=
  BinFloat.ext (by rw [mul_val, show (0 : BinFloat p).1 = 0 from rfl, MulZeroClass.mul_zero]; simp [roundBin])

/-- A power of two. -/
def BinFloat.pow2 (p : Nat) (k : Nat) : BinFloat p := ⟨2 ^ k, 1, k, by simpa using one_le_pow₀ (by norm_num), by simp⟩

/-- One is lost when it is added to a number that is too big for it. -/
theorem BinFloat.absorb (hp : 0 < p) : BinFloat.pow2 p (p + 1) + 1 = BinFloat.pow2 p (p + 1) := by
  apply BinFloat.ext
  rw [add_val]
  show roundBin p ((2 : ℚ) ^ (p + 1) + 1) = 2 ^ (p + 1)
  have hpos : (0 : ℚ) < 2 ^ (p + 1) + 1 := by positivity
  have hlog : Int.log 2 |(2 : ℚ) ^ (p + 1) + 1| = p + 1 := by
    rw [abs_of_pos hpos]
    apply le_antisymm
    · have : (2 : ℚ) ^ (p + 1) + 1 < (2 : ℕ) ^ ((p : ℤ) + 2) := by
        rw [Nat.cast_ofNat, show (p : ℤ) + 2 = ((p + 2 : ℕ) : ℤ) by push_cast; ring, zpow_natCast, pow_succ _ (p + 1)]
        have : (2 : ℚ) ≤ 2 ^ (p + 1) := by
          calc (2 : ℚ) = 2 ^ 1 := by norm_num
            _ ≤ _ := pow_le_pow_right₀ (by norm_num) (by omega)
        linarith
      have := (Int.lt_zpow_iff_log_lt (by norm_num) hpos).1 this
      omega
    · refine (Int.zpow_le_iff_le_log (by norm_num) hpos).1 ?_
      rw [Nat.cast_ofNat, show (p : ℤ) + 1 = ((p + 1 : ℕ) : ℤ) by push_cast; ring, zpow_natCast]
      linarith
  have hu : ulpExp p ((2 : ℚ) ^ (p + 1) + 1) = 2 := by
    unfold ulpExp
    rw [hlog]
    ring
  obtain ⟨q, rfl⟩ : ∃ q, p = q + 1 := ⟨p - 1, by omega⟩
  have e1 : ((2 : ℚ) ^ (q + 1 + 1) + 1) / 2 ^ (2 : ℤ) = ((2 ^ q : ℤ) : ℚ) + 1 / 4 := by
    push_cast
    rw [pow_succ, pow_succ]
    norm_num
    ring
  have e2 : round (((2 ^ q : ℤ) : ℚ) + 1 / 4) = 2 ^ q := by
    rw [round_intCast_add]
    have : round (1 / 4 : ℚ) = 0 := by rw [round_eq]; norm_num
    rw [this, _root_.add_zero]
  rw [roundBin, hu, e1, e2]
  push_cast
  rw [pow_succ, pow_succ]
  ring

end NeoFOAM
