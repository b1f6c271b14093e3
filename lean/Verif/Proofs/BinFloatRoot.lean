import Verif.Proofs.BinFloat
import Verif.Spec.FloatGeometry
import Mathlib.Data.Nat.Sqrt
import Mathlib.Tactic.NormNum

/-!
# Binary floating-point numbers: faithful rounding and square roots
-/
namespace NeoFOAM
variable {p : Nat}

theorem round_le_round {x y : ℚ} (h : x ≤ y) : round x ≤ round y := by
  rw [round_eq, round_eq]
  exact Int.floor_mono (by linarith)

theorem roundBin_le_mult {x : ℚ} {k : ℤ} (h : x ≤ k * 2 ^ ulpExp p x) : roundBin p x ≤ k * 2 ^ ulpExp p x := by
  have h2 := two_zpow_pos (ulpExp p x)
  have : round (x / 2 ^ ulpExp p x) ≤ k := by
    have := round_le_round (show x / 2 ^ ulpExp p x ≤ (k : ℚ) by rwa [div_le_iff₀ h2])
    rwa [round_intCast] at this
  exact mul_le_mul_of_nonneg_right (by exact_mod_cast this) h2.le

theorem mult_le_roundBin {x : ℚ} {k : ℤ} (h : k * 2 ^ ulpExp p x ≤ x) : k * 2 ^ ulpExp p x ≤ roundBin p x := by
  have h2 := two_zpow_pos (ulpExp p x)
  have : k ≤ round (x / 2 ^ ulpExp p x) := by
    have := round_le_round (show (k : ℚ) ≤ x / 2 ^ ulpExp p x by rwa [le_div_iff₀ h2])
    rwa [round_intCast] at this
  exact mul_le_mul_of_nonneg_right (by exact_mod_cast this) h2.le

/-- A number that can be stored is a multiple of the last bit of `x`, or not larger than the power of two below `x`, itself such a multiple. -/
theorem isBin_cases (hp : 0 < p) {z x : ℚ} (hz : IsBin p z) (hx : x ≠ 0) :
    (∃ k : ℤ, z = k * 2 ^ ulpExp p x) ∨ ∃ k : ℤ, |z| ≤ k * 2 ^ ulpExp p x ∧ (k : ℚ) * 2 ^ ulpExp p x ≤ |x| := by
  obtain ⟨m, e, hm, rfl⟩ := hz
  rcases le_or_gt (ulpExp p x) e with h | h
  · left
    obtain ⟨k, hk⟩ := Int.eq_ofNat_of_zero_le (sub_nonneg.2 h)
    refine ⟨m * 2 ^ k, ?_⟩
    have : (2 : ℚ) ^ e = 2 ^ k * 2 ^ ulpExp p x := by
      rw [← zpow_natCast (2 : ℚ) k, ← zpow_add₀ (by norm_num)]
      congr 1
      omega
    rw [this]
    push_cast
    ring
  · right
    obtain ⟨q, rfl⟩ : ∃ q, p = q + 1 := ⟨p - 1, by omega⟩
    have e1 : ((2 ^ q : ℤ) : ℚ) * 2 ^ ulpExp (q + 1) x = ((2 : ℕ) : ℚ) ^ Int.log 2 |x| := by
      push_cast
      rw [← zpow_natCast (2 : ℚ) q, ← zpow_add₀ (by norm_num), ulpExp]
      congr 1
      push_cast
      ring
    refine ⟨2 ^ q, ?_, ?_⟩
    · rw [abs_mul, abs_of_pos (two_zpow_pos e)]
      have h1 : |(m : ℚ)| ≤ 2 ^ (q + 1) := by exact_mod_cast hm
      have h2 : (2 : ℚ) ^ (e + 1) ≤ 2 ^ ulpExp (q + 1) x := zpow_le_zpow_right₀ (by norm_num) (by omega)
      rw [zpow_add₀ (by norm_num), zpow_one] at h2
      push_cast
      calc |(m : ℚ)| * 2 ^ e ≤ 2 ^ (q + 1) * 2 ^ e := mul_le_mul_of_nonneg_right h1 (two_zpow_pos e).le
        _ = 2 ^ q * (2 ^ e * 2) := by rw [pow_succ]; ring
        _ ≤ _ := mul_le_mul_of_nonneg_left h2 (by positivity)
    · rw [e1]
      exact Int.zpow_log_le_self (by norm_num) (abs_pos.2 hx)

theorem roundBin_zero : roundBin p 0 = 0 := by simp [roundBin]

theorem roundBin_le (hp : 0 < p) {x z : ℚ} (hz : IsBin p z) (h : x ≤ z) : roundBin p x ≤ z := by
  by_cases hx : x = 0
  · subst hx; rwa [roundBin_zero]
  rcases isBin_cases hp hz hx with ⟨k, rfl⟩ | ⟨k, h1, h2⟩
  · exact roundBin_le_mult h
  · rcases lt_or_gt_of_ne hx with hneg | hpos
    · rw [abs_of_neg hneg] at h2
      have : roundBin p x ≤ ((-k : ℤ) : ℚ) * 2 ^ ulpExp p x := roundBin_le_mult (by push_cast; linarith)
      push_cast at this
      linarith [neg_abs_le z]
    · rw [abs_of_pos hpos] at h2
      have : x = z := le_antisymm h ((le_abs_self z).trans (h1.trans h2))
      rw [this, roundBin_eq hp hz]

theorem le_roundBin (hp : 0 < p) {x z : ℚ} (hz : IsBin p z) (h : z ≤ x) : z ≤ roundBin p x := by
  by_cases hx : x = 0
  · subst hx; rwa [roundBin_zero]
  rcases isBin_cases hp hz hx with ⟨k, rfl⟩ | ⟨k, h1, h2⟩
  · exact mult_le_roundBin h
  · rcases lt_or_gt_of_ne hx with hneg | hpos
    · rw [abs_of_neg hneg] at h2
      have : x = z := le_antisymm (by linarith [neg_abs_le z]) h
      rw [this, roundBin_eq hp hz]
    · rw [abs_of_pos hpos] at h2
      have : (k : ℚ) * 2 ^ ulpExp p x ≤ roundBin p x := mult_le_roundBin h2
      linarith [le_abs_self z]

/-- Binary floating-point numbers round faithfully. -/
theorem binFloat_faithful (hp : 0 < p) : Faithful (BinFloat p) (BinFloat.val p) where
  add_le := fun _ _ c h => roundBin_le hp c.2 h
  le_add := fun _ _ c h => le_roundBin hp c.2 h
  div_le := fun _ _ c _ h => roundBin_le hp c.2 h
  le_div := fun _ _ c _ h => le_roundBin hp c.2 h

/-! ### The square root -/

/-- Exponent of the last bit of the root. -/
def rootExp (p : Nat) (x : ℚ) : ℤ := Int.log 4 x + 1 - p

/-- The integer next to the root. -/
def rootInt (t : ℚ) : Nat :=
  let q := Nat.sqrt ⌊t⌋₊
  if t ≤ q * q + q + 1 / 4 then q else q + 1

/-- The root, rounded to a nearest number. -/
def rootBin (p : Nat) (x : ℚ) : ℚ := if x ≤ 0 then 0 else rootInt (x / 4 ^ rootExp p x) * 2 ^ rootExp p x

theorem rootInt_near {t : ℚ} (ht : 0 ≤ t) : ∃ q : ℚ, (rootInt t : ℚ) = q ∧ 0 ≤ q ∧ t ≤ q * q + q + 1 / 4 ∧ (1 ≤ q → q * q - q + 1 / 4 ≤ t) ∧ q * q - q ≤ t := by
  set s := Nat.sqrt ⌊t⌋₊ with hs
  have h1 : (s : ℚ) * s ≤ t := by
    have := Nat.sqrt_le ⌊t⌋₊
    rw [← hs] at this
    calc ((s : ℚ) * s) ≤ (⌊t⌋₊ : ℚ) := by exact_mod_cast this
      _ ≤ t := Nat.floor_le ht
  have h2 : t < ((s : ℚ) + 1) * (s + 1) := by
    have := Nat.lt_succ_sqrt ⌊t⌋₊
    rw [← hs] at this
    calc t < (⌊t⌋₊ : ℚ) + 1 := Nat.lt_floor_add_one t
      _ ≤ _ := by exact_mod_cast this
  have hs0 : (0 : ℚ) ≤ s := Nat.cast_nonneg s
  refine ⟨_, rfl, Nat.cast_nonneg _, ?_⟩
  unfold rootInt
  rw [← hs]
  simp only []
  split
  · rename_i h
    exact ⟨h, fun _ => by linarith, by nlinarith⟩
  · rename_i h
    push_cast
    push Not at h
    exact ⟨by nlinarith, fun _ => by nlinarith, by nlinarith⟩

theorem rootBin_spec (hp : 0 < p) {x : ℚ} (hx : 0 < x) : ∃ (q : Nat) (t : ℚ), rootBin p x = q * 2 ^ rootExp p x ∧ x = t * 4 ^ rootExp p x ∧ (q : ℤ) ≤ 2 ^ p ∧
    (1 - 1 / 2 ^ p) ^ 2 * t ≤ (q : ℚ) ^ 2 ∧ (q : ℚ) ^ 2 ≤ (1 + 1 / 2 ^ p) ^ 2 * t := by
  have h4 : (0 : ℚ) < 4 ^ rootExp p x := zpow_pos (by norm_num) _
  set t := x / 4 ^ rootExp p x with ht
  have hxt : x = t * 4 ^ rootExp p x := by rw [ht, div_mul_cancel₀ _ h4.ne']
  have hP : (0 : ℚ) < 2 ^ p := by positivity
  have hlo : (2 ^ p / 2) ^ 2 ≤ t := by
    rw [ht, le_div_iff₀ h4]
    have h := Int.zpow_log_le_self (b := 4) (by norm_num) hx
    refine le_trans (le_of_eq ?_) h
    rw [rootExp, zpow_sub₀ (by norm_num), zpow_add₀ (by norm_num), zpow_one, zpow_natCast, Nat.cast_ofNat,
      show (4 : ℚ) ^ p = 2 ^ p * 2 ^ p by rw [← mul_pow]; norm_num]
    field_simp
    norm_num
  have hhi : t < (2 ^ p) ^ 2 := by
    rw [ht, div_lt_iff₀ h4]
    have h := Int.lt_zpow_succ_log_self (b := 4) (by norm_num) x
    refine lt_of_lt_of_eq h ?_
    rw [rootExp, zpow_sub₀ (by norm_num), zpow_add₀ (by norm_num), zpow_one, zpow_natCast, Nat.cast_ofNat,
      show (4 : ℚ) ^ p = 2 ^ p * 2 ^ p by rw [← mul_pow]; norm_num]
    field_simp
    rw [zpow_add₀ (by norm_num), zpow_one]
  have ht0 : 0 ≤ t := le_trans (by positivity) hlo
  obtain ⟨q, hq, hq0, h1, h2, h3⟩ := rootInt_near ht0
  refine ⟨rootInt t, t, ?_, hxt, ?_, ?_, ?_⟩
  · rw [rootBin, if_neg (not_le.2 hx)]
  · by_contra hn
    have hn' : (2 : ℤ) ^ p + 1 ≤ (rootInt t : ℤ) := by omega
    have hn2 : (2 : ℚ) ^ p + 1 ≤ (rootInt t : ℚ) := by exact_mod_cast hn'
    rw [hq] at hn2
    nlinarith
  · rw [hq]
    have hge : 2 ^ p / 2 ≤ q + 1 / 2 := by
      by_contra hn
      nlinarith
    have hle : (1 - 1 / 2 ^ p) * (q + 1 / 2) ≤ q := by
      have : 1 / 2 ≤ 1 / 2 ^ p * (q + 1 / 2) := by
        rw [div_mul_eq_mul_div, le_div_iff₀ hP]; linarith
      nlinarith
    have hu1 : (0 : ℚ) ≤ 1 - 1 / 2 ^ p := by
      have : (1 : ℚ) / 2 ^ p ≤ 1 := by rw [div_le_one hP]; exact one_le_pow₀ (by norm_num)
      linarith
    calc (1 - 1 / 2 ^ p) ^ 2 * t ≤ (1 - 1 / 2 ^ p) ^ 2 * (q + 1 / 2) ^ 2 := mul_le_mul_of_nonneg_left (by nlinarith) (sq_nonneg _)
      _ = ((1 - 1 / 2 ^ p) * (q + 1 / 2)) ^ 2 := by ring
      _ ≤ q ^ 2 := pow_le_pow_left₀ (mul_nonneg hu1 (by linarith)) hle 2
  · rw [hq]
    obtain ⟨r, rfl⟩ : ∃ r, p = r + 1 := ⟨p - 1, by omega⟩
    have hone : (1 : ℚ) ≤ (1 + 1 / 2 ^ (r + 1)) ^ 2 := one_le_pow₀ (by linarith [show (0 : ℚ) ≤ 1 / 2 ^ (r + 1) by positivity])
    rcases le_or_gt (rootInt t) (2 ^ r) with hs | hs
    · have hs' : q ≤ 2 ^ r := by rw [← hq]; exact_mod_cast hs
      have : q ^ 2 ≤ (2 ^ (r + 1) / 2) ^ 2 := by
        refine pow_le_pow_left₀ hq0 (hs'.trans (le_of_eq ?_)) 2
        rw [pow_succ]; ring
      calc q ^ 2 ≤ t := this.trans hlo
        _ ≤ _ := le_mul_of_one_le_left ht0 hone
    · have hs' : 2 ^ r + 1 ≤ q := by rw [← hq]; exact_mod_cast hs
      have hr0 : (0 : ℚ) < 2 ^ r := by positivity
      have hle : q ≤ (1 + 1 / 2 ^ (r + 1)) * (q - 1 / 2) := by
        have : 1 / 2 ≤ 1 / 2 ^ (r + 1) * (q - 1 / 2) := by
          rw [div_mul_eq_mul_div, le_div_iff₀ hP, pow_succ]; linarith
        nlinarith
      calc q ^ 2 ≤ ((1 + 1 / 2 ^ (r + 1)) * (q - 1 / 2)) ^ 2 := pow_le_pow_left₀ hq0 hle 2
        _ = (1 + 1 / 2 ^ (r + 1)) ^ 2 * (q * q - q + 1 / 4) := by ring
        _ ≤ _ := mul_le_mul_of_nonneg_left (h2 (by linarith)) (sq_nonneg _)

theorem rootBin_isBin (hp : 0 < p) (x : ℚ) : IsBin p (rootBin p x) := by
  rcases le_or_gt x 0 with h | h
  · rw [rootBin, if_pos h]; exact ⟨0, 0, by simp, by simp⟩
  · obtain ⟨q, t, h1, _, h2, _⟩ := rootBin_spec hp h
    exact ⟨q, rootExp p x, by rw [abs_of_nonneg (Int.natCast_nonneg q)]; exact h2, by rw [h1]; simp⟩

/-- Square root of a binary floating-point number, rounded to a nearest number. -/
def BinFloat.root (hp : 0 < p) (a : BinFloat p) : BinFloat p := ⟨rootBin p a.1, rootBin_isBin hp a.1⟩

theorem binFloat_root (hp : 0 < p) : FloatRoot (BinFloat.val p) (1 / 2 ^ p) (BinFloat.root hp) := by
  intro a ha
  show 0 ≤ rootBin p a.1 ∧ (1 - 1 / 2 ^ p) ^ 2 * a.1 ≤ rootBin p a.1 ^ 2 ∧ rootBin p a.1 ^ 2 ≤ (1 + 1 / 2 ^ p) ^ 2 * a.1
  have ha' : 0 ≤ a.1 := ha
  rcases ha'.eq_or_lt with h | h
  · rw [rootBin, if_pos h.ge, ← h]; simp
  · obtain ⟨q, t, h1, h2, _, h3, h4⟩ := rootBin_spec hp h
    have e4 : (4 : ℚ) ^ rootExp p a.1 = (2 ^ rootExp p a.1) ^ 2 := by
      rw [sq, ← mul_zpow]; norm_num
    have h0 : (0 : ℚ) ≤ (2 ^ rootExp p a.1) ^ 2 := sq_nonneg _
    have e5 : a.1 = t * (2 ^ rootExp p a.1) ^ 2 := h2.trans (by rw [e4])
    rw [h1]
    refine ⟨mul_nonneg (Nat.cast_nonneg q) (two_zpow_pos _).le, ?_, ?_⟩
    · calc _ = (1 - 1 / 2 ^ p) ^ 2 * t * (2 ^ rootExp p a.1) ^ 2 := by rw [mul_assoc, ← e5]
        _ ≤ (q : ℚ) ^ 2 * (2 ^ rootExp p a.1) ^ 2 := mul_le_mul_of_nonneg_right h3 h0
        _ = _ := by rw [mul_pow]
    · calc _ = (q : ℚ) ^ 2 * (2 ^ rootExp p a.1) ^ 2 := by rw [mul_pow]
        _ ≤ (1 + 1 / 2 ^ p) ^ 2 * t * (2 ^ rootExp p a.1) ^ 2 := mul_le_mul_of_nonneg_right h4 h0
        _ = _ := by rw [mul_assoc, ← e5]

end NeoFOAM
