import Verif.Model.Time
import Verif.Proofs.BinFloatRoot

/-!
# C100 – the time loop
-/
namespace NeoFOAM

/-- Calling `loop` `n` times: what it returns each time, and the time at the end. -/
def timeCalls {F : Type} [Add F] [One F] [LE F] [DecidableLE F] (ten : F) : Nat → Time F → List Bool × Time F
  | 0, t => ([], t)
  | n + 1, t =>
    let r := timeCalls ten n t
    (r.1 ++ [(r.2.loop ten).1], (r.2.loop ten).2)

section
variable {p : Nat}

theorem isBin_nat {p n : Nat} (h : n ≤ 2 ^ p) : IsBin p (n : ℚ) := ⟨n, 0, by simpa using (by exact_mod_cast h : (n : ℤ) ≤ 2 ^ p), by simp⟩

/-- The literal `10.0`. -/
def tenBin (hp : 4 ≤ p) : BinFloat p := ⟨10, by
  have h : 10 ≤ 2 ^ p := le_trans (by norm_num) (Nat.pow_le_pow_right (by norm_num) hp : 2 ^ 4 ≤ 2 ^ p)
  simpa using isBin_nat h⟩

theorem time_after (hp : 4 ≤ p) (n : Nat) : (n ≤ 2 ^ p → (timeCalls (tenBin hp) n (Time.new (BinFloat p))).2.time.1 = n) ∧
    (2 ^ p ≤ n → (2 : ℚ) ^ p ≤ (timeCalls (tenBin hp) n (Time.new (BinFloat p))).2.time.1) := by
  have hp0 : 0 < p := by omega
  induction n with
  | zero =>
    refine ⟨fun _ => ?_, fun h => absurd h (by have := Nat.pow_pos (n := p) (show 0 < 2 by norm_num); omega)⟩
    change ((0 : BinFloat p).1 : ℚ) = ((0 : Nat) : ℚ)
    rw [Nat.cast_zero]; rfl
  | succ n ih =>
    have e : (timeCalls (tenBin hp) (n + 1) (Time.new (BinFloat p))).2.time.1 = roundBin p ((timeCalls (tenBin hp) n (Time.new (BinFloat p))).2.time.1 + 1) := rfl
    have hlow : 2 ^ p ≤ n → (2 : ℚ) ^ p ≤ (timeCalls (tenBin hp) (n + 1) (Time.new (BinFloat p))).2.time.1 := fun h => by
      rw [e]
      have := ih.2 h
      refine le_roundBin hp0 ?_ (by linarith)
      have := isBin_nat (p := p) (n := 2 ^ p) le_rfl
      push_cast at this
      exact this
    have hex : n + 1 ≤ 2 ^ p → (timeCalls (tenBin hp) (n + 1) (Time.new (BinFloat p))).2.time.1 = ((n + 1 : Nat) : ℚ) := fun h => by
      rw [e, ih.1 (by omega)]
      have := roundBin_eq hp0 (isBin_nat h)
      push_cast at this ⊢
      exact this
    refine ⟨hex, fun h => ?_⟩
    rcases Nat.lt_or_ge n (2 ^ p) with hn | hn
    · rw [hex hn]
      exact_mod_cast h
    · exact hlow hn

/-- **C100**: in binary floating point with at least four bits of significand, the first ten calls of `loop` on a new `Time` return true and all later ones, however many
are made, return false: what was false stays false, although the clock itself stands still once it is too large to add 1. -/
theorem C100_calls (hp : 4 ≤ p) (n : Nat) : (timeCalls (tenBin hp) n (Time.new (BinFloat p))).1 = (List.range n).map (fun k => decide (k < 10)) := by
  have h16 : 16 ≤ 2 ^ p := le_trans (by norm_num) (Nat.pow_le_pow_right (by norm_num) hp : 2 ^ 4 ≤ 2 ^ p)
  induction n with
  | zero => rfl
  | succ n ih =>
    rw [List.range_succ, List.map_append, ← ih]
    change _ ++ _ = _ ++ _
    congr 1
    simp only [List.map_cons, List.map_nil, List.cons.injEq, and_true]
    change decide ((timeCalls (tenBin hp) (n + 1) (Time.new (BinFloat p))).2.time.1 ≤ (10 : ℚ)) = _
    have ha := time_after hp (n + 1)
    rcases Nat.lt_or_ge (n + 1) (2 ^ p) with hn | hn
    · rw [ha.1 hn.le]
      refine decide_eq_decide.2 ?_
      rw [show (10 : ℚ) = ((10 : Nat) : ℚ) by norm_num, Nat.cast_le]
      omega
    · have h1 := ha.2 hn
      have h2 : (16 : ℚ) ≤ 2 ^ p := by exact_mod_cast h16
      refine decide_eq_decide.2 ⟨fun h => ?_, fun h => ?_⟩
      · linarith
      · omega

/-- A loop makes the rounds for which `loop` returns true. -/
theorem rounds_of_calls (hp : 4 ≤ p) : ∀ k n : Nat, n + k = 10 → ∀ fuel, k < fuel →
    ((timeCalls (tenBin hp) n (Time.new (BinFloat p))).2.rounds (tenBin hp) fuel).1.map (·.1) = (List.range' (n + 1) k).map (fun i : Nat => (i : ℚ)) ∧
    ((timeCalls (tenBin hp) n (Time.new (BinFloat p))).2.rounds (tenBin hp) fuel).2 = true := by
  have h16 : 16 ≤ 2 ^ p := le_trans (by norm_num) (Nat.pow_le_pow_right (by norm_num) hp : 2 ^ 4 ≤ 2 ^ p)
  intro k
  induction k with
  | zero =>
    intro n hn fuel hf
    obtain ⟨fuel, rfl⟩ : ∃ g, fuel = g + 1 := ⟨fuel - 1, by omega⟩
    have hl : ((timeCalls (tenBin hp) n (Time.new (BinFloat p))).2.loop (tenBin hp)).1 = false := by
      change decide ((timeCalls (tenBin hp) (n + 1) (Time.new (BinFloat p))).2.time.1 ≤ (10 : ℚ)) = false
      rw [(time_after hp (n + 1)).1 (by omega)]
      refine decide_eq_false ?_
      rw [show (10 : ℚ) = ((10 : Nat) : ℚ) by norm_num, Nat.cast_le]
      omega
    simp [Time.rounds, hl]
  | succ k ih =>
    intro n hn fuel hf
    obtain ⟨fuel, rfl⟩ : ∃ g, fuel = g + 1 := ⟨fuel - 1, by omega⟩
    have ht := (time_after hp (n + 1)).1 (by omega)
    have hl : ((timeCalls (tenBin hp) n (Time.new (BinFloat p))).2.loop (tenBin hp)).1 = true := by
      change decide ((timeCalls (tenBin hp) (n + 1) (Time.new (BinFloat p))).2.time.1 ≤ (10 : ℚ)) = true
      rw [ht]
      refine decide_eq_true ?_
      rw [show (10 : ℚ) = ((10 : Nat) : ℚ) by norm_num, Nat.cast_le]
      omega
    have h2 := ih (n + 1) (by omega) fuel (by omega)
    have e : (timeCalls (tenBin hp) (n + 1) (Time.new (BinFloat p))).2 = ((timeCalls (tenBin hp) n (Time.new (BinFloat p))).2.loop (tenBin hp)).2 := rfl
    rw [e] at h2 ht
    simp only [Time.rounds, hl, if_true, List.map_cons, List.range'_succ]
    exact ⟨by rw [h2.1, ht], h2.2⟩

/-- **C100, the loop of an application**: `while (runTime.loop())` ends, and makes ten rounds, which see the times 1 to 10. -/
theorem C100_rounds (hp : 4 ≤ p) (fuel : Nat) (hf : 10 < fuel) :
    ((Time.new (BinFloat p)).rounds (tenBin hp) fuel).1.map (BinFloat.val p) = [1, 2, 3, 4, 5, 6, 7, 8, 9, 10] ∧
    ((Time.new (BinFloat p)).rounds (tenBin hp) fuel).2 = true := by
  have h := rounds_of_calls hp 10 0 rfl fuel hf
  refine ⟨h.1.trans ?_, h.2⟩
  simp [List.range'_succ]

end

/-- Double and single precision. -/
example : (timeCalls (tenBin (p := 53) (by norm_num)) 12 (Time.new (BinFloat 53))).1 = [true, true, true, true, true, true, true, true, true, true, false, false] :=
  C100_calls _ 12
example : ((Time.new (BinFloat 24)).rounds (tenBin (by norm_num)) 11).2 = true := (C100_rounds _ 11 (by norm_num)).2

end NeoFOAM
