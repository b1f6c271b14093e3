import Mathlib.Analysis.Calculus.MeanValue
import Mathlib.Analysis.Calculus.Deriv.Comp
import Mathlib.Analysis.Calculus.Deriv.Pow
import Mathlib.Tactic

/-!
# Differences and derivatives of functions on the unit interval
-/
namespace NeoFOAM
open Set

/-- `u1` is the derivative of `u` on the set `I` (one-sided at the ends of an interval). -/
def DerivIn (I : Set ℝ) (u u1 : ℝ → ℝ) : Prop := ∀ x ∈ I, HasDerivWithinAt u (u1 x) I x

/-- `u1` is the derivative of `u` on the closed unit interval. -/
def DerivOn (u u1 : ℝ → ℝ) : Prop := DerivIn (Icc 0 1) u u1

/-- Growth of a function that starts at zero, from the growth of its derivative. -/
theorem grow {T : ℝ} {g g' : ℝ → ℝ} (hd : ∀ s ∈ Icc (0 : ℝ) T, HasDerivWithinAt g (g' s) (Icc 0 T) s) (h0 : g 0 = 0) (C : ℝ) (k : ℕ)
    (hb : ∀ s ∈ Icc (0 : ℝ) T, |g' s| ≤ C * s ^ k) : ∀ s ∈ Icc (0 : ℝ) T, |g s| ≤ C / (k + 1) * s ^ (k + 1) := by
  intro s hs
  have := image_norm_le_of_norm_deriv_right_le_deriv_boundary (f := g) (f' := g') (a := 0) (b := T) (fun x hx => (hd x hx).continuousWithinAt)
    (fun x hx => ((hd x ⟨hx.1, hx.2.le⟩).mono_of_mem_nhdsWithin (Icc_mem_nhdsGE_of_mem hx)))
    (B := fun s => C / (k + 1) * s ^ (k + 1)) (B' := fun s => C * s ^ k) (by simp [h0])
    (fun x => by
      have := ((hasDerivAt_pow (k + 1) x).const_mul (C / (k + 1)))
      refine this.congr_deriv ?_
      push_cast
      have : (k : ℝ) + 1 ≠ 0 := by positivity
      field_simp) (fun x hx => by rw [Real.norm_eq_abs]; exact hb x ⟨hx.1, hx.2.le⟩) hs
  rwa [Real.norm_eq_abs] at this

/-- A function read along a segment. -/
theorem DerivIn.along {I : Set ℝ} {u u1 : ℝ → ℝ} (h : DerivIn I u u1) (p r T : ℝ) (hin : ∀ s ∈ Icc (0 : ℝ) T, p + r * s ∈ I) :
    ∀ s ∈ Icc (0 : ℝ) T, HasDerivWithinAt (fun s => u (p + r * s)) (r * u1 (p + r * s)) (Icc 0 T) s := by
  intro s hs
  have hl : HasDerivWithinAt (fun s : ℝ => p + r * s) r (Icc 0 T) s := by
    have := (((hasDerivAt_id s).const_mul r).const_add p).hasDerivWithinAt (s := Icc 0 T)
    simpa using this
  have := (h _ (hin s hs)).comp s hl hin
  rw [mul_comm] at this
  exact this

/-- A function of the unit interval read along a segment in it. -/
theorem DerivOn.along {u u1 : ℝ → ℝ} (h : DerivOn u u1) (p r T : ℝ) (hin : ∀ s ∈ Icc (0 : ℝ) T, p + r * s ∈ Icc (0 : ℝ) 1) :
    ∀ s ∈ Icc (0 : ℝ) T, HasDerivWithinAt (fun s => u (p + r * s)) (r * u1 (p + r * s)) (Icc 0 T) s := DerivIn.along h p r T hin

/-- The value at a distance, to the first order. -/
theorem first_order {I : Set ℝ} {u u1 u2 : ℝ → ℝ} (h1 : DerivIn I u u1) (h2 : DerivIn I u1 u2) {M : ℝ} (hM : ∀ x ∈ I, |u2 x| ≤ M) {p r y : ℝ} (hr : r ^ 2 = 1) (hy : 0 ≤ y)
    (hin : ∀ s ∈ Icc (0 : ℝ) y, p + r * s ∈ I) : |u (p + r * y) - u p - r * y * u1 p| ≤ M / 2 * y ^ 2 := by
  have d1 : ∀ s ∈ Icc (0 : ℝ) y, |r * u1 (p + r * s) - r * u1 p| ≤ M / ((0 : ℕ) + 1) * s ^ (0 + 1) := by
    refine grow (g := fun s => r * u1 (p + r * s) - r * u1 p) (g' := fun s => r * (r * u2 (p + r * s)))
      (fun s hs => ((h2.along p r y hin s hs).const_mul r).sub_const _) (by simp) M 0 fun s hs => ?_
    rw [← mul_assoc, ← pow_two, hr]
    simpa using hM _ (hin s hs)
  have d2 : ∀ s ∈ Icc (0 : ℝ) y, |u (p + r * s) - u p - r * s * u1 p| ≤ M / ((1 : ℕ) + 1) * s ^ (1 + 1) := by
    refine grow (g := fun s => u (p + r * s) - u p - r * s * u1 p) (g' := fun s => r * u1 (p + r * s) - r * u1 p)
      (fun s hs => ((h1.along p r y hin s hs).sub_const _).sub (by
        have := (((hasDerivAt_id s).const_mul r).mul_const (u1 p)).hasDerivWithinAt (s := Icc 0 y)
        simpa using this)) (by simp) M 1 fun s hs => ?_
    have := d1 s hs
    norm_num at this ⊢
    exact this
  have := d2 y ⟨hy, le_rfl⟩
  norm_num at this
  exact this

/-- The value at a distance, to the second order. -/
theorem second_order {I : Set ℝ} {u u1 u2 u3 : ℝ → ℝ} (h1 : DerivIn I u u1) (h2 : DerivIn I u1 u2) (h3 : DerivIn I u2 u3) {M : ℝ} (hM : ∀ x ∈ I, |u3 x| ≤ M) {p r y : ℝ}
    (hr : r ^ 2 = 1) (hy : 0 ≤ y) (hin : ∀ s ∈ Icc (0 : ℝ) y, p + r * s ∈ I) : |u (p + r * y) - u p - r * y * u1 p - y ^ 2 / 2 * u2 p| ≤ M / 6 * y ^ 3 := by
  have hr1 : |r| = 1 := by
    have := sq_abs r
    rw [hr] at this
    nlinarith [abs_nonneg r]
  have d1 : ∀ s ∈ Icc (0 : ℝ) y, |r * u1 (p + r * s) - r * u1 p - s * u2 p| ≤ M / 2 / ((1 : ℕ) + 1) * 2 * s ^ (1 + 1) := by
    intro s hs
    have := first_order h2 h3 hM (p := p) (r := r) (y := s) hr hs.1 (fun s' hs' => hin s' ⟨hs'.1, hs'.2.trans hs.2⟩)
    have e : r * u1 (p + r * s) - r * u1 p - s * u2 p = r * (u1 (p + r * s) - u1 p - r * s * u2 p) := by linear_combination s * u2 p * hr
    rw [e, abs_mul, hr1, one_mul]
    refine this.trans (le_of_eq ?_)
    push_cast
    ring
  have d2 : ∀ s ∈ Icc (0 : ℝ) y, |u (p + r * s) - u p - r * s * u1 p - s ^ 2 / 2 * u2 p| ≤ M / 2 / ((2 : ℕ) + 1) * s ^ (2 + 1) := by
    refine grow (g := fun s => u (p + r * s) - u p - r * s * u1 p - s ^ 2 / 2 * u2 p) (g' := fun s => r * u1 (p + r * s) - r * u1 p - s * u2 p)
      (fun s hs => (((h1.along p r y hin s hs).sub_const _).sub (by
        have := (((hasDerivAt_id s).const_mul r).mul_const (u1 p)).hasDerivWithinAt (s := Icc 0 y)
        simpa using this)).sub (by
        have := (((hasDerivAt_pow 2 s).div_const 2).mul_const (u2 p)).hasDerivWithinAt (s := Icc 0 y)
        refine this.congr_deriv ?_
        push_cast
        ring)) (by simp) (M / 2) 2 fun s hs => ?_
    refine (d1 s hs).trans (le_of_eq ?_)
    push_cast
    ring
  refine (d2 y ⟨hy, le_rfl⟩).trans (le_of_eq ?_)
  push_cast
  ring

/-- The value at a distance, to order zero. -/
theorem zeroth_order {I : Set ℝ} {u u1 : ℝ → ℝ} (h1 : DerivIn I u u1) {M : ℝ} (hM : ∀ x ∈ I, |u1 x| ≤ M) {p r y : ℝ} (hr : r ^ 2 = 1) (hy : 0 ≤ y)
    (hin : ∀ s ∈ Icc (0 : ℝ) y, p + r * s ∈ I) : |u (p + r * y) - u p| ≤ M * y := by
  have hr1 : |r| = 1 := by
    have := sq_abs r
    rw [hr] at this
    nlinarith [abs_nonneg r]
  have d1 : ∀ s ∈ Icc (0 : ℝ) y, |u (p + r * s) - u p| ≤ M / ((0 : ℕ) + 1) * s ^ (0 + 1) := by
    refine grow (g := fun s => u (p + r * s) - u p) (g' := fun s => r * u1 (p + r * s)) (fun s hs => (h1.along p r y hin s hs).sub_const _) (by simp) M 0 fun s hs => ?_
    rw [abs_mul, hr1, one_mul]
    simpa using hM _ (hin s hs)
  have := d1 y ⟨hy, le_rfl⟩
  norm_num at this
  exact this

/-- The second difference at a point inside is the square of the step times the second derivative, up to the fourth order. -/
theorem second_difference {u u1 u2 u3 u4 : ℝ → ℝ} (h1 : DerivOn u u1) (h2 : DerivOn u1 u2) (h3 : DerivOn u2 u3) (h4 : DerivOn u3 u4)
    {M : ℝ} (hM : ∀ x ∈ Icc (0 : ℝ) 1, |u4 x| ≤ M) {x h : ℝ} (hh : 0 ≤ h) (hl : 0 ≤ x - h) (hr : x + h ≤ 1) :
    |u (x + h) - 2 * u x + u (x - h) - h ^ 2 * u2 x| ≤ M / 12 * h ^ 4 := by
  have hp : ∀ s ∈ Icc (0 : ℝ) h, x + 1 * s ∈ Icc (0 : ℝ) 1 := fun s hs => ⟨by linarith [hs.1], by linarith [hs.2]⟩
  have hm : ∀ s ∈ Icc (0 : ℝ) h, x + (-1) * s ∈ Icc (0 : ℝ) 1 := fun s hs => ⟨by linarith [hs.2], by linarith [hs.1]⟩
  have d1 : ∀ s ∈ Icc (0 : ℝ) h, |u3 (x + 1 * s) - u3 (x + (-1) * s)| ≤ 2 * M / ((0 : ℕ) + 1) * s ^ (0 + 1) := by
    refine grow (g := fun s => u3 (x + 1 * s) - u3 (x + (-1) * s)) (fun s hs => (h4.along x 1 h hp s hs).sub (h4.along x (-1) h hm s hs)) (by simp) (2 * M) 0 fun s hs => ?_
    have a := abs_le.1 (hM _ (hp s hs))
    have b := abs_le.1 (hM _ (hm s hs))
    rw [abs_le]
    constructor <;> linarith
  have d2 : ∀ s ∈ Icc (0 : ℝ) h, |u2 (x + 1 * s) + u2 (x + (-1) * s) - 2 * u2 x| ≤ 2 * M / ((1 : ℕ) + 1) * s ^ (1 + 1) := by
    refine grow (g := fun s => u2 (x + 1 * s) + u2 (x + (-1) * s) - 2 * u2 x) (fun s hs => ((h3.along x 1 h hp s hs).add (h3.along x (-1) h hm s hs)).sub_const _)
      (by simp; ring) (2 * M) 1 fun s hs => ?_
    have := d1 s hs
    norm_num at this ⊢
    rwa [← sub_eq_add_neg]
  have d3 : ∀ s ∈ Icc (0 : ℝ) h, |u1 (x + 1 * s) - u1 (x + (-1) * s) - 2 * u2 x * s| ≤ M / ((2 : ℕ) + 1) * s ^ (2 + 1) := by
    refine grow (g := fun s => u1 (x + 1 * s) - u1 (x + (-1) * s) - 2 * u2 x * s)
      (g' := fun s => 1 * u2 (x + 1 * s) - (-1) * u2 (x + (-1) * s) - 2 * u2 x)
      (fun s hs => ((h2.along x 1 h hp s hs).sub (h2.along x (-1) h hm s hs)).sub
        (by simpa using ((hasDerivAt_id s).const_mul (2 * u2 x)).hasDerivWithinAt (s := Icc 0 h))) (by simp) M 2 fun s hs => ?_
    have := d2 s hs
    norm_num at this ⊢
    exact this
  have d4 : ∀ s ∈ Icc (0 : ℝ) h, |u (x + 1 * s) + u (x + (-1) * s) - 2 * u x - u2 x * s ^ 2| ≤ M / 3 / ((3 : ℕ) + 1) * s ^ (3 + 1) := by
    refine grow (g := fun s => u (x + 1 * s) + u (x + (-1) * s) - 2 * u x - u2 x * s ^ 2)
      (g' := fun s => 1 * u1 (x + 1 * s) + (-1) * u1 (x + (-1) * s) - u2 x * (2 * s))
      (fun s hs => (((h1.along x 1 h hp s hs).add (h1.along x (-1) h hm s hs)).sub_const _).sub
        (by simpa using ((hasDerivAt_pow 2 s).const_mul (u2 x)).hasDerivWithinAt (s := Icc 0 h))) (by simp; ring) (M / 3) 3 fun s hs => ?_
    have := d3 s hs
    norm_num at this ⊢
    rw [← sub_eq_add_neg]
    have e : u1 (x + s) - u1 (x + -s) - u2 x * (2 * s) = u1 (x + s) - u1 (x + -s) - 2 * u2 x * s := by ring
    rw [e]
    exact this
  have := d4 h ⟨hh, le_rfl⟩
  norm_num at this
  have e : u (x + h) - 2 * u x + u (x - h) - h ^ 2 * u2 x = u (x + h) + u (x + -h) - 2 * u x - u2 x * h ^ 2 := by
    rw [← sub_eq_add_neg x h]; ring
  rw [e]
  refine this.trans (le_of_eq ?_)
  ring

/-- Two values on one side of a point: `u(p + 3 r s) - 3 u(p + r s) + 2 u(p)` is of second order. -/
theorem end_difference {u u1 u2 : ℝ → ℝ} (h1 : DerivOn u u1) (h2 : DerivOn u1 u2) {M : ℝ} (hM : ∀ x ∈ Icc (0 : ℝ) 1, |u2 x| ≤ M)
    {p r y : ℝ} (hr : r ^ 2 = 1) (hy : 0 ≤ y) (h3 : ∀ s ∈ Icc (0 : ℝ) (3 * y), p + r * s ∈ Icc (0 : ℝ) 1) :
    |u (p + r * (3 * y)) - 3 * u (p + r * y) + 2 * u p| ≤ 6 * M * y ^ 2 := by
  have i3 : ∀ s ∈ Icc (0 : ℝ) y, p + (3 * r) * s ∈ Icc (0 : ℝ) 1 := fun s hs => by
    have := h3 (3 * s) ⟨by linarith [hs.1], by linarith [hs.2]⟩
    rwa [show p + 3 * r * s = p + r * (3 * s) by ring]
  have i1 : ∀ s ∈ Icc (0 : ℝ) y, p + r * s ∈ Icc (0 : ℝ) 1 := fun s hs => h3 s ⟨hs.1, by linarith [hs.1, hs.2]⟩
  have d1 : ∀ s ∈ Icc (0 : ℝ) y, |3 * r * u1 (p + (3 * r) * s) - 3 * (r * u1 (p + r * s))| ≤ 12 * M / ((0 : ℕ) + 1) * s ^ (0 + 1) := by
    refine grow (g := fun s => 3 * r * u1 (p + (3 * r) * s) - 3 * (r * u1 (p + r * s)))
      (g' := fun s => 3 * r * (3 * r * u2 (p + (3 * r) * s)) - 3 * (r * (r * u2 (p + r * s))))
      (fun s hs => ((h2.along p (3 * r) y i3 s hs).const_mul (3 * r)).sub (((h2.along p r y i1 s hs).const_mul r).const_mul 3)) (by simp; ring) (12 * M) 0 fun s hs => ?_
    have e : 3 * r * (3 * r * u2 (p + (3 * r) * s)) - 3 * (r * (r * u2 (p + r * s))) = r ^ 2 * (9 * u2 (p + (3 * r) * s) - 3 * u2 (p + r * s)) := by ring
    rw [e, hr]
    have a := abs_le.1 (hM _ (i3 s hs))
    have b := abs_le.1 (hM _ (i1 s hs))
    rw [abs_le]
    constructor <;> linarith
  have d2 : ∀ s ∈ Icc (0 : ℝ) y, |u (p + (3 * r) * s) - 3 * u (p + r * s) + 2 * u p| ≤ 12 * M / ((1 : ℕ) + 1) * s ^ (1 + 1) := by
    refine grow (g := fun s => u (p + (3 * r) * s) - 3 * u (p + r * s) + 2 * u p)
      (fun s hs => ((h1.along p (3 * r) y i3 s hs).sub ((h1.along p r y i1 s hs).const_mul 3)).add_const _) (by simp; ring) (12 * M) 1 fun s hs => ?_
    have := d1 s hs
    norm_num at this ⊢
    exact this
  have := d2 y ⟨hy, le_rfl⟩
  rw [show p + r * (3 * y) = p + 3 * r * y by ring]
  refine this.trans (le_of_eq ?_)
  push_cast
  ring

/-- The middle value and the two end values, second order. -/
theorem middle_difference {u u1 u2 : ℝ → ℝ} (h1 : DerivOn u u1) (h2 : DerivOn u1 u2) {M : ℝ} (hM : ∀ x ∈ Icc (0 : ℝ) 1, |u2 x| ≤ M) :
    |u 1 - 2 * u (1 / 2) + u 0| ≤ M / 4 := by
  have hp : ∀ s ∈ Icc (0 : ℝ) (1 / 2), 1 / 2 + 1 * s ∈ Icc (0 : ℝ) 1 := fun s hs => ⟨by linarith [hs.1], by linarith [hs.2]⟩
  have hm : ∀ s ∈ Icc (0 : ℝ) (1 / 2), 1 / 2 + (-1) * s ∈ Icc (0 : ℝ) 1 := fun s hs => ⟨by linarith [hs.2], by linarith [hs.1]⟩
  have d1 : ∀ s ∈ Icc (0 : ℝ) (1 / 2), |u1 (1 / 2 + 1 * s) - u1 (1 / 2 + (-1) * s)| ≤ 2 * M / ((0 : ℕ) + 1) * s ^ (0 + 1) := by
    refine grow (g := fun s => u1 (1 / 2 + 1 * s) - u1 (1 / 2 + (-1) * s)) (fun s hs => (h2.along (1 / 2) 1 _ hp s hs).sub (h2.along (1 / 2) (-1) _ hm s hs)) (by simp) (2 * M) 0
      fun s hs => ?_
    have a := abs_le.1 (hM _ (hp s hs))
    have b := abs_le.1 (hM _ (hm s hs))
    rw [abs_le]
    constructor <;> linarith
  have d2 : ∀ s ∈ Icc (0 : ℝ) (1 / 2), |u (1 / 2 + 1 * s) + u (1 / 2 + (-1) * s) - 2 * u (1 / 2)| ≤ 2 * M / ((1 : ℕ) + 1) * s ^ (1 + 1) := by
    refine grow (g := fun s => u (1 / 2 + 1 * s) + u (1 / 2 + (-1) * s) - 2 * u (1 / 2))
      (g' := fun s => 1 * u1 (1 / 2 + 1 * s) + (-1) * u1 (1 / 2 + (-1) * s))
      (fun s hs => ((h1.along (1 / 2) 1 _ hp s hs).add (h1.along (1 / 2) (-1) _ hm s hs)).sub_const _) (by simp; ring) (2 * M) 1 fun s hs => ?_
    have := d1 s hs
    rw [show 1 * u1 (1 / 2 + 1 * s) + (-1) * u1 (1 / 2 + (-1) * s) = u1 (1 / 2 + 1 * s) - u1 (1 / 2 + (-1) * s) by ring]
    refine this.trans (le_of_eq ?_)
    norm_num
  have := d2 (1 / 2) ⟨by norm_num, le_rfl⟩
  norm_num at this
  rw [show u 1 - 2 * u (1 / 2) + u 0 = u 1 + u 0 - 2 * u (1 / 2) by ring]
  refine this.trans (le_of_eq ?_)
  ring

end NeoFOAM
