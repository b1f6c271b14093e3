import Verif.Model.Vector
import Verif.Spec.Geometry
import Mathlib.Algebra.Module.Prod
import Mathlib.Tactic.Ring
import Mathlib.Tactic.Linarith
import Mathlib.Tactic.Positivity

/-!
# C59 – `Vector` is the three-dimensional inner product space

For every scalar and vector. The operations are those of the product `K × K × K`, so everything proved for values of a vector space
holds for `Vector`. The exception is `v *= s` with `s` a component of `v` itself.
-/
namespace NeoFOAM
variable {K : Type}

/-- **C59, operations**: construction, component access, comparison and arithmetic of `Vector` are those of triples, and component `i` of the result is
the operation on components `i`. -/
theorem C59_operations [Field K] [DecidableEq K] (a b : Vec K) (s : K) :
    vecDefault = (0 : Vec K) ∧ vecAdd a b = a + b ∧ vecSub a b = a - b ∧ vecMul a s = s • a ∧ scalarMulVec a (.other s) b = .ok (s • b) ∧
    vecAddAssign a (.other b) = a + b ∧ vecSubAssign a (.other b) = a - b ∧ vecMulAssign a (.other s) = .ok (s • a) ∧
    vecAddAssign a .self = a + a ∧ vecSubAssign a .self = 0 ∧ (vecEq a b = true ↔ a = b) ∧
    (∀ i < 3, vecGet (vecConst s) i = .ok s) ∧ (∀ i, 3 ≤ i → vecGet a i = .ub ∧ vecSet a s i = .ub) ∧
    (∀ i < 3, ∃ v, vecSet a s i = .ok v ∧ ∀ j, vecGet v j = if j = i then .ok s else vecGet a j) := by
  obtain ⟨a1, a2, a3⟩ := a
  obtain ⟨b1, b2, b3⟩ := b
  refine ⟨rfl, rfl, rfl, ?_, ?_, rfl, rfl, ?_, rfl, ?_, ?_, ?_, ?_, ?_⟩
  · simp [vecMul, vecMake, mul_comm]
  · simp [scalarMulVec, ScalarRef.read, vecMulAssign, mul_comm]
  · simp [ScalarRef.read, vecMulAssign, mul_comm]
  · simp [vecSubAssign, VecRef.read]
  · simp [vecEq, and_assoc]
  · intro i hi
    match i, hi with
    | 0, _ => rfl
    | 1, _ => rfl
    | 2, _ => rfl
  · intro i hi
    match i, hi with
    | i + 3, _ => exact ⟨rfl, rfl⟩
  · intro i hi
    match i, hi with
    | 0, _ => exact ⟨_, rfl, fun j => by match j with | 0 => rfl | 1 => rfl | 2 => rfl | j + 3 => rfl⟩
    | 1, _ => exact ⟨_, rfl, fun j => by match j with | 0 => rfl | 1 => rfl | 2 => rfl | j + 3 => rfl⟩
    | 2, _ => exact ⟨_, rfl, fun j => by match j with | 0 => rfl | 1 => rfl | 2 => rfl | j + 3 => rfl⟩

/-- **C59, the space**: the operators satisfy the laws of a vector space. -/
theorem C59_space [Field K] (a b c : Vec K) (s t : K) :
    vecAdd a b = vecAdd b a ∧ vecAdd (vecAdd a b) c = vecAdd a (vecAdd b c) ∧ vecAdd a vecDefault = a ∧ vecAdd (vecSub a b) b = a ∧
    vecMul (vecAdd a b) s = vecAdd (vecMul a s) (vecMul b s) ∧ vecMul a (s + t) = vecAdd (vecMul a s) (vecMul a t) ∧
    vecMul (vecMul a s) t = vecMul a (s * t) ∧ vecMul a 1 = a := by
  obtain ⟨a1, a2, a3⟩ := a
  obtain ⟨b1, b2, b3⟩ := b
  obtain ⟨c1, c2, c3⟩ := c
  simp only [vecAdd, vecSub, vecMul, vecMake, vecDefault, Prod.mk.injEq]
  refine ⟨⟨?_, ?_, ?_⟩, ⟨?_, ?_, ?_⟩, ⟨?_, ?_, ?_⟩, ⟨?_, ?_, ?_⟩, ⟨?_, ?_, ?_⟩, ⟨?_, ?_, ?_⟩, ⟨?_, ?_, ?_⟩, ⟨?_, ?_, ?_⟩⟩ <;> ring

/-- **C59, inner product**: `a & b` is symmetric, linear and positive definite. -/
theorem C59_inner [Field K] [LinearOrder K] [IsStrictOrderedRing K] (a b c : Vec K) (s : K) :
    vdot a b = vdot b a ∧ vdot (vecAdd a b) c = vdot a c + vdot b c ∧ vdot (vecMul a s) b = s * vdot a b ∧ 0 ≤ vdot a a ∧
    (vdot a a = 0 ↔ a = vecDefault) := by
  obtain ⟨a1, a2, a3⟩ := a
  obtain ⟨b1, b2, b3⟩ := b
  obtain ⟨c1, c2, c3⟩ := c
  simp only [vdot, vecAdd, vecMul, vecMake, vecDefault, Prod.mk.injEq]
  refine ⟨by ring, by ring, by ring, add_nonneg (add_nonneg (mul_self_nonneg _) (mul_self_nonneg _)) (mul_self_nonneg _), fun h => ?_, fun ⟨h1, h2, h3⟩ => by rw [h1, h2, h3]; ring⟩
  have q1 := mul_self_nonneg a1
  have q2 := mul_self_nonneg a2
  have q3 := mul_self_nonneg a3
  refine ⟨mul_self_eq_zero.1 (by linarith), mul_self_eq_zero.1 (by linarith), mul_self_eq_zero.1 (by linarith)⟩

section
variable [Field K] [LinearOrder K] [IsStrictOrderedRing K] {sqrt : K → K}

private theorem mag_sq (hs : IsSqrt sqrt) (a : Vec K) : 0 ≤ vmag sqrt a ∧ vmag sqrt a * vmag sqrt a = vdot a a :=
  hs _ (C59_inner a a a 0).2.2.2.1

private theorem le_of_sq {x y : K} (hy : 0 ≤ y) (h : x * x ≤ y * y) : x ≤ y := by
  by_contra hh
  have : y < x := not_le.1 hh
  nlinarith

private theorem cs_sq (a b : Vec K) : vdot a b * vdot a b ≤ vdot a a * vdot b b := by
  obtain ⟨a1, a2, a3⟩ := a
  obtain ⟨b1, b2, b3⟩ := b
  simp only [vdot]
  nlinarith [mul_self_nonneg (a1 * b2 - a2 * b1), mul_self_nonneg (a1 * b3 - a3 * b1), mul_self_nonneg (a2 * b3 - a3 * b2)]

/-- **C59, magnitude**: `mag` is the norm of the inner product: non-negative, zero for the zero vector only, homogeneous, with the
inequalities of Cauchy-Schwarz and the triangle. -/
theorem C59_mag (hs : IsSqrt sqrt) (a b : Vec K) (s : K) :
    0 ≤ vmag sqrt a ∧ (vmag sqrt a = 0 ↔ a = vecDefault) ∧ vmag sqrt (vecMul a s) = |s| * vmag sqrt a ∧
    |vdot a b| ≤ vmag sqrt a * vmag sqrt b ∧ vmag sqrt (vecAdd a b) ≤ vmag sqrt a + vmag sqrt b ∧
    vmag sqrt (vecSub a b) = vmag sqrt (vecSub b a) := by
  obtain ⟨na, qa⟩ := mag_sq hs a
  obtain ⟨nb, qb⟩ := mag_sq hs b
  have cs : |vdot a b| ≤ vmag sqrt a * vmag sqrt b := by
    refine le_of_sq (mul_nonneg na nb) ?_
    rw [abs_mul_abs_self]
    calc vdot a b * vdot a b ≤ vdot a a * vdot b b := cs_sq a b
      _ = _ := by rw [← qa, ← qb]; ring
  refine ⟨na, ⟨fun h => ?_, fun h => ?_⟩, ?_, cs, ?_, ?_⟩
  · rw [h] at qa
    exact (C59_inner a a a 0).2.2.2.2.1 (by rw [← qa]; ring)
  · have := (C59_inner a a a 0).2.2.2.2.2 h
    rw [this] at qa
    exact mul_self_eq_zero.1 qa
  · obtain ⟨n1, q1⟩ := mag_sq hs (vecMul a s)
    have e : vdot (vecMul a s) (vecMul a s) = s * s * vdot a a := by
      simp only [vdot, vecMul, vecMake]; ring
    rw [e, ← qa] at q1
    have n2 : 0 ≤ |s| * vmag sqrt a := mul_nonneg (abs_nonneg s) na
    have q2 : (|s| * vmag sqrt a) * (|s| * vmag sqrt a) = s * s * (vmag sqrt a * vmag sqrt a) := by
      rw [← abs_mul_abs_self s]; ring
    exact le_antisymm (le_of_sq n2 (by rw [q1, q2])) (le_of_sq n1 (by rw [q1, q2]))
  · obtain ⟨n1, q1⟩ := mag_sq hs (vecAdd a b)
    refine le_of_sq (add_nonneg na nb) ?_
    have e : vdot (vecAdd a b) (vecAdd a b) = vdot a a + 2 * vdot a b + vdot b b := by
      simp only [vdot, vecAdd, vecMake]; ring
    rw [q1, e, ← qa, ← qb]
    have := (abs_le.1 cs).2
    nlinarith
  · unfold vmag vecSub vecMake
    congr 1
    ring

end

/-- **C59 fails for `v *= s` with `s` a component of `v`**: the components are changed one after the other, so those after component
`i` are multiplied by its square. -/
theorem C59_alias_violation [Field K] (x y z : K) (h : x * x ≠ x) (hy : y ≠ 0) :
    vecMulAssign (x, y, z) (.cmpt 0) = .ok (x * x, y * (x * x), z * (x * x)) ∧ vecMulAssign (x, y, z) (.cmpt 0) ≠ .ok (vecMul (x, y, z) x) := by
  have e : vecMulAssign (x, y, z) (.cmpt 0) = .ok (x * x, y * (x * x), z * (x * x)) := rfl
  refine ⟨e, fun hh => ?_⟩
  rw [e] at hh
  simp only [vecMul, vecMake, Res.ok.injEq, Prod.mk.injEq] at hh
  exact h (mul_left_cancel₀ hy hh.2.1)

/-- The exact outcome for each component; only the last one works. The free function `s * v` copies first and has no such restriction. -/
theorem C59_alias_partial [Field K] (x y z : K) :
    vecMulAssign (x, y, z) (.cmpt 1) = .ok (x * y, y * y, z * (y * y)) ∧ vecMulAssign (x, y, z) (.cmpt 2) = .ok (vecMul (x, y, z) z) ∧
    ∀ i < 3, ∀ s, vecGet (x, y, z) i = .ok s → scalarMulVec (x, y, z) (.cmpt i) (x, y, z) = .ok (vecMul (x, y, z) s) := by
  refine ⟨rfl, rfl, fun i _ s hs => ?_⟩
  simp only [scalarMulVec, ScalarRef.read, hs, Res.ok_bind]
  rfl

/-- The hypotheses can be met. -/
example : vecMulAssign ((2, 1, 0) : Vec ℚ) (.cmpt 0) = .ok (4, 4, 0) ∧ vecMulAssign ((2, 1, 0) : Vec ℚ) (.cmpt 0) ≠ .ok (4, 2, 0) := by
  constructor
  · simp [vecMulAssign, ScalarRef.read, vecGet]; norm_num
  · simp [vecMulAssign, ScalarRef.read, vecGet]

end NeoFOAM
