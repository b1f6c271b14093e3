import Verif.Model.Coeff
import Verif.Proofs.Elem
import Mathlib.Algebra.Field.Rat
import Mathlib.Tactic.Ring

/-!
# C30 – coefficient products evaluate pointwise
-/
namespace NeoFOAM
variable {K : Type}

/-- A product of scalars and fields as a user writes it. -/
inductive CoeffExpr (K : Type) where
  | one                                            -- Coeff()
  | scalar (s : K)                                 -- Coeff(s)
  | field (f : List K)                             -- Coeff(f)
  | scaled (s : K) (f : List K)                    -- Coeff(s, f)
  | mulScalar (a : CoeffExpr K) (s : K)            -- a *= s
  | mul (a b : CoeffExpr K)                        -- a * b

/-- What the library computes. -/
def CoeffExpr.run [Mul K] [One K] : CoeffExpr K → Res (Coeff K)
  | one => .ok Coeff.default
  | scalar s => .ok (Coeff.ofScalar s)
  | field f => .ok (Coeff.ofField f)
  | scaled s f => .ok (Coeff.scaled s f)
  | mulScalar a s => do return (← a.run).mulScalar s
  | mul a b => do
    let x ← a.run
    let y ← b.run
    x.mul y

/-- What the product means at index `i`. -/
def CoeffExpr.value [MulZeroOneClass K] (i : Nat) : CoeffExpr K → K
  | one => 1
  | scalar s => s
  | field f => f.getD i 0
  | scaled s f => s * f.getD i 0
  | mulScalar a s => a.value i * s
  | mul a b => a.value i * b.value i

/-- The fields that occur in the product. -/
def CoeffExpr.fields : CoeffExpr K → List (List K)
  | one => []
  | scalar _ => []
  | field f => [f]
  | scaled _ f => [f]
  | mulScalar a _ => a.fields
  | mul a b => a.fields ++ b.fields

section proofs

/-- What is known about an evaluated product (proof side). -/
theorem coeff_run [Field K] : ∀ a : CoeffExpr K,
    (a.fields.length ≤ 1 → ∃ c, a.run = .ok c ∧ (c.hasView = true → a.fields = [c.view]) ∧
      (c.hasView = false → a.fields = []) ∧
      ∀ i, a.value i = if c.hasView then c.view.getD i 0 * c.coeff else c.coeff) ∧
    (2 ≤ a.fields.length → a.run = .abort)
  | .one => ⟨fun _ => ⟨_, rfl, by simp [Coeff.default], fun _ => rfl, fun i => rfl⟩, by
      simp [CoeffExpr.fields]⟩
  | .scalar s => ⟨fun _ => ⟨_, rfl, by simp [Coeff.ofScalar], fun _ => rfl, fun i => rfl⟩, by
      simp [CoeffExpr.fields]⟩
  | .field f => ⟨fun _ => ⟨_, rfl, fun _ => rfl, by simp [Coeff.ofField], fun i => by
      simp [Coeff.ofField, CoeffExpr.value]⟩, by simp [CoeffExpr.fields]⟩
  | .scaled s f => ⟨fun _ => ⟨_, rfl, fun _ => rfl, by simp [Coeff.scaled], fun i => by
      simp [Coeff.scaled, CoeffExpr.value, mul_comm]⟩, by simp [CoeffExpr.fields]⟩
  | .mulScalar a s => by
    obtain ⟨h1, h2⟩ := coeff_run a
    refine ⟨fun hl => ?_, fun hl => ?_⟩
    · obtain ⟨c, hr, hv, hn, hx⟩ := h1 hl
      refine ⟨c.mulScalar s, by simp [CoeffExpr.run, hr], hv, hn, fun i => ?_⟩
      cases hc : c.hasView <;> simp [CoeffExpr.value, hx i, Coeff.mulScalar, hc, mul_assoc]
    · simp [CoeffExpr.run, h2 hl]
  | .mul a b => by
    obtain ⟨a1, a2⟩ := coeff_run a
    obtain ⟨b1, b2⟩ := coeff_run b
    have hf : (CoeffExpr.mul a b).fields.length = a.fields.length + b.fields.length := by
      simp [CoeffExpr.fields]
    refine ⟨fun hl => ?_, fun hl => ?_⟩
    · obtain ⟨c, cr, cv, cn, cx⟩ := a1 (by omega)
      obtain ⟨d, dr, dv, dn, dx⟩ := b1 (by omega)
      cases hc : c.hasView <;> cases hd : d.hasView
      · refine ⟨c.mulScalar d.coeff, by simp [CoeffExpr.run, cr, dr, Coeff.mul, hc, hd], ?_, ?_, fun i => ?_⟩
        · simp [Coeff.mulScalar, hc]
        · simp [CoeffExpr.fields, cn hc, dn hd]
        · simp [CoeffExpr.value, cx i, dx i, hc, hd, Coeff.mulScalar]
      · refine ⟨({ c with view := d.view, hasView := true } : Coeff K).mulScalar d.coeff,
          by simp [CoeffExpr.run, cr, dr, Coeff.mul, hc, hd], ?_, ?_, fun i => ?_⟩
        · simp [Coeff.mulScalar, CoeffExpr.fields, cn hc, dv hd]
        · simp [Coeff.mulScalar]
        · simp [CoeffExpr.value, cx i, dx i, hc, hd, Coeff.mulScalar]; ring
      · refine ⟨c.mulScalar d.coeff, by simp [CoeffExpr.run, cr, dr, Coeff.mul, hc, hd], ?_, ?_, fun i => ?_⟩
        · simp [Coeff.mulScalar, CoeffExpr.fields, cv hc, dn hd]
        · simp [Coeff.mulScalar, hc]
        · simp [CoeffExpr.value, cx i, dx i, hc, hd, Coeff.mulScalar]; ring
      · have := cv hc; have := dv hd
        simp_all
    · by_cases h : 2 ≤ a.fields.length
      · simp [CoeffExpr.run, a2 h]
      · obtain ⟨c, cr, cv, cn, cx⟩ := a1 (by omega)
        by_cases h' : 2 ≤ b.fields.length
        · simp [CoeffExpr.run, cr, b2 h']
        · obtain ⟨d, dr, dv, dn, dx⟩ := b1 (by omega)
          have hc : c.hasView = true := by
            by_contra hc
            have := cn (by simpa using hc)
            simp [this] at hf; omega
          have hd : d.hasView = true := by
            by_contra hd
            have := dn (by simpa using hd)
            simp [this] at hf; omega
          simp [CoeffExpr.run, cr, dr, Coeff.mul, hc, hd]

end proofs

/-- **C30, pointwise products**: with at most one field the product exists and evaluates at every index of
that field (every index at all if there is none) to the product of its factors. -/
theorem C30_pointwise [Field K] (a : CoeffExpr K) (h : a.fields.length ≤ 1) :
    ∃ c, a.run = .ok c ∧ ∀ i, (∀ f ∈ a.fields, i < f.length) → c.get i = .ok (a.value i) := by
  obtain ⟨c, hr, hv, hn, hx⟩ := (coeff_run a).1 h
  refine ⟨c, hr, fun i hi => ?_⟩
  cases hc : c.hasView
  · simp [Coeff.get, hc, hx i]
  · have := hi c.view (by rw [hv hc]; simp)
    simp [Coeff.get, hc, hx i, rd_ok this, List.getD, List.getElem?_eq_getElem this]

/-- **C30, two fields**: a product with two or more fields stops the program. -/
theorem C30_two_fields_stop [Field K] (a : CoeffExpr K) (h : 2 ≤ a.fields.length) : a.run = .abort :=
  (coeff_run a).2 h

/-- **C30, forced evaluation**: `toField` gives the values at all indices of the field, or one value if
there is no field, on every executor. -/
theorem C30_toField [Field K] (a : CoeffExpr K) (h : a.fields.length ≤ 1) (e : ExecKind) :
    ∃ c, a.run = .ok c ∧ ∀ out, c.toField e out ↔ out = .ok ((List.range
      (match a.fields with | [] => 1 | f :: _ => f.length)).map (fun i => a.value i)) := by
  obtain ⟨c, hr, hv, hn, hx⟩ := (coeff_run a).1 h
  obtain ⟨c', hr', hp⟩ := C30_pointwise a h
  rw [hr] at hr'
  cases hr'
  refine ⟨c, hr, fun out => ?_⟩
  unfold Coeff.toField
  cases hc : c.hasView
  · rw [if_neg (by simp), hn hc]
    refine Iff.trans (NR.bind_def _ _ _) ?_
    have h0 := hp 0 (by simp [hn hc])
    constructor
    · rintro ⟨r, hr, h⟩
      rw [show r = _ from hr, h0] at h
      exact h
    · intro h
      refine ⟨_, rfl, ?_⟩
      rw [h0]; exact h
  · rw [if_pos rfl, hv hc]
    rw [elemKernel_det e 0 _ _ (fun i x => x * a.value i) _ (by simp) (by
      intro i _ hi
      rw [hp i (by simpa [hv hc] using hi)]; rfl)]
    have : ((List.replicate c.view.length (1 : K)).mapIdx fun i x =>
        if 0 ≤ i ∧ i < c.view.length then x * a.value i else x)
        = (List.range c.view.length).map (fun i => a.value i) := by
      apply List.ext_getElem
      · simp
      · intro i h1 h2
        simp at h1
        simp [h1]
    rw [this]

/-- The hypotheses can be met: 2 · field · 3 at index 1. -/
example : ∃ c, (CoeffExpr.mul (.mulScalar (.scalar (2 : ℚ)) 3) (.field [5, 7])).run = .ok c ∧ c.get 1 = .ok 42 := by
  refine ⟨_, rfl, ?_⟩
  simp [Coeff.get, Coeff.mulScalar, Coeff.ofScalar, Coeff.ofField, rd]
  norm_num
example : (CoeffExpr.mul (.field [(1 : ℚ)]) (.mul (.scalar 2) (.field [3]))).run = .abort := rfl

end NeoFOAM
