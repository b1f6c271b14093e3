import Verif.Spec.MpiReduce
import Verif.Base.Launch
import Mathlib.Data.BitVec
import Mathlib.Algebra.BigOperators.Group.List.Lemmas
import Mathlib.Tactic.Ring
import Mathlib.Tactic.NormNum
import Mathlib.Algebra.Order.Ring.Rat
import Mathlib.Tactic.Linarith

/-!
# C77 – reductions over all ranks
-/
namespace NeoFOAM
variable {K : Type} [Field K] [LinearOrder K]

section combined
variable {α : Type} {f : α → α → α}

theorem Combined.nonempty {l : List α} {a : α} (h : Combined f l a) : l ≠ [] := by
  induction h with
  | one a => simp
  | two hp h1 h2 ih1 ih2 =>
    rintro rfl
    have := hp.length_eq
    simp only [List.length_nil, List.length_append] at this
    exact ih1 (List.length_eq_zero_iff.1 (by omega))

theorem Combined.exists : ∀ {l : List α}, l ≠ [] → ∃ a, Combined f l a
  | [], h => absurd rfl h
  | [a], _ => ⟨a, .one a⟩
  | a :: b :: l, _ => by
    obtain ⟨c, hc⟩ := Combined.exists (l := b :: l) (by simp)
    exact ⟨_, .two (l1 := [a]) (l2 := b :: l) (List.Perm.refl _) (.one a) hc⟩

/-- Combining with nothing. -/
def optOp (f : α → α → α) : Option α → Option α → Option α
  | none, y => y
  | x, none => x
  | some x, some y => some (f x y)

theorem optOp_left_comm (hc : ∀ a b, f a b = f b a) (ha : ∀ a b c, f (f a b) c = f a (f b c)) (x y z : Option α) :
    optOp f x (optOp f y z) = optOp f y (optOp f x z) := by
  cases x <;> cases y <;> cases z <;> simp [optOp]
  · rw [hc]
  · rename_i a b c
    rw [← ha, hc a b, ha]

theorem optOp_assoc (ha : ∀ a b c, f (f a b) c = f a (f b c)) (x y z : Option α) : optOp f (optOp f x y) z = optOp f x (optOp f y z) := by
  cases x <;> cases y <;> cases z <;> simp [optOp, ha]

theorem foldr_optOp_append (ha : ∀ a b c, f (f a b) c = f a (f b c)) : ∀ (l1 l2 : List (Option α)),
    (l1 ++ l2).foldr (optOp f) none = optOp f (l1.foldr (optOp f) none) (l2.foldr (optOp f) none)
  | [], l2 => rfl
  | x :: l1, l2 => by
    simp only [List.cons_append, List.foldr_cons]
    rw [foldr_optOp_append ha l1 l2, optOp_assoc ha]

/-- The result does not depend on order and grouping. -/
theorem Combined.fold (hc : ∀ a b, f a b = f b a) (ha : ∀ a b c, f (f a b) c = f a (f b c)) {l : List α} {a : α} (h : Combined f l a) :
    (l.map some).foldr (optOp f) none = some a := by
  induction h with
  | one a => rfl
  | @two l l1 l2 a b hp h1 h2 ih1 ih2 =>
    have hp' := hp.map some
    have : LeftCommutative (optOp f) := ⟨optOp_left_comm hc ha⟩
    rw [hp'.foldr_eq, List.map_append, foldr_optOp_append ha, ih1, ih2]
    rfl

theorem Combined.unique (hc : ∀ a b, f a b = f b a) (ha : ∀ a b c, f (f a b) c = f a (f b c)) {l : List α} {a b : α} (h : Combined f l a)
    (h' : Combined f l b) : a = b := Option.some.inj ((h.fold hc ha).symm.trans (h'.fold hc ha))

/-- A property of the result that holds for one value and for what is combined of two results. -/
theorem Combined.prop {P : List α → α → Prop} (h1 : ∀ a, P [a] a) (h2 : ∀ l1 l2 a b, l1 ≠ [] → l2 ≠ [] → P l1 a → P l2 b → P (l1 ++ l2) (f a b))
    (hp : ∀ l l' a, l.Perm l' → P l a → P l' a) {l : List α} {a : α} (h : Combined f l a) : P l a := by
  induction h with
  | one a => exact h1 a
  | two hpm c1 c2 ih1 ih2 => exact hp _ _ _ hpm.symm (h2 _ _ _ _ c1.nonempty c2.nonempty ih1 ih2)

theorem mpiAllreduce_det {r : Repr} {op : ReduceFn} {g : r.Val K → r.Val K → r.Val K} (hop : ReduceFn.apply (K := K) op r = some g) (hc : ∀ a b, g a b = g b a)
    (ha : ∀ a b c, g (g a b) c = g a (g b c)) {vals : List (r.Val K)} (hv : vals ≠ []) :
    ∃ x, Combined g vals x ∧ ∀ out, mpiAllreduce r op vals out ↔ out = .ok (List.replicate vals.length x) := by
  obtain ⟨x, hx⟩ := Combined.exists (f := g) hv
  refine ⟨x, hx, fun out => ?_⟩
  unfold mpiAllreduce
  rw [hop]
  constructor
  · rintro ⟨res, rfl, hl, hall⟩
    rw [← hl, List.eq_replicate_of_mem (fun b hb => (hall b hb).unique hc ha hx)]
    simp
  · rintro rfl
    refine ⟨_, rfl, by simp, fun y hy => ?_⟩
    rw [List.eq_of_mem_replicate hy]
    exact hx

end combined

/-! ### The operations -/

section ops

theorem int_max_comm_assoc (s : Bool) (w : Nat) : ∀ g, intOp s w .MAX = some g →
    (∀ a b, g a b = g b a) ∧ (∀ a b c, g (g a b) c = g a (g b c)) ∧ ∀ a b, (g a b = a ∨ g a b = b) ∧ intValue s a ≤ intValue s (g a b) ∧ intValue s b ≤ intValue s (g a b) := by
  intro g hg
  cases hg
  cases s
  · refine ⟨fun a b => ?_, fun a b c => ?_, fun a b => ?_⟩
    · simp only [Bool.false_eq_true, if_false]
      split <;> split <;> first | rfl | (apply BitVec.eq_of_toNat_eq; omega)
    · simp only [Bool.false_eq_true, if_false]
      split <;> split <;> (try split) <;> first | rfl | omega
    · simp only [Bool.false_eq_true, if_false, intValue]
      split
      · exact ⟨Or.inr rfl, by omega, le_rfl⟩
      · exact ⟨Or.inl rfl, le_rfl, by omega⟩
  · refine ⟨fun a b => ?_, fun a b c => ?_, fun a b => ?_⟩
    · simp only [if_true]
      split <;> split <;> first | rfl | (apply BitVec.eq_of_toInt_eq; omega)
    · simp only [if_true]
      split <;> split <;> (try split) <;> first | rfl | omega
    · simp only [if_true, intValue]
      split
      · exact ⟨Or.inr rfl, by omega, le_rfl⟩
      · exact ⟨Or.inl rfl, le_rfl, by omega⟩

theorem int_min_comm_assoc (s : Bool) (w : Nat) : ∀ g, intOp s w .MIN = some g →
    (∀ a b, g a b = g b a) ∧ (∀ a b c, g (g a b) c = g a (g b c)) ∧ ∀ a b, (g a b = a ∨ g a b = b) ∧ intValue s (g a b) ≤ intValue s a ∧ intValue s (g a b) ≤ intValue s b := by
  intro g hg
  cases hg
  cases s
  · refine ⟨fun a b => ?_, fun a b c => ?_, fun a b => ?_⟩
    · simp only [Bool.false_eq_true, if_false]
      split <;> split <;> first | rfl | (apply BitVec.eq_of_toNat_eq; omega)
    · simp only [Bool.false_eq_true, if_false]
      split <;> split <;> (try split) <;> first | rfl | omega
    · simp only [Bool.false_eq_true, if_false, intValue]
      split
      · exact ⟨Or.inl rfl, le_rfl, by omega⟩
      · exact ⟨Or.inr rfl, by omega, le_rfl⟩
  · refine ⟨fun a b => ?_, fun a b c => ?_, fun a b => ?_⟩
    · simp only [if_true]
      split <;> split <;> first | rfl | (apply BitVec.eq_of_toInt_eq; omega)
    · simp only [if_true]
      split <;> split <;> (try split) <;> first | rfl | omega
    · simp only [if_true, intValue]
      split
      · exact ⟨Or.inl rfl, le_rfl, by omega⟩
      · exact ⟨Or.inr rfl, by omega, le_rfl⟩

/-- Extreme values. -/
theorem Combined.extreme {α β : Type} [Preorder β] {f : α → α → α} (v : α → β)
    (hf : ∀ a b, (f a b = a ∨ f a b = b) ∧ v a ≤ v (f a b) ∧ v b ≤ v (f a b)) {l : List α} {a : α} (h : Combined f l a) : a ∈ l ∧ ∀ b ∈ l, v b ≤ v a := by
  refine h.prop (P := fun l a => a ∈ l ∧ ∀ b ∈ l, v b ≤ v a) (fun a => by simp) ?_ ?_
  · rintro l1 l2 a b - - ⟨m1, h1⟩ ⟨m2, h2⟩
    obtain ⟨h3, h4, h5⟩ := hf a b
    refine ⟨?_, fun c hc => ?_⟩
    · rcases h3 with h3 | h3 <;> rw [h3] <;> simp [m1, m2]
    · rcases List.mem_append.1 hc with hc | hc
      · exact (h1 c hc).trans h4
      · exact (h2 c hc).trans h5
  · rintro l l' a hp ⟨h1, h2⟩
    exact ⟨hp.mem_iff.1 h1, fun b hb => h2 b (hp.mem_iff.2 hb)⟩

/-- A truth that needs both. -/
theorem Combined.all {α : Type} {f : α → α → α} {P : α → Prop} (hf : ∀ a b, P (f a b) ↔ P a ∧ P b) {l : List α} {x : α} (h : Combined f l x) :
    P x ↔ ∀ v ∈ l, P v := by
  refine h.prop (P := fun l a => P a ↔ ∀ v ∈ l, P v) (fun a => by simp) (fun l1 l2 a b _ _ h1 h2 => ?_) (fun l l' a hp h => ?_)
  · rw [hf, h1, h2]
    exact ⟨fun h v hv => (List.mem_append.1 hv).elim (h.1 v) (h.2 v), fun h => ⟨fun v hv => h v (List.mem_append_left _ hv), fun v hv => h v (List.mem_append_right _ hv)⟩⟩
  · exact h.trans ⟨fun h v hv => h v (hp.mem_iff.2 hv), fun h v hv => h v (hp.mem_iff.1 hv)⟩

/-- A truth that needs one. -/
theorem Combined.any {α : Type} {f : α → α → α} {P : α → Prop} (hf : ∀ a b, P (f a b) ↔ P a ∨ P b) {l : List α} {x : α} (h : Combined f l x) :
    P x ↔ ∃ v ∈ l, P v := by
  refine h.prop (P := fun l a => P a ↔ ∃ v ∈ l, P v) (fun a => by simp) (fun l1 l2 a b _ _ h1 h2 => ?_) (fun l l' a hp h => ?_)
  · rw [hf, h1, h2]
    exact ⟨fun h => h.elim (fun ⟨v, a, b⟩ => ⟨v, List.mem_append_left _ a, b⟩) (fun ⟨v, a, b⟩ => ⟨v, List.mem_append_right _ a, b⟩),
      fun ⟨v, a, b⟩ => (List.mem_append.1 a).elim (fun a => Or.inl ⟨v, a, b⟩) (fun a => Or.inr ⟨v, a, b⟩)⟩
  · exact h.trans ⟨fun ⟨v, a, b⟩ => ⟨v, hp.mem_iff.1 a, b⟩, fun ⟨v, a, b⟩ => ⟨v, hp.mem_iff.2 a, b⟩⟩

theorem bv_one_ne {w : Nat} (hw : 0 < w) : (1 : BitVec w) ≠ 0 := by
  intro h0
  have := congrArg BitVec.toNat h0
  simp at this
  omega

theorem int_land_iff {w : Nat} (hw : 0 < w) (a b : BitVec w) : (if a ≠ 0 ∧ b ≠ 0 then (1 : BitVec w) else 0) ≠ 0 ↔ a ≠ 0 ∧ b ≠ 0 := by
  split
  · rename_i hh; exact ⟨fun _ => hh, fun _ => bv_one_ne hw⟩
  · rename_i hh; exact ⟨fun h => absurd rfl h, fun h => absurd h hh⟩

theorem int_lor_iff {w : Nat} (hw : 0 < w) (a b : BitVec w) : (if a ≠ 0 ∨ b ≠ 0 then (1 : BitVec w) else 0) ≠ 0 ↔ a ≠ 0 ∨ b ≠ 0 := by
  split
  · rename_i hh; exact ⟨fun _ => hh, fun _ => bv_one_ne hw⟩
  · rename_i hh; exact ⟨fun h => absurd rfl h, fun h => absurd h hh⟩

theorem int_land_assoc {w : Nat} (hw : 0 < w) (a b c : BitVec w) :
    (if (if a ≠ 0 ∧ b ≠ 0 then (1 : BitVec w) else 0) ≠ 0 ∧ c ≠ 0 then (1 : BitVec w) else 0)
      = if a ≠ 0 ∧ (if b ≠ 0 ∧ c ≠ 0 then (1 : BitVec w) else 0) ≠ 0 then (1 : BitVec w) else 0 := by
  simp only [int_land_iff hw, and_assoc]

theorem int_lor_assoc {w : Nat} (hw : 0 < w) (a b c : BitVec w) :
    (if (if a ≠ 0 ∨ b ≠ 0 then (1 : BitVec w) else 0) ≠ 0 ∨ c ≠ 0 then (1 : BitVec w) else 0)
      = if a ≠ 0 ∨ (if b ≠ 0 ∨ c ≠ 0 then (1 : BitVec w) else 0) ≠ 0 then (1 : BitVec w) else 0 := by
  simp only [int_lor_iff hw, or_assoc]

theorem wrap_intValue (s : Bool) {w : Nat} (x : BitVec w) : wrap w (intValue s x) = x := by
  cases s <;> simp [wrap, intValue]

theorem wrap_add (w : Nat) (i j : Int) : wrap w (i + j) = wrap w i + wrap w j := by simp [wrap, BitVec.ofInt_add]
theorem wrap_mul (w : Nat) (i j : Int) : wrap w (i * j) = wrap w i * wrap w j := by simp [wrap, BitVec.ofInt_mul]

end ops

theorem reduced_of {r : Repr} (hw : ∀ s w, r = .int s w → 0 < w) {op : ReduceOp} (h : Reducible r op) : ∃ g, ReduceFn.apply (K := K) (getOp op) r = some g ∧
    (∀ a b, g a b = g b a) ∧ (∀ a b c, g (g a b) c = g a (g b c)) ∧ ∀ vals x, Combined g vals x → Reduced r op vals x := by
  cases r with
  | chr w => exact h.elim
  | flt w =>
    rcases h with rfl | rfl | rfl | rfl
    · exact ⟨_, rfl, max_comm, max_assoc, fun vals x hx => hx.extreme (fun v : K => v) fun a b => ⟨max_choice a b, le_max_left a b, le_max_right a b⟩⟩
    · exact ⟨_, rfl, min_comm, min_assoc, fun vals x hx => hx.extreme (β := Kᵒᵈ) (fun v : K => OrderDual.toDual v) fun a b => ⟨min_choice a b, min_le_left a b, min_le_right a b⟩⟩
    · refine ⟨_, rfl, add_comm, add_assoc, fun vals x hx => ?_⟩
      exact hx.prop (P := fun l a => a = List.sum l) (fun a => by simp) (fun l1 l2 a b _ _ h1 h2 => by simp [h1, h2]) (fun l l' a hp h => h.trans hp.sum_eq)
    · refine ⟨_, rfl, mul_comm, mul_assoc, fun vals x hx => ?_⟩
      exact hx.prop (P := fun l a => a = List.prod l) (fun a => by simp) (fun l1 l2 a b _ _ h1 h2 => by simp [h1, h2]) (fun l l' a hp h => h.trans hp.prod_eq)
  | cplx w =>
    rcases h with rfl | rfl
    · refine ⟨_, rfl, add_comm, add_assoc, fun vals x hx => ?_⟩
      exact hx.prop (P := fun l a => a = ((l.map (·.1)).sum, (l.map (·.2)).sum)) (fun a => by simp) (fun l1 l2 a b _ _ h1 h2 => by simp [h1, h2])
        (fun l l' a hp h => by rw [h, (hp.map _).sum_eq, (hp.map _).sum_eq])
    · have hcomm : ∀ a b : K × K, (a.1 * b.1 - a.2 * b.2, a.1 * b.2 + a.2 * b.1) = (b.1 * a.1 - b.2 * a.2, b.1 * a.2 + b.2 * a.1) := by
        intro a b; ext <;> simp <;> ring
      have hassoc : ∀ a b c : K × K, ((a.1 * b.1 - a.2 * b.2) * c.1 - (a.1 * b.2 + a.2 * b.1) * c.2, (a.1 * b.1 - a.2 * b.2) * c.2 + (a.1 * b.2 + a.2 * b.1) * c.1)
          = (a.1 * (b.1 * c.1 - b.2 * c.2) - a.2 * (b.1 * c.2 + b.2 * c.1), a.1 * (b.1 * c.2 + b.2 * c.1) + a.2 * (b.1 * c.1 - b.2 * c.2)) := by
        intro a b c; ext <;> simp <;> ring
      refine ⟨_, rfl, hcomm, hassoc, fun vals x hx => ?_⟩
      have happ : ∀ l1 l2 : List (K × K), (l1 ++ l2).foldr (fun a b => (a.1 * b.1 - a.2 * b.2, a.1 * b.2 + a.2 * b.1)) (1, 0)
          = ((l1.foldr (fun a b : K × K => (a.1 * b.1 - a.2 * b.2, a.1 * b.2 + a.2 * b.1)) (1, 0)).1 * (l2.foldr (fun a b => (a.1 * b.1 - a.2 * b.2, a.1 * b.2 + a.2 * b.1)) (1, 0)).1
              - (l1.foldr (fun a b : K × K => (a.1 * b.1 - a.2 * b.2, a.1 * b.2 + a.2 * b.1)) (1, 0)).2 * (l2.foldr (fun a b => (a.1 * b.1 - a.2 * b.2, a.1 * b.2 + a.2 * b.1)) (1, 0)).2,
            (l1.foldr (fun a b : K × K => (a.1 * b.1 - a.2 * b.2, a.1 * b.2 + a.2 * b.1)) (1, 0)).1 * (l2.foldr (fun a b => (a.1 * b.1 - a.2 * b.2, a.1 * b.2 + a.2 * b.1)) (1, 0)).2
              + (l1.foldr (fun a b : K × K => (a.1 * b.1 - a.2 * b.2, a.1 * b.2 + a.2 * b.1)) (1, 0)).2 * (l2.foldr (fun a b => (a.1 * b.1 - a.2 * b.2, a.1 * b.2 + a.2 * b.1)) (1, 0)).1) := by
        intro l1 l2
        induction l1 with
        | nil => simp
        | cons x l1 ih =>
          simp only [List.cons_append, List.foldr_cons]
          rw [ih]
          exact (hassoc x _ _).symm
      refine hx.prop (P := fun l a => a = List.foldr (fun a b : K × K => (a.1 * b.1 - a.2 * b.2, a.1 * b.2 + a.2 * b.1)) (1, 0) l) (fun a => by simp)
        (fun l1 l2 a b _ _ h1 h2 => by rw [happ, ← h1, ← h2]) (fun l l' a hp h => ?_)
      have : LeftCommutative (fun a b : K × K => (a.1 * b.1 - a.2 * b.2, a.1 * b.2 + a.2 * b.1)) := ⟨fun a b c => by ext <;> simp <;> ring⟩
      rw [h, hp.foldr_eq]
  | bool =>
    rcases h with rfl | rfl
    · exact ⟨_, rfl, Bool.and_comm, Bool.and_assoc, fun vals x hx => Combined.all (P := fun v : Bool => v = true) (fun a b => by rw [Bool.and_eq_true]) hx⟩
    · exact ⟨_, rfl, Bool.or_comm, Bool.or_assoc, fun vals x hx => Combined.any (P := fun v : Bool => v = true) (fun a b => by rw [Bool.or_eq_true]) hx⟩
  | int s w =>
    have hw' : 0 < w := hw s w rfl
    cases op with
    | maxloc => exact absurd rfl h.1
    | minloc => exact absurd rfl h.2
    | max =>
      obtain ⟨h1, h2, h3⟩ := int_max_comm_assoc s w _ rfl
      exact ⟨_, rfl, h1, h2, fun vals x hx => hx.extreme (intValue s) h3⟩
    | min =>
      obtain ⟨h1, h2, h3⟩ := int_min_comm_assoc s w _ rfl
      exact ⟨_, rfl, h1, h2, fun vals x hx => hx.extreme (β := Intᵒᵈ) (fun v => OrderDual.toDual (intValue s v)) h3⟩
    | sum =>
      refine ⟨_, rfl, BitVec.add_comm, BitVec.add_assoc, fun vals x hx => ?_⟩
      exact hx.prop (P := fun l a => a = wrap w (l.map (intValue s)).sum) (fun a => by simp [wrap_intValue])
        (fun l1 l2 a b _ _ h1 h2 => by rw [List.map_append, List.sum_append, wrap_add, ← h1, ← h2]) (fun l l' a hp h => by rw [h, (hp.map _).sum_eq])
    | prod =>
      refine ⟨_, rfl, BitVec.mul_comm, BitVec.mul_assoc, fun vals x hx => ?_⟩
      exact hx.prop (P := fun l a => a = wrap w (l.map (intValue s)).prod) (fun a => by simp [wrap_intValue])
        (fun l1 l2 a b _ _ h1 h2 => by rw [List.map_append, List.prod_append, wrap_mul, ← h1, ← h2]) (fun l l' a hp h => by rw [h, (hp.map _).prod_eq])
    | land =>
      exact ⟨_, rfl, fun a b => by simp only [and_comm], int_land_assoc hw', fun vals x hx => Combined.all (P := fun v : BitVec w => v ≠ 0) (int_land_iff hw') hx⟩
    | lor =>
      exact ⟨_, rfl, fun a b => by simp only [or_comm], int_lor_assoc hw', fun vals x hx => Combined.any (P := fun v : BitVec w => v ≠ 0) (int_lor_iff hw') hx⟩
    | band => exact ⟨_, rfl, BitVec.and_comm, BitVec.and_assoc, fun vals x hx i => Combined.all (P := fun v : BitVec w => v.getLsbD i = true) (fun a b => by rw [BitVec.getLsbD_and, Bool.and_eq_true]) hx⟩
    | bor => exact ⟨_, rfl, BitVec.or_comm, BitVec.or_assoc, fun vals x hx i => Combined.any (P := fun v : BitVec w => v.getLsbD i = true) (fun a b => by rw [BitVec.getLsbD_or, Bool.or_eq_true]) hx⟩

theorem cxx_width (t : CxxType) : ∀ s w, t.repr = .int s w → 0 < w := by
  cases t <;> intro s w h <;> simp [CxxType.repr] at h <;> omega

theorem cxx_repr (t : CxxType) (ht : t ≠ .other) : ∃ ty, getType t = .ok ty ∧ ty.repr = t.repr := by
  cases t <;> first | exact absurd rfl ht | exact ⟨_, rfl, rfl⟩

/-- **C77**: for every supported C++ type, operation that makes sense for it, number of ranks and values: `allReduce` called by every rank leaves the same value on
every rank, the largest, smallest, sum, product, … of the values of all ranks, whatever the order in which MPI combines them; no other outcome is possible. -/
theorem C77_allReduce (t : CxxType) (ht : t ≠ .other) (op : ReduceOp) (hop : Reducible t.repr op) (vals : List (t.repr.Val K)) (hv : vals ≠ []) :
    ∃ x, Reduced t.repr op vals x ∧ ∀ out, allReduce t op vals out ↔ out = .ok (List.replicate vals.length x) := by
  obtain ⟨g, hg, hc, ha, hr⟩ := reduced_of (K := K) (cxx_width t) hop
  obtain ⟨x, hx, hd⟩ := mpiAllreduce_det hg hc ha hv
  refine ⟨x, hr vals x hx, fun out => ?_⟩
  obtain ⟨ty, h1, h2⟩ := cxx_repr t ht
  unfold allReduce
  refine Iff.trans (NR.bind_iff (a := ty) (fun o => by rw [h1]; exact Iff.rfl) out) ?_
  rw [if_pos h2]
  exact hd out

/-- Every other call stops the program: unsupported types, and operations that make no sense for the type. -/
theorem C77_stops (t : CxxType) (op : ReduceOp) (hop : t = .other ∨ ¬ Reducible t.repr op) (vals : List (t.repr.Val K)) (out) :
    allReduce t op vals out ↔ out = .abort := by
  by_cases ht : t = .other
  · subst ht
    unfold allReduce
    constructor
    · rintro ⟨r, h1, h2⟩
      cases h1
      exact h2
    · rintro rfl
      exact ⟨.abort, rfl, rfl⟩
  · obtain ⟨ty, h1, h2⟩ := cxx_repr t ht
    unfold allReduce
    refine Iff.trans (NR.bind_iff (a := ty) (fun o => by rw [h1]; exact Iff.rfl) out) ?_
    rw [if_pos h2]
    have : ReduceFn.apply (K := K) (getOp op) t.repr = none := by
      have hop' := hop.resolve_left ht
      generalize t.repr = r at hop'
      cases r <;> cases op <;> first | rfl | exact absurd (by simp [Reducible]) hop'
    unfold mpiAllreduce
    rw [this]

/-- **C77, vectors**: each component is reduced by itself. -/
theorem C77_vector (op : ReduceOp) (hop : Reducible (.flt 64) op) (vals : List (Vec K)) (hv : vals ≠ []) :
    ∃ x y z : K, Reduced (.flt 64) op (vals.map (·.1)) x ∧ Reduced (.flt 64) op (vals.map (·.2.1)) y ∧ Reduced (.flt 64) op (vals.map (·.2.2)) z ∧
      ∀ out, allReduceVector op vals out ↔ out = .ok (List.replicate vals.length (x, y, z)) := by
  obtain ⟨g, hg, hc, ha, hr⟩ := reduced_of (K := K) (r := .flt 64) (by simp) hop
  obtain ⟨x, hx, dx⟩ := mpiAllreduce_det (vals := vals.map (·.1)) hg hc ha (by simpa using hv)
  obtain ⟨y, hy, dy⟩ := mpiAllreduce_det (vals := vals.map (·.2.1)) hg hc ha (by simpa using hv)
  obtain ⟨z, hz, dz⟩ := mpiAllreduce_det (vals := vals.map (·.2.2)) hg hc ha (by simpa using hv)
  refine ⟨x, y, z, hr _ _ hx, hr _ _ hy, hr _ _ hz, fun out => ?_⟩
  unfold allReduceVector
  refine Iff.trans (NR.bind_iff dx out) ?_
  refine Iff.trans (NR.bind_iff dy out) ?_
  refine Iff.trans (NR.bind_iff dz out) ?_
  simp only [List.length_map]
  rw [List.zip_replicate', List.zip_replicate']
  exact Iff.rfl

/-- A communicator of `n` processes: every rank below `n` occurs once, with the size `n`; the null communicator stops the program. -/
theorem C77_ranks : (mpiEnvironments none = .abort) ∧ ∀ n, ∃ l, mpiEnvironments (some n) = .ok l ∧ l.length = n ∧ (l.map (·.1)).Nodup ∧
    (∀ r s, (r, s) ∈ l ↔ r < n ∧ s = n) := by
  refine ⟨rfl, fun n => ⟨_, rfl, by simp, ?_, fun r s => ?_⟩⟩
  · rw [List.map_map]
    have : ((fun p : Nat × Nat => p.1) ∘ fun r => (r, n)) = id := rfl
    rw [this, List.map_id]
    exact List.nodup_range
  · simp only [List.mem_map, List.mem_range, Prod.mk.injEq]
    exact ⟨fun ⟨a, h1, h2, h3⟩ => ⟨h2 ▸ h1, h3.symm⟩, fun ⟨h1, h2⟩ => ⟨r, h1, rfl, h2.symm⟩⟩

/-- The hypotheses are met: the sum of 1, 2, 3 over three ranks is 6 on each. -/
example : ∀ out, allReduce (K := ℚ) .double .sum [(1 : ℚ), (2 : ℚ), (3 : ℚ)] out ↔ out = .ok [(6 : ℚ), (6 : ℚ), (6 : ℚ)] := by
  obtain ⟨x, hx, h⟩ := C77_allReduce (K := ℚ) .double (by decide) .sum (by simp [CxxType.repr, Reducible]) [(1 : ℚ), (2 : ℚ), (3 : ℚ)] (by simp)
  have hx : x = (6 : ℚ) := by
    have : x = List.sum [(1 : ℚ), 2, 3] := hx
    exact this.trans (show List.sum [(1 : ℚ), 2, 3] = 6 by norm_num)
  subst hx
  exact h

end NeoFOAM
