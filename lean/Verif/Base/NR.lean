import Verif.Base.Res

/-!
# Nondeterministic computations

`NR α` is the set of possible outcomes of a call whose result may depend on the schedule.
-/
namespace NeoFOAM

/-- A set of possible outcomes. -/
def NR (α : Type u) := Res α → Prop

namespace NR

/-- Sequencing: any outcome of the first part; the second part runs only after a normal return. -/
def bind {α : Type u} {β : Type v} (R : NR α) (k : α → NR β) : NR β := fun out =>
  ∃ r, R r ∧ match r with
    | .ok a => k a out
    | .throw e => out = .throw e
    | .abort => out = .abort
    | .ub => out = .ub

instance : Monad NR where
  pure a := fun out => out = .ok a
  bind := bind

/-- A deterministic call. -/
def lift {α : Type u} (r : Res α) : NR α := fun out => out = r

theorem bind_def {α β : Type u} (R : NR α) (k : α → NR β) (out : Res β) :
    (R >>= k) out ↔ ∃ r, R r ∧ match r with
      | .ok a => k a out
      | .throw e => out = .throw e
      | .abort => out = .abort
      | .ub => out = .ub := Iff.rfl

@[simp] theorem pure_iff {α : Type u} (a : α) (out : Res α) : (pure a : NR α) out ↔ out = .ok a := Iff.rfl

/-- A call that returns normally with a property `Q` on every outcome. -/
def Ok {α : Type u} (R : NR α) (Q : α → Prop) : Prop := ∀ r, R r → ∃ a, r = .ok a ∧ Q a

theorem Ok.bind {α β : Type u} {R : NR α} {k : α → NR β} {Q : α → Prop} {S : β → Prop}
    (h1 : R.Ok Q) (h2 : ∀ a, Q a → (k a).Ok S) : (R >>= k).Ok S := by
  rintro out ⟨r, hr, h⟩
  obtain ⟨a, rfl, ha⟩ := h1 r hr
  exact h2 a ha out h

theorem Ok.pure {α : Type u} {a : α} {Q : α → Prop} (h : Q a) : (pure a : NR α).Ok Q := by
  intro r hr
  exact ⟨a, hr, h⟩

theorem Ok.lift {α : Type u} {a : α} {r : Res α} {Q : α → Prop} (hr : r = .ok a) (h : Q a) :
    (NR.lift r).Ok Q := by
  intro r' hr'
  exact ⟨a, hr'.trans hr, h⟩

theorem Ok.mono {α : Type u} {R : NR α} {Q S : α → Prop} (h : R.Ok Q) (hQ : ∀ a, Q a → S a) : R.Ok S := by
  intro r hr
  obtain ⟨a, e, ha⟩ := h r hr
  exact ⟨a, e, hQ a ha⟩

/-- Some outcome exists. -/
def Runs {α : Type u} (R : NR α) : Prop := ∃ r, R r

theorem Runs.bind {α β : Type u} {R : NR α} {k : α → NR β} (h1 : R.Runs)
    (h2 : ∀ a, R (.ok a) → (k a).Runs) : (R >>= k).Runs := by
  obtain ⟨r, hr⟩ := h1
  cases r with
  | ok a => obtain ⟨o, ho⟩ := h2 a hr; exact ⟨o, _, hr, ho⟩
  | throw e => exact ⟨.throw e, _, hr, rfl⟩
  | abort => exact ⟨.abort, _, hr, rfl⟩
  | ub => exact ⟨.ub, _, hr, rfl⟩

end NR

end NeoFOAM
