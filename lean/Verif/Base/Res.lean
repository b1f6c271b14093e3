/-!
# Outcomes of C++ functions

`Res α` separates a normal return from a C++ exception, from a deliberate program stop
(`NF_ERROR_EXIT`, `NF_ASSERT`, `Kokkos::abort`; `/repo/include/NeoFOAM/core/error.hpp:99-152`) and
from undefined behaviour (out-of-bounds access to an unchecked view, dangling or null pointer,
uninitialised read).
-/
namespace NeoFOAM

/-- Kinds of C++ exceptions thrown by the modelled code. -/
inductive Exn where
  | outOfRange     -- std::out_of_range
  | badAnyCast     -- std::bad_any_cast
  | badCast        -- std::bad_cast
  | runtimeError   -- std::runtime_error
  | neofoam        -- NeoFOAM::NeoFOAMException (NF_THROW)
  | dimensionMismatch -- NeoFOAM::DimensionMismatch
  deriving DecidableEq, Repr

/-- Outcome of a call. -/
inductive Res (α : Type u) where
  | ok (a : α)
  | throw (e : Exn)
  | abort
  | ub
  deriving DecidableEq, Repr

namespace Res

/-- Sequencing: the first non-value outcome ends the computation. -/
@[inline] def bind {α : Type u} {β : Type v} : Res α → (α → Res β) → Res β
  | ok a, f => f a
  | throw e, _ => throw e
  | abort, _ => abort
  | ub, _ => ub

instance : Monad Res where
  pure := ok
  bind := bind

@[simp] theorem pure_eq (a : α) : (pure a : Res α) = ok a := rfl
@[simp] theorem ok_bind (a : α) (f : α → Res β) : (ok a >>= f) = f a := rfl
@[simp] theorem throw_bind (e : Exn) (f : α → Res β) : (throw e >>= f) = throw e := rfl
@[simp] theorem abort_bind (f : α → Res β) : ((abort : Res α) >>= f) = abort := rfl
@[simp] theorem ub_bind (f : α → Res β) : ((ub : Res α) >>= f) = ub := rfl

theorem bind_def (x : Res α) (f : α → Res β) : (x >>= f) = Res.bind x f := rfl

instance : LawfulMonad Res := LawfulMonad.mk' Res
  (id_map := by intro α x; cases x <;> rfl)
  (pure_bind := by intros; rfl)
  (bind_assoc := by intro α β γ x f g; cases x <;> rfl)

@[simp] theorem map_ok (f : α → β) (a : α) : (f <$> (ok a : Res α)) = ok (f a) := rfl

theorem bind_eq_ok {x : Res α} {f : α → Res β} {b : β} :
    (x >>= f) = ok b ↔ ∃ a, x = ok a ∧ f a = ok b := by
  cases x <;> simp

/-- `isOk r` – the call returned normally. -/
def isOk : Res α → Bool
  | ok _ => true
  | _ => false

/-- Value of a normal return. -/
def toOption : Res α → Option α
  | ok a => some a
  | _ => none

end Res

/-- Read element `i` of an unchecked view: out of bounds is undefined behaviour
(`/repo/include/NeoFOAM/core/view.hpp`, `operator[]` in release builds). -/
def rd {α : Type u} (a : List α) (i : Nat) : Res α :=
  match a[i]? with
  | some x => .ok x
  | none => .ub

/-- Read-modify-write element `i` of an unchecked view. -/
def upd {α : Type u} (a : List α) (i : Nat) (f : α → α) : Res (List α) :=
  if i < a.length then .ok (a.modify i f) else .ub

/-- Write element `i` of an unchecked view. -/
def wr {α : Type u} (a : List α) (i : Nat) (v : α) : Res (List α) :=
  if i < a.length then .ok (a.set i v) else .ub

theorem rd_ok {a : List α} {i : Nat} (h : i < a.length) : rd a i = .ok a[i] := by
  simp [rd, List.getElem?_eq_getElem h]

theorem rd_eq_ok_iff {a : List α} {i : Nat} {x : α} : rd a i = .ok x ↔ a[i]? = some x := by
  unfold rd
  cases h : a[i]? <;> simp

theorem rd_getD {a : List α} {i : Nat} (d : α) (h : i < a.length) : rd a i = .ok (a.getD i d) := by
  rw [rd_ok h]; simp [List.getD, List.getElem?_eq_getElem h]

theorem rd_ub {a : List α} {i : Nat} (h : a.length ≤ i) : rd a i = .ub := by
  simp [rd, List.getElem?_eq_none h]

theorem wr_ok {a : List α} {i : Nat} {v : α} (h : i < a.length) : wr a i v = .ok (a.set i v) := by
  simp [wr, h]

theorem upd_ok {a : List α} {i : Nat} {f : α → α} (h : i < a.length) :
    upd a i f = .ok (a.modify i f) := by
  simp [upd, h]

/-- `foldlM` succeeds step by step when an invariant keeps every step in range. -/
theorem foldlM_ok {σ : Type u} {α : Type v} (Inv : σ → Prop) (f : σ → α → Res σ) (g : σ → α → σ) :
    ∀ (l : List α) (s : σ), Inv s →
      (∀ s x, x ∈ l → Inv s → f s x = .ok (g s x) ∧ Inv (g s x)) →
      l.foldlM f s = .ok (l.foldl g s) ∧ Inv (l.foldl g s)
  | [], s, hs, _ => by simp [hs]
  | x :: l, s, hs, h => by
      have h1 := h s x (by simp) hs
      have ih := foldlM_ok Inv f g l (g s x) h1.2
        (fun s y hy hi => h s y (List.mem_cons_of_mem _ hy) hi)
      simp [List.foldlM_cons, h1.1, ih]

/-- `mapM` succeeds when each element does. -/
theorem mapM_ok {α : Type u} {β : Type v} (f : α → Res β) (g : α → β) :
    ∀ (l : List α), (∀ x ∈ l, f x = .ok (g x)) → l.mapM f = .ok (l.map g)
  | [], _ => by simp
  | x :: l, h => by
      have ih := mapM_ok f g l (fun y hy => h y (List.mem_cons_of_mem _ hy))
      simp [List.mapM_cons, h x (by simp), ih]

end NeoFOAM
