import Verif.Base.Sched
import Mathlib.Algebra.BigOperators.Group.Finset.Basic
import Mathlib.Algebra.BigOperators.Group.List.Basic
import Mathlib.Tactic.Ring
import Mathlib.Tactic.Abel

/-!
# Shared memory of a kernel

Arrays are named by `A` and hold values of type `K`; each thread has one register. An access outside
an array, and a store from a register that was never loaded, are undefined behaviour.
-/
namespace NeoFOAM
open Finset

/-- Kernel memory: named arrays and one register per thread. -/
structure Mem (A : Type u) (K : Type v) where
  arr : A → List K
  reg : Nat → Option K

/-- Atomic memory actions of a kernel thread.
* `rmw a i f` – atomic read-modify-write (`Kokkos::atomic_add`, `atomic_sub`, or a plain store
  when `f` is constant);
* `load t a i`, `store t a i f` – the two halves of a plain `a[i] = f(a[i])` by thread `t`. -/
inductive Act (A : Type u) (K : Type v) where
  | rmw (a : A) (i : Nat) (f : K → K)
  | load (t : Nat) (a : A) (i : Nat)
  | store (t : Nat) (a : A) (i : Nat) (f : K → K)

namespace Act
/-- Array and index an action touches. -/
def loc : Act A K → A × Nat
  | rmw a i _ => (a, i)
  | load _ a i => (a, i)
  | store _ a i _ => (a, i)

/-- Thread register an action uses. -/
def tid : Act A K → Option Nat
  | rmw _ _ _ => none
  | load t _ _ => some t
  | store t _ _ _ => some t

/-- A plain (non-atomic) `a[i] = f(a[i])` by thread `t`. -/
def plain (t : Nat) (a : A) (i : Nat) (f : K → K) : List (Act A K) :=
  [load t a i, store t a i f]

/-- `Kokkos::atomic_add(&a[i], v)`. -/
def atomicAdd [Add K] (a : A) (i : Nat) (v : K) : Act A K := rmw a i (· + v)

/-- `Kokkos::atomic_sub(&a[i], v)`. -/
def atomicSub [Sub K] (a : A) (i : Nat) (v : K) : Act A K := rmw a i (· - v)

/-- A plain store `a[i] = v`. -/
def write (a : A) (i : Nat) (v : K) : Act A K := rmw a i (fun _ => v)
end Act

variable {A : Type u} {K : Type v} [DecidableEq A]

/-- Replace array `a`. -/
def Mem.setArr (s : Mem A K) (a : A) (x : List K) : Mem A K :=
  { s with arr := fun b => if b = a then x else s.arr b }

/-- One action. -/
def Mem.step (s : Mem A K) : Act A K → Res (Mem A K)
  | .rmw a i f =>
      if i < (s.arr a).length then .ok (s.setArr a ((s.arr a).modify i f)) else .ub
  | .load t a i =>
      match (s.arr a)[i]? with
      | some v => .ok { s with reg := fun u => if u = t then some v else s.reg u }
      | none => .ub
  | .store t a i f =>
      if i < (s.arr a).length then
        match s.reg t with
        | some v => .ok (s.setArr a ((s.arr a).set i (f v)))
        | none => .ub
      else .ub

@[simp] theorem Mem.setArr_arr (s : Mem A K) (a b : A) (x : List K) :
    (s.setArr a x).arr b = if b = a then x else s.arr b := rfl
@[simp] theorem Mem.setArr_reg (s : Mem A K) (a : A) (x : List K) :
    (s.setArr a x).reg = s.reg := rfl

omit [DecidableEq A] in
theorem Mem.ext' {s s' : Mem A K} (h1 : ∀ a, s.arr a = s'.arr a) (h2 : ∀ t, s.reg t = s'.reg t) :
    s = s' := by
  cases s; cases s'
  simp only [Mem.mk.injEq]
  exact ⟨funext h1, funext h2⟩

theorem modify_modify_comm (l : List K) (i j : Nat) (f g : K → K)
    (h : i ≠ j ∨ ∀ x, f (g x) = g (f x)) :
    (l.modify i f).modify j g = (l.modify j g).modify i f := by
  apply List.ext_getElem?
  intro k
  simp only [List.getElem?_modify]
  by_cases h1 : i = k <;> by_cases h2 : j = k <;> simp [h1, h2]
  rcases h with h | h
  · omega
  · cases l[k]? <;> simp [h]

/-- Admissibility of an action (used in proofs only). -/
def Mem.guard (s : Mem A K) : Act A K → Prop
  | .rmw a i _ => i < (s.arr a).length
  | .load _ a i => i < (s.arr a).length
  | .store t a i _ => i < (s.arr a).length ∧ (s.reg t).isSome

/-- New value of an element under an action (used in proofs only). -/
def Mem.newVal (s : Mem A K) : Act A K → K → K
  | .rmw _ _ f => f
  | .load _ _ _ => id
  | .store t _ _ f => fun x => ((s.reg t).map f).getD x

/-- New registers under an action (used in proofs only). -/
def Mem.newReg (s : Mem A K) : Act A K → Nat → Option K
  | .load t a i => fun u => if u = t then (s.arr a)[i]? else s.reg u
  | _ => s.reg

/-- Effect of an admissible action (used in proofs only). -/
def Mem.eff (s : Mem A K) (x : Act A K) : Mem A K :=
  ⟨fun b => if b = x.loc.1 then (s.arr b).modify x.loc.2 (s.newVal x) else s.arr b, s.newReg x⟩

open Classical in
theorem Mem.step_eq (s : Mem A K) (x : Act A K) :
    s.step x = if s.guard x then .ok (s.eff x) else .ub := by
  cases x with
  | rmw a i f =>
    have hg : s.guard (.rmw a i f) = (i < (s.arr a).length) := rfl
    by_cases hi : i < (s.arr a).length
    · rw [if_pos (hg ▸ hi)]
      simp only [Mem.step, hi, if_true]
      congr 1
      apply Mem.ext'
      · intro b
        by_cases hb : b = a <;> simp [Mem.eff, Mem.newVal, Act.loc, hb]
      · intro t; simp [Mem.eff, Mem.newReg]
    · rw [if_neg (hg ▸ hi)]
      simp [Mem.step, hi]
  | load t a i =>
    have hg : s.guard (.load t a i) = (i < (s.arr a).length) := rfl
    by_cases hi : i < (s.arr a).length
    · rw [if_pos (hg ▸ hi)]
      simp only [Mem.step, List.getElem?_eq_getElem hi]
      congr 1
      apply Mem.ext'
      · intro b
        by_cases hb : b = a <;> simp [Mem.eff, Mem.newVal, Act.loc, hb]
      · intro u; simp [Mem.eff, Mem.newReg, List.getElem?_eq_getElem hi]
    · rw [if_neg (hg ▸ hi)]
      simp [Mem.step, hi]
  | store t a i f =>
    have hg : s.guard (.store t a i f) = (i < (s.arr a).length ∧ (s.reg t).isSome) := rfl
    by_cases hi : i < (s.arr a).length
    · rcases hr : s.reg t with _ | v
      · rw [if_neg (by rw [hg, hr]; simp)]
        simp [Mem.step, hi, hr]
      · rw [if_pos (by rw [hg, hr]; simpa using hi)]
        simp only [Mem.step, hi, if_true, hr]
        congr 1
        apply Mem.ext'
        · intro b
          by_cases hb : b = a
          · subst hb
            simp only [Mem.setArr_arr, if_true, Mem.eff, Act.loc, Mem.newVal, hr, Option.map_some,
              Option.getD_some]
            apply List.ext_getElem?
            intro k
            simp only [List.getElem?_modify, List.getElem?_set]
            by_cases hk : i = k
            · subst hk; simp [hi]
            · simp [hk]
          · simp [Mem.eff, Act.loc, hb]
        · intro u; simp [Mem.eff, Mem.newReg]
    · rw [if_neg (by rw [hg]; simp [hi])]
      simp [Mem.step, hi]

@[simp] theorem Mem.eff_length (s : Mem A K) (x : Act A K) (b : A) :
    ((s.eff x).arr b).length = (s.arr b).length := by
  simp only [Mem.eff]; split <;> simp

/-- Actions commute when they use different registers, and touch different elements or are
read-modify-writes with commuting functions. -/
theorem comm_acts (x y : Act A K)
    (ht : ∀ t, x.tid = some t → y.tid ≠ some t)
    (hl : x.loc ≠ y.loc ∨
      ∃ a i f b j g, x = .rmw a i f ∧ y = .rmw b j g ∧ ∀ v, f (g v) = g (f v)) :
    ActsCommute Mem.step x y := by
  classical
  have gd : ∀ (s : Mem A K) (x y : Act A K), (∀ t, x.tid = some t → y.tid ≠ some t) →
      ((s.eff x).guard y ↔ s.guard y) := by
    intro s x y h
    cases y with
    | rmw a i f => simp [Mem.guard]
    | load t a i => simp [Mem.guard]
    | store t a i f =>
      cases x with
      | rmw b j g =>
        simp only [Mem.guard, Mem.eff_length]
        simp [Mem.eff, Mem.newReg]
      | load u b j =>
        have : t ≠ u := fun e => h u rfl (by simp [Act.tid, e])
        simp only [Mem.guard, Mem.eff_length]
        simp [Mem.eff, Mem.newReg, this]
      | store u b j g =>
        simp only [Mem.guard, Mem.eff_length]
        simp [Mem.eff, Mem.newReg]
  have ht' : ∀ t, y.tid = some t → x.tid ≠ some t := fun t h1 h2 => ht t h2 h1
  have nv : ∀ (s : Mem A K) (x y : Act A K), (∀ t, x.tid = some t → y.tid ≠ some t) →
      (s.eff x).newVal y = s.newVal y := by
    intro s x y h
    cases y with
    | rmw a i f => rfl
    | load t a i => rfl
    | store t a i f =>
      cases x with
      | rmw b j g => simp [Mem.newVal, Mem.eff, Mem.newReg]
      | load u b j =>
        have : t ≠ u := fun e => h u rfl (by simp [Act.tid, e])
        simp [Mem.newVal, Mem.eff, Mem.newReg, this]
      | store u b j g => simp [Mem.newVal, Mem.eff, Mem.newReg]
  have rdLoc : ∀ (s : Mem A K) (x : Act A K) (a : A) (i : Nat), x.loc ≠ (a, i) →
      ((s.eff x).arr a)[i]? = (s.arr a)[i]? := by
    intro s x a i h
    simp only [Mem.eff]
    split
    · rename_i h1
      have : x.loc.2 ≠ i := fun e => h (by rw [h1, ← e])
      simp [this]
    · rfl
  intro s
  have hc : (s.eff x).eff y = (s.eff y).eff x := by
    apply Mem.ext'
    · intro b
      have e1 : ((s.eff x).eff y).arr b = if b = y.loc.1
          then ((s.eff x).arr b).modify y.loc.2 (s.newVal y) else (s.eff x).arr b := by
        rw [← nv s x y ht]; rfl
      have e2 : ((s.eff y).eff x).arr b = if b = x.loc.1
          then ((s.eff y).arr b).modify x.loc.2 (s.newVal x) else (s.eff y).arr b := by
        rw [← nv s y x ht']; rfl
      rw [e1, e2]
      by_cases h1 : b = x.loc.1 <;> by_cases h2 : b = y.loc.1 <;>
        simp only [Mem.eff, h1, h2, if_true, if_false]
      · by_cases hxy : y.loc.1 = x.loc.1
        · simp only [hxy, if_true]
          apply modify_modify_comm
          rcases hl with hl | ⟨a, i, f, b', j, g, rfl, rfl, hfg⟩
          · left; intro e; exact hl (Prod.ext hxy.symm e)
          · right; exact hfg
        · exact absurd (h2.symm.trans h1) hxy
      · have : ¬ x.loc.1 = y.loc.1 := fun e => h2 (h1.trans e)
        simp [this]
      · have : ¬ y.loc.1 = x.loc.1 := fun e => h1 (h2.trans e)
        simp [this]
    · intro u
      cases x with
      | rmw a i f =>
        cases y with
        | rmw b j g => rfl
        | load t b j =>
          simp only [Mem.eff, Mem.newReg]
          split
          · have := rdLoc s (.rmw a i f) b j (by
              rcases hl with h | ⟨_, _, _, _, _, _, _, h, _⟩
              · exact h
              · cases h)
            exact this
          · rfl
        | store t b j g => rfl
      | load t a i =>
        have hne : ∀ y : Act A K, (Act.load t a i : Act A K).loc ≠ y.loc → y.loc ≠ (a, i) :=
          fun y h e => h (by rw [e]; rfl)
        have hl' : (Act.load t a i : Act A K).loc ≠ y.loc := by
          rcases hl with h | ⟨_, _, _, _, _, _, h, _, _⟩
          · exact h
          · cases h
        cases y with
        | rmw b j g =>
          simp only [Mem.eff, Mem.newReg]
          split
          · exact (rdLoc s (.rmw b j g) a i (hne _ hl')).symm
          · rfl
        | load t' b j =>
          have hu : t ≠ t' := fun e => ht t rfl (by simp [Act.tid, e])
          have r1 := rdLoc s (.load t' b j) a i (hne _ hl')
          have r2 := rdLoc s (.load t a i) b j hl'
          simp only [Mem.eff, Mem.newReg] at r1 r2 ⊢
          rw [r1, r2]
          by_cases h1 : u = t <;> by_cases h2 : u = t' <;> simp [h1, h2]
          · exact absurd (h1.symm.trans h2) hu
          · simp [hu]
          · simp [Ne.symm hu]
        | store t' b j g =>
          have r1 := rdLoc s (.store t' b j g) a i (hne _ hl')
          simp only [Mem.eff, Mem.newReg] at r1 ⊢
          rw [r1]
      | store t a i f =>
        cases y with
        | rmw b j g => rfl
        | load t' b j =>
          have r2 := rdLoc s (.store t a i f) b j (by
            rcases hl with h | ⟨_, _, _, _, _, _, h, _, _⟩
            · exact h
            · cases h)
          simp only [Mem.eff, Mem.newReg] at r2 ⊢
          rw [r2]
        | store t' b j g => rfl
  rw [Mem.step_eq, Mem.step_eq]
  by_cases h1 : s.guard x <;> by_cases h2 : s.guard y <;>
    simp [h1, h2, Mem.step_eq, gd s x y ht, gd s y x ht', hc]

end NeoFOAM
