import Verif.Base.Sched

/-!
# Threads with local state

A second, more general memory model for kernels whose threads load several values before storing, or
whose addresses depend on values loaded earlier. Each action of thread `t` accesses one array element,
chosen from the thread's local state, reads it, and atomically updates the local state and the element.
Loads, stores and atomic read-modify-writes are special cases.
-/
namespace NeoFOAM

/-- Arrays named by `A` with elements `K`, and a local state `L` per thread. -/
structure LMem (A : Type u) (K : Type v) (L : Type w) where
  arr : A → List K
  loc : Nat → L

/-- One access by thread `t`. -/
structure LAct (A : Type u) (K : Type v) (L : Type w) where
  t : Nat
  loc : L → A × Nat
  f : L → K → L × K

namespace LAct
/-- Load `a[i]` onto the thread's stack of loaded values. -/
def load (t : Nat) (a : A) (i : Nat) : LAct A K (List K) := ⟨t, fun _ => (a, i), fun l x => (x :: l, x)⟩
/-- Store a function of the loaded values to `a[i]`. -/
def store (t : Nat) (a : A) (i : Nat) (g : List K → K) : LAct A K (List K) :=
  ⟨t, fun _ => (a, i), fun l _ => (l, g l)⟩
end LAct

variable {A : Type u} {K : Type v} {L : Type w} [DecidableEq A]

/-- One action; an access outside the array is undefined. -/
def LMem.step (s : LMem A K L) (x : LAct A K L) : Res (LMem A K L) :=
  let p := x.loc (s.loc x.t)
  match (s.arr p.1)[p.2]? with
  | none => .ub
  | some v =>
    let r := x.f (s.loc x.t) v
    .ok ⟨fun b => if b = p.1 then (s.arr b).set p.2 r.2 else s.arr b,
      fun u => if u = x.t then r.1 else s.loc u⟩

theorem LMem.ext' {s s' : LMem A K L} (h1 : ∀ a, s.arr a = s'.arr a) (h2 : ∀ t, s.loc t = s'.loc t) :
    s = s' := by
  cases s; cases s'
  simp only [LMem.mk.injEq]
  exact ⟨funext h1, funext h2⟩

theorem LMem.step_ok {s : LMem A K L} {x : LAct A K L} {v : K}
    (h : (s.arr (x.loc (s.loc x.t)).1)[(x.loc (s.loc x.t)).2]? = some v) :
    s.step x = .ok ⟨fun b => if b = (x.loc (s.loc x.t)).1 then
        (s.arr b).set (x.loc (s.loc x.t)).2 (x.f (s.loc x.t) v).2 else s.arr b,
      fun u => if u = x.t then (x.f (s.loc x.t) v).1 else s.loc u⟩ := by
  simp only [LMem.step, h]

theorem LMem.step_ub {s : LMem A K L} {x : LAct A K L}
    (h : (s.arr (x.loc (s.loc x.t)).1)[(x.loc (s.loc x.t)).2]? = none) : s.step x = .ub := by
  simp only [LMem.step, h]

/-- Accesses of different threads to always-different elements commute. -/
theorem lcomm (x y : LAct A K L) (ht : x.t ≠ y.t) (hl : ∀ l l', x.loc l ≠ y.loc l') :
    ActsCommute LMem.step x y := by
  intro s
  have key : ∀ (x y : LAct A K L), x.t ≠ y.t → (∀ l l', x.loc l ≠ y.loc l') → ∀ (s s1 : LMem A K L),
      s.step x = .ok s1 → s1.loc y.t = s.loc y.t ∧
        (s1.arr (y.loc (s.loc y.t)).1)[(y.loc (s.loc y.t)).2]?
          = (s.arr (y.loc (s.loc y.t)).1)[(y.loc (s.loc y.t)).2]? := by
    intro x y ht hl s s1 h
    cases hx : (s.arr (x.loc (s.loc x.t)).1)[(x.loc (s.loc x.t)).2]? with
    | none => rw [LMem.step_ub hx] at h; simp at h
    | some v =>
      rw [LMem.step_ok hx, Res.ok.injEq] at h
      subst h
      refine ⟨by simp [Ne.symm ht], ?_⟩
      simp only
      split
      · rename_i e
        rw [List.getElem?_set_ne]
        intro e2
        exact hl (s.loc x.t) (s.loc y.t) (Prod.ext e.symm e2)
      · rfl
  cases hx : (s.arr (x.loc (s.loc x.t)).1)[(x.loc (s.loc x.t)).2]? with
  | none =>
    rw [LMem.step_ub hx]
    cases hy : s.step y with
    | ok s1 =>
      obtain ⟨e1, e2⟩ := key y x ht.symm (fun l l' => (hl l' l).symm) s s1 hy
      rw [Res.ok_bind, LMem.step_ub (by rw [e1, e2, hx])]; rfl
    | throw e => exact absurd hy (by simp only [LMem.step]; split <;> simp)
    | abort => exact absurd hy (by simp only [LMem.step]; split <;> simp)
    | ub => rfl
  | some v =>
    cases hy : (s.arr (y.loc (s.loc y.t)).1)[(y.loc (s.loc y.t)).2]? with
    | none =>
      rw [LMem.step_ub hy]
      cases hx' : s.step x with
      | ok s1 =>
        obtain ⟨e1, e2⟩ := key x y ht hl s s1 hx'
        rw [Res.ok_bind, LMem.step_ub (by rw [e1, e2, hy])]; rfl
      | throw e => rw [LMem.step_ok hx] at hx'; simp at hx'
      | abort => rw [LMem.step_ok hx] at hx'; simp at hx'
      | ub => rw [LMem.step_ok hx] at hx'; simp at hx'
    | some w =>
      obtain ⟨s1, hs1⟩ : ∃ s1, s.step x = .ok s1 := ⟨_, LMem.step_ok hx⟩
      obtain ⟨s2, hs2⟩ : ∃ s2, s.step y = .ok s2 := ⟨_, LMem.step_ok hy⟩
      obtain ⟨a1, a2⟩ := key x y ht hl s s1 hs1
      obtain ⟨b1, b2⟩ := key y x ht.symm (fun l l' => (hl l' l).symm) s s2 hs2
      have c1 := LMem.step_ok (s := s1) (x := y) (v := w) (by rw [a1, a2, hy])
      have c2 := LMem.step_ok (s := s2) (x := x) (v := v) (by rw [b1, b2, hx])
      rw [hs1, hs2, Res.ok_bind, Res.ok_bind, c1, c2, a1, b1]
      rw [LMem.step_ok hx, Res.ok.injEq] at hs1
      rw [LMem.step_ok hy, Res.ok.injEq] at hs2
      subst hs1 hs2
      congr 1
      apply LMem.ext'
      · intro b
        simp only
        by_cases h1 : b = (x.loc (s.loc x.t)).1 <;> by_cases h2 : b = (y.loc (s.loc y.t)).1
        · rw [if_pos h1, if_pos h2, if_pos h1, if_pos h2, List.set_comm]
          intro e
          exact hl (s.loc x.t) (s.loc y.t) (Prod.ext (h1.symm.trans h2) e)
        · simp [if_pos h1, if_neg h2]
        · simp [if_neg h1, if_pos h2]
        · simp [if_neg h1, if_neg h2]
      · intro u
        simp only
        by_cases h1 : u = x.t <;> by_cases h2 : u = y.t
        · exact absurd (h1.symm.trans h2) ht
        · simp [if_pos h1, if_neg h2]
        · simp [if_neg h1, if_pos h2]
        · simp [if_neg h1, if_neg h2]

/-- Column `i` of the memory: element `i` of every array. -/
def LMem.col (s : LMem A K L) (i : Nat) : A → Option K := fun a => (s.arr a)[i]?

theorem LMem.arr_ext {s s' : LMem A K L} (h : ∀ i, s.col i = s'.col i) (a : A) : s.arr a = s'.arr a := by
  apply List.ext_getElem?
  intro i
  exact congrFun (h i) a

/-- Threads `i` that act only on column `i`, run one after another. -/
theorem run_columns (body : Nat → List (LAct A K L)) (F : Nat → (A → Option K) → (A → Option K))
    (P : Nat → (A → Option K) → Prop)
    (hb : ∀ i (s : LMem A K L), P i (s.col i) → ∃ s', runActs LMem.step s (body i) = .ok s' ∧
      s'.col i = F i (s.col i) ∧ ∀ j, j ≠ i → s'.col j = s.col j) :
    ∀ (l : List Nat), l.Nodup → ∀ (s : LMem A K L), (∀ i ∈ l, P i (s.col i)) →
    ∃ s', runActs LMem.step s (l.map body).flatten = .ok s' ∧
      ∀ j, s'.col j = if j ∈ l then F j (s.col j) else s.col j
  | [], _, s, _ => ⟨s, rfl, fun j => by simp⟩
  | i :: l, hn, s, hp => by
    obtain ⟨s1, r1, e1, e2⟩ := hb i s (hp i (by simp))
    have hn' := List.nodup_cons.1 hn
    obtain ⟨s2, r2, e3⟩ := run_columns body F P hb l hn'.2 s1 (by
      intro j hj
      have : j ≠ i := fun e => hn'.1 (e ▸ hj)
      rw [e2 j this]; exact hp j (by simp [hj]))
    refine ⟨s2, ?_, fun j => ?_⟩
    · rw [List.map_cons, List.flatten_cons, runActs_append, r1]; exact r2
    · rw [e3 j]
      by_cases hji : j = i
      · subst hji
        simp [hn'.1, e1]
      · simp [hji, e2 j hji]

/-- Threads acting on their own column commute. -/
theorem columns_commute (body : Nat → List (LAct A K L)) (l : List Nat) (hn : l.Nodup)
    (hb : ∀ i, ∀ x ∈ body i, x.t = i ∧ ∀ s, (x.loc s).2 = i) :
    ThreadsCommute LMem.step (l.map body) := by
  unfold ThreadsCommute
  rw [List.pairwise_map]
  refine hn.imp (fun {i j} hij x hx y hy => ?_)
  obtain ⟨hx1, hx2⟩ := hb i x hx
  obtain ⟨hy1, hy2⟩ := hb j y hy
  refine lcomm x y (by rw [hx1, hy1]; exact hij) (fun s s' e => hij ?_)
  rw [← hx2 s, ← hy2 s', e]

end NeoFOAM
