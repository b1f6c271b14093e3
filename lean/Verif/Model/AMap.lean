import Verif.Base.Res

/-!
# `std::unordered_map` as an association list

Only the member functions used by NeoFOAM. The iteration order of the list stands for the
unspecified iteration order of the C++ container; no property depends on it.
-/
namespace NeoFOAM

/-- Contents of a `std::unordered_map`.
(C++ standard library; used at core/dictionary.hpp:171, core/database/database.hpp:107) -/
abbrev AMap (κ : Type u) (ν : Type v) := List (κ × ν)

namespace AMap
variable {κ : Type u} {ν : Type v} [DecidableEq κ]

/-- `find`/`at` without the exception.
(C++ standard library; used at src/core/dictionary.cpp:47-73) -/
def find? : AMap κ ν → κ → Option ν
  | [], _ => none
  | (k', v) :: m, k => if k' = k then some v else find? m k

/-- `m.at(k)`: throws `std::out_of_range` when absent.
(C++ standard library; used at src/core/dictionary.cpp:49-73, src/core/database/database.cpp:17-19) -/
def at? (m : AMap κ ν) (k : κ) : Res ν :=
  match m.find? k with
  | some v => .ok v
  | none => .throw .outOfRange

/-- `m.contains(k)` / `m.find(k) != m.end()`.
(C++ standard library; used at src/core/dictionary.cpp:47, src/core/database/database.cpp:15) -/
def contains (m : AMap κ ν) (k : κ) : Bool := (m.find? k).isSome

/-- `m[k] = v`: overwrite or add.
(C++ standard library; used at src/core/dictionary.cpp:43, core/runtimeSelectionFactory.hpp:315-329) -/
def assign : AMap κ ν → κ → ν → AMap κ ν
  | [], k, v => [(k, v)]
  | (k', v') :: m, k, v => if k' = k then (k', v) :: m else (k', v') :: assign m k v

/-- `m.insert({k,v})` / `m.emplace(k,v)` / `m.try_emplace(k,v)`: add only when absent.
(C++ standard library; used at src/core/database/database.cpp:10-13, core/database/collection.hpp:28-205) -/
def emplace (m : AMap κ ν) (k : κ) (v : ν) : AMap κ ν :=
  if m.contains k then m else m ++ [(k, v)]

/-- `m.erase(k)`.
(C++ standard library; used at src/core/dictionary.cpp:45, src/core/database/database.cpp:23) -/
def erase : AMap κ ν → κ → AMap κ ν
  | [], _ => []
  | (k', v') :: m, k => if k' = k then m else (k', v') :: erase m k

/-- Keys in iteration order.
(C++ standard library; used at src/core/dictionary.cpp:91-99) -/
def keys (m : AMap κ ν) : List κ := List.map Prod.fst m

/-- Modify the mapped value in place through a reference.
(C++ standard library; used at src/core/dictionary.cpp:49-83) -/
def modify : AMap κ ν → κ → (ν → ν) → AMap κ ν
  | [], _, _ => []
  | (k', v') :: m, k, f => if k' = k then (k', f v') :: m else (k', v') :: modify m k f

/-- The container invariant: keys are unique.
(C++ standard library; used at core/dictionary.hpp:171) -/
def Uniq (m : AMap κ ν) : Prop := m.keys.Nodup

@[simp] theorem find?_nil (k : κ) : find? ([] : AMap κ ν) k = none := rfl
theorem find?_cons (k' : κ) (v : ν) (m : AMap κ ν) (k : κ) :
    find? ((k', v) :: m) k = if k' = k then some v else find? m k := rfl

theorem find?_assign (m : AMap κ ν) (k : κ) (v : ν) (k' : κ) :
    (m.assign k v).find? k' = if k' = k then some v else m.find? k' := by
  induction m with
  | nil => simp [assign, find?_cons, eq_comm]
  | cons p m ih =>
    obtain ⟨a, b⟩ := p
    simp only [assign]
    by_cases h : a = k
    · subst h
      simp only [if_true, find?_cons]
      by_cases h2 : a = k'
      · simp [h2]
      · simp [h2, Ne.symm h2]
    · simp only [h, if_false, find?_cons, ih]
      by_cases h2 : a = k'
      · subst h2; simp [h]
      · simp [h2]

omit [DecidableEq κ] in
theorem mem_keys_iff (m : AMap κ ν) (k : κ) : k ∈ m.keys ↔ ∃ v, (k, v) ∈ m := by
  simp [keys]

theorem find?_eq_none_iff (m : AMap κ ν) (k : κ) : m.find? k = none ↔ k ∉ m.keys := by
  induction m with
  | nil => simp [keys]
  | cons p m ih =>
    obtain ⟨a, b⟩ := p
    simp only [find?_cons, keys, List.map_cons, List.mem_cons, not_or] at ih ⊢
    by_cases h : a = k
    · simp [h]
    · simp only [h, if_false, ih]
      constructor
      · intro h2; exact ⟨fun e => h e.symm, h2⟩
      · intro h2; exact h2.2

theorem contains_iff_mem_keys (m : AMap κ ν) (k : κ) : m.contains k = true ↔ k ∈ m.keys := by
  unfold contains
  have := find?_eq_none_iff m k
  cases h : m.find? k with
  | none => simp [this.1 h]
  | some v =>
    simp only [Option.isSome_some, true_iff]
    exact Classical.byContradiction fun hc => by rw [this.2 hc] at h; simp at h

theorem find?_mem {m : AMap κ ν} {k : κ} {v : ν} (h : m.find? k = some v) : (k, v) ∈ m := by
  induction m with
  | nil => simp at h
  | cons p m ih =>
    obtain ⟨a, b⟩ := p
    rw [find?_cons] at h
    by_cases h1 : a = k
    · subst h1; simp at h; simp [h]
    · simp [h1] at h; exact List.mem_cons_of_mem _ (ih h)

theorem find?_eq_some_iff {m : AMap κ ν} (hu : m.Uniq) (k : κ) (v : ν) :
    m.find? k = some v ↔ (k, v) ∈ m := by
  refine ⟨find?_mem, fun h => ?_⟩
  induction m with
  | nil => simp at h
  | cons p m ih =>
    obtain ⟨a, b⟩ := p
    simp only [Uniq, keys, List.map_cons, List.nodup_cons] at hu ih
    rw [find?_cons]
    rcases List.mem_cons.1 h with h | h
    · cases h; simp
    · have : a ≠ k := by
        intro e; subst e
        exact hu.1 (List.mem_map.2 ⟨_, h, rfl⟩)
      simp only [this, if_false]
      exact ih hu.2 h

theorem find?_append (m m' : AMap κ ν) (k : κ) :
    find? (m ++ m') k = (m.find? k).or (find? m' k) := by
  induction m with
  | nil => simp
  | cons p m ih =>
    obtain ⟨a, b⟩ := p
    rw [List.cons_append, find?_cons, find?_cons, ih]
    by_cases h : a = k <;> simp [h]

theorem find?_emplace (m : AMap κ ν) (k : κ) (v : ν) (k' : κ) :
    (m.emplace k v).find? k' =
      if k' = k then some ((m.find? k).getD v) else m.find? k' := by
  unfold emplace contains
  cases h : m.find? k with
  | some w =>
    by_cases h2 : k' = k
    · subst h2; simp [h]
    · simp [h2]
  | none =>
    simp only [Option.isSome_none, Bool.false_eq_true, if_false, find?_append, find?_cons,
      find?_nil]
    by_cases h2 : k' = k
    · subst h2; simp [h]
    · simp [h2, Ne.symm h2]

theorem Uniq.erase {m : AMap κ ν} (h : m.Uniq) (k : κ) : (m.erase k).Uniq := by
  induction m with
  | nil => exact h
  | cons p m ih =>
    obtain ⟨a, b⟩ := p
    simp only [Uniq, keys, List.map_cons, List.nodup_cons] at h ih
    simp only [AMap.erase]
    by_cases h1 : a = k
    · simp only [h1, if_true]; exact h.2
    · simp only [h1, if_false, Uniq, keys, List.map_cons, List.nodup_cons]
      refine ⟨?_, ih h.2⟩
      intro hm
      apply h.1
      obtain ⟨q, hq, rfl⟩ := List.mem_map.1 hm
      refine List.mem_map.2 ⟨q, ?_, rfl⟩
      clear ih h hm h1
      induction m with
      | nil => simp [AMap.erase] at hq
      | cons r m ih2 =>
        obtain ⟨c, d⟩ := r
        simp only [AMap.erase] at hq
        by_cases h3 : c = k
        · simp only [h3, if_true] at hq; exact List.mem_cons_of_mem _ hq
        · simp only [h3, if_false] at hq
          rcases List.mem_cons.1 hq with hq | hq
          · exact hq ▸ List.mem_cons_self
          · exact List.mem_cons_of_mem _ (ih2 hq)

theorem find?_erase {m : AMap κ ν} (hu : m.Uniq) (k k' : κ) :
    (m.erase k).find? k' = if k' = k then none else m.find? k' := by
  induction m with
  | nil => simp [erase]
  | cons p m ih =>
    obtain ⟨a, b⟩ := p
    simp only [Uniq, keys, List.map_cons, List.nodup_cons] at hu ih
    simp only [erase]
    by_cases h : a = k
    · subst h
      simp only [if_true, find?_cons]
      by_cases h2 : k' = a
      · subst h2; simp [(find?_eq_none_iff m k').2 hu.1]
      · simp [h2, Ne.symm h2]
    · simp only [h, if_false, find?_cons, ih hu.2]
      by_cases h2 : k' = k
      · subst h2; simp [h]
      · by_cases h3 : a = k' <;> simp [h2, h3]

theorem keys_assign (m : AMap κ ν) (k : κ) (v : ν) :
    (m.assign k v).keys = if k ∈ m.keys then m.keys else m.keys ++ [k] := by
  induction m with
  | nil => simp [assign, keys]
  | cons p m ih =>
    obtain ⟨a, b⟩ := p
    simp only [assign]
    by_cases h : a = k
    · simp [h, keys]
    · simp only [h, if_false, keys, List.map_cons] at ih ⊢
      rw [ih]
      by_cases h2 : k ∈ List.map Prod.fst m <;> simp [h2, Ne.symm h]

theorem Uniq.assign {m : AMap κ ν} (h : m.Uniq) (k : κ) (v : ν) : (m.assign k v).Uniq := by
  unfold Uniq at *
  rw [keys_assign]
  split
  · exact h
  · rename_i hk
    rw [List.nodup_append]
    refine ⟨h, by simp, ?_⟩
    intro a ha b hb
    simp only [List.mem_singleton] at hb
    subst hb
    exact fun e => hk (e ▸ ha)

theorem Uniq.emplace {m : AMap κ ν} (h : m.Uniq) (k : κ) (v : ν) : (m.emplace k v).Uniq := by
  unfold AMap.emplace
  split
  · exact h
  · rename_i hk
    have : k ∉ m.keys := fun hm => hk ((contains_iff_mem_keys m k).2 hm)
    unfold Uniq keys at *
    rw [List.map_append, List.nodup_append]
    refine ⟨h, by simp, ?_⟩
    intro a ha b hb
    simp at hb
    subst hb
    exact fun e => this (e ▸ ha)

omit [DecidableEq κ] in
theorem Uniq.nil : AMap.Uniq ([] : AMap κ ν) := by simp [Uniq, keys]

theorem keys_modify (m : AMap κ ν) (k : κ) (f : ν → ν) : (m.modify k f).keys = m.keys := by
  induction m with
  | nil => rfl
  | cons p m ih =>
    obtain ⟨a, b⟩ := p
    simp only [modify]
    by_cases h : a = k <;> simp [h, keys] at ih ⊢
    exact ih

theorem find?_modify (m : AMap κ ν) (k : κ) (f : ν → ν) (k' : κ) :
    (m.modify k f).find? k' = if k' = k then (m.find? k).map f else m.find? k' := by
  induction m with
  | nil => simp [modify]
  | cons p m ih =>
    obtain ⟨a, b⟩ := p
    simp only [modify]
    by_cases h : a = k
    · subst h
      simp only [if_true, find?_cons]
      by_cases h2 : k' = a
      · subst h2; simp
      · simp [h2, Ne.symm h2]
    · simp only [h, if_false, find?_cons, ih]
      by_cases h2 : k' = k
      · subst h2; simp [h]
      · by_cases h3 : a = k' <;> simp [h2, h3]

theorem Uniq.modify {m : AMap κ ν} (h : m.Uniq) (k : κ) (f : ν → ν) : (m.modify k f).Uniq := by
  unfold Uniq at *; rw [keys_modify]; exact h

end AMap
end NeoFOAM
