import Verif.Model.Factory

/-!
# C36 – runtime selection creates the type last registered under a name and stops on unknown names
-/
namespace NeoFOAM
variable {Args Obj : Type}
open Factories

/-- The class last registered for base class `id` under `name` in a history. -/
def lastRegistered (id : Nat) (name : String) : List (Event Args Obj) → Option (DerivedClass Args Obj)
  | [] => none
  | .base _ _ :: es => lastRegistered id name es
  | .derived i c :: es => match lastRegistered id name es with
    | some c' => some c'
    | none => if i = id ∧ c.name = name then some c else none

/-- The base class last registered under `name`. -/
def lastBase (name : String) : List (Event Args Obj) → Option Nat
  | [] => none
  | .derived _ _ :: es => lastBase name es
  | .base i n :: es => match lastBase name es with
    | some j => some j
    | none => if n = name then some i else none

/-- What the tables hold after a history, from any state. -/
theorem registerAll_find (es : List (Event Args Obj)) : ∀ w : Factories Args Obj, ∀ id name,
    ((w.registerAll es).factory id).table.find? name
      = (match lastRegistered id name es with | some c => some c.ctor | none => (w.factory id).table.find? name) ∧
    ((w.registerAll es).factory id).docTable.find? name
      = (match lastRegistered id name es with | some c => some (c.doc, c.schema) | none => (w.factory id).docTable.find? name) ∧
    (w.registerAll es).docTable.find? name = (match lastBase name es with | some i => some i | none => w.docTable.find? name) := by
  induction es with
  | nil => intro w id name; exact ⟨rfl, rfl, rfl⟩
  | cons ev es ih =>
    intro w id name
    have h := ih (w.register ev) id name
    cases ev with
    | base i n =>
      refine ⟨h.1, h.2.1, ?_⟩
      refine h.2.2.trans ?_
      simp only [lastBase]
      cases lastBase name es with
      | some j => rfl
      | none =>
        simp only [register, AMap.find?_assign]
        by_cases hn : n = name
        · subst hn; simp
        · simp [hn, Ne.symm hn]
    | derived i c =>
      refine ⟨h.1.trans ?_, h.2.1.trans ?_, h.2.2⟩
      · simp only [lastRegistered]
        cases lastRegistered id name es with
        | some c' => rfl
        | none =>
          simp only [register]
          by_cases hi : id = i
          · subst hi
            simp only [if_true, Factory.addSubType, AMap.find?_assign, true_and]
            by_cases hn : c.name = name
            · simp [hn]
            · simp [hn, Ne.symm hn]
          · rw [if_neg hi, if_neg (fun hh => hi hh.1.symm)]
      · simp only [lastRegistered]
        cases lastRegistered id name es with
        | some c' => rfl
        | none =>
          simp only [register]
          by_cases hi : id = i
          · subst hi
            simp only [if_true, Factory.addSubType, AMap.find?_assign, true_and]
            by_cases hn : c.name = name
            · simp [hn]
            · simp [hn, Ne.symm hn]
          · rw [if_neg hi, if_neg (fun hh => hi hh.1.symm)]

theorem registerAll_uniq (es : List (Event Args Obj)) : ∀ w : Factories Args Obj, (∀ id, (w.factory id).table.Uniq) →
    ∀ id, ((w.registerAll es).factory id).table.Uniq := by
  induction es with
  | nil => intro w h; exact h
  | cons ev es ih =>
    intro w h
    refine ih (w.register ev) ?_
    cases ev with
    | base i n => exact h
    | derived i c =>
      intro id
      simp only [register]
      split
      · exact (h id).assign _ _
      · exact h id

/-- A name is registered for a base class. -/
def Registered (id : Nat) (name : String) (es : List (Event Args Obj)) : Prop := ∃ c, .derived id c ∈ es ∧ c.name = name

theorem lastRegistered_spec (id : Nat) (name : String) : ∀ es : List (Event Args Obj),
    (∀ c, lastRegistered id name es = some c ↔
      ∃ pre post, es = pre ++ .derived id c :: post ∧ c.name = name ∧ ¬ Registered id name post) ∧
    (lastRegistered id name es = none ↔ ¬ Registered id name es)
  | [] => by
    refine ⟨fun c => ⟨fun h => by simp [lastRegistered] at h, ?_⟩, ?_⟩
    · rintro ⟨pre, post, h, -⟩
      simp at h
    · simp [lastRegistered, Registered]
  | ev :: es => by
    obtain ⟨ih1, ih2⟩ := lastRegistered_spec id name es
    have hnone : lastRegistered id name (ev :: es) = none ↔ ¬ Registered id name (ev :: es) := by
      cases ev with
      | base i n =>
        refine ih2.trans ?_
        simp [Registered]
      | derived i c =>
        simp only [lastRegistered]
        cases hl : lastRegistered id name es with
        | some c' =>
          have : Registered id name es := by
            by_contra hh
            rw [ih2.2 hh] at hl; cases hl
          obtain ⟨c2, h1, h2⟩ := this
          simp only [reduceCtorEq, false_iff, not_not]
          exact ⟨c2, by simp [h1], h2⟩
        | none =>
          have hn := ih2.1 hl
          by_cases hh : i = id ∧ c.name = name
          · simp only [if_pos hh, reduceCtorEq, false_iff, not_not]
            exact ⟨c, by simp [hh.1], hh.2⟩
          · simp only [if_neg hh, true_iff]
            rintro ⟨c2, h1, h2⟩
            simp only [List.mem_cons] at h1
            rcases h1 with h1 | h1
            · cases h1; exact hh ⟨rfl, h2⟩
            · exact hn ⟨c2, h1, h2⟩
    refine ⟨fun c => ⟨fun h => ?_, ?_⟩, hnone⟩
    · cases ev with
      | base i n =>
        obtain ⟨pre, post, h1, h2, h3⟩ := (ih1 c).1 h
        exact ⟨.base i n :: pre, post, by rw [h1]; rfl, h2, h3⟩
      | derived i c1 =>
        simp only [lastRegistered] at h
        cases hl : lastRegistered id name es with
        | some c' =>
          rw [hl] at h
          cases h
          obtain ⟨pre, post, h1, h2, h3⟩ := (ih1 c).1 hl
          exact ⟨.derived i c1 :: pre, post, by rw [h1]; rfl, h2, h3⟩
        | none =>
          rw [hl] at h
          simp only [Option.ite_none_right_eq_some, Option.some.injEq] at h
          obtain ⟨⟨rfl, h2⟩, rfl⟩ := h
          exact ⟨[], es, rfl, h2, ih2.1 hl⟩
    · rintro ⟨pre, post, h1, h2, h3⟩
      cases pre with
      | nil =>
        cases h1
        simp only [lastRegistered, ih2.2 h3, true_and, h2, if_true]
      | cons e1 pre =>
        simp only [List.cons_append, List.cons.injEq] at h1
        obtain ⟨rfl, rfl⟩ := h1
        have := (ih1 c).2 ⟨pre, post, rfl, h2, h3⟩
        cases ev with
        | base i n => exact this
        | derived i c1 => simp only [lastRegistered, this]

/-- **C36, create**: after any history of registrations (of any base classes, in any order), if `c` is the last class registered under `name`
for the base class, then `create(name, args)` is exactly its constructor called with `args`, and `doc` and `schema` are its own. -/
theorem C36_create (es : List (Event Args Obj)) (id : Nat) (name : String) (c : DerivedClass Args Obj) (pre post)
    (h : es = pre ++ .derived id c :: post) (hn : c.name = name) (hl : ∀ c', .derived id c' ∈ post → c'.name ≠ name) (args : Args) :
    ((Factories.empty.registerAll es).factory id).create name args = c.ctor args ∧
    ((Factories.empty.registerAll es).factory id).doc name = .ok c.doc ∧
    ((Factories.empty.registerAll es).factory id).schema name = .ok c.schema := by
  have hlast : lastRegistered id name es = some c :=
    ((lastRegistered_spec id name es).1 c).2 ⟨pre, post, h, hn, fun ⟨c', h1, h2⟩ => hl c' h1 h2⟩
  obtain ⟨h1, h2, -⟩ := registerAll_find es Factories.empty id name
  rw [hlast] at h1 h2
  refine ⟨?_, ?_, ?_⟩
  · simp [Factory.create, Factory.keyExistsOrError, AMap.at?, h1]
  · simp [Factory.doc, AMap.at?, h2]
  · simp [Factory.schema, AMap.at?, h2]

/-- **C36, unknown names**: when no class has that name for the base class — whatever other base classes have — `create` stops the
program, and `doc` and `schema` throw. -/
theorem C36_unknown (es : List (Event Args Obj)) (id : Nat) (name : String) (h : ¬ Registered id name es) (args : Args) :
    ((Factories.empty.registerAll es).factory id).create name args = .abort ∧
    ((Factories.empty.registerAll es).factory id).doc name = .throw .outOfRange ∧
    ((Factories.empty.registerAll es).factory id).schema name = .throw .outOfRange := by
  have hlast := (lastRegistered_spec id name es).2.2 h
  obtain ⟨h1, h2, -⟩ := registerAll_find es Factories.empty id name
  rw [hlast] at h1 h2
  have h1 : ((Factories.empty.registerAll es).factory id).table.find? name = none := h1
  have h2 : ((Factories.empty.registerAll es).factory id).docTable.find? name = none := h2
  refine ⟨?_, ?_, ?_⟩
  · simp [Factory.create, Factory.keyExistsOrError, h1]
  · simp [Factory.doc, AMap.at?, h2]
  · simp [Factory.schema, AMap.at?, h2]

/-- **C36, entries**: `entries()` lists every registered name exactly once and nothing else, in some order; `size()` is their number. -/
theorem C36_entries (es : List (Event Args Obj)) (id : Nat) (out : Res (List String)) (h : ((Factories.empty.registerAll es).factory id).entries out) :
    ∃ l, out = .ok l ∧ l.Nodup ∧ (∀ name, name ∈ l ↔ Registered id name es) ∧ l.length = ((Factories.empty.registerAll es).factory id).size := by
  obtain ⟨l, hp, rfl⟩ := h
  have hu : ((Factories.empty.registerAll es).factory id).table.Uniq := registerAll_uniq es Factories.empty (fun _ => AMap.Uniq.nil) id
  refine ⟨l, rfl, hp.nodup_iff.2 hu, fun name => ?_, ?_⟩
  · rw [hp.mem_iff]
    have := (registerAll_find es Factories.empty id name).1
    rw [← not_iff_not, ← AMap.find?_eq_none_iff, this]
    rw [← (lastRegistered_spec id name es).2]
    cases lastRegistered id name es with
    | some c => simp
    | none => exact ⟨fun _ => rfl, fun _ => rfl⟩
  · rw [hp.length_eq]; simp [AMap.keys, Factory.size]

/-- **C36, documentation by base class name**: `BaseClassDocumentation` gives what the base class last registered under that name
gives, and throws for other names. -/
theorem C36_base (es : List (Event Args Obj)) (base name : String) :
    (∀ id pre post, es = pre ++ .base id base :: post → (∀ j, .base j base ∉ post) →
      (Factories.empty.registerAll es).doc base name = ((Factories.empty.registerAll es).factory id).doc name ∧
      (Factories.empty.registerAll es).schema base name = ((Factories.empty.registerAll es).factory id).schema name ∧
      ∀ out, (Factories.empty.registerAll es).entries base out ↔ ((Factories.empty.registerAll es).factory id).entries out) ∧
    ((∀ j, .base j base ∉ es) → (Factories.empty.registerAll es).doc base name = .throw .outOfRange ∧
      (Factories.empty.registerAll es).schema base name = .throw .outOfRange ∧
      ∀ out, (Factories.empty.registerAll es).entries base out ↔ out = .throw .outOfRange) := by
  have key : ∀ es : List (Event Args Obj), (lastBase base es = none ↔ ∀ j, .base j base ∉ es) ∧
      ∀ id pre post, es = pre ++ .base id base :: post → (∀ j, .base j base ∉ post) → lastBase base es = some id := by
    intro es
    induction es with
    | nil => exact ⟨by simp [lastBase], by intro id pre post h; simp at h⟩
    | cons ev es ih =>
      constructor
      · cases ev with
        | derived i c => simp [lastBase, ih.1]
        | base i n =>
          simp only [lastBase]
          cases hl : lastBase base es with
          | some j =>
            simp only [reduceCtorEq, false_iff]
            intro hall
            have : lastBase base es = none := ih.1.2 fun j hj => hall j (by simp [hj])
            rw [this] at hl; cases hl
          | none =>
            have := ih.1.1 hl
            by_cases hn : n = base
            · subst hn
              simp only [if_true, reduceCtorEq, false_iff]
              exact fun hall => hall i (by simp)
            · simp only [if_neg hn, true_iff, List.mem_cons, not_or]
              exact fun j => ⟨fun hj => hn (by cases hj; rfl), this j⟩
      · intro id pre post h hp
        cases pre with
        | nil =>
          cases h
          simp [lastBase, ih.1.2 hp]
        | cons e1 pre =>
          simp only [List.cons_append, List.cons.injEq] at h
          obtain ⟨rfl, h⟩ := h
          have := ih.2 id pre post h hp
          cases ev with
          | derived i c => exact this
          | base i n => simp [lastBase, this]
  have hf := (registerAll_find es Factories.empty 0 base).2.2
  constructor
  · intro id pre post h hp
    rw [(key es).2 id pre post h hp] at hf
    have hat : (Factories.empty.registerAll es).docTable.at? base = .ok id := by simp [AMap.at?, hf]
    refine ⟨?_, ?_, fun out => ?_⟩
    · simp [Factories.doc, hat]
    · simp [Factories.schema, hat]
    · exact NR.bind_iff (a := id) (fun o => by rw [hat]; exact Iff.rfl) out
  · intro h
    rw [(key es).1.2 h] at hf
    have hf : (Factories.empty.registerAll es).docTable.find? base = none := hf
    have hat : (Factories.empty.registerAll es).docTable.at? base = .throw .outOfRange := by simp [AMap.at?, hf]
    refine ⟨?_, ?_, fun out => ?_⟩
    · simp [Factories.doc, hat]
    · simp [Factories.schema, hat]
    · unfold Factories.entries
      rw [hat]
      refine (NR.bind_def _ _ _).trans ?_
      constructor
      · rintro ⟨r, rfl, h⟩; exact h
      · rintro rfl; exact ⟨_, rfl, rfl⟩

/-- Two classes of the same name, one of another base class in between: the last one is created. -/
example : ((Factories.empty.registerAll
    [.derived 0 ⟨"linear", fun n : Nat => .ok (n, 1), "a", ""⟩, .derived 1 ⟨"linear", fun n => .ok (n, 3), "c", ""⟩,
     .derived 0 ⟨"linear", fun n => .ok (n, 2), "b", ""⟩, .derived 0 ⟨"upwind", fun n => .ok (n, 4), "d", ""⟩]).factory 0).create "linear" 7 = .ok (7, 2) :=
  (C36_create _ 0 "linear" ⟨"linear", fun n => .ok (n, 2), "b", ""⟩
    [.derived 0 ⟨"linear", fun n : Nat => .ok (n, 1), "a", ""⟩, .derived 1 ⟨"linear", fun n => .ok (n, 3), "c", ""⟩]
    [.derived 0 ⟨"upwind", fun n => .ok (n, 4), "d", ""⟩] rfl rfl (by
      intro c' h
      simp only [List.mem_singleton] at h
      cases h
      decide) 7).1

end NeoFOAM
