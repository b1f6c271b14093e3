import Verif.Model.StencilDB

/-!
# C41 – cached stencil objects are created once and shared
-/
namespace NeoFOAM

/-- An event that does not touch what the code itself caches: users store under other keys, and mesh `m` is not the target of a copy
(a mesh that exists cannot be copy-constructed again). -/
def StencilEvent.Fair (m : Nat) : StencilEvent → Prop
  | .readOrCreate _ _ => True
  | .insert _ key _ => key ≠ "GeometryScheme" ∧ key ≠ "SparsityPattern"
  | .copyMesh _ dst => dst ≠ m

/-- Users store under other keys. -/
def StencilEvent.Proper : StencilEvent → Prop
  | .insert _ key _ => key ≠ "GeometryScheme" ∧ key ≠ "SparsityPattern"
  | _ => True

theorem StencilKind.key_inj {a b : StencilKind} (h : a.key = b.key) : a = b := by
  cases a <;> cases b <;> simp_all [StencilKind.key]

theorem StencilKind.key_ne {k : StencilKind} {key : String} (h : key ≠ "GeometryScheme" ∧ key ≠ "SparsityPattern") : k.key ≠ key := by
  cases k
  · exact Ne.symm h.1
  · exact Ne.symm h.2

namespace StencilWorld

theorem find?_emplace' {ν : Type} (d : AMap String ν) (k : String) (v : ν) (k' : String) :
    (d.emplace k v).find? k' = if k' = k then some ((d.find? k).getD v) else d.find? k' := AMap.find?_emplace d k v k'

/-- Under the two keys there are only pointers to objects of that kind. -/
def Sane (w : StencilWorld) : Prop := ∀ m (k : StencilKind) a, (w.db m).find? k.key = some a →
  ∃ o, a = .shared k o ∧ ∃ x, w.objs[o]? = some ⟨k, x⟩

theorem contains_iff (d : AMap String StencilAny) (key : String) : d.contains key = true ↔ ∃ a, d.find? key = some a := by
  unfold AMap.contains; cases d.find? key <;> simp

theorem ensure_of_found {w : StencilWorld} {k : StencilKind} {m : Nat} {a : StencilAny} (h : (w.db m).find? k.key = some a) :
    w.ensure k m = w := by
  unfold ensure; rw [if_pos ((contains_iff _ _).2 ⟨a, h⟩)]

theorem ensure_of_none {w : StencilWorld} {k : StencilKind} {m : Nat} (h : (w.db m).find? k.key = none) :
    w.ensure k m = ⟨fun i => if i = m then (w.db i).emplace k.key (.shared k w.objs.length) else w.db i, w.objs ++ [⟨k, m⟩]⟩ := by
  unfold ensure; rw [if_neg (by simp [AMap.contains, h])]; rfl

theorem ensure_objs (w : StencilWorld) (k : StencilKind) (m : Nat) : w.objs <+: (w.ensure k m).objs := by
  cases h : (w.db m).find? k.key with
  | some a => rw [ensure_of_found h]; exact List.prefix_rfl
  | none => rw [ensure_of_none h]; exact List.prefix_append _ _

theorem prefix_get {l l' : List StencilObj} (h : l <+: l') {o : Nat} {x : StencilObj} (hx : l[o]? = some x) : l'[o]? = some x := by
  obtain ⟨t, rfl⟩ := h
  rw [List.getElem?_append_left (by have := List.getElem?_eq_some_iff.1 hx; exact this.1)]; exact hx

theorem event_keeps {w : StencilWorld} {ev : StencilEvent} {m : Nat} (hv : ev.Fair m) {k : StencilKind} {a : StencilAny}
    (h : (w.db m).find? k.key = some a) : ((w.event ev).db m).find? k.key = some a := by
  cases ev with
  | readOrCreate k' m' =>
    show ((w.ensure k' m').db m).find? k.key = some a
    cases hn : (w.db m').find? k'.key with
    | some b => rw [ensure_of_found hn]; exact h
    | none =>
      rw [ensure_of_none hn]
      by_cases hm : m = m'
      · simp only [if_pos hm]
        rw [find?_emplace', if_neg]
        · exact h
        · intro hk
          subst hm; rw [hk, hn] at h; simp at h
      · simp only [if_neg hm]; exact h
  | insert m' key v =>
    show ((w.insert m' key (.user v)).db m).find? k.key = some a
    unfold insert
    by_cases hm : m = m'
    · simp only [if_pos hm]; rw [find?_emplace', if_neg (StencilKind.key_ne hv)]; exact h
    · simp only [if_neg hm]; exact h
  | copyMesh src dst =>
    show (if m = dst then w.db src else w.db m).find? k.key = some a
    rw [if_neg (Ne.symm hv)]; exact h

theorem events_keep : ∀ (l : List StencilEvent) {w : StencilWorld} {m : Nat}, (∀ ev ∈ l, ev.Fair m) → ∀ {k : StencilKind} {a : StencilAny},
    (w.db m).find? k.key = some a → ((w.events l).db m).find? k.key = some a
  | [], _, _, _, _, _, h => h
  | ev :: l, w, m, hl, _, _, h => events_keep l (w := w.event ev) (fun e he => hl e (by simp [he])) (event_keeps (hl ev (by simp)) h)

theorem Sane.event {w : StencilWorld} (h : w.Sane) {ev : StencilEvent} (hv : ev.Proper) : (w.event ev).Sane := by
  intro m k a ha
  cases ev with
  | readOrCreate k' m' =>
    change ((w.ensure k' m').db m).find? k.key = some a at ha
    show ∃ o, a = .shared k o ∧ ∃ x, (w.ensure k' m').objs[o]? = some ⟨k, x⟩
    have keep : (w.db m).find? k.key = some a → ∃ o, a = .shared k o ∧ ∃ x, (w.ensure k' m').objs[o]? = some ⟨k, x⟩ := by
      intro hb
      obtain ⟨o, e, x, hx⟩ := h m k a hb
      exact ⟨o, e, x, prefix_get (ensure_objs w k' m') hx⟩
    cases hn : (w.db m').find? k'.key with
    | some b => rw [ensure_of_found hn] at ha; exact keep ha
    | none =>
      rw [ensure_of_none hn] at ha
      by_cases hm : m = m'
      · simp only [if_pos hm] at ha
        rw [find?_emplace'] at ha
        by_cases hk : k.key = k'.key
        · rw [if_pos hk] at ha
          subst hm
          rw [hn, Option.getD_none, Option.some.injEq] at ha
          have hkk := StencilKind.key_inj hk
          subst hkk
          exact ⟨_, ha.symm, m, by rw [ensure_of_none hn]; simp⟩
        · rw [if_neg hk] at ha; exact keep ha
      · simp only [if_neg hm] at ha; exact keep ha
  | insert m' key v =>
    change ((w.insert m' key (.user v)).db m).find? k.key = some a at ha
    unfold StencilWorld.insert at ha
    by_cases hm : m = m'
    · simp only [if_pos hm] at ha; rw [find?_emplace', if_neg (StencilKind.key_ne hv)] at ha; exact h m k a ha
    · simp only [if_neg hm] at ha; exact h m k a ha
  | copyMesh src dst =>
    change (if m = dst then w.db src else w.db m).find? k.key = some a at ha
    by_cases hm : m = dst
    · rw [if_pos hm] at ha; exact h src k a ha
    · rw [if_neg hm] at ha; exact h m k a ha

theorem Sane.events : ∀ (l : List StencilEvent) {w : StencilWorld}, w.Sane → (∀ ev ∈ l, ev.Proper) → (w.events l).Sane
  | [], _, h, _ => h
  | ev :: l, w, h, hl => Sane.events l (w := w.event ev) (h.event (hl ev (by simp))) (fun e he => hl e (by simp [he]))

theorem Sane.start : StencilWorld.start.Sane := by intro m k a h; simp [StencilWorld.start] at h

theorem Sane.readOrCreate {w : StencilWorld} (h : w.Sane) (k : StencilKind) (m : Nat) :
    ∃ o, (w.readOrCreate k m).1 = .ok o ∧ ((w.readOrCreate k m).2.db m).find? k.key = some (.shared k o) ∧
      ∃ x, (w.readOrCreate k m).2.objs[o]? = some ⟨k, x⟩ := by
  have hs : (w.ensure k m).Sane := h.event (ev := .readOrCreate k m) trivial
  have : ∃ a, ((w.ensure k m).db m).find? k.key = some a := by
    cases hn : (w.db m).find? k.key with
    | some a => exact ⟨a, by rw [ensure_of_found hn]; exact hn⟩
    | none => exact ⟨.shared k w.objs.length, by rw [ensure_of_none hn]; simp only [if_true]; rw [find?_emplace', hn]; simp⟩
  obtain ⟨a, ha⟩ := this
  obtain ⟨o, rfl, x, hx⟩ := hs m k a ha
  refine ⟨o, ?_, ha, x, hx⟩
  show (w.ensure k m).get m k k.key = .ok o
  simp [StencilWorld.get, AMap.at?, ha]

end StencilWorld

open StencilWorld in
/-- **C41 (created once, shared).** After any history, `readOrCreate` for a mesh returns an object of the kind asked for; and
after any further history (other calls for this and other meshes in any order, user entries, copies made of the mesh) it
returns the same object again and creates nothing. -/
theorem C41_once (l1 l2 : List StencilEvent) (k : StencilKind) (m : Nat) (h1 : ∀ ev ∈ l1, ev.Proper) (h2 : ∀ ev ∈ l2, ev.Fair m) :
    ∃ o, ((StencilWorld.start.events l1).readOrCreate k m).1 = .ok o ∧
      (∃ x, ((StencilWorld.start.events l1).readOrCreate k m).2.objs[o]? = some ⟨k, x⟩) ∧
      let w2 := ((StencilWorld.start.events l1).readOrCreate k m).2.events l2
      (w2.readOrCreate k m).1 = .ok o ∧ (w2.readOrCreate k m).2 = w2 := by
  obtain ⟨o, e, hf, hx⟩ := (Sane.events l1 Sane.start h1).readOrCreate k m
  refine ⟨o, e, hx, ?_⟩
  have hf2 := events_keep l2 h2 hf
  intro w2
  have he : w2.ensure k m = w2 := ensure_of_found hf2
  refine ⟨?_, he⟩
  show (w2.ensure k m).get m k k.key = .ok o
  rw [he]
  have : (w2.db m).find? k.key = some (.shared k o) := hf2
  simp [StencilWorld.get, AMap.at?, this]

open StencilWorld in
/-- **C41 (creation and frame).** The first call for a mesh creates exactly one object, of the kind asked for and for this mesh, and returns
it; nothing else in this or any other mesh's database changes: neither the other kind's entry nor users' entries. -/
theorem C41_create (w : StencilWorld) (k : StencilKind) (m : Nat) (hnew : (w.db m).contains k.key = false) :
    (w.readOrCreate k m).1 = .ok w.objs.length ∧ (w.readOrCreate k m).2.objs = w.objs ++ [⟨k, m⟩] ∧
      ∀ m' key, ¬ (m' = m ∧ key = k.key) → ((w.readOrCreate k m).2.db m').find? key = (w.db m').find? key := by
  have hn : (w.db m).find? k.key = none := by simpa [AMap.contains] using hnew
  refine ⟨?_, ?_, ?_⟩
  · show (w.ensure k m).get m k k.key = _
    rw [ensure_of_none hn]
    simp [StencilWorld.get, AMap.at?, find?_emplace', hn]
  · show (w.ensure k m).objs = _
    rw [ensure_of_none hn]
  · intro m' key hne
    show ((w.ensure k m).db m').find? key = _
    rw [ensure_of_none hn]
    by_cases hm : m' = m
    · simp only [if_pos hm]
      rw [find?_emplace', if_neg (fun h => hne ⟨hm, h⟩)]
    · simp only [if_neg hm]

open StencilWorld in
/-- **C41 (the object belongs to the mesh; partial: no mesh copies).** As long as no mesh is copied, the object `readOrCreate` returns was
made for the mesh it is asked for, so different meshes never share an object. Missing: copies, see `C41_copy_violation`. -/
theorem C41_own_mesh_partial (l : List StencilEvent) (k : StencilKind) (m : Nat) (hp : ∀ ev ∈ l, ev.Proper)
    (hc : ∀ ev ∈ l, ∀ a b, ev ≠ .copyMesh a b) :
    ∃ o, ((StencilWorld.start.events l).readOrCreate k m).1 = .ok o ∧
      ((StencilWorld.start.events l).readOrCreate k m).2.objs[o]? = some ⟨k, m⟩ := by
  have own : ∀ (l : List StencilEvent) (w : StencilWorld), (∀ ev ∈ l, ev.Proper) → (∀ ev ∈ l, ∀ a b, ev ≠ .copyMesh a b) →
      (∀ m (k : StencilKind) a, (w.db m).find? k.key = some a → ∃ o, a = .shared k o ∧ w.objs[o]? = some ⟨k, m⟩) →
      ∀ m (k : StencilKind) a, ((w.events l).db m).find? k.key = some a → ∃ o, a = .shared k o ∧ (w.events l).objs[o]? = some ⟨k, m⟩ := by
    intro l
    induction l with
    | nil => intro w _ _ h; exact h
    | cons ev l ih =>
      intro w hp hc h
      refine ih (w.event ev) (fun e he => hp e (by simp [he])) (fun e he => hc e (by simp [he])) ?_
      intro m k a ha
      have hv := hp ev (by simp)
      have hcv := hc ev (by simp)
      cases ev with
      | copyMesh a b => exact absurd rfl (hcv a b)
      | insert m' key v =>
        change ((w.insert m' key (.user v)).db m).find? k.key = some a at ha
        unfold StencilWorld.insert at ha
        by_cases hm : m = m'
        · simp only [if_pos hm] at ha; rw [find?_emplace', if_neg (StencilKind.key_ne hv)] at ha; exact h m k a ha
        · simp only [if_neg hm] at ha; exact h m k a ha
      | readOrCreate k' m' =>
        change ((w.ensure k' m').db m).find? k.key = some a at ha
        show ∃ o, a = .shared k o ∧ (w.ensure k' m').objs[o]? = some ⟨k, m⟩
        have keep : (w.db m).find? k.key = some a → ∃ o, a = .shared k o ∧ (w.ensure k' m').objs[o]? = some ⟨k, m⟩ := by
          intro hb
          obtain ⟨o, e, hx⟩ := h m k a hb
          exact ⟨o, e, prefix_get (ensure_objs w k' m') hx⟩
        cases hn : (w.db m').find? k'.key with
        | some b => rw [ensure_of_found hn] at ha; exact keep ha
        | none =>
          rw [ensure_of_none hn] at ha
          by_cases hm : m = m'
          · simp only [if_pos hm] at ha
            rw [find?_emplace'] at ha
            by_cases hk : k.key = k'.key
            · rw [if_pos hk] at ha
              subst hm
              rw [hn, Option.getD_none, Option.some.injEq] at ha
              have hkk := StencilKind.key_inj hk
              subst hkk
              exact ⟨_, ha.symm, by rw [ensure_of_none hn]; simp⟩
            · rw [if_neg hk] at ha; exact keep ha
          · simp only [if_neg hm] at ha; exact keep ha
  obtain ⟨o, e, hf, _⟩ := (Sane.events l Sane.start hp).readOrCreate k m
  refine ⟨o, e, ?_⟩
  obtain ⟨o', e', hx⟩ := own (l ++ [.readOrCreate k m]) StencilWorld.start
    (by simp only [List.mem_append, List.mem_singleton]
        intro ev hev
        rcases hev with hev | rfl
        · exact hp ev hev
        · trivial)
    (by simp only [List.mem_append, List.mem_singleton]
        intro ev hev
        rcases hev with hev | rfl
        · exact hc ev hev
        · intro a b h; cases h)
    (by intro m k a h; simp [StencilWorld.start] at h) m k (.shared k o) (by
      rw [StencilWorld.events, List.foldl_append]; exact hf)
  rw [StencilWorld.events, List.foldl_append] at hx
  simp only [StencilAny.shared.injEq, true_and] at e'
  rw [e']; exact hx

/-- **C41: a copied mesh shares the objects of the mesh it was copied from.** Cache the geometry scheme of mesh 0, copy mesh 0 into mesh 1:
`readOrCreate` for mesh 1 returns the object whose member `mesh_` refers to mesh 0 – a dangling reference once mesh 0 is destroyed. -/
theorem C41_copy_violation :
    let w := StencilWorld.start.events [.readOrCreate .geometryScheme 0, .copyMesh 0 1]
    ∃ o, (w.readOrCreate .geometryScheme 1).1 = .ok o ∧ (w.readOrCreate .geometryScheme 1).2.objs[o]? = some ⟨.geometryScheme, 0⟩ :=
  ⟨0, rfl, rfl⟩

example : ∀ ev ∈ [StencilEvent.readOrCreate .sparsityPattern 0, .insert 0 "mine" 3, .readOrCreate .geometryScheme 0,
    .readOrCreate .geometryScheme 2, .copyMesh 0 1], ev.Proper := by
  simp [StencilEvent.Proper]
example : ∀ ev ∈ [StencilEvent.readOrCreate .sparsityPattern 0, .insert 0 "mine" 3, .copyMesh 0 1], ev.Fair 0 := by
  simp [StencilEvent.Fair]

/-- **C41 (a value of another type under the key).** If a user stored a value of their own under the key first, `readOrCreate` throws
`bad_any_cast` instead of returning it as a scheme, and changes nothing; so does asking for one kind under the key of the other. -/
theorem C41_foreign (w : StencilWorld) (m : Nat) :
    (∀ (k : StencilKind) v, (w.db m).find? k.key = some (.user v) → w.readOrCreate k m = (.throw .badAnyCast, w)) ∧
    (∀ (k k' : StencilKind) key o, (w.db m).find? key = some (.shared k' o) → k' ≠ k → w.get m k key = .throw .badAnyCast) := by
  constructor
  · intro k v h
    have he : w.ensure k m = w := StencilWorld.ensure_of_found h
    show ((w.ensure k m).get m k k.key, w.ensure k m) = _
    rw [he]
    simp [StencilWorld.get, AMap.at?, h]
  · intro k k' key o h hne
    simp [StencilWorld.get, AMap.at?, h, hne]

example : (StencilWorld.start.events [.insert 0 "GeometryScheme" 3]).readOrCreate .geometryScheme 0 =
    (.throw .badAnyCast, StencilWorld.start.events [.insert 0 "GeometryScheme" 3]) := (C41_foreign _ 0).1 .geometryScheme 3 rfl

end NeoFOAM
