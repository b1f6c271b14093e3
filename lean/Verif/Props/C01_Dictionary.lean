import Verif.Spec.Maps
import Mathlib.Data.List.Induction

/-!
# C01 – Dictionary is a last-write-wins finite map with typed reads
-/
namespace NeoFOAM
open Spec

theorem uniq_run (d : Dict) (h : AMap.Uniq d) (ops : List DictOp) : AMap.Uniq (d.run ops) := by
  induction ops generalizing d with
  | nil => exact h
  | cons o ops ih =>
    apply ih
    cases o with
    | insert k v => exact AMap.Uniq.assign h k v
    | remove k => exact AMap.Uniq.erase h k

theorem find_run (d : Dict) (h : AMap.Uniq d) (ops : List DictOp) (k : String) :
    AMap.find? (d.run ops) k = after (AMap.find? d) ops k := by
  induction ops using List.reverseRecOn with
  | nil => simp [Dict.run, after]
  | append_singleton ops o ih =>
    have e : d.run (ops ++ [o]) = (d.run ops).apply o := by simp [Dict.run]
    rw [e]
    have hu := uniq_run d h ops
    unfold after
    rw [List.filter_append]
    cases o with
    | insert k' v =>
      simp only [Dict.apply, Dict.insert, AMap.find?_assign, ih]
      by_cases hk : k' = k
      · simp [key, hk]
      · simp [key, hk, Ne.symm hk, after]
    | remove k' =>
      simp only [Dict.apply, Dict.remove, AMap.find?_erase hu, ih]
      by_cases hk : k' = k
      · simp [key, hk]
      · simp [key, hk, Ne.symm hk, after]

theorem ofInitList_aux (l : List (String × Any)) (d : Dict) (h : AMap.Uniq d) :
    AMap.Uniq (l.foldl (fun d p => AMap.emplace d p.1 p.2) d) ∧
    ∀ k, AMap.find? (l.foldl (fun d p => AMap.emplace d p.1 p.2) d) k =
      (AMap.find? d k).or (firstOf l k) := by
  induction l generalizing d with
  | nil => exact ⟨h, fun k => by simp [firstOf]⟩
  | cons p l ih =>
    obtain ⟨h1, h2⟩ := ih (AMap.emplace d p.1 p.2) (AMap.Uniq.emplace h _ _)
    refine ⟨h1, fun k => ?_⟩
    rw [List.foldl_cons, h2 k, AMap.find?_emplace]
    by_cases hk : p.1 = k
    · subst hk
      cases hd : AMap.find? d p.1 <;> simp [firstOf]
    · simp [hk, Ne.symm hk, firstOf]

/-- **C01.** A dictionary built from an initialiser list and changed by any history of `insert` and
`remove` calls: each key holds what the last call about it wrote (or the first initialiser pair if
there was none), and every reader — `contains`, `operator[]`, typed `get`, `subDict`, `isDict`,
`keys` — reports exactly that, with `out_of_range` for an absent key and `bad_any_cast` for a value
of another type. -/
theorem C01_dictionary (init : List (String × Any)) (ops : List DictOp) (k : String) :
    let d := (Dict.ofInitList init).run ops
    let cur := after (firstOf init) ops k
    d.contains k = cur.isSome ∧
    (d.index k = match cur with | some v => .ok v | none => .throw .outOfRange) ∧
    (∀ t, d.get t k = match cur with
      | some v => if v.ty = t then .ok v else .throw .badAnyCast
      | none => .throw .outOfRange) ∧
    (d.isDict k = true ↔ ∃ d', cur = some (.dict d')) ∧
    (∀ d', d.subDict k = .ok d' ↔ cur = some (.dict d')) ∧
    (k ∈ d.keys ↔ cur.isSome = true) ∧ d.keys.Nodup ∧
    (d.empty = true ↔ ∀ k', after (firstOf init) ops k' = none) := by
  intro d cur
  have hi := ofInitList_aux init [] AMap.Uniq.nil
  have hf : ∀ k, AMap.find? d k = after (firstOf init) ops k := by
    intro k
    have := find_run (Dict.ofInitList init) hi.1 ops k
    rw [show AMap.find? d k = _ from this]
    congr 1
    funext k'
    exact (hi.2 k').trans (by simp)
  have hu : AMap.Uniq d := uniq_run _ hi.1 ops
  have hfk : AMap.find? d k = cur := hf k
  have hmem : k ∈ d.keys ↔ cur.isSome = true := by
    have := AMap.find?_eq_none_iff d k
    rw [hfk] at this
    cases hc : cur with
    | none => simp [show k ∉ d.keys from this.1 hc]
    | some v =>
      simp only [Option.isSome_some, iff_true]
      exact Classical.byContradiction fun hn => by rw [this.2 hn] at hc; simp at hc
  refine ⟨?_, ?_, ?_, ?_, ?_, hmem, hu, ?_⟩
  · simp [Dict.contains, AMap.contains, hfk]
  · simp only [Dict.index, AMap.at?, hfk]
    cases cur <;> rfl
  · intro t
    simp only [Dict.get, Dict.index, AMap.at?, hfk]
    cases cur <;> simp [anyCast]
  · simp only [Dict.isDict, Dict.contains, AMap.contains, hfk]
    cases cur with
    | none => simp
    | some v => cases v <;> simp
  · intro d'
    simp only [Dict.subDict, Dict.index, AMap.at?, hfk]
    cases cur with
    | none => simp
    | some v => cases v <;> simp
  · constructor
    · intro he k'
      have : d = [] := by simpa [Dict.empty] using he
      rw [← hf k', this]; rfl
    · intro hall
      have : ∀ k', k' ∉ d.keys := fun k' => (AMap.find?_eq_none_iff d k').1 ((hf k').trans (hall k'))
      have he : d = [] := by
        apply List.eq_nil_iff_forall_not_mem.2
        intro p hp
        exact this p.1 (List.mem_map.2 ⟨p, hp, rfl⟩)
      simp [Dict.empty, he]

/-- Non-vacuity: a history with an overwrite and a removal. -/
example : after (firstOf [("a", .int 1), ("a", .int 2)])
    [.insert "b" (.str "x"), .insert "b" (.int 3), .remove "a"] "b" = some (.int 3) ∧
  after (firstOf [("a", .int 1), ("a", .int 2)])
    [.insert "b" (.str "x"), .insert "b" (.int 3), .remove "a"] "a" = none ∧
  after (firstOf [("a", .int 1), ("a", .int 2)]) [.insert "b" (.str "x")] "a" = some (.int 1) := by
  simp [after, firstOf, key]

/-- **C01, nested dictionaries.** Inserting through a chain of `subDict` references makes exactly
that path read the new value ... -/
theorem C01_nested_read (ps : List String) (k : String) (v : Any) : ∀ (d d' : Dict),
    d.insertAt ps k v = .ok d' → d'.indexAt ps k = .ok v := by
  induction ps with
  | nil =>
    intro d d' h
    simp only [Dict.insertAt, Res.ok.injEq] at h
    subst h
    simp [Dict.indexAt, Dict.index, Dict.insert, AMap.at?, AMap.find?_assign]
  | cons p ps ih =>
    intro d d' h
    simp only [Dict.insertAt, Res.bind_eq_ok] at h
    obtain ⟨d1, h1, d2, h2, h3⟩ := h
    simp only [Res.pure_eq, Res.ok.injEq] at h3
    subst h3
    have hp : ∃ a, AMap.find? d p = some a := by
      simp only [Dict.subDict, Dict.index, AMap.at?] at h1
      cases hf : AMap.find? d p <;> simp [hf] at h1 ⊢
    obtain ⟨a, ha⟩ := hp
    simp only [Dict.indexAt, Dict.subDict, Dict.index, AMap.at?, AMap.find?_modify, if_true, ha,
      Option.map_some, Res.ok_bind]
    exact ih d1 d2 h2

/-- ... and every path that neither passes through nor is passed through by it reads as before,
with the same exceptions. -/
theorem C01_nested_frame (ps : List String) (k : String) (v : Any) : ∀ (d d' : Dict),
    d.insertAt ps k v = .ok d' → ∀ (qs : List String) (q : String),
    ¬ (ps ++ [k]) <+: (qs ++ [q]) → ¬ (qs ++ [q]) <+: (ps ++ [k]) →
    d'.indexAt qs q = d.indexAt qs q := by
  induction ps with
  | nil =>
    intro d d' h qs q hn1 hn2
    simp only [Dict.insertAt, Res.ok.injEq] at h
    subst h
    cases qs with
    | nil =>
      have : q ≠ k := fun e => hn1 (by simp [e])
      simp [Dict.indexAt, Dict.index, Dict.insert, AMap.at?, AMap.find?_assign, this]
    | cons r rs =>
      have : r ≠ k := fun e => hn1 (by simp [e])
      simp [Dict.indexAt, Dict.subDict, Dict.index, Dict.insert, AMap.at?, AMap.find?_assign, this]
  | cons p ps ih =>
    intro d d' h qs q hn1 hn2
    simp only [Dict.insertAt, Res.bind_eq_ok] at h
    obtain ⟨d1, h1, d2, h2, h3⟩ := h
    simp only [Res.pure_eq, Res.ok.injEq] at h3
    subst h3
    cases qs with
    | nil =>
      have : q ≠ p := fun e => hn2 (by simp [e])
      simp [Dict.indexAt, Dict.index, AMap.at?, AMap.find?_modify, this]
    | cons r rs =>
      by_cases hr : r = p
      · subst hr
        simp only [Dict.indexAt]
        rw [h1]
        have hp : ∃ a, AMap.find? d r = some a := by
          simp only [Dict.subDict, Dict.index, AMap.at?] at h1
          cases hf : AMap.find? d r <;> simp [hf] at h1 ⊢
        obtain ⟨a, ha⟩ := hp
        have h4 : Dict.subDict (AMap.modify d r fun _ => Any.dict d2) r = .ok d2 := by
          simp [Dict.subDict, Dict.index, AMap.at?, AMap.find?_modify, ha]
        rw [h4]
        simp only [Res.ok_bind]
        exact ih d1 d2 h2 rs q (fun e => hn1 (by simpa using e)) (fun e => hn2 (by simpa using e))
      · simp [Dict.indexAt, Dict.subDict, Dict.index, AMap.at?, AMap.find?_modify, hr]

/-- Non-vacuity: a two-level insert succeeds. -/
example : ∃ d', Dict.insertAt [("s", .dict [("t", .dict [])]), ("u", .int 1)] ["s", "t"] "k" (.int 7)
    = .ok d' ∧ ¬ (["s", "t"] ++ ["k"]) <+: ([] ++ ["u"]) := by
  refine ⟨_, rfl, by decide⟩

end NeoFOAM
