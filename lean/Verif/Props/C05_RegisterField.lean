import Verif.Proofs.Database

/-!
# C05 – registered fields can be found again and registration disturbs nothing else
-/
namespace NeoFOAM

theorem AMap.length_modify {κ : Type u} {ν : Type v} [DecidableEq κ] (m : AMap κ ν) (k : κ)
    (f : ν → ν) : (m.modify k f).length = m.length := by
  induction m with
  | nil => rfl
  | cons p m ih =>
    obtain ⟨a, b⟩ := p
    simp only [AMap.modify]
    split <;> simp [ih]

/-- Every way a registration can end, given that the creator returned document `d`. -/
theorem registerField_cases {cn : String} {ty : Nat} {create : M Dict} {s s1 : DB} {d : Dict}
    {c : FieldColl} (hcr : create s = (.ok d, s1)) (hc : s1.colls.find? cn = some (.field c))
    (he : c.docs.contains "" = false) :
    (∃ id f, docIdOf d = .ok id ∧ c.docs.contains id = false ∧ getField ty d = .ok f ∧
      registerField cn ty create s = (.ok id, { s1 with
        colls := s1.colls.modify cn (fun _ => .field (c.stored id d ty f)) })) ∨
    (∃ id, docIdOf d = .ok id ∧ getField ty d = .throw .badAnyCast ∧ c.docs.contains id = false ∧
      registerField cn ty create s = (.throw .badAnyCast, { s1 with
        colls := s1.colls.modify cn (fun _ => .field { c with docs := c.docs.emplace id d }) })) ∨
    (∃ e, registerField cn ty create s = (.throw e, s1)) := by
  by_cases hv : validateFieldDoc d = true
  · rcases getStr_cases d "id" with ⟨id, hid⟩ | ⟨e, hid⟩
    · by_cases hk : c.docs.contains id = true
      · exact Or.inr (Or.inr ⟨_, registerField_dup hcr hv hc hid hk he⟩)
      · have hk : c.docs.contains id = false := by simpa using hk
        have hfield : d.contains "field" = true := by
          simp only [validateFieldDoc, Bool.and_eq_true] at hv; exact hv.2
        rcases getField_cases (ty := ty) hfield with ⟨f, hf⟩ | hf
        · exact Or.inl ⟨id, f, hid, hk, hf, registerField_fresh hcr hv hc hid hk hf⟩
        · exact Or.inr (Or.inl ⟨id, hid, hf, hk, registerField_wrongType hcr hv hc hid hk hf⟩)
    · exact Or.inr (Or.inr ⟨_, registerField_badId hcr hv hc hid⟩)
  · exact Or.inr (Or.inr ⟨_, registerField_invalid hcr (by simpa using hv)⟩)

/-- **C05 (successful registration; partial: the collection holds no document with the empty id).**
If `registerField` returns a field with key `key`, then `key` is the id of the creator's document and
was not in use; the collection holds exactly one document more, found under `key`, which agrees with
the creator's document in every entry but the field, and whose field is the creator's field with its
key and collection name filled in; every other document and every other collection is unchanged. -/
theorem C05_register_success_partial {cn : String} {ty : Nat} {create : M Dict} {s s1 s' : DB}
    {d : Dict} {c : FieldColl} {key : String} (hcr : create s = (.ok d, s1))
    (hc : s1.at cn = .ok (.field c)) (he : c.docs.contains "" = false)
    (h : registerField cn ty create s = (.ok key, s')) :
    docIdOf d = .ok key ∧ c.docs.contains key = false ∧ s'.ctr = s1.ctr ∧
    (∃ c', s'.at cn = .ok (.field c') ∧ c'.name = c.name ∧
      c'.docs.length = c.docs.length + 1 ∧
      (∃ fd f, c'.docs.find? key = some fd ∧ (∀ e, e ≠ "field" → fd.index e = d.index e) ∧
        getField ty d = .ok f ∧ getField ty fd = .ok { f with key := key, coll := c.name }) ∧
      (∀ k, k ≠ key → c'.docs.find? k = c.docs.find? k)) ∧
    (∀ n, n ≠ cn → s'.at n = s1.at n) := by
  rw [DB.at_eq_ok] at hc
  rcases registerField_cases (ty := ty) hcr hc he with ⟨id, f, hid, hk, hf, hr⟩ | ⟨id, _, _, _, hr⟩ | ⟨e, hr⟩
  · rw [hr] at h
    simp only [Prod.mk.injEq, Res.ok.injEq] at h
    obtain ⟨rfl, rfl⟩ := h
    have hnone : c.docs.find? id = none := by simpa [AMap.contains] using hk
    refine ⟨hid, hk, rfl, ⟨c.stored id d ty f, ?_, rfl, ?_,
      ⟨d.insert "field" (.field ty { f with key := id, coll := c.name }), f, ?_, ?_, hf, ?_⟩, ?_⟩, ?_⟩
    · rw [DB.at_eq_ok]; simp [AMap.find?_modify, hc]
    · simp [FieldColl.stored, AMap.length_modify, AMap.emplace, hk]
    · simp only [FieldColl.stored, AMap.find?_modify, if_true, AMap.find?_emplace, hnone]
      rfl
    · intro e hne
      simp [index_insert, hne]
    · simp [getField, index_insert]
    · intro k hne
      simp [FieldColl.stored, AMap.find?_modify, AMap.find?_emplace, hne]
    · intro n hne
      simp [DB.at, AMap.at?, AMap.find?_modify, hne]
  · rw [hr] at h; simp at h
  · rw [hr] at h; simp at h

/-- **C05 (when registration succeeds).** In a collection without a document of the empty id, registration
of the creator's document succeeds exactly when the document has all six entries of a field document, its
id is a string not yet in use, and its field has the requested type. -/
theorem C05_register_iff {cn : String} {ty : Nat} {create : M Dict} {s s1 : DB}
    {d : Dict} {c : FieldColl} (hcr : create s = (.ok d, s1))
    (hc : s1.at cn = .ok (.field c)) (he : c.docs.contains "" = false) :
    (registerField cn ty create s).1.isOk = true ↔
      (∀ e ∈ ["name", "timeIndex", "iterationIndex", "subCycleIndex", "id", "field"], d.contains e = true) ∧
      (∃ id, d.index "id" = .ok (.str id) ∧ c.docs.contains id = false) ∧
      (∃ f, d.index "field" = .ok (.field ty f)) := by
  rw [DB.at_eq_ok] at hc
  constructor
  · intro h
    have hv : validateFieldDoc d = true := by
      cases hv : validateFieldDoc d with
      | true => rfl
      | false =>
        rw [registerField_invalid hcr hv] at h
        simp [Res.isOk] at h
    rcases registerField_cases (ty := ty) hcr hc he with ⟨id, f, hid, hk, hf, hr⟩ | ⟨id, _, _, _, hr⟩ | ⟨e, hr⟩
    · refine ⟨?_, ⟨id, ?_, hk⟩, ⟨f, ?_⟩⟩
      · simp only [validateFieldDoc, hasId, Bool.and_eq_true] at hv
        simp only [List.mem_cons, List.not_mem_nil, or_false]
        intro e he
        rcases he with rfl | rfl | rfl | rfl | rfl | rfl
        · exact hv.1.1.1.1.1
        · exact hv.1.1.1.1.2
        · exact hv.1.1.1.2
        · exact hv.1.1.2
        · exact hv.1.2
        · exact hv.2
      · unfold docIdOf getStr at hid
        rw [Res.bind_eq_ok] at hid
        obtain ⟨a, ha, hb⟩ := hid
        cases a <;> simp at hb
        subst hb; exact ha
      · unfold getField at hf
        rw [Res.bind_eq_ok] at hf
        obtain ⟨a, ha, hb⟩ := hf
        match a, ha, hb with
        | .field t g, ha, hb =>
          by_cases ht : t = ty
          · simp only [ht, if_true, Res.ok.injEq] at hb
            rw [← hb, ← ht]; exact ha
          · simp [ht] at hb
    · rw [hr] at h; simp [Res.isOk] at h
    · rw [hr] at h; simp [Res.isOk] at h
  · rintro ⟨hall, ⟨id, hid, hk⟩, ⟨f, hf⟩⟩
    have hv : validateFieldDoc d = true := by
      simp only [List.mem_cons, List.not_mem_nil, or_false, forall_eq_or_imp, forall_eq] at hall
      simp [validateFieldDoc, hasId, hall]
    rw [registerField_fresh hcr hv hc (id := id) (f := f) (by simp [docIdOf, getStr, hid]) hk (by simp [getField, hf])]
    rfl

/-- **C05 (failed registration; partial: the document's field has the requested type).** A
registration that does not return changes nothing, apart from the ids used up by the creator.
Missing: a document whose field has another type, see `C05_wrong_type_leaves_document`. -/
theorem C05_register_failure_partial {cn : String} {ty : Nat} {create : M Dict} {s s1 : DB} {d : Dict}
    {c : FieldColl} (hcr : create s = (.ok d, s1)) (hc : s1.at cn = .ok (.field c))
    (he : c.docs.contains "" = false) (hty : getField ty d ≠ .throw .badAnyCast)
    (h : (registerField cn ty create s).1.isOk = false) :
    (registerField cn ty create s).2 = s1 := by
  rw [DB.at_eq_ok] at hc
  rcases registerField_cases (ty := ty) hcr hc he with ⟨id, f, hid, hk, hf, hr⟩ | ⟨id, hid, hf, hk, hr⟩ | ⟨e, hr⟩
  · rw [hr] at h; simp [Res.isOk] at h
  · exact absurd hf hty
  · rw [hr]

/-- A creator that throws registers nothing. -/
theorem C05_creator_throws {cn : String} {ty : Nat} {create : M Dict} {s s1 : DB} {e : Exn}
    (hcr : create s = (.throw e, s1)) : registerField cn ty create s = (.throw e, s1) := by
  simp [registerField, M.bind_apply, hcr]

/-- **C05 violated: a failed registration can leave a document behind.** Registering, as a field of
type 1, a complete document whose field is of type 2 throws `bad_any_cast`, but the document stays in
the collection: afterwards it is found under its id. -/
theorem C05_wrong_type_leaves_document (c : FieldColl) (cn : String) (d : Dict) (f : FieldVal)
    (id : String) (s : DB) (hc : s.at cn = .ok (.field c)) (hv : validateFieldDoc d = true)
    (hid : docIdOf d = .ok id) (hnew : c.docs.contains id = false)
    (hf : d.index "field" = .ok (.field 2 f)) :
    ∃ s' c', registerField cn 1 (fun s => (.ok d, s)) s = (.throw .badAnyCast, s') ∧
      s'.at cn = .ok (.field c') ∧ c'.docs.find? id = some d ∧ c.docs.find? id = none := by
  have hnone : c.docs.find? id = none := by simpa [AMap.contains] using hnew
  refine ⟨_, { c with docs := c.docs.emplace id d }, registerField_wrongType (create := fun s => (.ok d, s)) rfl hv (DB.at_eq_ok.1 hc)
    hid hnew (by simp [getField, hf]), ?_, ?_, hnone⟩
  · rw [DB.at_eq_ok]; simp [AMap.find?_modify, DB.at_eq_ok.1 hc]
  · simp [AMap.find?_emplace, hnone]

/-- **C05 violated for the empty id.** When a document with the empty id is stored, registering a
document whose id is taken does not fail: it returns the field stored under the empty id and stores
nothing. -/
theorem C05_empty_id_returns_other_field (c : FieldColl) (cn : String) (ty : Nat) (d e : Dict)
    (f : FieldVal) (id : String) (s : DB) (hc : s.at cn = .ok (.field c))
    (hv : validateFieldDoc d = true) (hid : docIdOf d = .ok id) (hdup : c.docs.contains id = true)
    (he : c.docs.find? "" = some e) (hf : getField ty e = .ok f) :
    (registerField cn ty (fun s => (.ok d, s)) s).1 = .ok "" := by
  have hins : c.insert d = .ok ("", c) := by simp [FieldColl.insert, hid, hdup]
  simp only [registerField]
  rw [M.bind_of_ok (s1 := s) (a := d) rfl]
  simp only [hv, Bool.true_eq_false, if_false]
  rw [M.bind_of_ok (fieldInstanceConst_run (DB.at_eq_ok.1 hc)), M.lift_bind_ok hins]
  simp only [M.bind_apply, putField, M.lift_apply, AMap.at?, he, hf]
  rfl

/-- Every document is stored under its own id, once. -/
def FieldColl.WF (c : FieldColl) : Prop :=
  c.docs.Uniq ∧ ∀ k d, c.docs.find? k = some d → docIdOf d = .ok k

theorem docIdOf_insert_field (d : Dict) (v : Any) : docIdOf (d.insert "field" v) = docIdOf d :=
  getStr_insert_ne d v (by decide)

theorem FieldColl.WF.emplace {c : FieldColl} (h : c.WF) {id : String} {d : Dict}
    (hid : docIdOf d = .ok id) : FieldColl.WF { c with docs := c.docs.emplace id d } := by
  refine ⟨h.1.emplace id d, fun k d' hd => ?_⟩
  rw [AMap.find?_emplace] at hd
  by_cases hk : k = id
  · subst hk
    simp only [if_true, Option.some.injEq] at hd
    cases hx : c.docs.find? k with
    | none => rw [hx] at hd; simp only [Option.getD_none] at hd; rw [← hd]; exact hid
    | some x => rw [hx] at hd; simp only [Option.getD_some] at hd; rw [← hd]; exact h.2 k x hx
  · simp only [hk, if_false] at hd; exact h.2 k d' hd

theorem FieldColl.WF.stored {c : FieldColl} (h : c.WF) {id : String} {d : Dict} {ty : Nat}
    {f : FieldVal} (hid : docIdOf d = .ok id) (hnew : c.docs.contains id = false) :
    (c.stored id d ty f).WF := by
  have h1 := h.emplace hid
  refine ⟨h1.1.modify _ _, fun k d' hd => ?_⟩
  have hnone : c.docs.find? id = none := by simpa [AMap.contains] using hnew
  simp only [FieldColl.stored, AMap.find?_modify] at hd
  by_cases hk : k = id
  · subst hk
    simp only [if_true, AMap.find?_emplace, hnone, Option.map_some, Option.some.injEq] at hd
    rw [← hd, docIdOf_insert_field]; exact hid
  · simp only [hk, if_false] at hd; exact h1.2 k d' hd

/-- Registration, successful or not, keeps every document under its own id. -/
theorem C05_register_keeps_wf {cn : String} {ty : Nat} {create : M Dict} {s s1 : DB} {d : Dict}
    {c : FieldColl} (hcr : create s = (.ok d, s1)) (hc : s1.at cn = .ok (.field c))
    (he : c.docs.contains "" = false) (hw : c.WF) :
    ∃ c', (registerField cn ty create s).2.at cn = .ok (.field c') ∧ c'.WF ∧ c'.name = c.name := by
  rw [DB.at_eq_ok] at hc
  rcases registerField_cases (ty := ty) hcr hc he with ⟨id, f, hid, hk, hf, hr⟩ | ⟨id, hid, hf, hk, hr⟩ | ⟨e, hr⟩
  · exact ⟨c.stored id d ty f, by rw [hr, DB.at_eq_ok]; simp [AMap.find?_modify, hc], hw.stored hid hk, rfl⟩
  · exact ⟨{ c with docs := c.docs.emplace id d },
      by rw [hr, DB.at_eq_ok]; simp [AMap.find?_modify, hc], hw.emplace hid, rfl⟩
  · exact ⟨c, by rw [hr, DB.at_eq_ok]; exact hc, hw, rfl⟩

theorem findDocs_aux (pred : Dict → Res Bool) (p : Dict → Bool) :
    ∀ (docs : AMap String Dict) (acc : List String),
    (∀ k d, (k, d) ∈ docs → docIdOf d = .ok k ∧ pred d = .ok (p d)) →
    docs.foldlM (fun acc q => do
      if ← pred q.2 then do
        let i ← docIdOf q.2
        return acc ++ [i]
      else return acc) acc = .ok (acc ++ (docs.filter (fun q => p q.2)).map Prod.fst)
  | [], acc, _ => by simp
  | (k, d) :: docs, acc, h => by
    obtain ⟨hd, hpd⟩ := h k d (by simp)
    have ih := fun acc => findDocs_aux pred p docs acc (fun k' d' hm => h k' d' (by simp [hm]))
    rw [List.foldlM_cons]
    by_cases hp : p d = true
    · have e : (do
          if ← pred (k, d).2 then do
            let i ← docIdOf (k, d).2
            return acc ++ [i]
          else return acc) = Res.ok (acc ++ [k]) := by simp [hpd, hp, hd]
      rw [e, Res.ok_bind, ih]
      simp [hp]
    · have hp : p d = false := by simpa using hp
      have e : (do
          if ← pred (k, d).2 then do
            let i ← docIdOf (k, d).2
            return acc ++ [i]
          else return acc) = Res.ok acc := by simp [hpd, hp]
      rw [e, Res.ok_bind, ih]
      simp [hp]

theorem findDocs_eq {docs : AMap String Dict} {pred : Dict → Res Bool} {p : Dict → Bool}
    (h : ∀ k d, (k, d) ∈ docs → docIdOf d = .ok k ∧ pred d = .ok (p d)) :
    findDocs docs pred = .ok ((docs.filter (fun q => p q.2)).map Prod.fst) := by
  have := findDocs_aux pred p docs [] h
  rw [List.nil_append] at this
  exact this

/-- **C05 (find).** `find(predicate)` returns, without repetition, exactly the ids of the stored
documents satisfying the predicate; each of them is then found under that id. -/
theorem C05_find (c : FieldColl) (hw : c.WF) (p : Dict → Bool) :
    ∃ ids, findDocs c.docs (fun d => .ok (p d)) = .ok ids ∧ ids.Nodup ∧
      ∀ k, k ∈ ids ↔ ∃ d, c.docs.find? k = some d ∧ p d = true := by
  refine ⟨_, findDocs_eq (fun k d hm => ⟨hw.2 k d ((AMap.find?_eq_some_iff hw.1 k d).2 hm), rfl⟩),
    ?_, fun k => ?_⟩
  · exact List.Nodup.sublist (List.Sublist.map Prod.fst List.filter_sublist) hw.1
  · simp only [List.mem_map, List.mem_filter]
    constructor
    · rintro ⟨⟨k', d⟩, ⟨hm, hp⟩, rfl⟩
      exact ⟨d, (AMap.find?_eq_some_iff hw.1 _ d).2 hm, hp⟩
    · rintro ⟨d, hd, hp⟩
      exact ⟨(k, d), ⟨(AMap.find?_eq_some_iff hw.1 k d).1 hd, hp⟩, rfl⟩

/-- Non-vacuity: registering two fields one after another in a new collection. -/
def exDoc (name : String) : Dict := Dict.ofInitList [("name", .str name), ("timeIndex", .i64 3),
  ("iterationIndex", .i64 0), ("subCycleIndex", .i64 0),
  ("field", .field 1 ⟨name, "", "", true, 7⟩)]

theorem C05_example :
    (registerField "fields" 1 (createFromDict (exDoc "T"))
      ⟨[("fields", .field ⟨"fields", []⟩)], 0⟩).1 = .ok (docId 0) := by
  have h1 : createFromDict (exDoc "T") ⟨[("fields", .field ⟨"fields", []⟩)], 0⟩
      = (.ok ((exDoc "T").insert "id" (.str (docId 0))), ⟨[("fields", .field ⟨"fields", []⟩)], 2⟩) := by
    simp only [createFromDict, M.bind_apply, mkDocument_run]
    rfl
  rw [registerField_fresh (id := docId 0) (f := ⟨"T", "", "", true, 7⟩) h1 rfl rfl rfl rfl rfl]

example : FieldColl.WF ⟨"fields", []⟩ := ⟨by simp [AMap.Uniq, AMap.keys], by simp⟩

end NeoFOAM
