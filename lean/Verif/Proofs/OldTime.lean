import Verif.Props.C05_RegisterField
import Mathlib.Tactic.Set

/-!
# Invariant of the database under registration and old-time calls
-/
namespace NeoFOAM

/-- The contents of an old-time document. -/
structure OT where
  next : String
  prev : String
  cur : String
  lvl : Int
  id : String

/-- The document as stored by `getOrInsert`. -/
def OT.doc (o : OT) : Dict :=
  [("nextTime", .str o.next), ("previousTime", .str o.prev), ("currentTime", .str o.cur),
    ("level", .int o.lvl), ("id", .str o.id)]

def OT.entry (o : OT) : String × Dict := (o.id, o.doc)

@[simp] theorem OT.getStr_next (o : OT) : getStr o.doc "nextTime" = .ok o.next := rfl
@[simp] theorem OT.getStr_prev (o : OT) : getStr o.doc "previousTime" = .ok o.prev := rfl
@[simp] theorem OT.getStr_cur (o : OT) : getStr o.doc "currentTime" = .ok o.cur := rfl
@[simp] theorem OT.getI32_lvl (o : OT) : getI32 o.doc "level" = .ok o.lvl := rfl
@[simp] theorem OT.docIdOf (o : OT) : NeoFOAM.docIdOf o.doc = .ok o.id := rfl

/-- Invariant of the documents of an old-time collection. -/
structure OtsInv (ctr : Nat) (docs : AMap String Dict) (ots : List OT) : Prop where
  ids : ∀ o ∈ ots, ∃ i, i < ctr ∧ o.id = docId i
  idsNodup : (ots.map OT.id).Nodup
  nexts : (ots.map OT.next).Nodup
  prevs : (ots.map OT.prev).Nodup
  known : ∀ o ∈ ots, docs.contains o.next = true ∧ docs.contains o.prev = true
  chain : ∀ o ∈ ots, (o.cur = o.next ∧ o.lvl = 1 ∧ ∀ q ∈ ots, q.prev ≠ o.next) ∨
    ∃ q ∈ ots, q.prev = o.next ∧ o.cur = q.cur ∧ o.lvl = q.lvl + 1
  pos : ∀ o ∈ ots, 1 ≤ o.lvl

/-- Invariant of one old-time collection in the database. -/
def OldInv (db : DB) (n : String) (oc : OldColl) : Prop :=
  n = oc.fcName ++ "_oldTime" ∧ ∃ c ots, db.colls.find? oc.fcName = some (.field c) ∧
    oc.docs = ots.map OT.entry ∧ OtsInv db.ctr c.docs ots

/-- Stored fields know the key and the collection they are stored under. -/
def FieldColl.Keyed (c : FieldColl) : Prop :=
  ∀ k d ty f, c.docs.find? k = some d → getField ty d = .ok f → f.key = k ∧ f.coll = c.name

/-- Invariant of the database. -/
structure Inv (db : DB) : Prop where
  uniq : db.colls.Uniq
  fld : ∀ n c, db.colls.find? n = some (.field c) →
    c.name = n ∧ c.WF ∧ c.docs.contains "" = false
  keyed : ∀ n c, db.colls.find? n = some (.field c) → c.Keyed
  old : ∀ n oc, db.colls.find? n = some (.oldTime oc) → OldInv db n oc

/-- Nothing stored is lost: documents stay, their fields keep their types, and old-time documents
stay unchanged. -/
structure Ext (db db' : DB) : Prop where
  fld : ∀ n c, db.colls.find? n = some (.field c) → ∃ c', db'.colls.find? n = some (.field c') ∧
    ∀ k d, c.docs.find? k = some d → ∃ d', c'.docs.find? k = some d' ∧
      ∀ ty f, getField ty d = .ok f → ∃ f', getField ty d' = .ok f'
  old : ∀ n oc, db.colls.find? n = some (.oldTime oc) → ∃ oc',
    db'.colls.find? n = some (.oldTime oc') ∧ oc'.fcName = oc.fcName ∧
    ∀ k d, oc.docs.find? k = some d → oc'.docs.find? k = some d

theorem Ext.refl (db : DB) : Ext db db :=
  ⟨fun _ c h => ⟨c, h, fun _ d hd => ⟨d, hd, fun _ f hf => ⟨f, hf⟩⟩⟩,
   fun _ oc h => ⟨oc, h, rfl, fun _ _ hd => hd⟩⟩

theorem Ext.trans {a b c : DB} (h : Ext a b) (h' : Ext b c) : Ext a c := by
  refine ⟨fun n x hx => ?_, fun n x hx => ?_⟩
  · obtain ⟨y, hy, hd⟩ := h.fld n x hx
    obtain ⟨z, hz, hd'⟩ := h'.fld n y hy
    refine ⟨z, hz, fun k d hk => ?_⟩
    obtain ⟨d1, hd1, ht1⟩ := hd k d hk
    obtain ⟨d2, hd2, ht2⟩ := hd' k d1 hd1
    exact ⟨d2, hd2, fun ty f hf => by obtain ⟨f1, hf1⟩ := ht1 ty f hf; exact ht2 ty f1 hf1⟩
  · obtain ⟨y, hy, hn, hd⟩ := h.old n x hx
    obtain ⟨z, hz, hn', hd'⟩ := h'.old n y hy
    exact ⟨z, hz, hn'.trans hn, fun k d hk => hd' k d (hd k d hk)⟩

/-- `db'` is a good successor of `db`. -/
structure Good (db db' : DB) : Prop where
  inv : Inv db'
  ext : Ext db db'
  ctr : db.ctr ≤ db'.ctr

theorem Good.refl {db : DB} (h : Inv db) : Good db db := ⟨h, Ext.refl db, Nat.le_refl _⟩
theorem Good.trans {a b c : DB} (h : Good a b) (h' : Good b c) : Good a c :=
  ⟨h'.inv, h.ext.trans h'.ext, Nat.le_trans h.ctr h'.ctr⟩

theorem OtsInv.mono {ctr ctr' : Nat} {docs docs' : AMap String Dict} {ots : List OT}
    (h : OtsInv ctr docs ots) (hc : ctr ≤ ctr')
    (hd : ∀ k, docs.contains k = true → docs'.contains k = true) : OtsInv ctr' docs' ots :=
  ⟨fun o ho => by obtain ⟨i, hi, e⟩ := h.ids o ho; exact ⟨i, by omega, e⟩, h.idsNodup, h.nexts,
    h.prevs, fun o ho => ⟨hd _ (h.known o ho).1, hd _ (h.known o ho).2⟩, h.chain, h.pos⟩

/-- Using up ids changes nothing else. -/
theorem Good.bump {db : DB} (h : Inv db) {n : Nat} (hn : db.ctr ≤ n) :
    Good db { db with ctr := n } := by
  refine ⟨⟨h.uniq, h.fld, h.keyed, fun m oc hm => ?_⟩, Ext.refl db |> fun e => ⟨e.fld, e.old⟩, hn⟩
  obtain ⟨e, c, ots, hc, hd, ho⟩ := h.old m oc hm
  exact ⟨e, c, ots, hc, hd, ho.mono hn (fun _ hk => hk)⟩

theorem find?_const_modify {m : AMap String Coll} {n n' : String} {x y : Coll}
    (h : m.find? n = some x) :
    (m.modify n (fun _ => y)).find? n' = if n' = n then some y else m.find? n' := by
  rw [AMap.find?_modify, h]; rfl

/-- Replacing a field collection by one that keeps its documents. -/
theorem Good.putField {db : DB} (h : Inv db) {cn : String} {c c' : FieldColl}
    (hc : db.colls.find? cn = some (.field c)) (hn : c'.name = c.name) (hw : c'.WF)
    (he : c'.docs.contains "" = false) (hkeyed : c'.Keyed)
    (hd : ∀ k d, c.docs.find? k = some d → ∃ d', c'.docs.find? k = some d' ∧
      ∀ ty f, getField ty d = .ok f → ∃ f', getField ty d' = .ok f') :
    Good db { db with colls := db.colls.modify cn (fun _ => .field c') } := by
  have hcont : ∀ k, c.docs.contains k = true → c'.docs.contains k = true := by
    intro k hk
    simp only [AMap.contains, Option.isSome_iff_exists] at hk ⊢
    obtain ⟨d, hk⟩ := hk
    obtain ⟨d', hd', _⟩ := hd k d hk
    exact ⟨d', hd'⟩
  refine ⟨⟨h.uniq.modify _ _, ?_, ?_, ?_⟩, ⟨?_, ?_⟩, Nat.le_refl _⟩
  · intro n x hx
    simp only [find?_const_modify hc] at hx
    by_cases hnn : n = cn
    · subst hnn
      simp only [if_true, Option.some.injEq, Coll.field.injEq] at hx
      subst hx
      exact ⟨by rw [hn]; exact (h.fld _ c hc).1, hw, he⟩
    · simp only [hnn, if_false] at hx; exact h.fld n x hx
  · intro n x hx
    simp only [find?_const_modify hc] at hx
    by_cases hnn : n = cn
    · subst hnn
      simp only [if_true, Option.some.injEq, Coll.field.injEq] at hx
      subst hx
      exact hkeyed
    · simp only [hnn, if_false] at hx; exact h.keyed n x hx
  · intro n oc hx
    simp only [find?_const_modify hc] at hx
    by_cases hnn : n = cn
    · subst hnn; simp at hx
    · simp only [hnn, if_false] at hx
      obtain ⟨e, cc, ots, hcc, hdd, ho⟩ := h.old n oc hx
      by_cases hf : oc.fcName = cn
      · rw [hf, hc] at hcc
        simp only [Option.some.injEq, Coll.field.injEq] at hcc
        subst hcc
        exact ⟨e, c', ots, by simp [find?_const_modify hc, hf], hdd, ho.mono (Nat.le_refl _) hcont⟩
      · exact ⟨e, cc, ots, by simp [find?_const_modify hc, hf, hcc], hdd, ho⟩
  · intro n x hx
    by_cases hnn : n = cn
    · subst hnn
      rw [hc] at hx
      simp only [Option.some.injEq, Coll.field.injEq] at hx
      subst hx
      exact ⟨c', by simp [find?_const_modify hc], hd⟩
    · exact ⟨x, by simp [find?_const_modify hc, hnn, hx], fun k d hk => ⟨d, hk, fun _ f hf => ⟨f, hf⟩⟩⟩
  · intro n oc hx
    have hnn : n ≠ cn := by rintro rfl; rw [hc] at hx; simp at hx
    exact ⟨oc, by simp [find?_const_modify hc, hnn, hx], rfl, fun _ _ hk => hk⟩

/-- Computations that only use up ids. -/
def OnlyIds (x : M α) : Prop := ∀ s, (x s).2.colls = s.colls ∧ s.ctr ≤ (x s).2.ctr

theorem OnlyIds.lift (r : Res α) : OnlyIds (M.lift r) := fun _ => ⟨rfl, Nat.le_refl _⟩
theorem OnlyIds.pure (a : α) : OnlyIds (pure a : M α) := fun _ => ⟨rfl, Nat.le_refl _⟩
theorem OnlyIds.bind {x : M α} {f : α → M β} (hx : OnlyIds x) (hf : ∀ a, OnlyIds (f a)) :
    OnlyIds (x >>= f) := by
  intro s
  rw [M.bind_apply]
  have h1 := hx s
  rcases h : x s with ⟨r, s1⟩
  rw [h] at h1
  cases r with
  | ok a =>
    have h2 := hf a s1
    exact ⟨h2.1.trans h1.1, Nat.le_trans h1.2 h2.2⟩
  | throw e => exact h1
  | abort => exact h1
  | ub => exact h1

theorem OnlyIds.mkDocument (d : Dict) (v : Dict → Bool) : OnlyIds (mkDocument d v) := by
  intro s; rw [mkDocument_run]; exact ⟨rfl, Nat.le_succ _⟩

theorem OnlyIds.dbAt (n : String) : OnlyIds (dbAt n) := fun _ => ⟨rfl, Nat.le_refl _⟩

theorem OnlyIds.fieldInstanceConst (n : String) : OnlyIds (fieldInstanceConst n) :=
  (OnlyIds.dbAt n).bind (fun _ => OnlyIds.lift _)

theorem OnlyIds.createFromDict (d : Dict) : OnlyIds (createFromDict d) :=
  (OnlyIds.mkDocument _ _).bind (fun _ => OnlyIds.mkDocument _ _)

theorem OnlyIds.createFromExisting (name : String) (ty : Nat) (f : FieldVal) (t i s : Int) :
    OnlyIds (createFromExisting name ty f t i s) := by
  refine OnlyIds.bind ?_ (fun _ => (OnlyIds.mkDocument _ _).bind (fun _ => OnlyIds.mkDocument _ _))
  unfold inheritIndices
  split
  · exact (OnlyIds.fieldInstanceConst _).bind (fun c => (OnlyIds.lift _).bind (fun fd =>
      (OnlyIds.lift _).bind (fun _ => (OnlyIds.lift _).bind (fun _ => (OnlyIds.lift _).bind
        (fun _ => OnlyIds.pure _)))))
  · exact OnlyIds.pure _

/-- The id of a document: kept if present, otherwise generated. -/
theorem mkDocument_id {d d' : Dict} {v : Dict → Bool} {s s' : DB}
    (h : mkDocument d v s = (.ok d', s')) :
    (d.contains "id" = true ∧ d' = d) ∨ (d.contains "id" = false ∧ docIdOf d' = .ok (docId s.ctr)) := by
  rw [mkDocument_run] at h
  by_cases hd : d.contains "id" = true
  · left
    simp only [hd, if_true] at h
    split at h
    · simp at h; exact ⟨hd, h.1.symm⟩
    · simp at h
  · right
    have hd : d.contains "id" = false := by simpa using hd
    simp only [hd, Bool.false_eq_true, if_false] at h
    split at h
    · simp only [Prod.mk.injEq, Res.ok.injEq] at h
      rw [← h.1]
      exact ⟨hd, by simp [docIdOf, getStr, index_insert]⟩
    · simp at h

theorem contains_of_docIdOf {d : Dict} {i : String} (h : docIdOf d = .ok i) : d.contains "id" = true := by
  simp only [docIdOf, getStr, Dict.index, AMap.at?, Res.bind_eq_ok] at h
  obtain ⟨a, h, _⟩ := h
  simp only [Dict.contains, AMap.contains]
  cases hx : AMap.find? d "id" with
  | none => simp [hx] at h
  | some b => rfl

theorem createFromDict_id {d d' : Dict} {s s' : DB} (hne : AMap.find? d "id" ≠ some (.str ""))
    (h : createFromDict d s = (.ok d', s')) : docIdOf d' ≠ .ok "" := by
  obtain ⟨d1, s1, h1, h2⟩ := M.bind_ok h
  rcases mkDocument_id h1 with ⟨hc, rfl⟩ | ⟨_, hi⟩
  · rcases mkDocument_id h2 with ⟨_, rfl⟩ | ⟨hc', _⟩
    · intro he
      simp only [docIdOf, getStr, Dict.index, AMap.at?, Res.bind_eq_ok] at he
      obtain ⟨a, ha, hb⟩ := he
      cases hx : AMap.find? d' "id" with
      | none => simp [hx] at ha
      | some b =>
        simp only [hx, Res.ok.injEq] at ha
        subst ha
        cases b with
        | str t => simp only [Res.ok.injEq] at hb; subst hb; exact hne hx
        | _ => simp at hb
    · rw [hc] at hc'; simp at hc'
  · rcases mkDocument_id h2 with ⟨_, rfl⟩ | ⟨hc', _⟩
    · rw [hi]; simp [docId_ne_empty]
    · rw [contains_of_docIdOf hi] at hc'; simp at hc'

/-- The document `CreateFromExistingField` builds. -/
def copyDoc (name : String) (ty : Nat) (payload : Nat) (t i s : Int) (id : String) : Dict :=
  [("name", .str name), ("timeIndex", .i64 t), ("iterationIndex", .i64 i), ("subCycleIndex", .i64 s),
    ("field", .field ty ⟨name, "", "", true, payload⟩), ("id", .str id)]

theorem twoDocs_run (name : String) (ty : Nat) (payload : Nat) (t i s : Int) (st : DB) :
    (do let d ← mkDocument (Dict.ofInitList [("name", .str name), ("timeIndex", .i64 t),
          ("iterationIndex", .i64 i), ("subCycleIndex", .i64 s),
          ("field", .field ty ⟨name, "", "", true, payload⟩)]) validateFieldDoc
        mkDocument d validateFieldDoc : M Dict) st
      = (.ok (copyDoc name ty payload t i s (docId st.ctr)), { st with ctr := st.ctr + 2 }) := by
  rw [M.bind_apply, mkDocument_run]
  have e0 : Dict.contains (Dict.ofInitList [("name", .str name), ("timeIndex", .i64 t),
          ("iterationIndex", .i64 i), ("subCycleIndex", .i64 s),
          ("field", .field ty ⟨name, "", "", true, payload⟩)]) "id" = false := rfl
  have e1 : (Dict.ofInitList [("name", .str name), ("timeIndex", .i64 t),
          ("iterationIndex", .i64 i), ("subCycleIndex", .i64 s),
          ("field", .field ty ⟨name, "", "", true, payload⟩)]).insert "id" (.str (docId st.ctr))
      = copyDoc name ty payload t i s (docId st.ctr) := rfl
  have e2 : validateFieldDoc (copyDoc name ty payload t i s (docId st.ctr)) = true := rfl
  have e3 : Dict.contains (copyDoc name ty payload t i s (docId st.ctr)) "id" = true := rfl
  simp only [e0, Bool.false_eq_true, if_false, e1, e2, if_true, mkDocument_run, e3]

theorem createFromExisting_ok {name : String} {ty : Nat} {f : FieldVal} {t i s : Int} {st st' : DB}
    {d : Dict} (h : createFromExisting name ty f t i s st = (.ok d, st')) :
    st' = { st with ctr := st.ctr + 2 } ∧
    ∃ t' i' s', d = copyDoc name ty f.payload t' i' s' (docId st.ctr) ∧
      (f.registered = false → t' = t ∧ i' = i ∧ s' = s) ∧
      (f.registered = true → ∃ c fd, st.colls.find? f.coll = some (.field c) ∧
        c.docs.find? f.key = some fd ∧
        orInherit t fd "timeIndex" = .ok t' ∧ orInherit i fd "iterationIndex" = .ok i' ∧
        orInherit s fd "subCycleIndex" = .ok s') := by
  unfold createFromExisting at h
  obtain ⟨⟨t', i', s'⟩, st1, h1, h2⟩ := M.bind_ok h
  simp only at h2
  rw [twoDocs_run] at h2
  simp only [Prod.mk.injEq, Res.ok.injEq] at h2
  unfold inheritIndices at h1
  by_cases hr : f.registered = true
  · simp only [hr, if_true] at h1
    obtain ⟨c, st2, hc, h1⟩ := M.bind_ok h1
    obtain ⟨fd, st3, hfd, h1⟩ := M.bind_ok h1
    obtain ⟨t1, st4, ht, h1⟩ := M.bind_ok h1
    obtain ⟨i1, st5, hi, h1⟩ := M.bind_ok h1
    obtain ⟨s1, st6, hs, h1⟩ := M.bind_ok h1
    simp only [M.pure_apply, M.lift_apply, Prod.mk.injEq, Res.ok.injEq] at h1 ht hi hs hfd
    obtain ⟨⟨rfl, rfl, rfl⟩, rfl⟩ := h1
    obtain ⟨hs, rfl⟩ := hs
    obtain ⟨hi, rfl⟩ := hi
    obtain ⟨ht, rfl⟩ := ht
    obtain ⟨hfd, rfl⟩ := hfd
    have hst : st2 = st ∧ st.colls.find? f.coll = some (.field c) := by
      obtain ⟨cc, st7, h7, h8⟩ := M.bind_ok hc
      simp only [dbAt, Prod.mk.injEq] at h7
      obtain ⟨h7, rfl⟩ := h7
      simp only [M.lift_apply, Prod.mk.injEq] at h8
      refine ⟨h8.2.symm, ?_⟩
      rw [DB.at_eq_ok] at h7
      rw [h7]
      cases cc with
      | field x => simp only [Coll.asField, Res.ok.injEq] at h8; rw [h8.1]
      | oldTime x => simp [Coll.asField] at h8
      | other x => simp [Coll.asField] at h8
    obtain ⟨rfl, hst⟩ := hst
    refine ⟨h2.2.symm, t1, i1, s1, h2.1.symm, fun hh => by rw [hr] at hh; simp at hh, fun _ => ?_⟩
    exact ⟨c, fd, hst, AMap.at?_eq_ok.1 hfd, ht, hi, hs⟩
  · have hr : f.registered = false := by simpa using hr
    simp only [hr, Bool.false_eq_true, if_false, M.pure_apply, Prod.mk.injEq, Res.ok.injEq] at h1
    obtain ⟨⟨rfl, rfl, rfl⟩, rfl⟩ := h1
    exact ⟨h2.2.symm, t, i, s, h2.1.symm, fun _ => ⟨rfl, rfl, rfl⟩,
      fun hh => by rw [hr] at hh; simp at hh⟩

theorem createFromExisting_id {name : String} {ty : Nat} {f : FieldVal} {t i s : Int} {st st' : DB}
    {d : Dict} (h : createFromExisting name ty f t i s st = (.ok d, st')) : docIdOf d ≠ .ok "" := by
  obtain ⟨_, t', i', s', rfl, _⟩ := createFromExisting_ok h
  intro he
  have : docIdOf (copyDoc name ty f.payload t' i' s' (docId st.ctr)) = .ok (docId st.ctr) := rfl
  rw [this] at he
  simp [docId_ne_empty] at he

theorem contains_emplace {m : AMap String Dict} {id k : String} {d : Dict} :
    (m.emplace id d).contains k = true ↔ k = id ∨ m.contains k = true := by
  simp only [AMap.contains, AMap.find?_emplace]
  by_cases h : k = id <;> simp [h]

theorem FieldColl.Keyed.stored {c : FieldColl} (h : c.Keyed) {id : String} {d : Dict} {ty : Nat}
    {f : FieldVal} (hnew : c.docs.contains id = false) : (c.stored id d ty f).Keyed := by
  intro k d' ty' f' hk hf
  have hnone : c.docs.find? id = none := by simpa [AMap.contains] using hnew
  simp only [FieldColl.stored, AMap.find?_modify] at hk
  by_cases hki : k = id
  · subst hki
    simp only [if_true, AMap.find?_emplace, hnone, Option.map_some, Option.some.injEq] at hk
    subst hk
    simp only [getField, index_insert, if_true, Res.ok_bind] at hf
    split at hf
    · simp only [Res.ok.injEq] at hf; subst hf; exact ⟨rfl, rfl⟩
    · simp at hf
  · simp only [hki, if_false, AMap.find?_emplace] at hk
    exact h k d' ty' f' hk hf

/-- Registration keeps the invariant. -/
theorem Good.registerField {db : DB} (h : Inv db) (cn : String) (ty : Nat) {create : M Dict}
    (ho : OnlyIds create) (hid : ∀ d s', create db = (.ok d, s') → docIdOf d ≠ .ok "" ∧
      getField ty d ≠ .throw .badAnyCast) :
    Good db (registerField cn ty create db).2 := by
  have h1 := ho db
  rcases hcr : create db with ⟨r, s1⟩
  rw [hcr] at h1
  have hs1 : s1 = { db with ctr := s1.ctr } := by
    cases s1; simp only [DB.mk.injEq, and_true]; exact h1.1
  have g1 : Good db s1 := by rw [hs1]; exact Good.bump h h1.2
  cases r with
  | ok d =>
    cases hf : s1.colls.find? cn with
    | none =>
      by_cases hv : validateFieldDoc d = true
      · have : NeoFOAM.registerField cn ty create db = (.throw .outOfRange, s1) := by
          simp only [NeoFOAM.registerField]
          rw [M.bind_of_ok hcr]
          simp only [hv, Bool.true_eq_false, if_false]
          simp [M.bind_apply, fieldInstanceConst, dbAt, DB.at, AMap.at?, hf]
        rw [this]; exact g1
      · rw [registerField_invalid hcr (by simpa using hv)]; exact g1
    | some c =>
      cases c with
      | field c =>
        have hfc := g1.inv.fld cn c hf
        rcases registerField_cases (ty := ty) hcr hf hfc.2.2 with
          ⟨id, f, hi, hk, hg, hr⟩ | ⟨id, hi, hg, hk, hr⟩ | ⟨e, hr⟩
        · rw [hr]
          have hidne : id ≠ "" := fun e => (hid d s1 hcr).1 (by rw [hi, e])
          refine g1.trans (Good.putField g1.inv hf rfl (hfc.2.1.stored hi hk) ?_
            (FieldColl.Keyed.stored (g1.inv.keyed cn c hf) hk) ?_)
          · have : (c.stored id d ty f).docs.find? "" = none := by
              simp only [FieldColl.stored, AMap.find?_modify, Ne.symm hidne, if_false,
                AMap.find?_emplace]
              simpa [AMap.contains] using hfc.2.2
            simp [AMap.contains, this]
          · intro k d' hk'
            have hki : k ≠ id := by
              rintro rfl; simp [AMap.contains, hk'] at hk
            refine ⟨d', ?_, fun _ f hf => ⟨f, hf⟩⟩
            simp [FieldColl.stored, AMap.find?_modify, AMap.find?_emplace, hki, hk']
        · exact absurd hg (hid d s1 hcr).2
        · rw [hr]; exact g1
      | oldTime c =>
        by_cases hv : validateFieldDoc d = true
        · have : NeoFOAM.registerField cn ty create db = (.throw .badCast, s1) := by
            simp only [NeoFOAM.registerField]
            rw [M.bind_of_ok hcr]
            simp only [hv, Bool.true_eq_false, if_false]
            simp [M.bind_apply, fieldInstanceConst, dbAt, DB.at, AMap.at?, hf, Coll.asField, M.lift_apply]
          rw [this]; exact g1
        · rw [registerField_invalid hcr (by simpa using hv)]; exact g1
      | other c =>
        by_cases hv : validateFieldDoc d = true
        · have : NeoFOAM.registerField cn ty create db = (.throw .badCast, s1) := by
            simp only [NeoFOAM.registerField]
            rw [M.bind_of_ok hcr]
            simp only [hv, Bool.true_eq_false, if_false]
            simp [M.bind_apply, fieldInstanceConst, dbAt, DB.at, AMap.at?, hf, Coll.asField, M.lift_apply]
          rw [this]; exact g1
        · rw [registerField_invalid hcr (by simpa using hv)]; exact g1
  | throw e =>
    have : (NeoFOAM.registerField cn ty create db).2 = s1 := by
      simp [NeoFOAM.registerField, M.bind_apply, hcr]
    rw [this]; exact g1
  | abort =>
    have : (NeoFOAM.registerField cn ty create db).2 = s1 := by
      simp [NeoFOAM.registerField, M.bind_apply, hcr]
    rw [this]; exact g1
  | ub =>
    have : (NeoFOAM.registerField cn ty create db).2 = s1 := by
      simp [NeoFOAM.registerField, M.bind_apply, hcr]
    rw [this]; exact g1

/-- Creating a missing field collection. -/
theorem Good.addColl {db : DB} (h : Inv db) (n : String) (c : Coll)
    (hc : match c with
      | .field x => x = ⟨n, []⟩
      | .oldTime x => x.docs = [] ∧ n = x.fcName ++ "_oldTime" ∧
          ∃ y, db.colls.find? x.fcName = some (.field y)
      | .other _ => True) :
    Good db (db.insert n c) := by
  by_cases hk : db.colls.contains n = true
  · have : db.insert n c = db := by simp [DB.insert, AMap.emplace, hk]
    rw [this]; exact Good.refl h
  · have hnone : db.colls.find? n = none := by simpa [AMap.contains] using hk
    have hfind : ∀ m, (db.insert n c).colls.find? m = if m = n then some c else db.colls.find? m := by
      intro m
      simp only [DB.insert, AMap.find?_emplace, hnone, Option.getD_none]
    have hkeep : ∀ m x, db.colls.find? m = some x → (db.insert n c).colls.find? m = some x := by
      intro m x hx
      have : m ≠ n := by rintro rfl; rw [hnone] at hx; simp at hx
      rw [hfind]; simp [this, hx]
    refine ⟨⟨h.uniq.emplace _ _, ?_, ?_, ?_⟩, ⟨?_, ?_⟩, Nat.le_refl _⟩
    · intro m x hx
      rw [hfind] at hx
      by_cases hm : m = n
      · simp only [hm, if_true, Option.some.injEq] at hx
        subst hx
        simp only at hc
        subst hc
        exact ⟨hm.symm, ⟨by simp [AMap.Uniq, AMap.keys], by simp⟩, by simp [AMap.contains]⟩
      · simp only [hm, if_false] at hx; exact h.fld m x hx
    · intro m x hx
      rw [hfind] at hx
      by_cases hm : m = n
      · simp only [hm, if_true, Option.some.injEq] at hx
        subst hx
        simp only at hc
        subst hc
        intro k d ty f hk
        simp at hk
      · simp only [hm, if_false] at hx; exact h.keyed m x hx
    · intro m x hx
      rw [hfind] at hx
      by_cases hm : m = n
      · simp only [hm, if_true, Option.some.injEq] at hx
        subst hx
        simp only at hc
        obtain ⟨hd, hn, y, hy⟩ := hc
        exact ⟨hm.trans hn, y, [], hkeep _ _ hy, by simpa using hd,
          ⟨by simp, by simp, by simp, by simp, by simp, by simp, by simp⟩⟩
      · simp only [hm, if_false] at hx
        obtain ⟨e, cc, ots, hcc, hdd, ho⟩ := h.old m x hx
        exact ⟨e, cc, ots, hkeep _ _ hcc, hdd, ho⟩
    · intro m x hx
      exact ⟨x, hkeep m _ hx, fun k d hk => ⟨d, hk, fun _ f hf => ⟨f, hf⟩⟩⟩
    · intro m x hx
      exact ⟨x, hkeep m _ hx, rfl, fun _ _ hk => hk⟩

theorem filter_key (g : OT → String) : ∀ (ots : List OT), (ots.map g).Nodup → ∀ o ∈ ots,
    ots.filter (fun q => g q == g o) = [o]
  | [], _, o, ho => by simp at ho
  | q :: ots, hn, o, ho => by
    simp only [List.map_cons, List.nodup_cons, List.mem_map, not_exists, not_and] at hn
    rcases List.mem_cons.1 ho with rfl | ho
    · rw [List.filter_cons_of_pos (by simp)]
      congr 1
      rw [List.filter_eq_nil_iff]
      intro x hx
      simpa using hn.1 x hx
    · rw [List.filter_cons_of_neg (by simpa using fun e => hn.1 o ho e.symm)]
      exact filter_key g ots hn.2 o ho

theorem findDocs_ots {ots : List OT} {pred : Dict → Res Bool} {p : OT → Bool}
    (h : ∀ o ∈ ots, pred o.doc = .ok (p o)) :
    findDocs (ots.map OT.entry) pred = .ok ((ots.filter p).map OT.id) := by
  have hd : ∀ o ∈ ots, NeoFOAM.docIdOf o.doc = .ok o.id := fun o _ => o.docIdOf
  have : ∀ (l : List OT) (acc : List String), (∀ o ∈ l, pred o.doc = .ok (p o)) →
      (l.map OT.entry).foldlM (fun acc q => do
        if ← pred q.2 then do
          let i ← NeoFOAM.docIdOf q.2
          return acc ++ [i]
        else return acc) acc = .ok (acc ++ (l.filter p).map OT.id) := by
    intro l
    induction l with
    | nil => intro acc _; simp
    | cons o l ih =>
      intro acc hl
      rw [List.map_cons, List.foldlM_cons]
      have e : (do
          if ← pred o.entry.2 then do
            let i ← NeoFOAM.docIdOf o.entry.2
            return acc ++ [i]
          else return acc) = Res.ok (if p o then acc ++ [o.id] else acc) := by
        simp only [OT.entry, hl o (by simp), Res.ok_bind, OT.docIdOf, Res.pure_eq]
        cases p o <;> rfl
      rw [e, Res.ok_bind, ih _ (fun q hq => hl q (by simp [hq]))]
      cases hp : p o <;> simp [hp]
  exact this ots [] h

theorem strEntryIs_next (o : OT) (k : String) : strEntryIs "nextTime" k o.doc = .ok (o.next == k) := by
  simp [strEntryIs]
theorem strEntryIs_prev (o : OT) (k : String) :
    strEntryIs "previousTime" k o.doc = .ok (o.prev == k) := by
  simp [strEntryIs]

theorem findNextTime_run {oc : OldColl} {ots : List OT} (hd : oc.docs = ots.map OT.entry) (k : String) :
    oc.findNextTime k = .ok (match (ots.filter (fun o => o.next == k)).map OT.id with
      | [i] => i
      | _ => "") := by
  simp only [OldColl.findNextTime, hd, findDocs_ots (fun o _ => strEntryIs_next o k), Res.ok_bind]
  generalize (ots.filter (fun o => o.next == k)).map OT.id = l
  rcases l with _ | ⟨a, _ | ⟨b, l⟩⟩ <;> rfl

theorem findPreviousTime_run {oc : OldColl} {ots : List OT} (hd : oc.docs = ots.map OT.entry)
    (k : String) :
    oc.findPreviousTime k = .ok (match (ots.filter (fun o => o.prev == k)).map OT.id with
      | [i] => i
      | _ => "") := by
  simp only [OldColl.findPreviousTime, hd, findDocs_ots (fun o _ => strEntryIs_prev o k), Res.ok_bind]
  generalize (ots.filter (fun o => o.prev == k)).map OT.id = l
  rcases l with _ | ⟨a, _ | ⟨b, l⟩⟩ <;> rfl

theorem find?_ots {ots : List OT} (hn : (ots.map OT.id).Nodup) {o : OT} (ho : o ∈ ots) :
    AMap.find? (ots.map OT.entry) o.id = some o.doc := by
  rw [AMap.find?_eq_some_iff]
  · exact List.mem_map.2 ⟨o, ho, rfl⟩
  · simp only [AMap.Uniq, AMap.keys, List.map_map]
    exact hn

theorem find?_ots_inv {ots : List OT} {i : String} {d : Dict}
    (h : AMap.find? (ots.map OT.entry) i = some d) : ∃ o ∈ ots, o.id = i ∧ o.doc = d := by
  have := AMap.find?_mem h
  obtain ⟨o, ho, e⟩ := List.mem_map.1 this
  simp only [OT.entry, Prod.mk.injEq] at e
  exact ⟨o, ho, e.1, e.2⟩

theorem OtsInv.id_ne {ctr : Nat} {docs : AMap String Dict} {ots : List OT} (h : OtsInv ctr docs ots)
    {o : OT} (ho : o ∈ ots) : o.id ≠ "" := by
  obtain ⟨i, _, e⟩ := h.ids o ho
  rw [e]; exact docId_ne_empty i

/-- `getOrInsert` when the old time is already recorded. -/
theorem getOrInsert_known {db : DB} {on : String} {oc : OldColl} {fc : FieldColl} {ots : List OT}
    (hon : db.colls.find? on = some (.oldTime oc)) (hfc : db.colls.find? oc.fcName = some (.field fc))
    (hd : oc.docs = ots.map OT.entry) (hi : OtsInv db.ctr fc.docs ots) {o : OT} (ho : o ∈ ots) (ty : Nat) :
    ∃ fd, fc.docs.find? o.prev = some fd ∧
      getOrInsert on ty o.next db = (getField ty fd >>= fun _ => .ok (oc.fcName, o.prev), db) := by
  have hk := (hi.known o ho).2
  simp only [AMap.contains, Option.isSome_iff_exists] at hk
  obtain ⟨fd, hfd⟩ := hk
  refine ⟨fd, hfd, ?_⟩
  have hnt : oc.findNextTime o.next = .ok o.id := by
    rw [findNextTime_run hd, filter_key OT.next ots hi.nexts o ho]; rfl
  have hat : oc.docs.at? o.id = .ok o.doc := by
    rw [AMap.at?_eq_ok, hd]; exact find?_ots hi.idsNodup ho
  unfold getOrInsert
  rw [M.bind_of_ok (show dbAt on db = (.ok (.oldTime oc), db) by simp [dbAt, DB.at_eq_ok.2 hon]),
    M.lift_bind_ok (show Coll.asOld (.oldTime oc) = .ok oc from rfl), M.lift_bind_ok hnt,
    M.bind_of_ok (fieldInstance_run hfc)]
  simp only [ne_eq, hi.id_ne ho, not_false_eq_true, if_true]
  rw [M.lift_bind_ok hat, M.lift_bind_ok (OT.getStr_prev o), M.lift_bind_ok (AMap.at?_eq_ok.2 hfd)]
  simp only [M.bind_apply, M.lift_apply, M.pure_apply]
  cases getField ty fd <;> rfl

/-- The value of an index after the creator inherited unset ones. -/
def pick (reg : Bool) (x x0 : Int) : Int := if reg = true ∧ x = i64Max then x0 else x

theorem createFromExisting_run {name : String} {ty : Nat} {f : FieldVal} {t i s t0 i0 s0 : Int}
    {st : DB} {c : FieldColl} {fd : Dict}
    (h : f.registered = true → st.colls.find? f.coll = some (.field c) ∧ c.docs.find? f.key = some fd)
    (ht : getI64 fd "timeIndex" = .ok t0) (hi : getI64 fd "iterationIndex" = .ok i0)
    (hs : getI64 fd "subCycleIndex" = .ok s0) :
    createFromExisting name ty f t i s st =
      (.ok (copyDoc name ty f.payload (pick f.registered t t0) (pick f.registered i i0)
        (pick f.registered s s0) (docId st.ctr)), { st with ctr := st.ctr + 2 }) := by
  have key : inheritIndices f t i s st = (.ok (pick f.registered t t0, pick f.registered i i0,
      pick f.registered s s0), st) := by
    unfold inheritIndices
    cases hr : f.registered with
    | false => simp [pick, M.pure_apply]
    | true =>
      obtain ⟨h1, h2⟩ := h hr
      have or : ∀ x k x0, getI64 fd k = .ok x0 → orInherit x fd k = .ok (pick true x x0) := by
        intro x k x0 hk
        unfold orInherit pick
        by_cases hx : x = i64Max <;> simp [hx, hk]
      simp only [if_true]
      rw [M.bind_of_ok (fieldInstanceConst_run h1), M.lift_bind_ok (AMap.at?_eq_ok.2 h2),
        M.lift_bind_ok (or t _ _ ht), M.lift_bind_ok (or i _ _ hi), M.lift_bind_ok (or s _ _ hs)]
      rfl
  unfold createFromExisting
  rw [M.bind_of_ok key]
  exact twoDocs_run _ _ _ _ _ _ st

/-- The old-time document written for a new old time. -/
def newOT (ots : List OT) (next prev id : String) : OT :=
  match ots.find? (fun o => o.prev == next) with
  | none => ⟨next, prev, next, 1, id⟩
  | some q => ⟨next, prev, q.cur, q.lvl + 1, id⟩

theorem newOT_next (ots : List OT) (a b c : String) : (newOT ots a b c).next = a := by
  unfold newOT; split <;> rfl
theorem newOT_prev (ots : List OT) (a b c : String) : (newOT ots a b c).prev = b := by
  unfold newOT; split <;> rfl
theorem newOT_id (ots : List OT) (a b c : String) : (newOT ots a b c).id = c := by
  unfold newOT; split <;> rfl

theorem find?_of_filter_key (g : OT → String) {ots : List OT} (hn : (ots.map g).Nodup) (k : String) :
    (∀ o ∈ ots, g o ≠ k) ∧ ots.filter (fun q => g q == k) = [] ∧ ots.find? (fun q => g q == k) = none ∨
    ∃ o ∈ ots, g o = k ∧ ots.filter (fun q => g q == k) = [o] ∧ ots.find? (fun q => g q == k) = some o := by
  by_cases h : ∃ o ∈ ots, g o = k
  · right
    obtain ⟨o, ho, rfl⟩ := h
    have := filter_key g ots hn o ho
    exact ⟨o, ho, rfl, this, by rw [← List.head?_filter, this]; rfl⟩
  · left
    have h : ∀ o ∈ ots, g o ≠ k := fun o ho e => h ⟨o, ho, e⟩
    have : ots.filter (fun q => g q == k) = [] := by
      rw [List.filter_eq_nil_iff]; intro x hx; simpa using h x hx
    exact ⟨h, this, by rw [← List.head?_filter, this]; rfl⟩

theorem setCurrent_run {oc : OldColl} {ots : List OT} (hd : oc.docs = ots.map OT.entry)
    {ctr : Nat} {docs : AMap String Dict} (hi : OtsInv ctr docs ots) (next prev id : String) :
    oc.setCurrentFieldAndLevel (OT.doc ⟨next, prev, "", -1, id⟩) = .ok (newOT ots next prev id).doc := by
  unfold OldColl.setCurrentFieldAndLevel
  rw [show getStr (OT.doc ⟨next, prev, "", -1, id⟩) "nextTime" = .ok next from rfl, Res.ok_bind,
    findPreviousTime_run hd]
  rcases find?_of_filter_key OT.prev hi.prevs next with ⟨_, hf, hfind⟩ | ⟨q, hq, hqp, hf, hfind⟩
  · rw [hf]
    unfold newOT
    rw [hfind]
    rfl
  · rw [hf]
    simp only [List.map_cons, List.map_nil, Res.ok_bind, hi.id_ne hq, if_false]
    have : oc.docs.at? q.id = .ok q.doc := by
      rw [AMap.at?_eq_ok, hd]; exact find?_ots hi.idsNodup hq
    rw [this, Res.ok_bind, OT.getStr_cur, Res.ok_bind, OT.getI32_lvl, Res.ok_bind]
    unfold newOT
    rw [hfind]
    rfl

/-- The database after a new old time was created. -/
def afterNew (db : DB) (on : String) (oc : OldColl) (fc : FieldColl) (ots : List OT) (ty : Nat)
    (f : FieldVal) (k : String) (t i s : Int) : DB :=
  ⟨(db.colls.modify oc.fcName (fun _ => .field (fc.stored (docId db.ctr)
      (copyDoc (f.name ++ "_0") ty f.payload t i s (docId db.ctr)) ty
      ⟨f.name ++ "_0", "", "", true, f.payload⟩))).modify on
    (fun _ => .oldTime ⟨oc.name, oc.fcName,
      (ots ++ [newOT ots k (docId db.ctr) (docId (db.ctr + 2))]).map OT.entry⟩), db.ctr + 3⟩

theorem getOrInsert_prefix {db : DB} {on : String} {oc : OldColl} {fc : FieldColl} {ots : List OT}
    (hon : db.colls.find? on = some (.oldTime oc)) (hfc : db.colls.find? oc.fcName = some (.field fc))
    (hd : oc.docs = ots.map OT.entry) {k : String} (hnew : ∀ o ∈ ots, o.next ≠ k) (ty : Nat) :
    getOrInsert on ty k db = (do
      let fd ← M.lift (fc.docs.at? k)
      let f ← M.lift (getField ty fd)
      let t ← M.lift (getI64 fd "timeIndex" >>= decI64)
      let i ← M.lift (getI64 fd "iterationIndex")
      let s ← M.lift (getI64 fd "subCycleIndex")
      let key ← registerField oc.fcName ty (createFromExisting (f.name ++ "_0") ty f t i s)
      let od ← mkDocument (Dict.ofInitList [("nextTime", .str f.key), ("previousTime", .str key),
        ("currentTime", .str ""), ("level", .int (-1))]) hasId
      let od ← M.lift (oc.setCurrentFieldAndLevel od)
      let oc' ← M.lift (oc.insert od)
      putOld on oc'
      return (oc.fcName, key) : M (String × String)) db := by
  have hnt : oc.findNextTime k = .ok "" := by
    rw [findNextTime_run hd, List.filter_eq_nil_iff.2 (by intro x hx; simpa using hnew x hx)]; rfl
  unfold getOrInsert
  rw [M.bind_of_ok (show dbAt on db = (.ok (.oldTime oc), db) by simp [dbAt, DB.at_eq_ok.2 hon]),
    M.lift_bind_ok (show Coll.asOld (.oldTime oc) = .ok oc from rfl), M.lift_bind_ok hnt,
    M.bind_of_ok (fieldInstance_run hfc)]
  rfl

theorem append_oldTime_ne (a : String) : a ++ "_oldTime" ≠ a := by
  intro h
  have : (a ++ "_oldTime").toList.length = a.toList.length := by rw [h]
  simp at this

theorem append_oldTime_inj {a b : String} (h : a ++ "_oldTime" = b ++ "_oldTime") : a = b := by
  have h1 : (a ++ "_oldTime").toList = (b ++ "_oldTime").toList := by rw [h]
  rw [String.toList_append, String.toList_append] at h1
  exact String.toList_inj.1 (List.append_cancel_right h1)

/-- `getOrInsert` when a new old time is created. -/
theorem getOrInsert_create {db : DB} {on : String} {oc : OldColl} {fc : FieldColl} {ots : List OT}
    (h : Inv db) (hon : db.colls.find? on = some (.oldTime oc))
    (hfc : db.colls.find? oc.fcName = some (.field fc))
    (hd : oc.docs = ots.map OT.entry) (hi : OtsInv db.ctr fc.docs ots) {k : String}
    (hnew : ∀ o ∈ ots, o.next ≠ k) (ty : Nat) {fd : Dict} {f : FieldVal} {t i s : Int}
    (hfd : fc.docs.find? k = some fd) (hf : getField ty fd = .ok f)
    (ht : getI64 fd "timeIndex" = .ok t) (htm : t ≠ -(2 ^ 63))
    (hit : getI64 fd "iterationIndex" = .ok i) (hs : getI64 fd "subCycleIndex" = .ok s)
    (hfresh : fc.docs.contains (docId db.ctr) = false) (hctr : db.ctr + 3 ≤ 2 ^ 32) :
    getOrInsert on ty k db = (.ok (oc.fcName, docId db.ctr),
      afterNew db on oc fc ots ty f k (pick f.registered (t - 1) t) i s) := by
  have hkey := h.keyed _ _ hfc k fd ty f hfd hf
  have hname := (h.fld _ _ hfc).1
  have hon' := (h.old on oc hon).1
  rw [getOrInsert_prefix hon hfc hd hnew ty]
  rw [M.lift_bind_ok (AMap.at?_eq_ok.2 hfd), M.lift_bind_ok hf,
    M.lift_bind_ok (show (getI64 fd "timeIndex" >>= decI64) = .ok (t - 1) by
      rw [ht, Res.ok_bind, decI64, if_neg htm]), M.lift_bind_ok hit, M.lift_bind_ok hs]
  have hcr : createFromExisting (f.name ++ "_0") ty f (t - 1) i s db = (.ok (copyDoc (f.name ++ "_0") ty
      f.payload (pick f.registered (t - 1) t) i s (docId db.ctr)), { db with ctr := db.ctr + 2 }) := by
    have := createFromExisting_run (name := f.name ++ "_0") (ty := ty) (f := f) (t := t - 1) (i := i)
      (s := s) (st := db) (c := fc) (fd := fd) (fun _ => by
        rw [hkey.1, hkey.2, hname]; exact ⟨hfc, hfd⟩) ht hit hs
    have pi : ∀ r x, pick r x x = x := by intro r x; unfold pick; split <;> rfl
    rw [pi, pi] at this
    exact this
  rw [M.bind_of_ok (registerField_fresh (c := fc) (id := docId db.ctr)
    (f := ⟨f.name ++ "_0", "", "", true, f.payload⟩) hcr rfl hfc rfl hfresh (by
      simp [getField, copyDoc, Dict.index, AMap.at?, AMap.find?_cons]))]
  have hmk : ∀ st : DB, mkDocument (Dict.ofInitList [("nextTime", .str f.key), ("previousTime",
      .str (docId db.ctr)), ("currentTime", .str ""), ("level", .int (-1))]) hasId st
      = (.ok (OT.doc ⟨f.key, docId db.ctr, "", -1, docId st.ctr⟩), { st with ctr := st.ctr + 1 }) := by
    intro st
    rw [mkDocument_run]
    rfl
  rw [M.bind_of_ok (hmk _), M.lift_bind_ok (setCurrent_run hd hi _ _ _)]
  have hins : oc.insert (newOT ots f.key (docId db.ctr) (docId (db.ctr + 2))).doc
      = .ok ⟨oc.name, oc.fcName, (ots ++ [newOT ots f.key (docId db.ctr) (docId (db.ctr + 2))]).map
          OT.entry⟩ := by
    unfold OldColl.insert
    rw [OT.docIdOf, Res.ok_bind, newOT_id]
    have hno : oc.docs.contains (docId (db.ctr + 2)) = false := by
      have : oc.docs.find? (docId (db.ctr + 2)) = none := by
        rw [AMap.find?_eq_none_iff, hd]
        simp only [AMap.keys, List.map_map, List.mem_map, not_exists, not_and]
        intro o ho e
        obtain ⟨j, hj, hoj⟩ := hi.ids o ho
        have := docId_inj (by omega) (by omega) ((hoj.symm.trans e))
        omega
      simp [AMap.contains, this]
    have hem : ∀ v, oc.docs.emplace (docId (db.ctr + 2)) v = oc.docs ++ [(docId (db.ctr + 2), v)] := by
      intro v; unfold AMap.emplace; rw [hno]; rfl
    rw [hno, hem, List.map_append, ← hd]
    simp only [Bool.false_eq_true, if_false, Res.pure_eq, List.map_cons, List.map_nil, OT.entry,
      newOT_id]
  simp only
  rw [M.lift_bind_ok hins]
  simp only [M.bind_apply, putOld, M.pure_apply, afterNew, hkey.1]

/-- A failed `getOrInsert` for a new old time, or the conditions under which it succeeds. -/
theorem getOrInsert_new_cases {db : DB} {on : String} {oc : OldColl} {fc : FieldColl} {ots : List OT}
    (h : Inv db) (hon : db.colls.find? on = some (.oldTime oc))
    (hfc : db.colls.find? oc.fcName = some (.field fc))
    (hd : oc.docs = ots.map OT.entry) {k : String}
    (hnew : ∀ o ∈ ots, o.next ≠ k) (ty : Nat) :
    ((getOrInsert on ty k db).1.isOk = false ∧ Good db (getOrInsert on ty k db).2) ∨
    ∃ fd f t i s, fc.docs.find? k = some fd ∧ getField ty fd = .ok f ∧
      getI64 fd "timeIndex" = .ok t ∧ t ≠ -(2 ^ 63) ∧ getI64 fd "iterationIndex" = .ok i ∧
      getI64 fd "subCycleIndex" = .ok s ∧ fc.docs.contains (docId db.ctr) = false := by
  rw [getOrInsert_prefix hon hfc hd hnew ty]
  cases hfd : fc.docs.find? k with
  | none =>
    left
    have : fc.docs.at? k = .throw .outOfRange := by simp [AMap.at?, hfd]
    simp only [M.bind_apply, M.lift_apply, this]
    exact ⟨rfl, Good.refl h⟩
  | some fd =>
  rw [M.lift_bind_ok (AMap.at?_eq_ok.2 hfd)]
  cases hf : getField ty fd with
  | throw e => left; simp only [M.bind_apply, M.lift_apply]; exact ⟨rfl, Good.refl h⟩
  | abort => left; simp only [M.bind_apply, M.lift_apply]; exact ⟨rfl, Good.refl h⟩
  | ub => left; simp only [M.bind_apply, M.lift_apply]; exact ⟨rfl, Good.refl h⟩
  | ok f =>
  rw [M.lift_bind_ok rfl]
  rcases getI64_cases fd "timeIndex" with ⟨t, ht⟩ | ⟨e, ht⟩
  case inr => left; simp only [M.bind_apply, M.lift_apply, ht, Res.throw_bind]; exact ⟨rfl, Good.refl h⟩
  by_cases htm : t = -(2 ^ 63)
  · left
    have : (getI64 fd "timeIndex" >>= decI64) = .ub := by rw [ht, Res.ok_bind, decI64, if_pos htm]
    simp only [M.bind_apply, M.lift_apply, this]; exact ⟨rfl, Good.refl h⟩
  rw [M.lift_bind_ok (show (getI64 fd "timeIndex" >>= decI64) = .ok (t - 1) by
      rw [ht, Res.ok_bind, decI64, if_neg htm])]
  rcases getI64_cases fd "iterationIndex" with ⟨i, hi⟩ | ⟨e, hi⟩
  case inr => left; simp only [M.bind_apply, M.lift_apply, hi]; exact ⟨rfl, Good.refl h⟩
  rw [M.lift_bind_ok hi]
  rcases getI64_cases fd "subCycleIndex" with ⟨s, hs⟩ | ⟨e, hs⟩
  case inr => left; simp only [M.bind_apply, M.lift_apply, hs]; exact ⟨rfl, Good.refl h⟩
  rw [M.lift_bind_ok hs]
  by_cases hfresh : fc.docs.contains (docId db.ctr) = true
  · left
    have hkey := h.keyed _ _ hfc k fd ty f hfd hf
    have hname := (h.fld _ _ hfc).1
    have hcr := createFromExisting_run (name := f.name ++ "_0") (ty := ty) (f := f) (t := t - 1) (i := i)
      (s := s) (st := db) (c := fc) (fd := fd) (fun _ => by
        rw [hkey.1, hkey.2, hname]; exact ⟨hfc, hfd⟩) ht hi hs
    have := registerField_dup (ty := ty) (cn := oc.fcName) (c := fc) (id := docId db.ctr) hcr rfl hfc
      rfl hfresh (h.fld _ _ hfc).2.2
    rw [M.bind_apply, this]
    exact ⟨rfl, Good.bump h (by omega)⟩
  · right
    exact ⟨fd, f, t, i, s, rfl, hf, ht, htm, hi, hs, by simpa using hfresh⟩

/-- Creating a new old time keeps the invariant. -/
theorem Good.afterNew {db : DB} {on : String} {oc : OldColl} {fc : FieldColl} {ots : List OT}
    (h : Inv db) (hon : db.colls.find? on = some (.oldTime oc))
    (hfc : db.colls.find? oc.fcName = some (.field fc))
    (hd : oc.docs = ots.map OT.entry) (hi : OtsInv db.ctr fc.docs ots) {k : String}
    (hnew : ∀ o ∈ ots, o.next ≠ k) (ty : Nat) (f : FieldVal) (t i s : Int)
    (hk : fc.docs.contains k = true)
    (hfresh : fc.docs.contains (docId db.ctr) = false) (hctr : db.ctr + 3 ≤ 2 ^ 32) :
    Good db (afterNew db on oc fc ots ty f k t i s) := by
  have hon' := (h.old on oc hon).1
  have hfld := h.fld _ _ hfc
  set d := copyDoc (f.name ++ "_0") ty f.payload t i s (docId db.ctr) with hdd
  set nf : FieldVal := ⟨f.name ++ "_0", "", "", true, f.payload⟩ with hnf
  have hdid : docIdOf d = .ok (docId db.ctr) := rfl
  have hnone : fc.docs.find? (docId db.ctr) = none := by simpa [AMap.contains] using hfresh
  -- first the field collection
  have g1 : Good db ⟨db.colls.modify oc.fcName
      (fun _ => .field (fc.stored (docId db.ctr) d ty nf)), db.ctr⟩ := by
    refine Good.putField h hfc rfl (hfld.2.1.stored hdid hfresh) ?_
      (FieldColl.Keyed.stored (h.keyed _ _ hfc) hfresh) ?_
    · have : (fc.stored (docId db.ctr) d ty nf).docs.find? "" = none := by
        simp only [FieldColl.stored, AMap.find?_modify, Ne.symm (docId_ne_empty db.ctr), if_false,
          AMap.find?_emplace]
        simpa [AMap.contains] using hfld.2.2
      simp [AMap.contains, this]
    · intro k' d' hk'
      have hki : k' ≠ docId db.ctr := by
        rintro rfl; rw [hnone] at hk'; simp at hk'
      refine ⟨d', ?_, fun _ f hf => ⟨f, hf⟩⟩
      simp [FieldColl.stored, AMap.find?_modify, AMap.find?_emplace, hki, hk']
  have g2 := g1.trans (Good.bump g1.inv (n := db.ctr + 3) (by simp))
  refine g2.trans ?_
  set db2 : DB := ⟨db.colls.modify oc.fcName
      (fun _ => .field (fc.stored (docId db.ctr) d ty nf)), db.ctr + 3⟩ with hdb2
  have hne : on ≠ oc.fcName := by rw [hon']; exact append_oldTime_ne _
  have hon2 : db2.colls.find? on = some (.oldTime oc) := by
    simp [hdb2, find?_const_modify hfc, hne, hon]
  have hfc2 : db2.colls.find? oc.fcName = some (.field (fc.stored (docId db.ctr) d ty nf)) := by
    simp [hdb2, find?_const_modify hfc]
  set o := newOT ots k (docId db.ctr) (docId (db.ctr + 2)) with ho
  have honx : o.next = k := newOT_next _ _ _ _
  have hopv : o.prev = docId db.ctr := newOT_prev _ _ _ _
  have hoid : o.id = docId (db.ctr + 2) := newOT_id _ _ _ _
  have hprevnew : ∀ q ∈ ots, q.next ≠ docId db.ctr ∧ q.prev ≠ docId db.ctr := by
    intro q hq
    have := hi.known q hq
    refine ⟨fun e => ?_, fun e => ?_⟩
    · rw [e, hfresh] at this; simp at this
    · rw [e, hfresh] at this; simp at this
  have hkne : k ≠ docId db.ctr := by rintro rfl; rw [hfresh] at hk; simp at hk
  have hots : OtsInv (db.ctr + 3) (fc.stored (docId db.ctr) d ty nf).docs (ots ++ [o]) := by
    have hcont : ∀ k', fc.docs.contains k' = true →
        (fc.stored (docId db.ctr) d ty nf).docs.contains k' = true := by
      intro k' hk'
      have : k' ≠ docId db.ctr := by rintro rfl; rw [hfresh] at hk'; simp at hk'
      simpa [FieldColl.stored, AMap.contains, AMap.find?_modify, AMap.find?_emplace, this] using hk'
    have hsnoc : ∀ g : OT → String, (ots.map g).Nodup → (∀ q ∈ ots, g q ≠ g o) →
        ((ots ++ [o]).map g).Nodup := by
      intro g hg hq
      rw [List.map_append, List.nodup_append]
      refine ⟨hg, by simp, ?_⟩
      intro a ha b hb
      obtain ⟨q, hqm, rfl⟩ := List.mem_map.1 ha
      simp only [List.map_cons, List.map_nil, List.mem_singleton] at hb
      subst hb
      exact hq q hqm
    refine ⟨?_, hsnoc _ hi.idsNodup ?_, hsnoc _ hi.nexts ?_, hsnoc _ hi.prevs ?_, ?_, ?_, ?_⟩
    · intro q hq
      rcases List.mem_append.1 hq with hq | hq
      · obtain ⟨j, hj, e⟩ := hi.ids q hq; exact ⟨j, by omega, e⟩
      · simp only [List.mem_singleton] at hq
        subst hq
        exact ⟨db.ctr + 2, by omega, hoid⟩
    · intro q hq e
      obtain ⟨j, hj, ej⟩ := hi.ids q hq
      rw [ej, hoid] at e
      have := docId_inj (by omega) (by omega) e
      omega
    · intro q hq e
      exact hnew q hq (e.trans honx)
    · intro q hq e
      exact (hprevnew q hq).2 (e.trans hopv)
    · intro q hq
      rcases List.mem_append.1 hq with hq | hq
      · exact ⟨hcont _ (hi.known q hq).1, hcont _ (hi.known q hq).2⟩
      · simp only [List.mem_singleton] at hq
        subst hq
        rw [honx, hopv]
        refine ⟨hcont _ hk, ?_⟩
        simp [FieldColl.stored, AMap.contains, AMap.find?_modify, AMap.find?_emplace]
    · intro q hq
      rcases List.mem_append.1 hq with hq | hq
      · rcases hi.chain q hq with ⟨a, b, c⟩ | ⟨r, hr, a⟩
        · refine Or.inl ⟨a, b, fun p hp => ?_⟩
          rcases List.mem_append.1 hp with hp | hp
          · exact c p hp
          · simp only [List.mem_singleton] at hp
            subst hp
            rw [hopv]; exact (hprevnew q hq).1.symm
        · exact Or.inr ⟨r, by simp [hr], a⟩
      · simp only [List.mem_singleton] at hq
        subst hq
        rcases find?_of_filter_key OT.prev hi.prevs k with ⟨hno, _, hfind⟩ | ⟨q, hq, hqp, _, hfind⟩
        · left
          refine ⟨?_, ?_, ?_⟩
          · rw [ho]; unfold newOT; rw [hfind]
          · rw [ho]; unfold newOT; rw [hfind]
          · intro p hp
            rw [honx]
            rcases List.mem_append.1 hp with hp | hp
            · exact hno p hp
            · simp only [List.mem_singleton] at hp
              subst hp
              rw [hopv]; exact hkne.symm
        · right
          refine ⟨q, by simp [hq], by rw [hqp, honx], ?_, ?_⟩
          · rw [ho]; unfold newOT; rw [hfind]
          · rw [ho]; unfold newOT; rw [hfind]
    · intro q hq
      rcases List.mem_append.1 hq with hq | hq
      · exact hi.pos q hq
      · simp only [List.mem_singleton] at hq
        subst hq
        rcases find?_of_filter_key OT.prev hi.prevs k with ⟨hno, _, hfind⟩ | ⟨q, hq, hqp, _, hfind⟩
        · rw [ho]; unfold newOT; rw [hfind]; exact Int.le_refl 1
        · rw [ho]; unfold newOT; rw [hfind]
          have := hi.pos q hq
          show (1 : Int) ≤ q.lvl + 1
          omega
  -- now the old-time collection
  have e : NeoFOAM.afterNew db on oc fc ots ty f k t i s = ⟨db2.colls.modify on
      (fun _ => .oldTime ⟨oc.name, oc.fcName, (ots ++ [o]).map OT.entry⟩), db2.ctr⟩ := rfl
  rw [e]
  refine ⟨⟨g2.inv.uniq.modify _ _, ?_, ?_, ?_⟩, ⟨?_, ?_⟩, Nat.le_refl _⟩
  · intro n x hx
    simp only [find?_const_modify hon2] at hx
    by_cases hn : n = on
    · subst hn; simp at hx
    · simp only [hn, if_false] at hx; exact g2.inv.fld n x hx
  · intro n x hx
    simp only [find?_const_modify hon2] at hx
    by_cases hn : n = on
    · subst hn; simp at hx
    · simp only [hn, if_false] at hx; exact g2.inv.keyed n x hx
  · intro n x hx
    simp only [find?_const_modify hon2] at hx
    by_cases hn : n = on
    · simp only [hn, if_true, Option.some.injEq, Coll.oldTime.injEq] at hx
      subst hx
      refine ⟨hn.trans hon', _, ots ++ [o], ?_, rfl, hots⟩
      simp [find?_const_modify hon2, Ne.symm hne, hfc2]
    · simp only [hn, if_false] at hx
      obtain ⟨e1, cc, ots', hcc, hdd', hh⟩ := g2.inv.old n x hx
      refine ⟨e1, cc, ots', ?_, hdd', hh⟩
      have : x.fcName ≠ on := by rintro e2; rw [e2, hon2] at hcc; simp at hcc
      simp [find?_const_modify hon2, this, hcc]
  · intro n x hx
    have hn : n ≠ on := by rintro rfl; rw [hon2] at hx; simp at hx
    exact ⟨x, by simp [find?_const_modify hon2, hn, hx], fun k d hk => ⟨d, hk, fun _ f hf => ⟨f, hf⟩⟩⟩
  · intro n x hx
    by_cases hn : n = on
    · subst hn
      rw [hon2] at hx
      simp only [Option.some.injEq, Coll.oldTime.injEq] at hx
      subst hx
      refine ⟨⟨oc.name, oc.fcName, (ots ++ [o]).map OT.entry⟩, by simp [find?_const_modify hon2], rfl,
        fun k' d' hk' => ?_⟩
      simp only [List.map_append]
      rw [AMap.find?_append, ← hd, hk']; rfl
    · exact ⟨x, by simp [find?_const_modify hon2, hn, hx], rfl, fun _ _ hk => hk⟩

end NeoFOAM
