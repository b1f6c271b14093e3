import Verif.Proofs.OldTime

/-!
# C06: `oldTime` is idempotent and builds a linear, acyclic time history
-/
namespace NeoFOAM

/-! ## What a user can observe -/

/-- The document stored under a key of a field collection. -/
def document (db : DB) (cn k : String) : Option Dict :=
  match db.colls.find? cn with
  | some (.field c) => c.docs.find? k
  | _ => none

/-- The field of type `ty` stored under a key (`FieldDocument::field<ty>()`). -/
def storedField (db : DB) (cn : String) (ty : Nat) (k : String) : Option FieldVal :=
  match document db cn k with
  | some d => match getField ty d with
    | .ok f => some f
    | _ => none
  | none => none

/-- The old-time collection of `cn` records `prev` as the old time of `next`, with the given current
time and level. -/
def Link (db : DB) (cn next prev cur : String) (lvl : Int) : Prop :=
  ∃ oc i d, db.colls.find? (cn ++ "_oldTime") = some (.oldTime oc) ∧ oc.docs.find? i = some d ∧
    getStr d "nextTime" = .ok next ∧ getStr d "previousTime" = .ok prev ∧
    getStr d "currentTime" = .ok cur ∧ getI32 d "level" = .ok lvl

/-- Operations of a user of the database. -/
inductive DbStep where
  /-- `FieldCollection::instance(db, name)` -/
  | collection (name : String)
  /-- `collection.registerField<ty>(creator)`, the creator wrapping a dictionary -/
  | register (cn : String) (ty : Nat) (d : Dict)
  /-- `collection.registerField<ty>(CreateFromExistingField{name, f, t, i, s})` -/
  | copy (cn : String) (name : String) (ty : Nat) (f : FieldVal) (t i s : Int)
  /-- `oldTime(f)` -/
  | oldTime (ty : Nat) (f : FieldVal)
  /-- assignment to an entry of a stored document, such as its time index -/
  | setEntry (cn k e : String) (v : Any)
  /-- assignment of new values to a stored field -/
  | setValues (cn k : String) (ty : Nat) (payload : Nat)

/-- Assignment to an entry of a stored document. -/
def setEntry (db : DB) (cn k e : String) (v : Any) : DB :=
  match db.colls.find? cn with
  | some (.field c) => ⟨db.colls.modify cn
      (fun _ => .field ⟨c.name, c.docs.modify k (fun d => d.insert e v)⟩), db.ctr⟩
  | _ => db

/-- Assignment of new values to a stored field. -/
def setValues (db : DB) (cn k : String) (ty payload : Nat) : DB :=
  match storedField db cn ty k with
  | some f => setEntry db cn k "field" (.field ty ⟨f.name, f.key, f.coll, f.hasDb, payload⟩)
  | none => db

/-- The database after an operation, whether it succeeded or threw. -/
def DbStep.run (db : DB) : DbStep → DB
  | .collection n => (fieldInstance n db).2
  | .register cn ty d => (registerField cn ty (createFromDict d) db).2
  | .copy cn name ty f t i s => (registerField cn ty (createFromExisting name ty f t i s) db).2
  | .oldTime ty f => (NeoFOAM.oldTime ty f db).2
  | .setEntry cn k e v => NeoFOAM.setEntry db cn k e v
  | .setValues cn k ty p => NeoFOAM.setValues db cn k ty p

/-- Restrictions on the operations: registered documents have a non-empty id and a field of the
announced type (C05 shows what happens otherwise), ids and fields are not overwritten by hand. -/
def DbStep.Ok : DbStep → Prop
  | .register _ ty d => AMap.find? d "id" ≠ some (.str "") ∧ getField ty d ≠ .throw .badAnyCast
  | .setEntry _ _ e _ => e ≠ "id" ∧ e ≠ "field"
  | _ => True

/-- `db'` can be reached from `db` by operations, each started before the 32-bit id counter is
exhausted. -/
inductive History (db : DB) : DB → Prop
  | refl : History db db
  | step {db' : DB} (st : DbStep) : History db db' → db'.ctr + 3 ≤ 2 ^ 32 → st.Ok →
      History db (st.run db')

/-- The empty database. -/
def emptyDB (ctr : Nat) : DB := ⟨[], ctr⟩

/-- `oldTime(... oldTime(f))`: the keys of the successive old times of the field stored under `k`. -/
def oldTimes (ty : Nat) (cn : String) : Nat → String → M (List String)
  | 0, _ => pure []
  | n + 1, k => fun db =>
    match storedField db cn ty k with
    | none => (.throw .outOfRange, db)
    | some f => (do
        let r ← NeoFOAM.oldTime ty f
        let ks ← oldTimes ty cn n r.2
        return (r.2 :: ks) : M (List String)) db

/-! ## Every history keeps the invariant -/

theorem Inv.empty (ctr : Nat) : Inv (emptyDB ctr) :=
  ⟨by simp [emptyDB, AMap.Uniq, AMap.keys], by simp [emptyDB], by simp [emptyDB], by simp [emptyDB]⟩

theorem Good.fieldInstance {db : DB} (h : Inv db) (n : String) : Good db (fieldInstance n db).2 := by
  have : (NeoFOAM.fieldInstance n db).2 = db.insert n (.field ⟨n, []⟩) := by
    simp only [NeoFOAM.fieldInstance, M.bind_apply, dbInsert]
    cases (db.insert n (.field ⟨n, []⟩)).at n <;> simp [M.lift_apply]
  rw [this]
  exact Good.addColl h n _ rfl

theorem getField_insert_ne (d : Dict) {e : String} (v : Any) (h : e ≠ "field") (ty : Nat) :
    getField ty (d.insert e v) = getField ty d := by
  simp only [getField, index_insert, Ne.symm h, if_false]

theorem docIdOf_insert_ne (d : Dict) {e : String} (v : Any) (h : e ≠ "id") :
    docIdOf (d.insert e v) = docIdOf d := getStr_insert_ne d v (Ne.symm h)

theorem FieldColl.WF.modify {c : FieldColl} (h : c.WF) {k : String} {g : Dict → Dict}
    (hg : ∀ d, docIdOf (g d) = docIdOf d) : FieldColl.WF ⟨c.name, c.docs.modify k g⟩ := by
  refine ⟨h.1.modify _ _, fun k' d hf => ?_⟩
  simp only [AMap.find?_modify] at hf
  by_cases hk : k' = k
  · simp only [hk, if_true, Option.map_eq_some_iff] at hf
    obtain ⟨d0, h0, rfl⟩ := hf
    rw [hk, hg]; exact h.2 _ _ h0
  · simp only [hk, if_false] at hf
    exact h.2 _ _ hf

theorem contains_modify (m : AMap String Dict) (k : String) (g : Dict → Dict) (k' : String) :
    (m.modify k g).contains k' = m.contains k' := by
  simp only [AMap.contains, AMap.find?_modify]
  split
  · rename_i h; subst h; cases m.find? k' <;> rfl
  · rfl

theorem Good.setEntry {db : DB} (h : Inv db) (cn k e : String) (v : Any) (hid : e ≠ "id")
    (hg : ∀ c d, db.colls.find? cn = some (.field c) → c.docs.find? k = some d →
      (∀ ty f, getField ty (d.insert e v) = .ok f → f.key = k ∧ f.coll = c.name) ∧
      ∀ ty f, getField ty d = .ok f → ∃ f', getField ty (d.insert e v) = .ok f') :
    Good db (setEntry db cn k e v) := by
  unfold NeoFOAM.setEntry
  cases hc : db.colls.find? cn with
  | none => exact Good.refl h
  | some c =>
    cases c with
    | other => exact Good.refl h
    | oldTime _ => exact Good.refl h
    | field c =>
      have hfld := h.fld cn c hc
      refine Good.putField h hc rfl (hfld.2.1.modify (fun d => docIdOf_insert_ne d v hid)) ?_ ?_ ?_
      · simp only [contains_modify]; exact hfld.2.2
      · intro k' d' ty f hd hf
        simp only [AMap.find?_modify] at hd
        by_cases hk : k' = k
        · subst hk
          simp only [if_true, Option.map_eq_some_iff] at hd
          obtain ⟨d0, h0, rfl⟩ := hd
          exact (hg c d0 hc h0).1 ty f hf
        · simp only [hk, if_false] at hd
          exact h.keyed cn c hc k' d' ty f hd hf
      · intro k' d' hd
        by_cases hk : k' = k
        · subst hk
          exact ⟨d'.insert e v, by simp [AMap.find?_modify, hd], (hg c d' hc hd).2⟩
        · exact ⟨d', by simp [AMap.find?_modify, hk, hd], fun _ f hf => ⟨f, hf⟩⟩

theorem storedField_eq_some {db : DB} {cn k : String} {ty : Nat} {f : FieldVal} :
    storedField db cn ty k = some f ↔ ∃ c d, db.colls.find? cn = some (.field c) ∧
      c.docs.find? k = some d ∧ getField ty d = .ok f := by
  simp only [storedField, document]
  cases hc : db.colls.find? cn with
  | none => simp
  | some c =>
    cases c with
    | other => simp
    | oldTime _ => simp
    | field c =>
      simp only
      cases hd : c.docs.find? k with
      | none => simp [hd]
      | some d =>
        simp only
        cases hf : getField ty d <;> simp [hf, hd]

theorem Good.setValues {db : DB} (h : Inv db) (cn k : String) (ty p : Nat) :
    Good db (setValues db cn k ty p) := by
  unfold NeoFOAM.setValues
  cases hs : storedField db cn ty k with
  | none => exact Good.refl h
  | some f =>
    obtain ⟨c0, d0, hc0, hd0, hf0⟩ := storedField_eq_some.1 hs
    refine Good.setEntry h cn k "field" _ (by decide) (fun c d hc hd => ?_)
    rw [hc0] at hc; simp only [Option.some.injEq, Coll.field.injEq] at hc; subst hc
    rw [hd0] at hd; simp only [Option.some.injEq] at hd; subst hd
    have hty : ∀ ty', getField ty' (d0.insert "field" (.field ty ⟨f.name, f.key, f.coll, f.hasDb, p⟩))
        = if ty = ty' then .ok ⟨f.name, f.key, f.coll, f.hasDb, p⟩ else .throw .badAnyCast := by
      intro ty'
      simp only [getField, index_insert, if_true, Res.ok_bind]
    have hk := h.keyed cn c0 hc0 k d0 ty f hd0 hf0
    refine ⟨fun ty' f' hf' => ?_, fun ty' f' hf' => ?_⟩
    · rw [hty] at hf'
      split at hf'
      · simp only [Res.ok.injEq] at hf'; subst hf'; exact hk
      · simp at hf'
    · have : ty = ty' := by
        unfold getField at hf0 hf'
        rcases hi : d0.index "field" with a | _ | _ | _ <;> rw [hi] at hf0 hf' <;>
          simp only [Res.ok_bind, Res.throw_bind, Res.abort_bind, Res.ub_bind, reduceCtorEq] at hf0 hf'
        cases a <;> simp only [reduceCtorEq] at hf0 hf'
        split at hf0 <;> split at hf' <;> simp_all
      rw [hty, if_pos this]
      exact ⟨_, rfl⟩

/-- Entering `oldTime` for a field of an existing collection. -/
theorem oldTime_enter {db : DB} (h : Inv db) {f : FieldVal} (hreg : f.registered = true)
    {fc : FieldColl} (hfc : db.colls.find? f.coll = some (.field fc)) (ty : Nat) :
    (∃ oc ots db1, db1 = db.insert (f.coll ++ "_oldTime") (.oldTime ⟨f.coll ++ "_oldTime", f.coll, []⟩) ∧
      Good db db1 ∧ db1.ctr = db.ctr ∧ oc.fcName = f.coll ∧
      db1.colls.find? (f.coll ++ "_oldTime") = some (.oldTime oc) ∧
      db1.colls.find? f.coll = some (.field fc) ∧ oc.docs = ots.map OT.entry ∧
      OtsInv db.ctr fc.docs ots ∧
      oldTime ty f db = getOrInsert (f.coll ++ "_oldTime") ty f.key db1) ∨
    ((∃ x, db.colls.find? (f.coll ++ "_oldTime") = some x ∧ ∀ oc, x ≠ .oldTime oc) ∧
      oldTime ty f db = (.throw .badCast, db)) := by
  have hname := (h.fld _ _ hfc).1
  have hv : validateRegistration f db = (.ok (), db) := by
    simp [validateRegistration, hreg, M.pure_apply]
  have hne : f.coll ≠ f.coll ++ "_oldTime" := (append_oldTime_ne _).symm
  set db1 := db.insert (f.coll ++ "_oldTime") (.oldTime ⟨f.coll ++ "_oldTime", f.coll, []⟩) with hdb1
  have g : Good db db1 := Good.addColl h _ _ ⟨rfl, rfl, fc, hfc⟩
  have hfc1 : db1.colls.find? f.coll = some (.field fc) := by
    simp [hdb1, DB.insert, AMap.find?_emplace, hne, hfc]
  have hrun : oldTime ty f db = (do
      let _ ← oldInstance (f.coll ++ "_oldTime") f.coll
      getOrInsert (f.coll ++ "_oldTime") ty f.key : M _) db := by
    unfold oldTime
    rw [M.bind_of_ok hv, M.bind_of_ok (fieldInstance_run hfc), hname]
  cases hon : db.colls.find? (f.coll ++ "_oldTime") with
  | none =>
    left
    have hon1 : db1.colls.find? (f.coll ++ "_oldTime")
        = some (.oldTime ⟨f.coll ++ "_oldTime", f.coll, []⟩) := by
      simp [hdb1, DB.insert, AMap.find?_emplace, hon]
    have hinst : oldInstance (f.coll ++ "_oldTime") f.coll db
        = (.ok ⟨f.coll ++ "_oldTime", f.coll, []⟩, db1) := by
      simp only [oldInstance, M.bind_apply, dbInsert, ← hdb1, DB.at_eq_ok.2 hon1]
      rfl
    refine ⟨_, [], db1, rfl, g, rfl, rfl, hon1, hfc1, rfl, ⟨by simp, by simp, by simp, by simp, by simp,
      by simp, by simp⟩, ?_⟩
    rw [hrun, M.bind_of_ok hinst]
  | some x =>
    have hsame : db1 = db := by
      simp [hdb1, DB.insert, AMap.emplace, AMap.contains, hon]
    have hat : (db.insert (f.coll ++ "_oldTime") (.oldTime ⟨f.coll ++ "_oldTime", f.coll, []⟩)).at
        (f.coll ++ "_oldTime") = .ok x := by
      rw [← hdb1, hsame]; exact DB.at_eq_ok.2 hon
    cases x with
    | oldTime oc =>
      left
      obtain ⟨e, c, ots, hc, hd, hi⟩ := h.old _ _ hon
      have e' := append_oldTime_inj e
      rw [← e', hfc] at hc
      simp only [Option.some.injEq, Coll.field.injEq] at hc
      subst hc
      have hinst : oldInstance (f.coll ++ "_oldTime") f.coll db = (.ok oc, db1) := by
        simp only [oldInstance, M.bind_apply, dbInsert, hat]
        rfl
      refine ⟨oc, ots, db1, rfl, g, rfl, e'.symm, by rw [hsame, hon], hfc1, hd, hi, ?_⟩
      rw [hrun, M.bind_of_ok hinst]
    | field c =>
      right
      refine ⟨⟨_, rfl, by simp⟩, ?_⟩
      rw [hrun]
      simp only [oldInstance, M.bind_apply, dbInsert, hat]
      simp only [Coll.asOld, M.lift_apply]
      rw [← hdb1, hsame]
    | other n =>
      right
      refine ⟨⟨_, rfl, by simp⟩, ?_⟩
      rw [hrun]
      simp only [oldInstance, M.bind_apply, dbInsert, hat]
      simp only [Coll.asOld, M.lift_apply]
      rw [← hdb1, hsame]

theorem Good.oldTime {db : DB} (h : Inv db) (hctr : db.ctr + 3 ≤ 2 ^ 32) (ty : Nat) (f : FieldVal) :
    Good db (oldTime ty f db).2 := by
  cases hreg : f.registered with
  | false =>
    have : NeoFOAM.oldTime ty f db = (.throw .runtimeError, db) := by
      simp [NeoFOAM.oldTime, validateRegistration, hreg, M.bind_apply, M.lift_apply]
    rw [this]; exact Good.refl h
  | true =>
    have hv : validateRegistration f db = (.ok (), db) := by
      simp [validateRegistration, hreg, M.pure_apply]
    set db0 := db.insert f.coll (.field ⟨f.coll, []⟩) with hdb0
    have g0 : Good db db0 := Good.addColl h _ _ rfl
    have hctr0 : db0.ctr = db.ctr := rfl
    cases hx : db0.colls.find? f.coll with
    | none =>
      simp [hdb0, DB.insert, AMap.find?_emplace] at hx
    | some x =>
      have hfi : NeoFOAM.fieldInstance f.coll db = (x.asField, db0) := by
        simp only [NeoFOAM.fieldInstance, M.bind_apply, dbInsert, ← hdb0, DB.at_eq_ok.2 hx]
        rfl
      cases x with
      | oldTime c =>
        have : (NeoFOAM.oldTime ty f db).2 = db0 := by
          unfold NeoFOAM.oldTime
          rw [M.bind_of_ok hv, M.bind_apply, hfi]
          rfl
        rw [this]; exact g0
      | other c =>
        have : (NeoFOAM.oldTime ty f db).2 = db0 := by
          unfold NeoFOAM.oldTime
          rw [M.bind_of_ok hv, M.bind_apply, hfi]
          rfl
        rw [this]; exact g0
      | field fc =>
        have hrun : NeoFOAM.oldTime ty f db = NeoFOAM.oldTime ty f db0 := by
          have hv0 : validateRegistration f db0 = (.ok (), db0) := by
            simp [validateRegistration, hreg, M.pure_apply]
          unfold NeoFOAM.oldTime
          rw [M.bind_of_ok hv, M.bind_of_ok hfi, M.bind_of_ok hv0, M.bind_of_ok (fieldInstance_run hx)]
        rw [hrun]
        refine g0.trans ?_
        rcases oldTime_enter g0.inv hreg hx ty with
          ⟨oc, ots, db1, _, g1, hc1, hfn, hon, hfc, hd, hi, hr⟩ | ⟨_, hr⟩
        · rw [hr]
          refine g1.trans ?_
          rw [← hfn] at hfc
          rw [← hc1] at hi
          by_cases hk : ∃ o ∈ ots, o.next = f.key
          · obtain ⟨o, ho, e⟩ := hk
            obtain ⟨fd, _, hr2⟩ := getOrInsert_known hon hfc hd hi ho ty
            rw [← e, hr2]; exact Good.refl g1.inv
          · have hnew : ∀ o ∈ ots, o.next ≠ f.key := fun o ho e => hk ⟨o, ho, e⟩
            rcases getOrInsert_new_cases g1.inv hon hfc hd hnew ty with
              ⟨_, hg⟩ | ⟨fd, f', t, i, s, hfd, hf, ht, htm, hit, hs, hfresh⟩
            · exact hg
            · rw [getOrInsert_create g1.inv hon hfc hd hi hnew ty hfd hf ht htm hit hs hfresh (by omega)]
              exact Good.afterNew g1.inv hon hfc hd hi hnew ty f' _ _ _
                (by simp [AMap.contains, hfd]) hfresh (by omega)
        · rw [hr]; exact Good.refl g0.inv

theorem mkDocument_getField {x y : Dict} {v : Dict → Bool} {st st' : DB} {ty : Nat}
    (h : mkDocument x v st = (.ok y, st')) : getField ty y = getField ty x := by
  rw [mkDocument_run] at h
  have e := congrArg Prod.fst h
  simp only at e
  by_cases hv : v (if x.contains "id" then x else x.insert "id" (.str (docId st.ctr))) = true
  · rw [if_pos hv, Res.ok.injEq] at e
    rw [← e]
    split
    · rfl
    · exact getField_insert_ne _ _ (by decide) _
  · rw [if_neg hv] at e; simp at e

theorem createFromDict_getField {d d' : Dict} {s s' : DB} {ty : Nat}
    (h : createFromDict d s = (.ok d', s')) : getField ty d' = getField ty d := by
  obtain ⟨d1, s1, h1, h2⟩ := M.bind_ok h
  rw [mkDocument_getField h2, mkDocument_getField h1]

theorem Good.step {db : DB} (h : Inv db) (hctr : db.ctr + 3 ≤ 2 ^ 32) (st : DbStep) (hok : st.Ok) :
    Good db (st.run db) := by
  cases st with
  | collection n => exact Good.fieldInstance h n
  | register cn ty d =>
    refine Good.registerField h cn ty (OnlyIds.createFromDict d) (fun d' s' hcr => ⟨?_, ?_⟩)
    · exact createFromDict_id hok.1 hcr
    · rw [createFromDict_getField hcr]; exact hok.2
  | copy cn name ty f t i s =>
    refine Good.registerField h cn ty (OnlyIds.createFromExisting _ _ _ _ _ _) (fun d' s' hcr => ?_)
    refine ⟨createFromExisting_id hcr, ?_⟩
    obtain ⟨_, t', i', s1, rfl, _⟩ := createFromExisting_ok hcr
    simp [getField, copyDoc, Dict.index, AMap.at?, AMap.find?_cons]
  | oldTime ty f => exact Good.oldTime h hctr ty f
  | setEntry cn k e v =>
    refine Good.setEntry h cn k e v hok.1 (fun c d hc hd => ⟨fun ty f hf => ?_, fun ty f hf => ?_⟩)
    · rw [getField_insert_ne _ _ hok.2] at hf
      exact h.keyed cn c hc k d ty f hd hf
    · exact ⟨f, by rw [getField_insert_ne _ _ hok.2]; exact hf⟩
  | setValues cn k ty p => exact Good.setValues h cn k ty p

theorem History.good {db db' : DB} (h : Inv db) (hh : History db db') : Good db db' := by
  induction hh with
  | refl => exact Good.refl h
  | step st _ hctr hok ih => exact ih.trans (Good.step ih.inv hctr st hok)


/-! ## The links recorded -/

theorem Link.iff {db : DB} {cn : String} {oc : OldColl} {ots : List OT}
    (hon : db.colls.find? (cn ++ "_oldTime") = some (.oldTime oc)) (hd : oc.docs = ots.map OT.entry)
    (hn : (ots.map OT.id).Nodup) (a b c : String) (l : Int) :
    Link db cn a b c l ↔ ∃ o ∈ ots, o.next = a ∧ o.prev = b ∧ o.cur = c ∧ o.lvl = l := by
  constructor
  · rintro ⟨oc', i, d, h1, h2, h3, h4, h5, h6⟩
    rw [hon] at h1
    simp only [Option.some.injEq, Coll.oldTime.injEq] at h1
    subst h1
    rw [hd] at h2
    obtain ⟨o, ho, e, rfl⟩ := find?_ots_inv h2
    simp only [OT.getStr_next, OT.getStr_prev, OT.getStr_cur, OT.getI32_lvl, Res.ok.injEq] at h3 h4 h5 h6
    exact ⟨o, ho, h3, h4, h5, h6⟩
  · rintro ⟨o, ho, rfl, rfl, rfl, rfl⟩
    exact ⟨oc, o.id, o.doc, hon, by rw [hd]; exact find?_ots hn ho, by simp, by simp, by simp, by simp⟩

theorem Link.data {db : DB} (h : Inv db) {cn a b c : String} {l : Int} (hl : Link db cn a b c l) :
    ∃ oc ots fc, db.colls.find? (cn ++ "_oldTime") = some (.oldTime oc) ∧ oc.fcName = cn ∧
      db.colls.find? cn = some (.field fc) ∧ oc.docs = ots.map OT.entry ∧ OtsInv db.ctr fc.docs ots ∧
      ∃ o ∈ ots, o.next = a ∧ o.prev = b ∧ o.cur = c ∧ o.lvl = l := by
  obtain ⟨oc, i, d, h1, h2⟩ := hl
  obtain ⟨e, fc, ots, h3, h4, h5⟩ := h.old _ _ h1
  have e' := append_oldTime_inj e
  exact ⟨oc, ots, fc, h1, e'.symm, by rw [e']; exact h3, h4, h5,
    (Link.iff h1 h4 h5.idsNodup a b c l).1 ⟨oc, i, d, h1, h2⟩⟩

theorem Link.ext {db db' : DB} (h : Ext db db') {cn a b c : String} {l : Int}
    (hl : Link db cn a b c l) : Link db' cn a b c l := by
  obtain ⟨oc, i, d, h1, h2, h3⟩ := hl
  obtain ⟨oc', h4, _, h5⟩ := h.old _ _ h1
  exact ⟨oc', i, d, h4, h5 _ _ h2, h3⟩

/-! ## C06 -/

/-- In every reachable database the old-time links are one-to-one: a field has at most one old time
and two different fields never share an old time. -/
theorem C06_links_injective {ctr : Nat} {db : DB} (hh : History (emptyDB ctr) db)
    {cn a b c a' b' c' : String} {l l' : Int} (h1 : Link db cn a b c l) (h2 : Link db cn a' b' c' l') :
    (a = a' ↔ b = b') ∧ (a = a' → c = c' ∧ l = l') := by
  have hi := (hh.good (Inv.empty ctr)).inv
  obtain ⟨oc, ots, fc, hon, _, _, hd, ho, o, hmem, e1, e2, e3, e4⟩ := h1.data hi
  obtain ⟨o', hmem', f1, f2, f3, f4⟩ := (Link.iff hon hd ho.idsNodup _ _ _ _).1 h2
  have inj : ∀ (g : OT → String), (ots.map g).Nodup → g o = g o' → o = o' := by
    intro g hg e
    have := filter_key g ots hg o hmem
    have hm : o' ∈ ots.filter (fun q => g q == g o) := by simp [hmem', e]
    rw [this, List.mem_singleton] at hm
    exact hm.symm
  refine ⟨⟨fun e => ?_, fun e => ?_⟩, fun e => ?_⟩
  · have := inj OT.next ho.nexts (by rw [e1, f1, e])
    rw [← e2, ← f2, this]
  · have := inj OT.prev ho.prevs (by rw [e2, f2, e])
    rw [← e1, ← f1, this]
  · have := inj OT.next ho.nexts (by rw [e1, f1, e])
    rw [← e3, ← f3, ← e4, ← f4, this]; exact ⟨rfl, rfl⟩

/-- In every reachable database levels and current times follow the links: the old time of a field
that is not itself an old time has level 1 and that field as its current time; the old time of an old
time has the same current time and the next level. -/
theorem C06_links_levels {ctr : Nat} {db : DB} (hh : History (emptyDB ctr) db)
    {cn a b c : String} {l : Int} (h1 : Link db cn a b c l) :
    ((∀ a' c' l', ¬ Link db cn a' a c' l') ∧ c = a ∧ l = 1) ∨
    ∃ a' l', Link db cn a' a c l' ∧ l = l' + 1 := by
  have hi := (hh.good (Inv.empty ctr)).inv
  obtain ⟨oc, ots, fc, hon, _, _, hd, ho, o, hmem, rfl, rfl, rfl, rfl⟩ := h1.data hi
  rcases ho.chain o hmem with ⟨e1, e2, e3⟩ | ⟨q, hq, e1, e2, e3⟩
  · left
    refine ⟨fun a' c' l' hl => ?_, e1, e2⟩
    obtain ⟨q, hq, _, e, _⟩ := (Link.iff hon hd ho.idsNodup _ _ _ _).1 hl
    exact e3 q hq e
  · right
    exact ⟨q.next, q.lvl, (Link.iff hon hd ho.idsNodup _ _ _ _).2 ⟨q, hq, rfl, e1, e2.symm, rfl⟩, e3⟩

/-- Levels are at least one. -/
theorem C06_levels_positive {ctr : Nat} {db : DB} (hh : History (emptyDB ctr) db)
    {cn a b c : String} {l : Int} (h1 : Link db cn a b c l) : 1 ≤ l := by
  obtain ⟨oc, ots, fc, hon, _, _, hd, ho, o, hmem, rfl, rfl, rfl, rfl⟩ :=
    h1.data (hh.good (Inv.empty ctr)).inv
  exact ho.pos o hmem

/-- `b` is reached from `a` by taking the old time `n` times. -/
inductive OlderBy (db : DB) (cn : String) : Nat → String → String → Prop
  | zero (a : String) : OlderBy db cn 0 a a
  | succ {n : Nat} {a b b' c : String} {l : Int} :
      OlderBy db cn n a b → Link db cn b b' c l → OlderBy db cn (n + 1) a b'

/-- No field is its own old time, however many times `oldTime` is taken. -/
theorem C06_acyclic {ctr : Nat} {db : DB} (hh : History (emptyDB ctr) db) {cn a : String} {n : Nat}
    (h : OlderBy db cn n a a) : n = 0 := by
  -- levels grow along the links
  have grow : ∀ {n a b}, OlderBy db cn n a b → ∀ {x c l}, Link db cn x a c l →
      ∃ y c', Link db cn y b c' (l + n) := by
    intro n a b h
    induction h with
    | zero a => intro x c l hl; exact ⟨x, c, by simpa using hl⟩
    | succ _ hl ih =>
      intro x c l hx
      obtain ⟨y, c', hy⟩ := ih hx
      rcases C06_links_levels hh hl with ⟨hno, _⟩ | ⟨a', l', ha', e⟩
      · exact absurd hy (hno _ _ _)
      · obtain ⟨e1, e2⟩ := C06_links_injective hh hy ha'
        have := (e2 (e1.2 rfl)).2
        exact ⟨_, _, cast (by congr 1; omega) hl⟩
  cases h with
  | zero => rfl
  | succ h hl =>
    obtain ⟨y, c', hy⟩ := grow (OlderBy.succ h hl) hl
    have := ((C06_links_injective hh hl hy).2 ((C06_links_injective hh hl hy).1.2 rfl)).2
    omega


/-- What is known about `oldTime` on a stored field without a recorded old time. -/
theorem oldTime_new {db : DB} (h : Inv db) {cn k : String} {ty : Nat} {f : FieldVal} {d : Dict}
    {t i s : Int} (hcn : cn ≠ "") (hdoc : document db cn k = some d) (hf : getField ty d = .ok f)
    (hdb : f.hasDb = true)
    (hcoll : ∀ x, db.colls.find? (cn ++ "_oldTime") = some x → ∃ oc, x = .oldTime oc)
    (hlink : ∀ b c l, ¬ Link db cn k b c l)
    (ht : getI64 d "timeIndex" = .ok t) (htm : -(2 ^ 63) < t) (htM : t < 2 ^ 63)
    (hi : getI64 d "iterationIndex" = .ok i) (hs : getI64 d "subCycleIndex" = .ok s)
    (hfresh : document db cn (docId db.ctr) = none) (hctr : db.ctr + 3 ≤ 2 ^ 32) :
    ∃ oc ots fc db1, Good db db1 ∧ db1.ctr = db.ctr ∧ oc.fcName = cn ∧
      db1 = db.insert (cn ++ "_oldTime") (.oldTime ⟨cn ++ "_oldTime", cn, []⟩) ∧
      db1.colls.find? (cn ++ "_oldTime") = some (.oldTime oc) ∧
      db1.colls.find? cn = some (.field fc) ∧ db.colls.find? cn = some (.field fc) ∧
      oc.docs = ots.map OT.entry ∧
      OtsInv db1.ctr fc.docs ots ∧ (∀ o ∈ ots, o.next ≠ k) ∧ fc.docs.find? k = some d ∧
      fc.docs.contains (docId db.ctr) = false ∧
      oldTime ty f db = (.ok (cn, docId db.ctr),
        afterNew db1 (cn ++ "_oldTime") oc fc ots ty f k (t - 1) i s) := by
  obtain ⟨fc, d', hfc, hd', hf'⟩ := storedField_eq_some.1
    (show storedField db cn ty k = some f by simp [storedField, hdoc, hf])
  have hdd : d = d' := by
    simp only [document, hfc] at hdoc
    rw [hd'] at hdoc; exact (Option.some.inj hdoc).symm
  subst hdd
  have hkey := h.keyed cn fc hfc k d ty f hd' hf
  have hfld := h.fld cn fc hfc
  have hcoll' : f.coll = cn := hkey.2.trans hfld.1
  have hkne : k ≠ "" := by
    rintro rfl
    have : fc.docs.contains "" = true := by simp [AMap.contains, hd']
    rw [hfld.2.2] at this; simp at this
  have hreg : f.registered = true := by
    simp [FieldVal.registered, hkey.1, hcoll', hcn, hkne, hdb]
  have hfr : fc.docs.contains (docId db.ctr) = false := by
    simp only [document, hfc] at hfresh
    simp [AMap.contains, hfresh]
  rcases oldTime_enter h hreg (by rw [hcoll']; exact hfc) ty with
    ⟨oc, ots, db1, hdb1, g1, hc1, hfn, hon, hfc1, hd1, hi1, hr⟩ | ⟨⟨x, hx, hno⟩, _⟩
  · rw [hcoll'] at hfn hon hfc1 hdb1 hr
    have hnew : ∀ o ∈ ots, o.next ≠ k := by
      intro o ho e
      have hl1 : Link db1 cn o.next o.prev o.cur o.lvl :=
        (Link.iff hon hd1 hi1.idsNodup _ _ _ _).2 ⟨o, ho, rfl, rfl, rfl, rfl⟩
      refine hlink o.prev o.cur o.lvl ?_
      rw [e] at hl1
      cases hx : db.colls.find? (cn ++ "_oldTime") with
      | none =>
        have : db1.colls.find? (cn ++ "_oldTime") = some (.oldTime ⟨cn ++ "_oldTime", cn, []⟩) := by
          simp [hdb1, DB.insert, AMap.find?_emplace, hx]
        rw [hon] at this
        simp only [Option.some.injEq, Coll.oldTime.injEq] at this
        rw [this] at hd1
        have : ots = [] := by
          cases ots with
          | nil => rfl
          | cons _ _ => simp at hd1
        rw [this] at ho; simp at ho
      | some x =>
        have : db1 = db := by simp [hdb1, DB.insert, AMap.emplace, AMap.contains, hx]
        rw [← this]; exact hl1
    rw [← hc1] at hi1
    have hpick : pick f.registered (t - 1) t = t - 1 := by
      unfold pick
      rw [if_neg]
      rintro ⟨_, e⟩
      simp only [i64Max] at e; omega
    have hfc1' : db1.colls.find? oc.fcName = some (.field fc) := by rw [hfn]; exact hfc1
    have := getOrInsert_create g1.inv hon hfc1' hd1 hi1 hnew ty hd' hf ht (by omega) hi hs
      (by rw [hc1]; exact hfr) (by omega)
    rw [hpick, hfn, hc1] at this
    refine ⟨oc, ots, fc, db1, g1, hc1, hfn, hdb1, hon, hfc1, hfc, hd1, hi1, hnew, hd', hfr, ?_⟩
    rw [hr, hkey.1, this]
  · rw [hcoll'] at hx
    obtain ⟨oc, e⟩ := hcoll x hx
    exact absurd e (hno oc)

/-- **First call.** For a stored field whose old time is not recorded yet, `oldTime` creates exactly
one field: a copy with the suffixed name, the same values, iteration and sub-cycle index and a time
index one lower, under a key not used before; no other document changes; exactly one link is added,
with level and current time continuing those of the field. -/
theorem C06_first_call {ctr : Nat} {db : DB} (hh : History (emptyDB ctr) db) {cn k : String} {ty : Nat}
    {f : FieldVal} {d : Dict} {t i s : Int} (hcn : cn ≠ "") (hdoc : document db cn k = some d)
    (hf : getField ty d = .ok f) (hdb : f.hasDb = true)
    (hcoll : ∀ x, db.colls.find? (cn ++ "_oldTime") = some x → ∃ oc, x = .oldTime oc)
    (hlink : ∀ b c l, ¬ Link db cn k b c l)
    (ht : getI64 d "timeIndex" = .ok t) (htm : -(2 ^ 63) < t) (htM : t < 2 ^ 63)
    (hi : getI64 d "iterationIndex" = .ok i) (hs : getI64 d "subCycleIndex" = .ok s)
    (hfresh : document db cn (docId db.ctr) = none) (hctr : db.ctr + 3 ≤ 2 ^ 32) :
    ∃ key db' d', oldTime ty f db = (.ok (cn, key), db') ∧ History db db' ∧
      -- a new document with the expected contents
      document db cn key = none ∧ document db' cn key = some d' ∧
      getStr d' "name" = .ok (f.name ++ "_0") ∧ getI64 d' "timeIndex" = .ok (t - 1) ∧
      getI64 d' "iterationIndex" = .ok i ∧ getI64 d' "subCycleIndex" = .ok s ∧
      getField ty d' = .ok ⟨f.name ++ "_0", key, cn, true, f.payload⟩ ∧
      -- nothing else changed
      (∀ cn' k', (cn', k') ≠ (cn, key) → document db' cn' k' = document db cn' k') ∧
      -- exactly one new link
      (∃ c l, Link db' cn k key c l ∧
        (∀ a b c' l', Link db' cn a b c' l' ↔
          Link db cn a b c' l' ∨ (a = k ∧ b = key ∧ c' = c ∧ l' = l)) ∧
        ((c = k ∧ l = 1 ∧ ∀ a c' l', ¬ Link db cn a k c' l') ∨
          ∃ a l', Link db cn a k c l' ∧ l = l' + 1)) ∧
      key = docId db.ctr ∧ db'.ctr = db.ctr + 3 := by
  have hinv := (hh.good (Inv.empty ctr)).inv
  obtain ⟨oc, ots, fc, db1, g1, hc1, hfn, hdb1, hon, hfc1, hfc, hd1, hi1, hnew, hd', hfr, hr⟩ :=
    oldTime_new hinv hcn hdoc hf hdb hcoll hlink ht htm htM hi hs hfresh hctr
  set db' := afterNew db1 (cn ++ "_oldTime") oc fc ots ty f k (t - 1) i s with hdb'
  have hfname := (hinv.fld cn fc hfc).1
  have hne : cn ≠ cn ++ "_oldTime" := (append_oldTime_ne _).symm
  have hnone : fc.docs.find? (docId db.ctr) = none := by simpa [AMap.contains] using hfr
  have hfcm : (db1.colls.modify oc.fcName (fun _ => .field (fc.stored (docId db1.ctr)
      (copyDoc (f.name ++ "_0") ty f.payload (t - 1) i s (docId db1.ctr)) ty
      ⟨f.name ++ "_0", "", "", true, f.payload⟩))).find? (cn ++ "_oldTime") = some (.oldTime oc) := by
    rw [hfn, find?_const_modify hfc1, if_neg hne.symm, hon]
  have hcolls : ∀ n, db'.colls.find? n = if n = cn ++ "_oldTime" then
      some (.oldTime ⟨oc.name, oc.fcName, (ots ++ [newOT ots k (docId db.ctr) (docId (db.ctr + 2))]).map
        OT.entry⟩) else if n = cn then some (.field (fc.stored (docId db.ctr)
      (copyDoc (f.name ++ "_0") ty f.payload (t - 1) i s (docId db.ctr)) ty
      ⟨f.name ++ "_0", "", "", true, f.payload⟩)) else db1.colls.find? n := by
    intro n
    simp only [hdb', afterNew]
    rw [find?_const_modify hfcm, hfn, find?_const_modify hfc1, hc1]
  have hstored : ∀ k', (fc.stored (docId db.ctr)
      (copyDoc (f.name ++ "_0") ty f.payload (t - 1) i s (docId db.ctr)) ty
      ⟨f.name ++ "_0", "", "", true, f.payload⟩).docs.find? k' = if k' = docId db.ctr then
        some ((copyDoc (f.name ++ "_0") ty f.payload (t - 1) i s (docId db.ctr)).insert "field"
          (.field ty ⟨f.name ++ "_0", docId db.ctr, cn, true, f.payload⟩)) else fc.docs.find? k' := by
    intro k'
    simp only [FieldColl.stored, AMap.find?_modify, AMap.find?_emplace, hnone, hfname]
    by_cases e : k' = docId db.ctr <;> simp [e]
  have hoth : ∀ n, n ≠ cn ++ "_oldTime" → db1.colls.find? n = db.colls.find? n := by
    intro n hn
    simp [hdb1, DB.insert, AMap.find?_emplace, hn]
  have hidsnd : ((ots ++ [newOT ots k (docId db.ctr) (docId (db.ctr + 2))]).map OT.id).Nodup := by
    rw [List.map_append, List.nodup_append]
    refine ⟨hi1.idsNodup, by simp, ?_⟩
    intro x hx y hy e
    simp only [List.map_cons, List.map_nil, List.mem_singleton, newOT_id] at hy
    obtain ⟨o, ho, rfl⟩ := List.mem_map.1 hx
    obtain ⟨j, hj, ej⟩ := hi1.ids o ho
    rw [hy, ej] at e
    have := docId_inj (by omega) (by omega) e
    omega
  have honx : db'.colls.find? (cn ++ "_oldTime") = some (.oldTime ⟨oc.name, oc.fcName,
      (ots ++ [newOT ots k (docId db.ctr) (docId (db.ctr + 2))]).map OT.entry⟩) := by
    rw [hcolls, if_pos rfl]
  have hlink' : ∀ a b c l, Link db cn a b c l ↔ ∃ o ∈ ots, o.next = a ∧ o.prev = b ∧ o.cur = c ∧ o.lvl = l := by
    intro a b c l
    rw [← Link.iff hon hd1 hi1.idsNodup]
    refine ⟨fun hl => hl.ext g1.ext, fun hl => ?_⟩
    cases hx : db.colls.find? (cn ++ "_oldTime") with
    | none =>
      exfalso
      have e : db1.colls.find? (cn ++ "_oldTime") = some (.oldTime ⟨cn ++ "_oldTime", cn, []⟩) := by
        simp [hdb1, DB.insert, AMap.find?_emplace, hx]
      obtain ⟨oc', i', d', h1, h2, _⟩ := hl
      rw [e] at h1
      simp only [Option.some.injEq, Coll.oldTime.injEq] at h1
      rw [← h1] at h2
      simp at h2
    | some x =>
      have : db1 = db := by simp [hdb1, DB.insert, AMap.emplace, AMap.contains, hx]
      rw [← this]; exact hl
  refine ⟨docId db.ctr, db', (copyDoc (f.name ++ "_0") ty f.payload (t - 1) i s (docId db.ctr)).insert
    "field" (.field ty ⟨f.name ++ "_0", docId db.ctr, cn, true, f.payload⟩), hr, ?_, hfresh, ?_, rfl, rfl,
    rfl, rfl, ?_, ?_, ?_, rfl, by rw [hdb']; simp [afterNew, hc1]⟩
  · have := History.step (.oldTime ty f) (History.refl (db := db)) hctr trivial
    simpa only [DbStep.run, hr] using this
  · simp only [document, hcolls, if_neg hne, if_true, hstored]
  · simp [getField, index_insert]
  · intro cn' k' hneq
    simp only [document]
    by_cases h1 : cn' = cn ++ "_oldTime"
    · rw [h1, honx]
      cases hx : db.colls.find? (cn ++ "_oldTime") with
      | none => rfl
      | some x => obtain ⟨oc', rfl⟩ := hcoll x hx; rfl
    · rw [hcolls, if_neg h1]
      by_cases h2 : cn' = cn
      · subst h2
        have : k' ≠ docId db.ctr := by rintro rfl; exact hneq rfl
        simp only [if_true, hfc, hstored, this, if_false]
      · rw [if_neg h2, hoth cn' h1]
  · refine ⟨_, _, (Link.iff honx rfl hidsnd _ _ _ _).2 ⟨newOT ots k (docId db.ctr) (docId (db.ctr + 2)),
      by simp, newOT_next _ _ _ _, newOT_prev _ _ _ _, rfl, rfl⟩, ?_, ?_⟩
    · intro a b c' l'
      rw [Link.iff honx rfl hidsnd, hlink']
      constructor
      · rintro ⟨o, ho, e⟩
        rcases List.mem_append.1 ho with ho | ho
        · exact Or.inl ⟨o, ho, e⟩
        · simp only [List.mem_singleton] at ho
          subst ho
          rw [newOT_next, newOT_prev] at e
          exact Or.inr ⟨e.1.symm, e.2.1.symm, e.2.2.1.symm, e.2.2.2.symm⟩
      · rintro (⟨o, ho, e⟩ | ⟨rfl, rfl, rfl, rfl⟩)
        · exact ⟨o, by simp [ho], e⟩
        · exact ⟨_, by simp, newOT_next _ _ _ _, newOT_prev _ _ _ _, rfl, rfl⟩
    · rcases find?_of_filter_key OT.prev hi1.prevs k with ⟨hno, _, hfind⟩ | ⟨q, hq, hqp, _, hfind⟩
      · left
        refine ⟨by unfold newOT; rw [hfind], by unfold newOT; rw [hfind], ?_⟩
        intro a c' l' hl
        obtain ⟨o, ho, _, e, _⟩ := (hlink' _ _ _ _).1 hl
        exact hno o ho e
      · right
        refine ⟨q.next, q.lvl, (hlink' _ _ _ _).2 ⟨q, hq, rfl, hqp, ?_, rfl⟩, ?_⟩
        · unfold newOT; rw [hfind]
        · unfold newOT; rw [hfind]

/-- **Later calls.** Once a link is recorded, after any later history `oldTime` on the field returns
the recorded field and changes nothing at all. -/
theorem C06_idempotent {ctr : Nat} {db db' : DB} (hh : History (emptyDB ctr) db) (hh' : History db db')
    {cn a b c : String} {l : Int} (hl : Link db cn a b c l) {ty : Nat} {f g : FieldVal}
    (hg : storedField db cn ty b = some g)
    (hf : storedField db' cn ty a = some f) (hcn : cn ≠ "") (hdb : f.hasDb = true) :
    oldTime ty f db' = (.ok (cn, b), db') := by
  have g0 := hh.good (Inv.empty ctr)
  have g1 := hh'.good g0.inv
  have hl' := hl.ext g1.ext
  obtain ⟨fc, d, hfc, hd, hfd⟩ := storedField_eq_some.1 hf
  have hkey := g1.inv.keyed cn fc hfc a d ty f hd hfd
  have hfld := g1.inv.fld cn fc hfc
  have hcoll' : f.coll = cn := hkey.2.trans hfld.1
  have hkne : a ≠ "" := by
    rintro rfl
    have : fc.docs.contains "" = true := by simp [AMap.contains, hd]
    rw [hfld.2.2] at this; simp at this
  have hreg : f.registered = true := by
    simp [FieldVal.registered, hkey.1, hcoll', hcn, hkne, hdb]
  obtain ⟨oc, ots, fc', hon, hfn, hfc', hdocs, hots, o, ho, e1, e2, e3, e4⟩ := hl'.data g1.inv
  rw [hfc] at hfc'
  simp only [Option.some.injEq, Coll.field.injEq] at hfc'
  subst hfc'
  -- the recorded old field is still there
  obtain ⟨fcb, db0, hfcb, hdb0, hgb⟩ := storedField_eq_some.1 hg
  obtain ⟨fc2, hfc2, hext⟩ := g1.ext.fld cn fcb hfcb
  rw [hfc] at hfc2
  simp only [Option.some.injEq, Coll.field.injEq] at hfc2
  subst hfc2
  obtain ⟨d2, hd2, hty⟩ := hext b db0 hdb0
  obtain ⟨g', hg'⟩ := hty ty g hgb
  rcases oldTime_enter g1.inv hreg (by rw [hcoll']; exact hfc) ty with
    ⟨oc2, ots2, db1, hdb1, _, hc1, hfn2, hon2, hfc1, hd1, hi1, hr⟩ | ⟨⟨x, hx, hno⟩, _⟩
  · rw [hcoll'] at hdb1 hon2 hr hfn2 hfc1
    have hsame : db1 = db' := by simp [hdb1, DB.insert, AMap.emplace, AMap.contains, hon]
    rw [hsame] at hon2 hr hfc1 hc1
    rw [hon] at hon2
    simp only [Option.some.injEq, Coll.oldTime.injEq] at hon2
    subst hon2
    obtain ⟨fd, hfd', hr2⟩ := getOrInsert_known hon (by rw [hfn]; exact hfc) hdocs hots ho ty
    rw [hr, hkey.1, ← e1, hr2]
    rw [e2, hd2] at hfd'
    simp only [Option.some.injEq] at hfd'
    rw [← hfd', hg', Res.ok_bind, hfn, e2]
  · rw [hcoll'] at hx
    rw [hon] at hx
    simp only [Option.some.injEq] at hx
    exact absurd hx.symm (hno oc)

/-- The root of the time history of `k` and how many steps `k` lies behind it. -/
def RootOf (db : DB) (cn k c : String) (l : Int) : Prop :=
  (c = k ∧ l = 0 ∧ ∀ a c' l', ¬ Link db cn a k c' l') ∨ ∃ a, Link db cn a k c l

theorem storedField_of_document {db : DB} {cn k : String} {ty : Nat} {d : Dict} {f : FieldVal}
    (h : document db cn k = some d) (hf : getField ty d = .ok f) : storedField db cn ty k = some f := by
  simp [storedField, h, hf]

theorem oldTimes_run {ty : Nat} {cn : String} : ∀ (n : Nat) {ctr : Nat} {db : DB}, History (emptyDB ctr) db →
    ∀ {k : String} {f : FieldVal} {d : Dict} {t i s : Int}, cn ≠ "" → document db cn k = some d →
    getField ty d = .ok f → f.hasDb = true →
    (∀ x, db.colls.find? (cn ++ "_oldTime") = some x → ∃ oc, x = .oldTime oc) →
    (∀ b c l, ¬ Link db cn k b c l) →
    getI64 d "timeIndex" = .ok t → -(2 ^ 63) + (n : Int) ≤ t → t < 2 ^ 63 →
    getI64 d "iterationIndex" = .ok i → getI64 d "subCycleIndex" = .ok s →
    (∀ j, db.ctr ≤ j → j < db.ctr + 3 * n → document db cn (docId j) = none) →
    db.ctr + 3 * n ≤ 2 ^ 32 → ∀ {c : String} {l : Int}, RootOf db cn k c l →
    ∃ ks db', oldTimes ty cn n k db = (.ok ks, db') ∧ History db db' ∧
      ks = (List.range n).map (fun m => docId (db.ctr + 3 * m)) ∧
      (∀ cn' k', (cn' ≠ cn ∨ k' ∉ ks) → document db' cn' k' = document db cn' k') ∧
      ∀ m (_ : m < n), ∃ a b d', (k :: ks)[m]? = some a ∧ ks[m]? = some b ∧
        Link db' cn a b c (l + m + 1) ∧ document db' cn b = some d' ∧
        getI64 d' "timeIndex" = .ok (t - m - 1) ∧ getI64 d' "iterationIndex" = .ok i ∧
        getI64 d' "subCycleIndex" = .ok s ∧ ∃ f', getField ty d' = .ok f' ∧ f'.payload = f.payload := by
  intro n
  induction n with
  | zero =>
    intro ctr db hh k f d t i s _ _ _ _ _ _ _ _ _ _ _ _ _ c l _
    exact ⟨[], db, rfl, .refl, rfl, fun _ _ _ => rfl, fun m hm => absurd hm (by omega)⟩
  | succ n ih =>
    intro ctr db hh k f d t i s hcn hdoc hf hdb hcoll hlink ht htm htM hi hs hfresh hctr c l hroot
    have hkdoc : ∀ j, db.ctr ≤ j → j < db.ctr + 3 * (n + 1) → k ≠ docId j := by
      intro j h1 h2 e
      rw [e, hfresh j h1 h2] at hdoc; simp at hdoc
    obtain ⟨key, db1, d1, hrun, hh1, hnone, hd1, _, ht1, hi1, hs1, hf1, hframe, ⟨c1, l1, hl1, hlall, hlv⟩,
        rfl, hc1⟩ :=
      C06_first_call hh hcn hdoc hf hdb hcoll hlink ht (by omega) htM hi hs
        (hfresh _ (Nat.le_refl _) (by omega)) (by omega)
    have hinv := (hh.good (Inv.empty ctr)).inv
    have hstep : History (emptyDB ctr) db1 := by
      have := History.step (.oldTime ty f) hh (by omega) trivial
      simpa only [DbStep.run, hrun] using this
    -- root and level of the new field
    have hcl : c1 = c ∧ l1 = l + 1 := by
      rcases hroot with ⟨rfl, rfl, hno⟩ | ⟨a, ha⟩
      · rcases hlv with ⟨e1, e2, _⟩ | ⟨a, l', ha, _⟩
        · exact ⟨e1, by omega⟩
        · exact absurd ha (hno _ _ _)
      · rcases hlv with ⟨_, _, hno⟩ | ⟨a', l', ha', e⟩
        · exact absurd ha (hno _ _ _)
        · obtain ⟨x1, x2⟩ := C06_links_injective hh ha' ha
          obtain ⟨y1, y2⟩ := x2 (x1.2 rfl)
          exact ⟨y1, by omega⟩
    obtain ⟨rfl, rfl⟩ := hcl
    have hlink1 : ∀ b c' l', ¬ Link db1 cn (docId db.ctr) b c' l' := by
      intro b c' l' hl
      rcases (hlall _ _ _ _).1 hl with hl | ⟨e, _⟩
      · obtain ⟨oc, ots, fc, _, _, hfc, _, ho, o, hmem, e1, _⟩ := hl.data hinv
        have := (ho.known o hmem).1
        rw [e1] at this
        simp only [document, hfc] at hnone
        simp [AMap.contains, hnone] at this
      · exact hkdoc _ (Nat.le_refl _) (by omega) e.symm
    have hcoll1 : ∀ x, db1.colls.find? (cn ++ "_oldTime") = some x → ∃ oc, x = .oldTime oc := by
      intro x hx
      obtain ⟨oc, _, _, h1, _⟩ := hl1
      rw [h1] at hx
      exact ⟨oc, (Option.some.inj hx).symm⟩
    have hfresh1 : ∀ j, db1.ctr ≤ j → j < db1.ctr + 3 * n → document db1 cn (docId j) = none := by
      intro j h1 h2
      rw [hframe]
      · exact hfresh j (by omega) (by omega)
      · intro e
        simp only [Prod.mk.injEq, true_and] at e
        have := docId_inj (by omega) (by omega) e
        omega
    obtain ⟨ks, db2, hrun2, hh2, hks, hframe2, hall⟩ := ih hstep hcn hd1 hf1 rfl hcoll1 hlink1 ht1
      (by omega) (by omega) hi1 hs1 hfresh1 (by omega) (c := c1) (l := l + 1) (Or.inr ⟨k, hl1⟩)
    have hkeyks : docId db.ctr ∉ ks := by
      rw [hks]
      intro hmem
      obtain ⟨j, hj, e⟩ := List.mem_map.1 hmem
      have hj := List.mem_range.1 hj
      have := docId_inj (by omega) (by omega) e
      omega
    have hks' : docId db.ctr :: ks = (List.range (n + 1)).map (fun m => docId (db.ctr + 3 * m)) := by
      rw [List.range_succ_eq_map, List.map_cons, hks, List.map_map, hc1]
      simp only [Nat.mul_zero, Nat.add_zero]
      congr 1
      apply List.map_congr_left
      intro m _
      simp only [Function.comp]
      congr 1
      omega
    refine ⟨docId db.ctr :: ks, db2, ?_, ?_, hks', ?_, ?_⟩
    · simp only [oldTimes, storedField_of_document hdoc hf]
      rw [M.bind_of_ok hrun, M.bind_of_ok hrun2]
      rfl
    · have trans : ∀ {a b c : DB}, History a b → History b c → History a c := by
        intro a b c h1 h2
        induction h2 with
        | refl => exact h1
        | step st _ hc hok ih => exact .step st ih hc hok
      exact trans hh1 hh2
    · intro cn' k' hne
      have hne2 : cn' ≠ cn ∨ k' ∉ ks := by
        rcases hne with h | h
        · exact Or.inl h
        · exact Or.inr (fun hm => h (by simp [hm]))
      rw [hframe2 cn' k' hne2, hframe]
      rintro e
      simp only [Prod.mk.injEq] at e
      rcases hne with h | h
      · exact h e.1
      · exact h (by simp [e.2])
    · intro m hm
      cases m with
      | zero =>
        refine ⟨k, docId db.ctr, d1, rfl, rfl, ?_, ?_, ?_, hi1, hs1, _, hf1, rfl⟩
        · have := hl1.ext ((hh2.good (hstep.good (Inv.empty ctr)).inv).ext)
          simpa using this
        · rw [hframe2 _ _ (Or.inr hkeyks)]; exact hd1
        · simpa using ht1
      | succ m =>
        obtain ⟨a, b, d', h1, h2, h3, h4, h5, h6, h7, f', h8, h9⟩ := hall m (by omega)
        refine ⟨a, b, d', by simpa using h1, by simpa using h2, ?_, h4, ?_, h6, h7, f', h8, h9⟩
        · have e : l + ((m + 1 : Nat) : Int) + 1 = l + 1 + m + 1 := by omega
          rw [e]; exact h3
        · rw [h5]; congr 1; omega

/-- **n-fold old time.** Taking `oldTime` n times, for any n, from a field that is not itself an old
time yields n pairwise different new fields, with levels 1..n, all recording the original field as
their current time, the m-th with time index lowered by m. -/
theorem C06_n_fold (n : Nat) {ctr : Nat} {db : DB} (hh : History (emptyDB ctr) db) {cn k : String}
    {ty : Nat} {f : FieldVal} {d : Dict} {t i s : Int} (hcn : cn ≠ "")
    (hdoc : document db cn k = some d) (hf : getField ty d = .ok f) (hdb : f.hasDb = true)
    (hcoll : ∀ x, db.colls.find? (cn ++ "_oldTime") = some x → ∃ oc, x = .oldTime oc)
    (hnew : ∀ b c l, ¬ Link db cn k b c l) (hroot : ∀ a c l, ¬ Link db cn a k c l)
    (ht : getI64 d "timeIndex" = .ok t) (htm : -(2 ^ 63) + (n : Int) ≤ t) (htM : t < 2 ^ 63)
    (hi : getI64 d "iterationIndex" = .ok i) (hs : getI64 d "subCycleIndex" = .ok s)
    (hfresh : ∀ j, db.ctr ≤ j → j < db.ctr + 3 * n → document db cn (docId j) = none)
    (hctr : db.ctr + 3 * n ≤ 2 ^ 32) :
    ∃ ks db', oldTimes ty cn n k db = (.ok ks, db') ∧ ks.length = n ∧ (k :: ks).Nodup ∧
      (∀ b ∈ ks, document db cn b = none) ∧
      ∀ m (_ : m < n), ∃ a b d', (k :: ks)[m]? = some a ∧ ks[m]? = some b ∧
        Link db' cn a b k (m + 1) ∧ document db' cn b = some d' ∧
        getI64 d' "timeIndex" = .ok (t - (m + 1)) ∧ getI64 d' "iterationIndex" = .ok i ∧
        getI64 d' "subCycleIndex" = .ok s ∧ ∃ f', getField ty d' = .ok f' ∧ f'.payload = f.payload := by
  obtain ⟨ks, db', h1, h2, h3, h4, h5⟩ := oldTimes_run n hh hcn hdoc hf hdb hcoll hnew ht htm htM hi hs
    hfresh hctr (c := k) (l := 0) (Or.inl ⟨rfl, rfl, hroot⟩)
  have hks : ∀ b ∈ ks, document db cn b = none := by
    intro b hb
    rw [h3] at hb
    obtain ⟨j, hj, rfl⟩ := List.mem_map.1 hb
    have := List.mem_range.1 hj
    exact hfresh _ (by omega) (by omega)
  refine ⟨ks, db', h1, by rw [h3]; simp, ?_, hks, ?_⟩
  · rw [List.nodup_cons]
    refine ⟨fun hm => ?_, ?_⟩
    · rw [hks k hm] at hdoc; simp at hdoc
    · rw [h3, List.nodup_iff_pairwise_ne, List.pairwise_map]
      refine List.Pairwise.imp_of_mem ?_ List.nodup_range
      intro x y hx hy hne e
      have := List.mem_range.1 hx
      have := List.mem_range.1 hy
      have := docId_inj (by omega) (by omega) e
      omega
  · intro m hm
    obtain ⟨a, b, d', e1, e2, e3, e4, e5, e6⟩ := h5 m hm
    refine ⟨a, b, d', e1, e2, ?_, e4, ?_, e6⟩
    · simpa using e3
    · rw [e5]; congr 1; omega

/-! ## Non-vacuity: a registered field and three old times -/

/-- A database with one registered field. -/
def exHist : DB := DbStep.run (DbStep.run (emptyDB 0) (.collection "fields"))
  (.register "fields" 0 (Dict.ofInitList [("id", .str "T"), ("name", .str "T"), ("timeIndex", .i64 5),
    ("iterationIndex", .i64 2), ("subCycleIndex", .i64 1), ("field", .field 0 ⟨"T", "", "", true, 42⟩)]))

theorem exHist_reach : History (emptyDB 0) exHist :=
  .step _ (.step _ .refl (by decide) trivial) (by decide)
    ⟨by simp [Dict.ofInitList, AMap.emplace, AMap.contains, AMap.find?_cons],
     by simp [Dict.ofInitList, AMap.emplace, AMap.contains, AMap.find?_cons, getField, Dict.index,
       AMap.at?]⟩

/-- The value of the example database. -/
theorem exHist_eq : exHist = ⟨[("fields", .field ⟨"fields", [("T", [("id", .str "T"), ("name", .str "T"),
    ("timeIndex", .i64 5), ("iterationIndex", .i64 2), ("subCycleIndex", .i64 1),
    ("field", .field 0 ⟨"T", "T", "fields", true, 42⟩)])]⟩)], 2⟩ := rfl

theorem exHist_noOld (x : Coll) : exHist.colls.find? ("fields" ++ "_oldTime") ≠ some x := nofun

theorem exHist_noLink (a b c : String) (l : Int) : ¬ Link exHist "fields" a b c l := by
  rintro ⟨oc, _, _, h, _⟩
  exact exHist_noOld _ h

example : ∃ ks db', oldTimes 0 "fields" 3 "T" exHist = (.ok ks, db') ∧ ks.length = 3 ∧
    ("T" :: ks).Nodup := by
  obtain ⟨ks, db', h1, h2, h3, _⟩ := C06_n_fold 3 exHist_reach (cn := "fields") (k := "T") (ty := 0)
    (f := ⟨"T", "T", "fields", true, 42⟩) (t := 5) (i := 2) (s := 1) (by decide) rfl rfl rfl
    (fun x hx => absurd hx (exHist_noOld x)) (fun _ _ _ => exHist_noLink _ _ _ _)
    (fun _ _ _ => exHist_noLink _ _ _ _) rfl (by decide) (by decide) rfl rfl
    (fun j h1 _ => by
      have : ("T" : String) ≠ docId j := by
        intro e
        have := congrArg (fun s : String => s.toList.length) e
        simp [docId] at this
      simp [document, exHist_eq, AMap.find?_cons, this]) (by decide)
  exact ⟨ks, db', h1, h2, h3⟩

/-- The hypotheses of `C06_first_call` and `C06_idempotent` are met: call `oldTime` twice, with the
time index of the field changed in between. -/
example : ∃ key db', oldTime 0 ⟨"T", "T", "fields", true, 42⟩ exHist = (.ok ("fields", key), db') ∧
    ∀ f, storedField (setEntry db' "fields" "T" "timeIndex" (.i64 6)) "fields" 0 "T" = some f →
      f.hasDb = true → (oldTime 0 f (setEntry db' "fields" "T" "timeIndex" (.i64 6))).1
        = .ok ("fields", key) := by
  obtain ⟨key, db', d', h1, h2, h3, h4, _, _, _, _, h5, _, ⟨c, l, h6, _⟩, _, hc⟩ :=
    C06_first_call exHist_reach (cn := "fields") (k := "T") (ty := 0)
    (f := ⟨"T", "T", "fields", true, 42⟩) (t := 5) (i := 2) (s := 1) (by decide) rfl rfl rfl
    (fun x hx => absurd hx (exHist_noOld x)) (fun _ _ _ => exHist_noLink _ _ _ _)
    rfl (by decide) (by decide) rfl rfl rfl (by decide)
  refine ⟨key, db', h1, fun f hf hdb => ?_⟩
  have trans : ∀ {a b c : DB}, History a b → History b c → History a c := by
    intro a b c h1 h2
    induction h2 with
    | refl => exact h1
    | step st _ hc hok ih => exact .step st ih hc hok
  have hctr : db'.ctr + 3 ≤ 2 ^ 32 := by rw [hc, exHist_eq]; decide
  have := C06_idempotent (trans exHist_reach h2)
    (.step (.setEntry "fields" "T" "timeIndex" (.i64 6)) .refl hctr ⟨by decide, by decide⟩)
    h6 (storedField_of_document h4 h5) hf (by decide) hdb
  exact congrArg Prod.fst this

end NeoFOAM
