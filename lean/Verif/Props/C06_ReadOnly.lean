import Verif.Props.C06_OldTime

/-!
# C06, the read-only variant: `oldTime(const FieldType&)`
-/
namespace NeoFOAM

/-- The calls of the read-only variant, one by one, leave the database as it is. -/
theorem M.keeps_lift {α β : Type} {s : DB} (x : Res α) (k : α → M β) (h : ∀ a, (k a s).2 = s) : ((M.lift x >>= k) s).2 = s := by
  cases x with
  | ok a => exact h a
  | _ => rfl

theorem M.keeps_dbAt {β : Type} {s : DB} (n : String) (k : Coll → M β) (h : ∀ a, (k a s).2 = s) : ((dbAt n >>= k) s).2 = s := by
  have e : dbAt n s = (s.at n, s) := rfl
  rw [M.bind_apply, e]
  cases s.at n with
  | ok a => exact h a
  | _ => rfl

theorem getOld_keeps (on : String) (ty : Nat) (k : String) (s : DB) : (getOld on ty k s).2 = s := by
  unfold getOld
  refine M.keeps_dbAt _ _ fun c => M.keeps_lift _ _ fun oc => M.keeps_lift _ _ fun nextId => ?_
  have : ∀ (β : Type) (k : FieldColl → M β), (∀ c, (k c s).2 = s) → ((fieldInstanceConst oc.fcName >>= k) s).2 = s := by
    intro β k hk
    have e : (fieldInstanceConst oc.fcName s).2 = s := M.keeps_dbAt _ _ fun c => rfl
    rw [M.bind_apply]
    cases hq : fieldInstanceConst oc.fcName s with
    | mk r s' =>
      rw [hq] at e
      cases e
      cases r with
      | ok c => exact hk c
      | _ => rfl
  refine this _ _ fun fc => ?_
  split
  · exact M.keeps_lift _ _ fun od => M.keeps_lift _ _ fun prev => M.keeps_lift _ _ fun fd => M.keeps_lift _ _ fun _ => rfl
  · rfl

/-- **C06, read-only access**: on every reachable database `oldTime` of a constant field changes nothing, and it returns exactly when an old
time of the field is recorded: then it returns that field. -/
theorem C06_const {ctr : Nat} {db : DB} (hh : History (emptyDB ctr) db) {cn a : String} {ty : Nat} {f : FieldVal}
    (hf : storedField db cn ty a = some f) (hcn : cn ≠ "") (hdb : f.hasDb = true) :
    (oldTimeConst ty f db).2 = db ∧
    ∀ r, (oldTimeConst ty f db).1 = .ok r ↔ ∃ b c l g, Link db cn a b c l ∧ storedField db cn ty b = some g ∧ r = (cn, b) := by
  have g0 := hh.good (Inv.empty ctr)
  obtain ⟨fc, d, hfc, hd, hfd⟩ := storedField_eq_some.1 hf
  have hkey := g0.inv.keyed cn fc hfc a d ty f hd hfd
  have hfld := g0.inv.fld cn fc hfc
  have hcoll : f.coll = cn := hkey.2.trans hfld.1
  have hkne : a ≠ "" := by
    rintro rfl
    have : fc.docs.contains "" = true := by simp [AMap.contains, hd]
    rw [hfld.2.2] at this; simp at this
  have hreg : f.registered = true := by simp [FieldVal.registered, hkey.1, hcoll, hcn, hkne, hdb]
  have hv : validateRegistration f db = (.ok (), db) := by simp [validateRegistration, hreg, M.pure_apply]
  have hfi : fieldInstanceConst cn db = (.ok fc, db) := by
    unfold fieldInstanceConst
    rw [M.bind_of_ok (show dbAt cn db = (.ok (.field fc), db) by simp [dbAt, DB.at_eq_ok.2 hfc])]
    rfl
  have hrun : oldTimeConst ty f db = (do
      let c ← dbAt (cn ++ "_oldTime")
      let _ ← M.lift c.asOld
      getOld (cn ++ "_oldTime") ty a : M _) db := by
    unfold oldTimeConst
    rw [M.bind_of_ok hv, hcoll, M.bind_of_ok hfi, hfld.1, hkey.1]
  rw [hrun]
  refine ⟨M.keeps_dbAt _ _ fun c => M.keeps_lift _ _ fun _ => getOld_keeps _ _ _ _, fun r => ?_⟩
  cases hon : db.colls.find? (cn ++ "_oldTime") with
  | none =>
    have : dbAt (cn ++ "_oldTime") db = (.throw .outOfRange, db) := by
      simp [dbAt, DB.at, AMap.at?, hon]
    rw [M.bind_apply, this]
    constructor
    · intro h; cases h
    · rintro ⟨b, c, l, g, ⟨oc, i, d, h1, -⟩, -⟩
      rw [hon] at h1; cases h1
  | some x =>
    rw [M.bind_of_ok (show dbAt (cn ++ "_oldTime") db = (.ok x, db) by simp [dbAt, DB.at_eq_ok.2 hon])]
    have hother : (∀ oc, x ≠ .oldTime oc) → ¬ ∃ b c l g, Link db cn a b c l ∧ storedField db cn ty b = some g ∧ r = (cn, b) := by
      rintro hno ⟨b, c, l, g, ⟨oc, i, d, h1, -⟩, -⟩
      rw [hon] at h1
      exact hno oc (Option.some.inj h1)
    cases x with
    | field c =>
      constructor
      · intro h; cases h
      · intro h; exact absurd h (hother (by simp))
    | other n =>
      constructor
      · intro h; cases h
      · intro h; exact absurd h (hother (by simp))
    | oldTime oc =>
      obtain ⟨e, fc', ots, hc, hdocs, hots⟩ := g0.inv.old _ _ hon
      have e' := append_oldTime_inj e
      rw [← e', hfc] at hc
      simp only [Option.some.injEq, Coll.field.injEq] at hc
      subst hc
      have hlink := fun b c l => Link.iff (cn := cn) hon hdocs hots.idsNodup a b c l
      rw [M.lift_bind_ok (show Coll.asOld (.oldTime oc) = .ok oc from rfl)]
      unfold getOld
      rw [M.bind_of_ok (show dbAt (cn ++ "_oldTime") db = (.ok (.oldTime oc), db) by simp [dbAt, DB.at_eq_ok.2 hon]),
        M.lift_bind_ok (show Coll.asOld (.oldTime oc) = .ok oc from rfl)]
      rcases find?_of_filter_key OT.next hots.nexts a with ⟨hno, hfil, -⟩ | ⟨o, ho, hon', hfil, -⟩
      · have hnt : oc.findNextTime a = .ok "" := by
          rw [findNextTime_run hdocs, hfil]; rfl
        rw [M.lift_bind_ok hnt, ← e', M.bind_of_ok hfi]
        constructor
        · intro h; cases h
        · rintro ⟨b, c, l, g, hl, -⟩
          obtain ⟨o, ho, h1, -⟩ := (hlink b c l).1 hl
          exact absurd h1 (hno o ho)
      · have hnt : oc.findNextTime a = .ok o.id := by
          rw [findNextTime_run hdocs, hfil]; rfl
        have hat : oc.docs.at? o.id = .ok o.doc := by
          rw [AMap.at?_eq_ok, hdocs]; exact find?_ots hots.idsNodup ho
        rw [M.lift_bind_ok hnt, ← e', M.bind_of_ok hfi]
        simp only [ne_eq, hots.id_ne ho, not_false_eq_true, if_true]
        rw [M.lift_bind_ok hat, M.lift_bind_ok (OT.getStr_prev o)]
        have hl : Link db cn a o.prev o.cur o.lvl := (hlink _ _ _).2 ⟨o, ho, hon', rfl, rfl, rfl⟩
        have huniq : ∀ b c l, Link db cn a b c l → b = o.prev := by
          intro b c l hb
          obtain ⟨o', ho', h1, h2, -⟩ := (hlink b c l).1 hb
          have hm : o' ∈ ots.filter (fun o => o.next == a) := List.mem_filter.2 ⟨ho', by simp [h1]⟩
          rw [hfil] at hm
          rw [← h2, List.mem_singleton.1 hm]
        constructor
        · intro h
          cases hfd' : fc.docs.at? o.prev with
          | ok fd =>
            rw [M.lift_bind_ok hfd'] at h
            cases hg : getField ty fd with
            | ok g =>
              rw [M.lift_bind_ok hg] at h
              cases h
              exact ⟨o.prev, _, _, g, hl, storedField_eq_some.2 ⟨fc, fd, hfc, AMap.at?_eq_ok.1 hfd', hg⟩, rfl⟩
            | _ => simp [M.bind_apply, M.lift_apply, hg] at h
          | _ => simp [M.bind_apply, M.lift_apply, hfd'] at h
        · rintro ⟨b, c, l, g, hb, hs, rfl⟩
          obtain rfl := huniq b c l hb
          obtain ⟨fc', fd, h1, h2, h3⟩ := storedField_eq_some.1 hs
          rw [hfc] at h1
          simp only [Option.some.injEq, Coll.field.injEq] at h1
          subst h1
          rw [M.lift_bind_ok (AMap.at?_eq_ok.2 h2), M.lift_bind_ok h3]
          rfl

/-- **C06, read-only access to an old time that is not recorded**: the program ends with an error message (`NF_ERROR_EXIT`) if old times of other fields are recorded, and throws
`std::out_of_range` if none was recorded at all; it never reads memory it may not read. -/
theorem C06_const_missing {ctr : Nat} {db : DB} (hh : History (emptyDB ctr) db) {cn a : String} {ty : Nat} {f : FieldVal}
    (hf : storedField db cn ty a = some f) (hcn : cn ≠ "") (hdb : f.hasDb = true) (hno : ∀ b c l, ¬ Link db cn a b c l) :
    (∀ oc, db.colls.find? (cn ++ "_oldTime") = some (.oldTime oc) → (oldTimeConst ty f db).1 = .abort) ∧
    (db.colls.find? (cn ++ "_oldTime") = none → (oldTimeConst ty f db).1 = .throw .outOfRange) := by
  have g0 := hh.good (Inv.empty ctr)
  obtain ⟨fc, d, hfc, hd, hfd⟩ := storedField_eq_some.1 hf
  have hkey := g0.inv.keyed cn fc hfc a d ty f hd hfd
  have hfld := g0.inv.fld cn fc hfc
  have hcoll : f.coll = cn := hkey.2.trans hfld.1
  have hkne : a ≠ "" := by
    rintro rfl
    have : fc.docs.contains "" = true := by simp [AMap.contains, hd]
    rw [hfld.2.2] at this; simp at this
  have hreg : f.registered = true := by simp [FieldVal.registered, hkey.1, hcoll, hcn, hkne, hdb]
  have hv : validateRegistration f db = (.ok (), db) := by simp [validateRegistration, hreg, M.pure_apply]
  have hfi : fieldInstanceConst cn db = (.ok fc, db) := by
    unfold fieldInstanceConst
    rw [M.bind_of_ok (show dbAt cn db = (.ok (.field fc), db) by simp [dbAt, DB.at_eq_ok.2 hfc])]
    rfl
  have hrun : oldTimeConst ty f db = (do
      let c ← dbAt (cn ++ "_oldTime")
      let _ ← M.lift c.asOld
      getOld (cn ++ "_oldTime") ty a : M _) db := by
    unfold oldTimeConst
    rw [M.bind_of_ok hv, hcoll, M.bind_of_ok hfi, hfld.1, hkey.1]
  rw [hrun]
  constructor
  · intro oc hon
    rw [M.bind_of_ok (show dbAt (cn ++ "_oldTime") db = (.ok (.oldTime oc), db) by simp [dbAt, DB.at_eq_ok.2 hon])]
    obtain ⟨e, fc', ots, hc, hdocs, hots⟩ := g0.inv.old _ _ hon
    have e' := append_oldTime_inj e
    rw [← e', hfc] at hc
    simp only [Option.some.injEq, Coll.field.injEq] at hc
    subst hc
    have hlink := fun b c l => Link.iff (cn := cn) hon hdocs hots.idsNodup a b c l
    rw [M.lift_bind_ok (show Coll.asOld (.oldTime oc) = .ok oc from rfl)]
    unfold getOld
    rw [M.bind_of_ok (show dbAt (cn ++ "_oldTime") db = (.ok (.oldTime oc), db) by simp [dbAt, DB.at_eq_ok.2 hon]),
      M.lift_bind_ok (show Coll.asOld (.oldTime oc) = .ok oc from rfl)]
    rcases find?_of_filter_key OT.next hots.nexts a with ⟨_, hfil, -⟩ | ⟨o, ho, hon', -, -⟩
    · have hnt : oc.findNextTime a = .ok "" := by
        rw [findNextTime_run hdocs, hfil]; rfl
      rw [M.lift_bind_ok hnt, ← e', M.bind_of_ok hfi]
      rfl
    · exact absurd ((hlink _ _ _).2 ⟨o, ho, hon', rfl, rfl, rfl⟩) (hno o.prev o.cur o.lvl)
  · intro hon
    have : dbAt (cn ++ "_oldTime") db = (.throw .outOfRange, db) := by
      simp [dbAt, DB.at, AMap.at?, hon]
    rw [M.bind_apply, this]

/-- In the example database no old time is recorded yet: read-only access does not return. -/
example : ∀ r, (oldTimeConst 0 ⟨"T", "T", "fields", true, 42⟩ exHist).1 ≠ .ok r := by
  intro r h
  obtain ⟨b, c, l, g, hl, -⟩ := ((C06_const exHist_reach (cn := "fields") (a := "T") (ty := 0) rfl (by decide) rfl).2 r).1 h
  exact exHist_noLink _ _ _ _ hl

/-- **C06, fields that are not registered**: for a field without a key, without the name of a collection or without a database, both
forms of `oldTime` throw, and the database stays as it is; a field that has all three is never rejected for this reason. -/
theorem C06_unregistered (ty : Nat) (f : FieldVal) (db : DB) :
    (f.key = "" ∨ f.coll = "" ∨ f.hasDb = false →
      oldTime ty f db = (.throw .runtimeError, db) ∧ oldTimeConst ty f db = (.throw .runtimeError, db)) ∧
    (f.key ≠ "" → f.coll ≠ "" → f.hasDb = true → validateRegistration f db = (.ok (), db)) := by
  constructor
  · intro h
    have hr : f.registered = false := by
      unfold FieldVal.registered
      rcases h with h | h | h <;> simp [h]
    have hv : validateRegistration f db = (.throw .runtimeError, db) := by unfold validateRegistration; rw [hr]; rfl
    constructor
    · unfold oldTime; rw [M.bind_apply, hv]
    · unfold oldTimeConst; rw [M.bind_apply, hv]
  · intro h1 h2 h3
    have hr : f.registered = true := by simp [FieldVal.registered, h1, h2, h3]
    unfold validateRegistration; rw [hr]; rfl

/-- The three ways of not being registered. -/
example : oldTime 0 ⟨"T", "T", "", true, 42⟩ exHist = (.throw .runtimeError, exHist) :=
  ((C06_unregistered 0 ⟨"T", "T", "", true, 42⟩ exHist).1 (Or.inr (Or.inl rfl))).1

end NeoFOAM
