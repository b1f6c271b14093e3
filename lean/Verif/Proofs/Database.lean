import Verif.Props.C03_DocumentIds

/-!
# Helper lemmas about the database model
-/
namespace NeoFOAM

theorem M.bind_apply (x : M α) (f : α → M β) (s : DB) : (x >>= f) s =
    match x s with
    | (.ok a, s') => f a s'
    | (.throw e, s') => (.throw e, s')
    | (.abort, s') => (.abort, s')
    | (.ub, s') => (.ub, s') := rfl

theorem M.pure_apply (a : α) (s : DB) : (pure a : M α) s = (.ok a, s) := rfl
theorem M.lift_apply (r : Res α) (s : DB) : M.lift r s = (r, s) := rfl

theorem M.bind_ok {x : M α} {f : α → M β} {s s2 : DB} {b : β} (h : (x >>= f) s = (.ok b, s2)) :
    ∃ a s1, x s = (.ok a, s1) ∧ f a s1 = (.ok b, s2) := by
  rw [M.bind_apply] at h
  rcases hx : x s with ⟨r, s1⟩
  rw [hx] at h
  cases r with
  | ok a => exact ⟨a, s1, rfl, h⟩
  | throw e => simp at h
  | abort => simp at h
  | ub => simp at h

theorem M.bind_of_ok {x : M α} {f : α → M β} {s s1 : DB} {a : α} (h : x s = (.ok a, s1)) :
    (x >>= f) s = f a s1 := by
  rw [M.bind_apply, h]

theorem M.lift_bind_ok {r : Res α} {f : α → M β} {s : DB} {a : α} (h : r = .ok a) :
    (M.lift r >>= f) s = f a s := M.bind_of_ok (by rw [M.lift_apply, h])

theorem AMap.modify_same {κ : Type u} {ν : Type v} [DecidableEq κ] {m : AMap κ ν} {k : κ} {v : ν}
    (h : m.find? k = some v) : m.modify k (fun _ => v) = m := by
  induction m with
  | nil => rfl
  | cons p m ih =>
    obtain ⟨a, b⟩ := p
    simp only [AMap.find?_cons] at h
    simp only [AMap.modify]
    by_cases hk : a = k
    · simp only [hk, if_true, Option.some.injEq] at h ⊢
      rw [h]
    · simp only [hk, if_false] at h ⊢
      rw [ih h]

theorem AMap.modify_modify {κ : Type u} {ν : Type v} [DecidableEq κ] (m : AMap κ ν) (k : κ) (v w : ν) :
    (m.modify k (fun _ => v)).modify k (fun _ => w) = m.modify k (fun _ => w) := by
  induction m with
  | nil => rfl
  | cons p m ih =>
    obtain ⟨a, b⟩ := p
    simp only [AMap.modify]
    by_cases hk : a = k
    · simp [hk, AMap.modify]
    · simp [hk, AMap.modify, ih]

theorem DB.at_eq_ok {db : DB} {n : String} {c : Coll} :
    db.at n = .ok c ↔ db.colls.find? n = some c := by
  simp only [DB.at, AMap.at?]
  cases db.colls.find? n <;> simp

theorem AMap.at?_eq_ok {κ : Type u} {ν : Type v} [DecidableEq κ] {m : AMap κ ν} {k : κ} {v : ν} :
    m.at? k = .ok v ↔ m.find? k = some v := by
  simp only [AMap.at?]
  cases m.find? k <;> simp

theorem fieldInstanceConst_run {cn : String} {s : DB} {c : FieldColl}
    (h : s.colls.find? cn = some (.field c)) : fieldInstanceConst cn s = (.ok c, s) := by
  simp only [fieldInstanceConst, M.bind_apply, dbAt, DB.at_eq_ok.2 h]
  rfl

theorem fieldInstance_run {cn : String} {s : DB} {c : FieldColl}
    (h : s.colls.find? cn = some (.field c)) : fieldInstance cn s = (.ok c, s) := by
  have hc : s.colls.contains cn = true := by simp [AMap.contains, h]
  have e : s.insert cn (.field ⟨cn, []⟩) = s := by simp [DB.insert, AMap.emplace, hc]
  simp only [fieldInstance, M.bind_apply, dbInsert, e, DB.at_eq_ok.2 h]
  rfl

/-- Reading an entry after assigning another one. -/
theorem index_insert (d : Dict) (k : String) (v : Any) (k' : String) :
    (d.insert k v).index k' = if k' = k then .ok v else d.index k' := by
  simp only [Dict.index, Dict.insert, AMap.at?, AMap.find?_assign]
  by_cases h : k' = k <;> simp [h]

theorem getStr_insert_ne (d : Dict) {k k' : String} (v : Any) (h : k' ≠ k) :
    getStr (d.insert k v) k' = getStr d k' := by
  simp only [getStr, index_insert, h, if_false]

theorem getI64_insert_ne (d : Dict) {k k' : String} (v : Any) (h : k' ≠ k) :
    getI64 (d.insert k v) k' = getI64 d k' := by
  simp only [getI64, index_insert, h, if_false]

/-- The collection with the document `d` stored and its field marked as registered. -/
def FieldColl.stored (c : FieldColl) (id : String) (d : Dict) (ty : Nat) (f : FieldVal) : FieldColl :=
  ⟨c.name, (c.docs.emplace id d).modify id
    (fun _ => d.insert "field" (.field ty { f with key := id, coll := c.name }))⟩

/-- `registerField` on a fresh id. -/
theorem registerField_fresh {cn : String} {ty : Nat} {create : M Dict} {s s1 : DB} {d : Dict}
    {c : FieldColl} {id : String} {f : FieldVal} (hcr : create s = (.ok d, s1))
    (hv : validateFieldDoc d = true) (hc : s1.colls.find? cn = some (.field c))
    (hid : docIdOf d = .ok id) (hnew : c.docs.contains id = false) (hf : getField ty d = .ok f) :
    registerField cn ty create s = (.ok id, { s1 with
      colls := s1.colls.modify cn (fun _ => .field (c.stored id d ty f)) }) := by
  have hins : c.insert d = .ok (id, { c with docs := c.docs.emplace id d }) := by
    simp [FieldColl.insert, hid, hnew]
  have hat : (c.docs.emplace id d).at? id = .ok d := by
    rw [AMap.at?_eq_ok, AMap.find?_emplace]
    have : c.docs.find? id = none := by
      simpa [AMap.contains] using hnew
    simp [this]
  simp only [registerField]
  rw [M.bind_of_ok hcr]
  simp only [hv, Bool.true_eq_false, if_false]
  rw [M.bind_of_ok (fieldInstanceConst_run hc), M.lift_bind_ok hins]
  simp only [M.bind_apply, putField, M.lift_apply, hat, hf, AMap.modify_modify]
  rfl

/-- `registerField` on an id that is taken. -/
theorem registerField_dup {cn : String} {ty : Nat} {create : M Dict} {s s1 : DB} {d : Dict}
    {c : FieldColl} {id : String} (hcr : create s = (.ok d, s1))
    (hv : validateFieldDoc d = true) (hc : s1.colls.find? cn = some (.field c))
    (hid : docIdOf d = .ok id) (hdup : c.docs.contains id = true) (he : c.docs.contains "" = false) :
    registerField cn ty create s = (.throw .outOfRange, s1) := by
  have hins : c.insert d = .ok ("", c) := by simp [FieldColl.insert, hid, hdup]
  have hat : c.docs.at? "" = .throw .outOfRange := by
    have : c.docs.find? "" = none := by simpa [AMap.contains] using he
    simp [AMap.at?, this]
  simp only [registerField]
  rw [M.bind_of_ok hcr]
  simp only [hv, Bool.true_eq_false, if_false]
  rw [M.bind_of_ok (fieldInstanceConst_run hc), M.lift_bind_ok hins]
  simp only [M.bind_apply, putField, M.lift_apply, hat, AMap.modify_same hc]

/-- `registerField` of a document whose field has another type. -/
theorem registerField_wrongType {cn : String} {ty : Nat} {create : M Dict} {s s1 : DB} {d : Dict}
    {c : FieldColl} {id : String} (hcr : create s = (.ok d, s1))
    (hv : validateFieldDoc d = true) (hc : s1.colls.find? cn = some (.field c))
    (hid : docIdOf d = .ok id) (hnew : c.docs.contains id = false)
    (hf : getField ty d = .throw .badAnyCast) :
    registerField cn ty create s = (.throw .badAnyCast, { s1 with
      colls := s1.colls.modify cn (fun _ => .field { c with docs := c.docs.emplace id d }) }) := by
  have hins : c.insert d = .ok (id, { c with docs := c.docs.emplace id d }) := by
    simp [FieldColl.insert, hid, hnew]
  have hat : (c.docs.emplace id d).at? id = .ok d := by
    rw [AMap.at?_eq_ok, AMap.find?_emplace]
    have : c.docs.find? id = none := by
      simpa [AMap.contains] using hnew
    simp [this]
  simp only [registerField]
  rw [M.bind_of_ok hcr]
  simp only [hv, Bool.true_eq_false, if_false]
  rw [M.bind_of_ok (fieldInstanceConst_run hc), M.lift_bind_ok hins]
  simp only [M.bind_apply, putField, M.lift_apply, hat, hf]

/-- `registerField` of an invalid document or one whose id is not a string. -/
theorem registerField_invalid {cn : String} {ty : Nat} {create : M Dict} {s s1 : DB} {d : Dict}
    (hcr : create s = (.ok d, s1)) (hv : validateFieldDoc d = false) :
    registerField cn ty create s = (.throw .runtimeError, s1) := by
  simp only [registerField]
  rw [M.bind_of_ok hcr]
  simp only [hv, if_true, M.lift_apply]

theorem registerField_badId {cn : String} {ty : Nat} {create : M Dict} {s s1 : DB} {d : Dict}
    {c : FieldColl} {e : Exn} (hcr : create s = (.ok d, s1))
    (hv : validateFieldDoc d = true) (hc : s1.colls.find? cn = some (.field c))
    (hid : docIdOf d = .throw e) :
    registerField cn ty create s = (.throw e, s1) := by
  have hins : c.insert d = .throw e := by simp [FieldColl.insert, hid]
  simp only [registerField]
  rw [M.bind_of_ok hcr]
  simp only [hv, Bool.true_eq_false, if_false]
  rw [M.bind_of_ok (fieldInstanceConst_run hc)]
  simp only [M.bind_apply, M.lift_apply, hins]

theorem getStr_cases (d : Dict) (k : String) : (∃ s, getStr d k = .ok s) ∨ ∃ e, getStr d k = .throw e := by
  simp only [getStr, Dict.index, AMap.at?]
  cases AMap.find? d k with
  | none => simp
  | some a => cases a <;> simp

theorem getI64_cases (d : Dict) (k : String) : (∃ s, getI64 d k = .ok s) ∨ ∃ e, getI64 d k = .throw e := by
  simp only [getI64, Dict.index, AMap.at?]
  cases AMap.find? d k with
  | none => simp
  | some a => cases a <;> simp

theorem getField_cases {ty : Nat} {d : Dict} (h : d.contains "field" = true) :
    (∃ f, getField ty d = .ok f) ∨ getField ty d = .throw .badAnyCast := by
  simp only [Dict.contains, AMap.contains] at h
  simp only [getField, Dict.index, AMap.at?]
  cases hx : AMap.find? d "field" with
  | none => simp [hx] at h
  | some a =>
    cases a with
    | field t f => by_cases ht : t = ty <;> simp [ht]
    | _ => simp

end NeoFOAM
