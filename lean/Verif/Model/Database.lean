import Verif.Model.Dictionary

/-!
# Documents, collections, the database, field registration and old times

`/repo/src/core/database/{document,database,fieldCollection,oldTimeCollection}.cpp` and
`/repo/include/NeoFOAM/core/database/*.hpp`.

References returned by the C++ API (`FieldType&`, `FieldDocument&`) are modelled by the key under
which the object is stored; `std::unordered_map` nodes never move, so such references stay valid
while the entry exists. One database per process is modelled (every registered field's `db()` is
that database).
-/
namespace NeoFOAM

/-- `std::to_string(int)`.
(C++ standard library; used at core/database/document.hpp:91-95) -/
def intToString : Int → String
  | .ofNat n => n.repr
  | .negSucc n => "-" ++ (n + 1).repr

/-- Value held by a 32-bit `std::atomic<int>` after `n` increments from zero; atomic increments wrap
(two's complement) without undefined behaviour.
(C++ standard library; used at core/database/document.hpp:93) -/
def wrap32 (n : Nat) : Int :=
  if n % 2 ^ 32 < 2 ^ 31 then ((n % 2 ^ 32 : Nat) : Int) else ((n % 2 ^ 32 : Nat) : Int) - 2 ^ 32

/-- The string produced by the `n`-th `generateID` call (document.hpp:91-95). -/
def docId (n : Nat) : String := "doc_" ++ intToString (wrap32 n)

/-- `FieldCollection` (fieldCollection.hpp:206-349): its name and documents by id. -/
structure FieldColl where
  name : String
  docs : AMap String Dict

/-- `OldTimeCollection` (oldTimeCollection.hpp:56-136). -/
structure OldColl where
  name : String
  fcName : String
  docs : AMap String Dict

/-- `Collection`: type-erased collection (collection.hpp:28-205). `other` is any further collection
type. -/
inductive Coll where
  | field (c : FieldColl)
  | oldTime (c : OldColl)
  | other (tag : Nat)

/-- `Database` (database.hpp:16-108) together with the process-wide document counter
(document.hpp:93). -/
structure DB where
  colls : AMap String Coll
  ctr : Nat

/-- Computations on the database: an exception keeps the changes made before it.
(not in the code: the C++ objects are changed in place, core/database/database.hpp:16-108) -/
def M (α : Type) := DB → Res α × DB

namespace M
/-- Sequencing. (not in the code: see `M`, database.hpp) -/
def bind (x : M α) (f : α → M β) : M β := fun s =>
  match x s with
  | (.ok a, s') => f a s'
  | (.throw e, s') => (.throw e, s')
  | (.abort, s') => (.abort, s')
  | (.ub, s') => (.ub, s')
instance : Monad M where
  pure a := fun s => (.ok a, s)
  bind := bind
/-- A call that does not change the database.
(not in the code: see `M`, database.hpp) -/
def lift (r : Res α) : M α := fun s => (r, s)
/-- The current database. (not in the code: see `M`, database.hpp) -/
def get : M DB := fun s => (.ok s, s)
/-- Replace the database. (not in the code: see `M`, database.hpp) -/
def set (s : DB) : M Unit := fun _ => (.ok (), s)
end M

/-- `generateID` (document.hpp:91-95). -/
def generateID : M String := fun s => (.ok (docId s.ctr), { s with ctr := s.ctr + 1 })

/-- `Document(dict, validator)` (document.cpp:19-27): an id is generated in any case and stored
unless the dictionary already has one; then the validator runs. -/
def mkDocument (d : Dict) (validator : Dict → Bool) : M Dict := do
  let newId ← generateID
  let d' := if d.contains "id" then d else d.insert "id" (.str newId)
  if validator d' then pure d' else M.lift (.throw .runtimeError)

/-- `hasId` (document.cpp:9). -/
def hasId (d : Dict) : Bool := d.contains "id"

/-- `get<std::string>` with the string extracted.
(core/database/document.hpp, core/dictionary.hpp:88-122) -/
def getStr (d : Dict) (k : String) : Res String :=
  d.index k >>= fun a => match a with
    | .str s => .ok s
    | _ => .throw .badAnyCast

/-- `get<std::int64_t>`.
(core/dictionary.hpp:88-122) -/
def getI64 (d : Dict) (k : String) : Res Int :=
  d.index k >>= fun a => match a with
    | .i64 i => .ok i
    | _ => .throw .badAnyCast

/-- `get<std::int32_t>` (`int`).
(core/dictionary.hpp:88-122) -/
def getI32 (d : Dict) (k : String) : Res Int :=
  d.index k >>= fun a => match a with
    | .int i => .ok i
    | _ => .throw .badAnyCast

/-- `FieldDocument::field<FieldType>()` (fieldCollection.hpp:109-125): `get<FieldType>("field")`. -/
def getField (ty : Nat) (d : Dict) : Res FieldVal :=
  d.index "field" >>= fun a => match a with
    | .field t f => if t = ty then .ok f else .throw .badAnyCast
    | _ => .throw .badAnyCast

/-- `Document::id` (document.hpp:82). -/
def docIdOf (d : Dict) : Res String := getStr d "id"

/-- `validateFieldDoc` (fieldCollection.cpp:10-14). -/
def validateFieldDoc (d : Dict) : Bool :=
  d.contains "name" && d.contains "timeIndex" && d.contains "iterationIndex"
    && d.contains "subCycleIndex" && hasId d && d.contains "field"

/-- `CollectionMixin::find` (collection.hpp:269-280). -/
def findDocs (docs : AMap String Dict) (pred : Dict → Res Bool) : Res (List String) :=
  docs.foldlM (fun acc p => do
    if ← pred p.2 then do
      let i ← docIdOf p.2
      return acc ++ [i]
    else return acc) []

/-- `CollectionMixin::doc(id)` (collection.hpp:253-261), by value: a change through the reference is `editDoc`. -/
def collDoc (docs : AMap String Dict) (id : String) : Res Dict := docs.at? id

/-- A change of a document through the reference `doc(id)` returns (collection.hpp:253): any function of the dictionary. -/
def editDoc (docs : AMap String Dict) (id : String) (f : Dict → Dict) : Res (AMap String Dict) := do
  let _ ← docs.at? id
  return docs.modify id f

/-- `CollectionMixin::sortedKeys` (collection.hpp:322-331): the keys, in whatever order the map is iterated, after `std::sort`, of which the
standard's postcondition is used: the result is an ascending rearrangement. -/
def sortedKeys (docs : AMap String Dict) (out : List String) : Prop := out.Perm docs.keys ∧ out.Pairwise (fun a b => ¬ b < a)

/-- `FieldCollection::insert` (fieldCollection.cpp:55-64): the empty string when the id is taken. -/
def FieldColl.insert (c : FieldColl) (d : Dict) : Res (String × FieldColl) := do
  let id ← docIdOf d
  if c.docs.contains id then return ("", c)
  else return (id, { c with docs := c.docs.emplace id d })

/-- `Database::insert` (database.cpp:10-13): `try_emplace`; the collection now stored is returned. -/
def DB.insert (db : DB) (name : String) (c : Coll) : DB :=
  { db with colls := db.colls.emplace name c }

/-- `Database::contains` (database.cpp:15). -/
def DB.contains (db : DB) (name : String) : Bool := db.colls.contains name

/-- `Database::at` (database.cpp:17-19). -/
def DB.at (db : DB) (name : String) : Res Coll := db.colls.at? name

/-- `Database::size` (database.cpp:21). -/
def DB.size (db : DB) : Nat := db.colls.length

/-- `Database::remove` (database.cpp:23). -/
def DB.remove (db : DB) (name : String) : Bool × DB :=
  (db.colls.contains name, { db with colls := db.colls.erase name })

/-- `Collection::as<FieldCollection>` (collection.hpp:130-158). -/
def Coll.asField : Coll → Res FieldColl
  | .field c => .ok c
  | _ => .throw .badCast

/-- `Collection::as<OldTimeCollection>` (collection.hpp:130-158). -/
def Coll.asOld : Coll → Res OldColl
  | .oldTime c => .ok c
  | _ => .throw .badCast

/-- `db.insert(name, col)` in the database.
(src/core/database/database.cpp:10-13) -/
def dbInsert (name : String) (c : Coll) : M Coll := fun s =>
  let s' := s.insert name c
  (s'.at name, s')

/-- `db.at(name)`.
(src/core/database/database.cpp:17-19) -/
def dbAt (name : String) : M Coll := fun s => (s.at name, s)

/-- Store back a field collection changed through a reference.
(src/core/database/fieldCollection.cpp:55-74) -/
def putField (name : String) (c : FieldColl) : M Unit := fun s =>
  (.ok (), { s with colls := s.colls.modify name (fun _ => .field c) })

/-- Store back an old-time collection changed through a reference.
(src/core/database/oldTimeCollection.cpp:89-126) -/
def putOld (name : String) (c : OldColl) : M Unit := fun s =>
  (.ok (), { s with colls := s.colls.modify name (fun _ => .oldTime c) })

/-- `FieldCollection::instance(Database&, name)` (fieldCollection.cpp:70-74). -/
def fieldInstance (name : String) : M FieldColl := do
  let c ← dbInsert name (.field ⟨name, []⟩)
  M.lift c.asField

/-- `FieldCollection::instance(const Database&, name)` (fieldCollection.cpp:76-80). -/
def fieldInstanceConst (name : String) : M FieldColl := do
  let c ← dbAt name
  M.lift c.asField

/-- `VolumeField::registered` (volumeField.hpp:196). -/
def FieldVal.registered (f : FieldVal) : Bool := f.key ≠ "" && f.coll ≠ "" && f.hasDb

/-- `validateRegistration` (database.hpp:118-125). -/
def validateRegistration (f : FieldVal) : M Unit :=
  if f.registered then pure () else M.lift (.throw .runtimeError)

/-- `FieldCollection::registerField<FieldType>` (fieldCollection.hpp:333-348) on the collection stored
under `cn`. Returns the key of the field reference. -/
def registerField (cn : String) (ty : Nat) (create : M Dict) : M String := do
  let d ← create
  if validateFieldDoc d = false then M.lift (.throw .runtimeError) else do
  let c ← fieldInstanceConst cn
  let (key, c') ← M.lift (c.insert d)
  putField cn c'
  let fd ← M.lift (c'.docs.at? key)
  let f ← M.lift (getField ty fd)
  let fd' := fd.insert "field" (.field ty { f with key := key, coll := c'.name })
  putField cn { c' with docs := c'.docs.modify key (fun _ => fd') }
  return key

/-- `std::numeric_limits<std::int64_t>::max()`.
(C++ standard library; used at core/database/fieldCollection.hpp:390-401) -/
def i64Max : Int := 2 ^ 63 - 1

/-- The value given to the creator, or the one in the document when it was left at its default
(fieldCollection.hpp:390-401). -/
def orInherit (x : Int) (fd : Dict) (k : String) : Res Int := if x = i64Max then getI64 fd k else .ok x

/-- The index part of `CreateFromExistingField::operator()` (fieldCollection.hpp:386-402). -/
def inheritIndices (f : FieldVal) (t i s : Int) : M (Int × Int × Int) :=
  if f.registered then do
    let c ← fieldInstanceConst f.coll
    let fd ← M.lift (c.docs.at? f.key)
    let t ← M.lift (orInherit t fd "timeIndex")
    let i ← M.lift (orInherit i fd "iterationIndex")
    let s ← M.lift (orInherit s fd "subCycleIndex")
    return (t, i, s)
  else return (t, i, s)

/-- `CreateFromExistingField::operator()` (fieldCollection.hpp:376-411); the document is constructed
once and copied once by `FieldDocument(const Document&)` (fieldCollection.cpp:16). -/
def createFromExisting (name : String) (ty : Nat) (f : FieldVal) (t i s : Int) : M Dict := do
  let x ← inheritIndices f t i s
  let d ← mkDocument (Dict.ofInitList [("name", .str name), ("timeIndex", .i64 x.1),
    ("iterationIndex", .i64 x.2.1), ("subCycleIndex", .i64 x.2.2),
    ("field", .field ty { name := name, key := "", coll := "", hasDb := true, payload := f.payload })])
    validateFieldDoc
  mkDocument d validateFieldDoc

/-- A creator that wraps a user dictionary: `FieldDocument(Document(dict))`
(fieldCollection.cpp:16, document.cpp:19-27). `FieldDocument(field, t, i, s)`
(fieldCollection.hpp:48-65) is the special case of the five listed entries. -/
def createFromDict (d : Dict) : M Dict := do
  let d' ← mkDocument d hasId
  mkDocument d' validateFieldDoc

/-- The predicate of `findNextTime`/`findPreviousTime`: `doc.get<std::string>(k) == id`.
(src/core/database/oldTimeCollection.cpp:100-119) -/
def strEntryIs (k id : String) (d : Dict) : Res Bool := do
  let s ← getStr d k
  return s == id

/-- `OldTimeCollection::findNextTime` (oldTimeCollection.cpp:100-108). -/
def OldColl.findNextTime (c : OldColl) (id : String) : Res String := do
  match ← findDocs c.docs (strEntryIs "nextTime" id) with
  | [k] => return k
  | _ => return ""

/-- `OldTimeCollection::findPreviousTime` (oldTimeCollection.cpp:110-119). -/
def OldColl.findPreviousTime (c : OldColl) (id : String) : Res String := do
  match ← findDocs c.docs (strEntryIs "previousTime" id) with
  | [k] => return k
  | _ => return ""

/-- `OldTimeCollection::setCurrentFieldAndLevel` (oldTimeCollection.cpp:66-81). `level` is a 32-bit
integer; its overflow after 2^31 generations is not modelled. -/
def OldColl.setCurrentFieldAndLevel (c : OldColl) (d : Dict) : Res Dict := do
  let next ← getStr d "nextTime"
  let nextId ← c.findPreviousTime next
  if nextId = "" then do
    return (d.insert "currentTime" (.str next)).insert "level" (.int 1)
  else do
    let nextDoc ← c.docs.at? nextId
    let cur ← getStr nextDoc "currentTime"
    let lvl ← getI32 nextDoc "level"
    return (d.insert "currentTime" (.str cur)).insert "level" (.int (lvl + 1))

/-- `OldTimeCollection::insert` (oldTimeCollection.cpp:89-98); the result is ignored by its only
caller. -/
def OldColl.insert (c : OldColl) (d : Dict) : Res OldColl := do
  let id ← docIdOf d
  if c.docs.contains id then return c else return { c with docs := c.docs.emplace id d }

/-- `OldTimeCollection::instance(Database&, name, fieldCollectionName)` (oldTimeCollection.cpp:121-126). -/
def oldInstance (name fcName : String) : M OldColl := do
  let c ← dbInsert name (.oldTime ⟨name, fcName, []⟩)
  M.lift c.asOld

/-- `fieldDoc.timeIndex() - 1`: signed overflow is undefined.
(core/database/oldTimeCollection.hpp:74-100) -/
def decI64 (t : Int) : Res Int := if t = -(2 ^ 63) then .ub else .ok (t - 1)

/-- `OldTimeCollection::getOrInsert<FieldType>` (oldTimeCollection.hpp:74-100) on the old-time
collection stored under `on`. Returns the reference to the old field: (collection name, key). -/
def getOrInsert (on : String) (ty : Nat) (idNext : String) : M (String × String) := do
  let c ← dbAt on
  let oc ← M.lift c.asOld
  let nextId ← M.lift (oc.findNextTime idNext)
  let fc ← fieldInstance oc.fcName
  if nextId ≠ "" then do
    let od ← M.lift (oc.docs.at? nextId)
    let prev ← M.lift (getStr od "previousTime")
    let fd ← M.lift (fc.docs.at? prev)
    let _ ← M.lift (getField ty fd)
    return (oc.fcName, prev)
  else do
    let fd ← M.lift (fc.docs.at? idNext)
    let f ← M.lift (getField ty fd)
    let t ← M.lift (getI64 fd "timeIndex" >>= decI64)
    let i ← M.lift (getI64 fd "iterationIndex")
    let s ← M.lift (getI64 fd "subCycleIndex")
    let key ← registerField oc.fcName ty (createFromExisting (f.name ++ "_0") ty f t i s)
    let od ← mkDocument (Dict.ofInitList [("nextTime", .str f.key), ("previousTime", .str key),
      ("currentTime", .str ""), ("level", .int (-1))]) hasId
    let od ← M.lift (oc.setCurrentFieldAndLevel od)
    let oc' ← M.lift (oc.insert od)
    putOld on oc'
    return (oc.fcName, key)

/-- `OldTimeCollection::get<FieldType>` (oldTimeCollection.hpp:102-119), the read-only variant. -/
def getOld (on : String) (ty : Nat) (idNext : String) : M (String × String) := do
  let c ← dbAt on
  let oc ← M.lift c.asOld
  let nextId ← M.lift (oc.findNextTime idNext)
  let fc ← fieldInstanceConst oc.fcName
  if nextId ≠ "" then do
    let od ← M.lift (oc.docs.at? nextId)
    let prev ← M.lift (getStr od "previousTime")
    let fd ← M.lift (fc.docs.at? prev)
    let _ ← M.lift (getField ty fd)
    return (oc.fcName, prev)
  else M.lift .abort

/-- `oldTime(FieldType&)` (oldTimeCollection.hpp:146-152). -/
def oldTime (ty : Nat) (f : FieldVal) : M (String × String) := do
  validateRegistration f
  let fc ← fieldInstance f.coll
  let on := fc.name ++ "_oldTime"
  let _ ← oldInstance on fc.name
  getOrInsert on ty f.key

/-- `oldTime(const FieldType&)` (oldTimeCollection.hpp:162-168). -/
def oldTimeConst (ty : Nat) (f : FieldVal) : M (String × String) := do
  validateRegistration f
  let fc ← fieldInstanceConst f.coll
  let on := fc.name ++ "_oldTime"
  let c ← dbAt on
  let _ ← M.lift c.asOld
  getOld on ty f.key

end NeoFOAM
