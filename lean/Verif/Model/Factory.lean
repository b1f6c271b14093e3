import Verif.Model.AMap
import Verif.Base.Launch

/-!
# Runtime selection (core/runtimeSelectionFactory.hpp)
-/
namespace NeoFOAM
variable {Args Obj : Type}

/-- A derived class: name, constructor (which may fail), documentation and schema.
(core/runtimeSelectionFactory.hpp:292-329) -/
structure DerivedClass (Args Obj : Type) where
  name : String
  ctor : Args → Res Obj
  doc : String
  schema : String

/-- The static tables of one base class: `table()` (runtimeSelectionFactory.hpp:360-364) and `docTable()` (374-378). -/
structure Factory (Args Obj : Type) where
  table : AMap String (Args → Res Obj)
  docTable : AMap String (String × String)

/-- Empty tables (runtimeSelectionFactory.hpp:360-378). -/
def Factory.empty : Factory Args Obj := ⟨[], []⟩

namespace Factory

/-- `Register<derivedClass>::addSubType()` (runtimeSelectionFactory.hpp:315-329): both tables are assigned. -/
def addSubType (F : Factory Args Obj) (c : DerivedClass Args Obj) : Factory Args Obj :=
  ⟨F.table.assign c.name c.ctor, F.docTable.assign c.name (c.doc, c.schema)⟩

/-- `keyExistsOrError(name)` (runtimeSelectionFactory.hpp:388-401): stops the program. -/
def keyExistsOrError (F : Factory Args Obj) (name : String) : Res Unit :=
  if (F.table.find? name).isSome then .ok () else .abort

/-- `create(key, args)` (runtimeSelectionFactory.hpp:259-264). -/
def create (F : Factory Args Obj) (key : String) (args : Args) : Res Obj := do
  F.keyExistsOrError key
  let f ← F.table.at? key
  f args

/-- `doc(derivedClassName)` (runtimeSelectionFactory.hpp:209-213). -/
def doc (F : Factory Args Obj) (name : String) : Res String := do
  let d ← F.docTable.at? name
  return d.1

/-- `schema(derivedClassName)` (runtimeSelectionFactory.hpp:221-225). -/
def schema (F : Factory Args Obj) (name : String) : Res String := do
  let d ← F.docTable.at? name
  return d.2

/-- `entries()` (runtimeSelectionFactory.hpp:235-243): the names in the table, in the order of the hash table, which is
unspecified. -/
def entries (F : Factory Args Obj) : NR (List String) := fun out => ∃ l, l.Perm F.table.keys ∧ out = .ok l

/-- `size()` (runtimeSelectionFactory.hpp:350). -/
def size (F : Factory Args Obj) : Nat := F.table.length

end Factory

/-- All base classes of a program with their names in `BaseClassDocumentation` (runtimeSelectionFactory.hpp:53-106). A base class
is identified by a number (its type); the functions stored for a name read the tables of that base class when called. -/
structure Factories (Args Obj : Type) where
  factory : Nat → Factory Args Obj
  docTable : AMap String Nat

/-- No registrations (runtimeSelectionFactory.hpp:101-105). -/
def Factories.empty : Factories Args Obj := ⟨fun _ => Factory.empty, []⟩

namespace Factories

/-- What happens while the static variables of a program are initialised: `RegisterDocumentation<Base>::init()` (runtimeSelectionFactory.hpp:138-143) or
`Register<Derived>::addSubType()`. -/
inductive Event (Args Obj : Type) where
  | base (id : Nat) (name : String)
  | derived (id : Nat) (c : DerivedClass Args Obj)

/-- One registration (runtimeSelectionFactory.hpp:59-63, 315-329). -/
def register (w : Factories Args Obj) : Event Args Obj → Factories Args Obj
  | .base id name => { w with docTable := w.docTable.assign name id }
  | .derived id c => { w with factory := fun k => if k = id then (w.factory k).addSubType c else w.factory k }

/-- A history of registrations. (static initialisation, runtimeSelectionFactory.hpp:138-155, 300-329) -/
def registerAll (w : Factories Args Obj) (es : List (Event Args Obj)) : Factories Args Obj := es.foldl register w

/-- `BaseClassDocumentation::doc(base, derived)` (runtimeSelectionFactory.hpp:72-75). -/
def doc (w : Factories Args Obj) (base derived : String) : Res String := do
  let id ← w.docTable.at? base
  (w.factory id).doc derived

/-- `BaseClassDocumentation::schema(base, derived)` (runtimeSelectionFactory.hpp:84-88). -/
def schema (w : Factories Args Obj) (base derived : String) : Res String := do
  let id ← w.docTable.at? base
  (w.factory id).schema derived

/-- `BaseClassDocumentation::entries(base)` (runtimeSelectionFactory.hpp:96-99). -/
def entries (w : Factories Args Obj) (base : String) : NR (List String) := do
  let id ← NR.lift (w.docTable.at? base)
  (w.factory id).entries

end Factories
end NeoFOAM
