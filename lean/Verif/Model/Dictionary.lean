import Verif.Model.AMap

/-!
# `Dictionary` and `TokenList`

`/repo/include/NeoFOAM/core/dictionary.hpp`, `/repo/src/core/dictionary.cpp`,
`/repo/include/NeoFOAM/core/tokenList.hpp`, `/repo/src/core/tokenList.cpp`.
-/
namespace NeoFOAM

/-- Run-time type of a `std::any`. `opaque n` stands for any further C++ type.
(C++ standard library; used at core/dictionary.hpp:171) -/
inductive Ty where
  | str | int | i64 | dict | tokens | field (n : Nat) | opaque (n : Nat)
  deriving DecidableEq, Repr

/-- The members of a field object (`VolumeField`/`SurfaceField`) that the database code touches:
`name`, `key`, `fieldCollectionName`, whether it holds a database
(`/repo/include/NeoFOAM/finiteVolume/cellCentred/fields/volumeField.hpp:26-210`,
`geometricField.hpp:25-33`). `payload` stands for all its data (mesh, values, boundary conditions). -/
structure FieldVal where
  name : String
  key : String
  coll : String
  hasDb : Bool
  payload : Nat
  deriving DecidableEq, Repr

/-- `std::any` values stored in dictionaries and token lists. The payload of a further C++ type is
abstracted to a number (identity of the stored object).
(C++ standard library; used at core/dictionary.hpp:171, core/tokenList.hpp:180) -/
inductive Any where
  | str (s : String)
  | int (i : Int)
  | i64 (i : Int)
  | field (ty : Nat) (f : FieldVal)
  | dict (d : List (String × Any))
  | tokens (ts : List Any) (next : Nat)
  | opaque (ty : Nat) (payload : Nat)

/-- `any::type()`.
(C++ standard library; used at core/dictionary.hpp:88-122) -/
def Any.ty : Any → Ty
  | .str _ => .str
  | .int _ => .int
  | .i64 _ => .i64
  | .field n _ => .field n
  | .dict _ => .dict
  | .tokens _ _ => .tokens
  | .opaque n _ => .opaque n

/-- `std::any_cast<T&>`: throws `bad_any_cast` on a type mismatch.
(C++ standard library; used at core/dictionary.hpp:88-122, core/tokenList.hpp:92-151) -/
def anyCast (t : Ty) (a : Any) : Res Any := if a.ty = t then .ok a else .throw .badAnyCast

/-- `Dictionary::data_` (dictionary.hpp:171). -/
abbrev Dict := AMap String Any

namespace Dict

/-- `Dictionary(initializer_list)` (dictionary.cpp:35-41): `data_.insert` keeps the first of
duplicate keys. -/
def ofInitList (l : List (String × Any)) : Dict :=
  l.foldl (fun d p => AMap.emplace d p.1 p.2) []

/-- `Dictionary::insert` (dictionary.cpp:43): `data_[key] = value`. -/
def insert (d : Dict) (k : String) (v : Any) : Dict := AMap.assign d k v

/-- `Dictionary::remove` (dictionary.cpp:45). -/
def remove (d : Dict) (k : String) : Dict := AMap.erase d k

/-- `Dictionary::contains` (dictionary.cpp:47). -/
def contains (d : Dict) (k : String) : Bool := AMap.contains d k

/-- `Dictionary::operator[]` (dictionary.cpp:49-73): rethrows `out_of_range` after logging. -/
def index (d : Dict) (k : String) : Res Any := AMap.at? d k

/-- `Dictionary::get<T>` (dictionary.hpp:88-122). -/
def get (t : Ty) (d : Dict) (k : String) : Res Any := d.index k >>= anyCast t

/-- `Dictionary::subDict` (dictionary.cpp:75-83). -/
def subDict (d : Dict) (k : String) : Res Dict :=
  d.index k >>= fun a => match a with
    | .dict d' => .ok d'
    | _ => .throw .badAnyCast

/-- `Dictionary::isDict` (dictionary.cpp:85-88). -/
def isDict (d : Dict) (k : String) : Bool :=
  d.contains k && match AMap.find? d k with
    | some (.dict _) => true
    | _ => false

/-- `Dictionary::keys` (dictionary.cpp:91-99). -/
def keys (d : Dict) : List String := AMap.keys d

/-- `Dictionary::empty` (dictionary.hpp:167). -/
def empty (d : Dict) : Bool := d.isEmpty

/-- `d.subDict(p1).subDict(p2)...insert(k, v)`: mutation through nested references.
(src/core/dictionary.cpp:43, 75-83) -/
def insertAt (d : Dict) : List String → String → Any → Res Dict
  | [], k, v => .ok (d.insert k v)
  | p :: ps, k, v => do
    let d' ← d.subDict p
    let d'' ← insertAt d' ps k v
    return AMap.modify d p (fun _ => .dict d'')

/-- `d.subDict(p1).subDict(p2)...operator[](k)`.
(src/core/dictionary.cpp:49-83) -/
def indexAt (d : Dict) : List String → String → Res Any
  | [], k => d.index k
  | p :: ps, k => do
    let d' ← d.subDict p
    indexAt d' ps k

end Dict

/-- `TokenList`: `data_` and the mutable read position `nextIndex_` (tokenList.hpp:180-181). -/
structure Tokens where
  data : List Any
  next : Nat := 0

namespace Tokens

/-- `TokenList::insert` (tokenList.cpp:29): `push_back`. -/
def insert (t : Tokens) (v : Any) : Tokens := { t with data := t.data ++ [v] }

/-- `TokenList::remove` (tokenList.cpp:31-34): `erase(begin()+index)`, undefined past the end. The
read position is not adjusted. -/
def remove (t : Tokens) (i : Nat) : Res Tokens :=
  if i < t.data.length then .ok { t with data := t.data.eraseIdx i } else .ub

/-- `TokenList::get<T>` (tokenList.hpp:92-151). -/
def get (ty : Ty) (t : Tokens) (i : Nat) : Res Any :=
  match t.data[i]? with
  | some a => anyCast ty a
  | none => .throw .outOfRange

/-- `TokenList::popFront<T>` (tokenList.hpp:70-76): typed read of element 0, then erase it. The read
position is not adjusted. -/
def popFront (ty : Ty) (t : Tokens) : Res (Any × Tokens) := do
  let a ← t.get ty 0
  return (a, { t with data := t.data.tail })

/-- `TokenList::next<T>` (tokenList.hpp:118-124, 160-166): typed read at the position, then advance;
an exception leaves the position. -/
def nextTok (ty : Ty) (t : Tokens) : Res (Any × Tokens) := do
  let a ← t.get ty t.next
  return (a, { t with next := t.next + 1 })

/-- `TokenList::empty` (tokenList.cpp:36) and `size` (38). -/
def empty (t : Tokens) : Bool := t.data.isEmpty
/-- `size()` (tokenList.cpp:38). -/
def size (t : Tokens) : Nat := t.data.length

end Tokens

/-- A call on a token list, for histories.
(the calls of core/tokenList.hpp) -/
inductive TokOp where
  | insert (v : Any)
  | next (ty : Ty)
  | popFront (ty : Ty)

/-- One call in a history: a call that throws leaves the list as it was (checked in `nextTok`,
`popFront`: the read happens before the update). Returns the token delivered, if any.
(the calls of core/tokenList.hpp) -/
def Tokens.apply (t : Tokens) : TokOp → Tokens × Option Any
  | .insert v => (t.insert v, none)
  | .next ty => match t.nextTok ty with
    | .ok (a, t') => (t', some a)
    | _ => (t, none)
  | .popFront ty => match t.popFront ty with
    | .ok (a, t') => (t', some a)
    | _ => (t, none)

/-- A history of calls: final list and the tokens delivered, in order.
(the calls of core/tokenList.hpp) -/
def Tokens.run (t : Tokens) : List TokOp → Tokens × List Any
  | [] => (t, [])
  | op :: ops =>
    let (t', o) := t.apply op
    let (t'', os) := t'.run ops
    (t'', o.toList ++ os)

/-- A mutating call on a dictionary, for histories.
(the calls of core/dictionary.hpp) -/
inductive DictOp where
  | insert (k : String) (v : Any)
  | remove (k : String)

/-- Histories of mutating calls on a dictionary.
(the calls of core/dictionary.hpp) -/
def Dict.apply (d : Dict) : DictOp → Dict
  | .insert k v => d.insert k v
  | .remove k => d.remove k

/-- A history of mutating calls. (the calls of core/dictionary.hpp) -/
def Dict.run (d : Dict) (ops : List DictOp) : Dict := ops.foldl Dict.apply d

end NeoFOAM
