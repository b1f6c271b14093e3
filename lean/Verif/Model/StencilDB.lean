import Verif.Model.AMap

/-!
# Objects cached with a mesh

`StencilDataBase` (finiteVolume/cellCentred/stencil/stencilDataBase.hpp), `GeometryScheme::readOrCreate`,
`SparsityPattern::readOrCreate`.
-/
namespace NeoFOAM

/-- The two kinds of cached objects.
(geometryScheme.cpp:16-24, sparsityPattern.cpp:20-28) -/
inductive StencilKind where
  | geometryScheme
  | sparsityPattern
  deriving DecidableEq, Repr

/-- The key each is stored under (geometryScheme.cpp:19, sparsityPattern.cpp:23). -/
def StencilKind.key : StencilKind → String
  | .geometryScheme => "GeometryScheme"
  | .sparsityPattern => "SparsityPattern"

/-- A `std::any` in the database: a shared pointer (the number of the object), or a user's value.
(stencilDataBase.hpp:96-104) -/
inductive StencilAny where
  | shared (k : StencilKind) (obj : Nat)
  | user (v : Nat)
  deriving DecidableEq, Repr

/-- A cached object: its kind and the mesh its member `mesh_` refers to (geometryScheme.hpp, sparsityPattern.hpp:51: a
reference). -/
structure StencilObj where
  kind : StencilKind
  mesh : Nat
  deriving DecidableEq, Repr

/-- Meshes with their databases (unstructuredMesh.hpp:273: a member, so copying a mesh copies it) and all objects made. -/
structure StencilWorld where
  db : Nat → AMap String StencilAny
  objs : List StencilObj

/-- `StencilDataBase::insert(key, value)` (stencilDataBase.hpp:35-39): `emplace`. -/
def StencilWorld.insert (w : StencilWorld) (m : Nat) (key : String) (v : StencilAny) : StencilWorld :=
  { w with db := fun i => if i = m then (w.db i).emplace key v else w.db i }

/-- `StencilDataBase::get<std::shared_ptr<…>>(key)` (stencilDataBase.hpp:66-70). -/
def StencilWorld.get (w : StencilWorld) (m : Nat) (k : StencilKind) (key : String) : Res Nat := do
  let a ← (w.db m).at? key
  match a with
  | .shared k' o => if k' = k then .ok o else .throw .badAnyCast
  | .user _ => .throw .badAnyCast

/-- The creating branch of `readOrCreate`.
(geometryScheme.cpp:19-22, sparsityPattern.cpp:23-26) -/
def StencilWorld.ensure (w : StencilWorld) (k : StencilKind) (m : Nat) : StencilWorld :=
  if (w.db m).contains k.key then w
  else ({ w with objs := w.objs ++ [⟨k, m⟩] } : StencilWorld).insert m k.key (.shared k w.objs.length)

/-- `GeometryScheme::readOrCreate(mesh)` (src/…/stencil/geometryScheme.cpp:16-24), `SparsityPattern::readOrCreate(mesh)`
(src/…/linearAlgebra/sparsityPattern.cpp:20-28): the object returned and the databases afterwards. That the constructor itself succeeds
is C14 and C27. -/
def StencilWorld.readOrCreate (w : StencilWorld) (k : StencilKind) (m : Nat) : Res Nat × StencilWorld :=
  let w' := w.ensure k m
  (w'.get m k k.key, w')

/-- What can happen to the databases: calls of `readOrCreate` for any mesh, values a user stores under other keys, and copying
a mesh `src` into the new mesh `dst` (the compiler-made copy constructor copies the database).
(the calls of stencilDataBase.hpp and the two readOrCreate functions) -/
inductive StencilEvent where
  | readOrCreate (k : StencilKind) (m : Nat)
  | insert (m : Nat) (key : String) (v : Nat)
  | copyMesh (src dst : Nat)

/-- One event.
(the calls of stencilDataBase.hpp) -/
def StencilWorld.event (w : StencilWorld) : StencilEvent → StencilWorld
  | .readOrCreate k m => (w.readOrCreate k m).2
  | .insert m key v => w.insert m key (.user v)
  | .copyMesh src dst => { w with db := fun i => if i = dst then w.db src else w.db i }

/-- A history.
(the calls of stencilDataBase.hpp) -/
def StencilWorld.events (w : StencilWorld) (l : List StencilEvent) : StencilWorld := l.foldl StencilWorld.event w

/-- No mesh has used its database.
(stencilDataBase.hpp:96-104) -/
def StencilWorld.start : StencilWorld := ⟨fun _ => [], []⟩

end NeoFOAM
