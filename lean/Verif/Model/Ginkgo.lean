import Verif.Model.Dictionary

/-!
# Configuration of the Ginkgo solver from a dictionary
-/
namespace NeoFOAM

/-- `gko::config::pnode` (Ginkgo; used at src/linearAlgebra/ginkgo.cpp:7-66): empty, a string, an integer, a floating point number (named
by its bit pattern) or a map. -/
inductive PNode where
  | empty
  | str (s : String)
  | int (i : Int)
  | real (bits : Nat)
  | map (m : List (String × PNode))

/-- `pnode::operator bool`: not empty. (Ginkgo; used at src/linearAlgebra/ginkgo.cpp:25-47) -/
def PNode.isSet : PNode → Bool
  | .empty => false
  | _ => true

/-- The C++ types among the further types of `Any` that `parse` knows, with the values their payloads stand for; `widen` is the
conversion `float` → `double`. (src/linearAlgebra/ginkgo.cpp:29-47) -/
structure LeafTypes where
  cstr : Nat
  uint : Nat
  dbl : Nat
  flt : Nat
  chars : Nat → String
  toNat : Nat → Nat
  widen : Nat → Nat

/-- The constructors of `pnode` on a stored value: `pnode(std::string)`, `pnode(const char*)`, `pnode(integer)`, `pnode(double)`.
(Ginkgo; used at src/linearAlgebra/ginkgo.cpp:16) -/
def PNode.ofAny (T : LeafTypes) (t : Ty) : Any → PNode
  | .str s => .str s
  | .int i => .int i
  | .opaque _ p =>
    if t = .opaque T.cstr then .str (T.chars p)
    else if t = .opaque T.uint then .int (T.toNat p)
    else if t = .opaque T.dbl then .real p
    else .real (T.widen p)
  | _ => .empty

/-- `parseAny(blueprint)` (src/linearAlgebra/ginkgo.cpp:11-22): `t` is the type of the blueprint. -/
def parseAny (T : LeafTypes) (d : Dict) (key : String) (t : Ty) : Res PNode := do
  let a ← d.index key
  if a.ty = t then do
    let v ← d.get t key
    return PNode.ofAny T t v
  else return PNode.empty

/-- The chain of `if (auto node = parseAny(...)) return node;` and the final `NF_THROW` (src/linearAlgebra/ginkgo.cpp:24-49). -/
def parseChain (T : LeafTypes) (d : Dict) (key : String) : List Ty → Res PNode
  | [] => .throw .neofoam
  | t :: ts => do
    let n ← parseAny T d key t
    if n.isSet then return n else parseChain T d key ts

/-- `parseData(key)` (src/linearAlgebra/ginkgo.cpp:9-50). -/
def parseData (T : LeafTypes) (d : Dict) (key : String) : Res PNode :=
  parseChain T d key [.str, .opaque T.cstr, .int, .opaque T.uint, .opaque T.dbl, .opaque T.flt]

/-- Nested dictionaries are smaller. (not in the code: recursion of src/linearAlgebra/ginkgo.cpp:57 ends because dictionaries are finite) -/
theorem Dict.sizeOf_subDict {d : Dict} {k : String} {d' : Dict} (h : d.subDict k = .ok d') : sizeOf d' < sizeOf d := by
  have key : ∀ d : Dict, AMap.find? d k = some (.dict d') → sizeOf d' < sizeOf d := by
    intro d
    induction d with
    | nil => intro h; cases h
    | cons p d ih =>
      obtain ⟨a, b⟩ := p
      intro h
      rw [AMap.find?_cons] at h
      split at h
      · cases h; simp +arith
      · have := ih h; simp; omega
  unfold Dict.subDict Dict.index AMap.at? at h
  cases hf : AMap.find? d k with
  | none => simp [hf] at h
  | some a =>
    simp only [hf] at h
    cases a with
    | dict d2 => cases h; exact key d hf
    | _ => cases h

/-- `parse(dict)` (src/linearAlgebra/ginkgo.cpp:7-66): the loop over the keys, recursing into dictionaries. -/
def gkoParse (T : LeafTypes) (d : Dict) : Res PNode := do
  let r ← d.keys.foldlM (fun (result : AMap String PNode) key => do
    let node ← if d.isDict key then
        match _h : d.subDict key with
        | .ok d' => gkoParse T d'
        | .throw e => .throw e
        | .abort => .abort
        | .ub => .ub
      else parseData T d key
    return AMap.emplace result key node) []
  return .map r
termination_by sizeOf d
decreasing_by exact Dict.sizeOf_subDict _h

end NeoFOAM
