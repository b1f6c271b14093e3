import Verif.Base.Res
import Verif.Model.Mesh

/-!
# The primitive `Vector`

Scalars are the elements of a field; arguments passed by reference to a changing operator may refer to a component of the object itself.
-/
namespace NeoFOAM
variable {K : Type}

/-- `Vector()` (core/primitives/vector.hpp:26-32). -/
def vecDefault [Zero K] : Vec K := (0, 0, 0)

/-- `Vector(x, y, z)` (vector.hpp:34-40). -/
def vecMake (x y z : K) : Vec K := (x, y, z)

/-- `Vector(constValue)` (vector.hpp:42-48). -/
def vecConst (c : K) : Vec K := (c, c, c)

/-- Reading `operator[]` / `operator()` (vector.hpp:71-81): past the third component is undefined. -/
def vecGet (v : Vec K) : Nat → Res K
  | 0 => .ok v.1
  | 1 => .ok v.2.1
  | 2 => .ok v.2.2
  | _ => .ub

/-- Writing through the reference `operator[]` / `operator()` gives (vector.hpp:71-78). -/
def vecSet (v : Vec K) (x : K) : Nat → Res (Vec K)
  | 0 => .ok (x, v.2.1, v.2.2)
  | 1 => .ok (v.1, x, v.2.2)
  | 2 => .ok (v.1, v.2.1, x)
  | _ => .ub

/-- `operator==` (vector.hpp:83-87). -/
def vecEq [DecidableEq K] (a b : Vec K) : Bool := a.1 == b.1 && a.2.1 == b.2.1 && a.2.2 == b.2.2

/-- `operator+` (vector.hpp:89-93). -/
def vecAdd [Add K] (a b : Vec K) : Vec K := vecMake (a.1 + b.1) (a.2.1 + b.2.1) (a.2.2 + b.2.2)

/-- `operator-` (vector.hpp:104-108). -/
def vecSub [Sub K] (a b : Vec K) : Vec K := vecMake (a.1 - b.1) (a.2.1 - b.2.1) (a.2.2 - b.2.2)

/-- `operator*(scalar)` and, after conversion, `operator*(label)` (vector.hpp:119-130). -/
def vecMul [Mul K] (a : Vec K) (s : K) : Vec K := vecMake (a.1 * s) (a.2.1 * s) (a.2.2 * s)

/-- What a `const Vector&` argument of a changing operator may refer to.
(vector.hpp:95-117) -/
inductive VecRef (K : Type) where
  | other (v : Vec K)
  | self

/-- The vector a reference reads while the object is `v` (vector.hpp:95-117). -/
def VecRef.read (v : Vec K) : VecRef K → Vec K
  | .other w => w
  | .self => v

/-- What a `const scalar&` argument may refer to: a scalar elsewhere or a component of the object.
(vector.hpp:133-140) -/
inductive ScalarRef (K : Type) where
  | other (s : K)
  | cmpt (i : Nat)

/-- The scalar a reference reads while the object is `v` (vector.hpp:133-140). -/
def ScalarRef.read (v : Vec K) : ScalarRef K → Res K
  | .other s => .ok s
  | .cmpt i => vecGet v i

/-- `operator+=` (vector.hpp:95-102): the components one after the other, the argument read each time. -/
def vecAddAssign [Add K] (v : Vec K) (rhs : VecRef K) : Vec K :=
  let v := (v.1 + (rhs.read v).1, v.2.1, v.2.2)
  let v := (v.1, v.2.1 + (rhs.read v).2.1, v.2.2)
  (v.1, v.2.1, v.2.2 + (rhs.read v).2.2)

/-- `operator-=` (vector.hpp:110-117). -/
def vecSubAssign [Sub K] (v : Vec K) (rhs : VecRef K) : Vec K :=
  let v := (v.1 - (rhs.read v).1, v.2.1, v.2.2)
  let v := (v.1, v.2.1 - (rhs.read v).2.1, v.2.2)
  (v.1, v.2.1, v.2.2 - (rhs.read v).2.2)

/-- `operator*=` (vector.hpp:133-140). -/
def vecMulAssign [Mul K] (v : Vec K) (rhs : ScalarRef K) : Res (Vec K) := do
  let s ← rhs.read v
  let v := (v.1 * s, v.2.1, v.2.2)
  let s ← rhs.read v
  let v := (v.1, v.2.1 * s, v.2.2)
  let s ← rhs.read v
  return (v.1, v.2.1, v.2.2 * s)

/-- `operator*(scalar, Vector)` (vector.hpp:148-153): the vector is a copy, so the scalar may be a component of the original (`orig`). -/
def scalarMulVec [Mul K] (orig : Vec K) (sclr : ScalarRef K) (rhs : Vec K) : Res (Vec K) := do
  let s ← sclr.read orig
  vecMulAssign rhs (.other s)

end NeoFOAM
