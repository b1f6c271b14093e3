import Verif.Model.LinearSystem
import Mathlib.Algebra.Field.Defs

/-!
# Coefficients of operators
-/
namespace NeoFOAM
variable {K : Type}

/-- `dsl::Coeff` (dsl/coeff.hpp:21-55). The view refers to a field that outlives the coefficient; the model
holds its elements. -/
structure Coeff (K : Type) where
  coeff : K
  view : List K
  hasView : Bool

/-- `Coeff()` (src/dsl/coeff.cpp:9). -/
def Coeff.default [One K] : Coeff K := ⟨1, [], false⟩
/-- `Coeff(scalar)` (coeff.cpp:11). -/
def Coeff.ofScalar (s : K) : Coeff K := ⟨s, [], false⟩
/-- `Coeff(scalar, field)` (coeff.cpp:13-15). -/
def Coeff.scaled (s : K) (field : List K) : Coeff K := ⟨s, field, true⟩
/-- `Coeff(field)` (coeff.cpp:17). -/
def Coeff.ofField [One K] (field : List K) : Coeff K := ⟨1, field, true⟩

/-- `operator[]` (coeff.hpp:35). -/
def Coeff.get [Mul K] (c : Coeff K) (i : Nat) : Res K :=
  if c.hasView then do
    let v ← rd c.view i
    return v * c.coeff
  else .ok c.coeff

/-- `operator*=(scalar)` (coeff.cpp:23-27). -/
def Coeff.mulScalar [Mul K] (c : Coeff K) (s : K) : Coeff K := { c with coeff := c.coeff * s }

/-- `operator*=(const Coeff&)` (coeff.cpp:29-43). -/
def Coeff.mul [Mul K] (c rhs : Coeff K) : Res (Coeff K) :=
  if c.hasView && rhs.hasView then .abort
  else
    let c' : Coeff K := if !c.hasView && rhs.hasView then { c with view := rhs.view, hasView := true } else c
    .ok (c'.mulScalar rhs.coeff)

/-- `detail::toField(coeff, field)` (coeff.cpp:48-65); the loop runs over the resized field. -/
def Coeff.toField [Mul K] [One K] (e : ExecKind) (c : Coeff K) : NR (List K) :=
  if c.hasView then
    elemKernel e 0 c.view.length (fun i => do
      let v ← c.get i
      return fun x => x * v) (List.replicate c.view.length 1)
  else do
    let v ← NR.lift (c.get 0)
    return [v]

end NeoFOAM
