import Verif.Model.Solve

/-!
# Model: the functions that make the terms of an equation

`NeoFOAM::dsl::exp` (include/NeoFOAM/dsl/explicit.hpp:24-33, src/dsl/explicit.cpp:9-25) and `NeoFOAM::dsl::imp`
(include/NeoFOAM/dsl/implicit.hpp:27-57), scalar fields. `dsl::temporal::ddt` (dsl/ddt.hpp:13-48) is left out: its class passes three arguments to
the four-argument constructor of `OperatorMixin`, so it does not compile when used.
-/
namespace NeoFOAM
variable {K : Type}

/-- What the terms refer to besides their own arguments: executor, mesh, cached sparsity pattern, interpolation scheme selected for the
divergence, weights and delta coefficients of the geometry scheme, and the contents of fresh memory. -/
structure Setting (K : Type) where
  e : ExecKind
  m : Mesh K
  sp : SparsityPattern
  sch : InterpScheme
  w : List K
  δ : List K
  junk : Nat → K

/-- One call of a term function. `of` is the field argument: `none` for the field the equation is solved for, otherwise another field. -/
inductive Call (K : Type) where
  | expDiv (flux : List K) (of : Option (VolField K K))
  | expFlux (flux : List K)
  | expSource (k : List K) (of : Option (VolField K K))
  | impDdt
  | impSource (k : List K) (of : Option (VolField K K))
  | impDiv (flux : List K) (of : Option (VolField K K))
  | impLaplacian (gamma : List K) (of : Option (VolField K K))

/-- The operator a call returns, with the default coefficient: `exp::div(faceFlux, phi)` (explicit.cpp:10-14), `exp::div(flux)`
(explicit.cpp:16-19), `exp::source` (explicit.cpp:21-25), `imp::ddt` (implicit.hpp:27-31), `imp::source` (33-38), `imp::div` (40-47),
`imp::laplacian` (49-56). The operators are taken as built with the selected schemes (C48). -/
def Call.op [Add K] [Sub K] [Mul K] [Div K] [Neg K] [Zero K] [One K] [LinearOrder K] (S : Setting K) (st : TimeState K K) : Call K → OpModel K K
  | .expDiv flux of => divOp S.e S.m S.sp (some S.sch) S.w S.junk flux (of.getD st.sol) .explicit Coeff.default
  | .expFlux flux => surfaceIntegrateOp S.e S.m flux (Coeff.ofScalar 1)
  | .expSource k of => sourceOp S.e S.m S.sp k (of.getD st.sol) .explicit Coeff.default
  | .impDdt => ddtOp S.e S.m S.sp st.sol st.oldTime .implicit Coeff.default
  | .impSource k of => sourceOp S.e S.m S.sp k (of.getD st.sol) .implicit Coeff.default
  | .impDiv flux of => divOp S.e S.m S.sp (some S.sch) S.w S.junk flux (of.getD st.sol) .implicit Coeff.default
  | .impLaplacian gamma of => laplacianOp S.e S.m S.sp true S.δ S.junk gamma (of.getD st.sol) .implicit Coeff.default

/-- `imp::ddt` returns a temporal operator, the others spatial ones (the return types in explicit.hpp and implicit.hpp). -/
def Call.sort : Call K → OpSort
  | .impDdt => .temporal
  | _ => .spatial

/-- The operators of all calls. -/
def callOps [Add K] [Sub K] [Mul K] [Div K] [Neg K] [Zero K] [One K] [LinearOrder K] (S : Setting K) (calls : List (Call K)) : OpsOf K K := fun st => calls.map (·.op S st)

end NeoFOAM
