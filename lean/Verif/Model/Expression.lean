import Verif.Model.Assembly

/-!
# Expressions of operators

The type-erased operators own their model through a pointer, so models live on a heap: a handle is the pointer held by
a `SpatialOperator` or `TemporalOperator` object.
-/
namespace NeoFOAM
variable {K V : Type}

/-- `Operator::Type` (dsl/operator.hpp:14-18). -/
inductive OpType where
  | implicit
  | explicit
  deriving DecidableEq, Repr

/-- Which of the two lists of an expression an operator belongs to (its static type).
(dsl/expression.hpp:147-149) -/
inductive OpSort where
  | temporal
  | spatial
  deriving DecidableEq, Repr

/-- `OperatorModel` (dsl/spatialOperator.hpp:134-181) and `TemporalOperatorModel` (dsl/temporalOperator.hpp:133-183):
type, coefficient and the two operations of the concrete operator, as functions of the coefficient, `t` and `dt` (a
spatial operator ignores the times). `none`: the concrete operator has no such function. The fields the concrete
operator refers to are part of the functions; name and `build` are left out. -/
structure OpModel (K V : Type) where
  type : OpType
  coeff : Coeff K
  expl : Option (Coeff K → K → K → List V → NR (List V))
  impl : Option (Coeff K → K → K → LinearSystem V → NR (LinearSystem V))

/-- `explicitOperation` through the type erasure: a missing function is skipped (spatialOperator.hpp:143-149,
temporalOperator.hpp:144-150). -/
def OpModel.runExpl (o : OpModel K V) (t dt : K) (src : List V) : NR (List V) :=
  match o.expl with
  | some f => f o.coeff t dt src
  | none => pure src

/-- `implicitOperation` through the type erasure (spatialOperator.hpp:151-157, temporalOperator.hpp:152-159). -/
def OpModel.runImpl (o : OpModel K V) (t dt : K) (ls : LinearSystem V) : NR (LinearSystem V) :=
  match o.impl with
  | some f => f o.coeff t dt ls
  | none => pure ls

/-- The live operator models.
(the `unique_ptr`s of dsl/spatialOperator.hpp and dsl/temporalOperator.hpp) -/
abbrev OpHeap (K V : Type) := List (OpModel K V)

/-- Computations that allocate and update operator models.
(not in the code: the operators are changed in place, dsl/spatialOperator.hpp) -/
abbrev HM (K V : Type) := StateT (OpHeap K V) Res

/-- Access through a handle.
(`model_->`, dsl/spatialOperator.hpp:60-120) -/
def HM.deref (h : Nat) : HM K V (OpModel K V) := fun s =>
  match s[h]? with
  | some o => .ok (o, s)
  | none => .ub

/-- `std::make_unique<OperatorModel>`.
(dsl/spatialOperator.hpp:60-64, 175-178) -/
def HM.alloc (o : OpModel K V) : HM K V Nat := fun s => .ok (s.length, s ++ [o])

/-- `model_->clone()`, hence copying an operator (spatialOperator.hpp:64, 175-178, temporalOperator.hpp:66, 177-180). -/
def HM.clone (h : Nat) : HM K V Nat := do
  let o ← HM.deref h
  HM.alloc o

/-- `getCoefficient() *= …`: in place.
(dsl/spatialOperator.hpp:187-210) -/
def HM.updCoeff (h : Nat) (f : Coeff K → Res (Coeff K)) : HM K V Unit := fun s =>
  match s[h]? with
  | some o => do
    let c ← f o.coeff
    return ((), s.set h { o with coeff := c })
  | none => .ub

/-- `operator*(scalar, SpatialOperator rhs)` (spatialOperator.hpp:187-193; temporalOperator.hpp:189-195): the parameter
is a copy, the result a copy of it. -/
def opScale [Mul K] (r : K) (h : Nat) : HM K V Nat := do
  let rhs ← HM.clone h
  let result ← HM.clone rhs
  HM.updCoeff result (fun c => .ok (c.mulScalar r))
  return result

/-- `operator*(const Coeff&, SpatialOperator rhs)` (spatialOperator.hpp:204-210; temporalOperator.hpp:206-212). -/
def opCoeff [Mul K] (c : Coeff K) (h : Nat) : HM K V Nat := do
  let rhs ← HM.clone h
  let result ← HM.clone rhs
  HM.updCoeff result (fun c' => c'.mul c)
  return result

/-- `operator*(const Field&, SpatialOperator rhs)` (spatialOperator.hpp:195-202; temporalOperator.hpp:197-204). -/
def opField [Mul K] [One K] (field : List K) (h : Nat) : HM K V Nat := do
  let rhs ← HM.clone h
  let result ← HM.clone rhs
  HM.updCoeff result (fun c' => c'.mul (Coeff.ofField field))
  return result

/-- `dsl::Expression` (dsl/expression.hpp:22-143); the executor is left out. -/
structure Expr where
  temporal : List Nat
  spatial : List Nat
  deriving Repr

/-- `Expression(exec)` (expression.hpp:27). -/
def Expr.empty : Expr := ⟨[], []⟩

/-- Copying an expression copies its vectors of operators (expression.hpp:29-32). -/
def Expr.copy (e : Expr) : HM K V Expr := do
  let t ← e.temporal.mapM HM.clone
  let s ← e.spatial.mapM HM.clone
  return ⟨t, s⟩

/-- `addOperator(oper)` (expression.hpp:103-108): `push_back` copies. -/
def Expr.addOperator (e : Expr) (k : OpSort) (h : Nat) : HM K V Expr := do
  let h' ← HM.clone h
  return match k with
    | .temporal => ⟨e.temporal ++ [h'], e.spatial⟩
    | .spatial => ⟨e.temporal, e.spatial ++ [h']⟩

/-- `addExpression(equation)` (expression.hpp:110-120). -/
def Expr.addExpression (e rhs : Expr) : HM K V Expr := do
  let e ← rhs.temporal.foldlM (fun e h => e.addOperator .temporal h) e
  rhs.spatial.foldlM (fun e h => e.addOperator .spatial h) e

/-- `size()` (expression.hpp:124). -/
def Expr.size (e : Expr) : Nat := e.temporal.length + e.spatial.length

/-- `operator+(Expression lhs, const Expression& rhs)` (expression.hpp:152-158). -/
def exprAdd (lhs rhs : Expr) : HM K V Expr := do
  let l ← lhs.copy
  l.addExpression rhs

/-- `operator+(Expression lhs, const SpatialOperator& rhs)` (expression.hpp:160-166). -/
def exprAddOp (lhs : Expr) (h : Nat) : HM K V Expr := do
  let l ← lhs.copy
  l.addOperator .spatial h

/-- `operator+(leftOperator lhs, rightOperator rhs)` (expression.hpp:168-177). -/
def opsAdd (k1 : OpSort) (h1 : Nat) (k2 : OpSort) (h2 : Nat) : HM K V Expr := do
  let lhs ← HM.clone h1
  let rhs ← HM.clone h2
  let e ← Expr.empty.addOperator k1 lhs
  e.addOperator k2 rhs

/-- `operator*(scalar scale, const Expression& es)` (expression.hpp:179-192). -/
def exprScale [Mul K] (r : K) (es : Expr) : HM K V Expr := do
  let e ← es.temporal.foldlM (fun e h => do
    let h' ← opScale r h
    e.addOperator .temporal h') Expr.empty
  es.spatial.foldlM (fun e h => do
    let h' ← opScale r h
    e.addOperator .spatial h') e

/-- `operator-(Expression lhs, const Expression& rhs)` (expression.hpp:195-201). -/
def exprSub [Mul K] [One K] [Neg K] (lhs rhs : Expr) : HM K V Expr := do
  let l ← lhs.copy
  let r ← exprScale (-1) rhs
  l.addExpression r

/-- `operator-(Expression lhs, const SpatialOperator& rhs)` (expression.hpp:203-209). -/
def exprSubOp [Mul K] [One K] [Neg K] (lhs : Expr) (h : Nat) : HM K V Expr := do
  let l ← lhs.copy
  let r ← opScale (-1) h
  l.addOperator .spatial r

/-- `operator-(leftOperator lhs, rightOperator rhs)` (expression.hpp:211-220). -/
def opsSub [Mul K] [One K] [Neg K] (k1 : OpSort) (h1 : Nat) (k2 : OpSort) (h2 : Nat) : HM K V Expr := do
  let lhs ← HM.clone h1
  let rhs ← HM.clone h2
  let e ← Expr.empty.addOperator k1 lhs
  let r ← opCoeff (Coeff.ofScalar (-1)) rhs
  e.addOperator k2 r

/-- One step of the loops in `explicitOperation` (expression.hpp:56-62, 68-74). -/
def explStep (t dt : K) (src : List V) (o : OpModel K V) : NR (List V) :=
  match o.type with
  | .explicit => o.runExpl t dt src
  | .implicit => pure src

/-- One step of the loops in `implicitOperation` (expression.hpp:82-88, 93-99). -/
def implStep (t dt : K) (ls : LinearSystem V) (o : OpModel K V) : NR (LinearSystem V) :=
  match o.type with
  | .implicit => o.runImpl t dt ls
  | .explicit => pure ls

/-- The loop of `explicitOperation` over one list of operators (expression.hpp:54-76). -/
def explOps (t dt : K) (ops : List (OpModel K V)) (src : List V) : NR (List V) := ops.foldlM (explStep t dt) src

/-- The loop of `implicitOperation` over one list of operators (expression.hpp:80-100). -/
def implOps (t dt : K) (ops : List (OpModel K V)) (ls : LinearSystem V) : NR (LinearSystem V) := ops.foldlM (implStep t dt) ls

/-- The models behind the handles.
(dsl/expression.hpp:54-100) -/
def HM.derefs (hs : List Nat) (s : OpHeap K V) : Res (List (OpModel K V)) := hs.mapM fun h => rd s h

/-- `explicitOperation(source)` (expression.hpp:54-64). A spatial operator does not see the times: zeros are passed. -/
def Expr.explicitOperation [Zero K] (e : Expr) (s : OpHeap K V) (src : List V) : NR (List V) := do
  let ops ← NR.lift (HM.derefs e.spatial s)
  explOps 0 0 ops src

/-- `explicitOperation(nCells)` (expression.hpp:47-51). -/
def Expr.explicitOperationN [Zero K] [Zero V] (e : Expr) (s : OpHeap K V) (nCells : Nat) : NR (List V) :=
  e.explicitOperation s (List.replicate nCells 0)

/-- `explicitOperation(source, t, dt)` (expression.hpp:66-76). -/
def Expr.explicitOperationT (e : Expr) (s : OpHeap K V) (t dt : K) (src : List V) : NR (List V) := do
  let ops ← NR.lift (HM.derefs e.temporal s)
  explOps t dt ops src

/-- `implicitOperation(ls)` (expression.hpp:80-89). -/
def Expr.implicitOperation [Zero K] (e : Expr) (s : OpHeap K V) (ls : LinearSystem V) : NR (LinearSystem V) := do
  let ops ← NR.lift (HM.derefs e.spatial s)
  implOps 0 0 ops ls

/-- `implicitOperation(ls, t, dt)` (expression.hpp:91-100). -/
def Expr.implicitOperationT (e : Expr) (s : OpHeap K V) (t dt : K) (ls : LinearSystem V) : NR (LinearSystem V) := do
  let ops ← NR.lift (HM.derefs e.temporal s)
  implOps t dt ops ls

section operators
variable {K : Type} [Add K] [Sub K] [Mul K] [Div K] [Neg K] [Zero K] [One K] [LinearOrder K]

/-- `DivOperator` (operators/divOperator.hpp:83-195) as an operator model; a strategy that has not been built stops
the program in both operations. -/
def divOp (e : ExecKind) (m : Mesh K) (sp : SparsityPattern) (scheme : Option InterpScheme) (w : List K) (junk : Nat → K)
    (flux : List K) (phi : VolField K K) (type : OpType) (coeff : Coeff K) : OpModel K K where
  type := type
  coeff := coeff
  expl := some fun c _ _ src => divExplicit e m scheme w junk flux phi c src
  impl := some fun c _ _ ls => match scheme with
    | none => NR.lift .abort
    | some _ => computeDivImp e m sp flux phi c ls

/-- `LaplacianOperator` (operators/laplacianOperator.hpp:79-183). -/
def laplacianOp (e : ExecKind) (m : Mesh K) (sp : SparsityPattern) (built : Bool) (δ : List K) (junk : Nat → K)
    (gamma : List K) (phi : VolField K K) (type : OpType) (coeff : Coeff K) : OpModel K K where
  type := type
  coeff := coeff
  expl := some fun c _ _ src => laplacianExplicit e m built δ junk gamma phi c src
  impl := some fun c _ _ ls => if built then computeLaplacianImpl e m sp δ gamma phi c ls else NR.lift .abort

/-- `SourceTerm` (operators/sourceTerm.hpp:19-42). -/
def sourceOp (e : ExecKind) (m : Mesh K) (sp : SparsityPattern) (k : List K) (phi : VolField K K) (type : OpType)
    (coeff : Coeff K) : OpModel K K where
  type := type
  coeff := coeff
  expl := some fun c _ _ src => sourceExplicit e k phi c src
  impl := some fun c _ _ ls => sourceImplicit e m sp k c ls

/-- `SurfaceIntegrate` (operators/surfaceIntegrate.hpp:31-86): no implicit function. -/
def surfaceIntegrateOp (e : ExecKind) (m : Mesh K) (flux : List K) (coeff : Coeff K) : OpModel K K where
  type := .explicit
  coeff := coeff
  expl := some fun c _ _ src => surfaceIntegrateExplicit e m flux c src
  impl := none

/-- `DdtOperator` (operators/ddtOperator.hpp:19-39); `old` is the field `oldTime` returns. -/
def ddtOp (e : ExecKind) (m : Mesh K) (sp : SparsityPattern) (phi : VolField K K) (old : List K) (type : OpType)
    (coeff : Coeff K) : OpModel K K where
  type := type
  coeff := coeff
  expl := some fun c _ dt src => ddtExplicit e m phi old c dt src
  impl := some fun c _ dt ls => ddtImplicit e m sp old c dt ls

end operators
end NeoFOAM
