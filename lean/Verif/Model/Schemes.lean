import Verif.Model.Solve
import Verif.Model.Dictionary
import Verif.Model.Factory

/-!
# Selecting discretisation schemes from the input: `build`

The operators of an expression hold a strategy that `dsl::solve` builds from `fvSchemes`. Only the classes registered in
the repository are in the tables (users may register more, see C36).
-/
namespace NeoFOAM
variable {K V : Type}

/-- `Input = std::variant<Dictionary, TokenList>` (core/input.hpp:13). -/
inductive Input where
  | dict (d : Dict)
  | tokens (t : Tokens)

/-- The name a `create` function reads from its input: the entry of a dictionary, or the next token of a token list. The
read position of a token list is `mutable`, so reading through `const Input&` advances the position of the caller's list:
the input after the call is returned with the name (operators/divOperator.hpp:33-35, operators/laplacianOperator.hpp:33-35,
interpolation/surfaceInterpolation.hpp:38-41, faceNormalGradient/faceNormalGradient.hpp:34-37). -/
def Input.schemeName (entry : String) : Input → Res (String × Input)
  | .dict d => do
    let a ← d.get .str entry
    match a with
    | .str s => return (s, .dict d)
    | _ => .throw .badAnyCast
  | .tokens t => do
    let (a, t') ← t.nextTok .str
    match a with
    | .str s => return (s, .tokens t')
    | _ => .throw .badAnyCast

/-- The registered interpolations: `linear` (interpolation/linear.hpp:44-55) and `upwind` (interpolation/upwind.hpp:44-53); their
constructors read nothing from the input. -/
def interpFactory : Factory Input (InterpScheme × Input) :=
  (Factory.empty.addSubType ⟨"linear", fun i => .ok (.linear, i), "linear interpolation", "none"⟩).addSubType
    ⟨"upwind", fun i => .ok (.upwind, i), "upwind interpolation", "none"⟩

/-- `SurfaceInterpolationFactory::create(exec, mesh, inputs)` (interpolation/surfaceInterpolation.hpp:34-45). -/
def createInterp (i : Input) : Res (InterpScheme × Input) := do
  let (key, i) ← i.schemeName "surfaceInterpolation"
  interpFactory.create key i

/-- The registered face-normal gradients (faceNormalGradient/uncorrected.hpp:36-44). -/
inductive FaceGradScheme where
  | uncorrected
  deriving DecidableEq, Repr

/-- The table of face-normal gradients (faceNormalGradient/uncorrected.hpp:29-48). -/
def faceGradFactory : Factory Input (FaceGradScheme × Input) :=
  Factory.empty.addSubType ⟨"uncorrected", fun i => .ok (.uncorrected, i), "Uncorrected interpolation", "none"⟩

/-- `FaceNormalGradientFactory::create(exec, mesh, inputs)` (faceNormalGradient/faceNormalGradient.hpp:30-41). -/
def createFaceGrad (i : Input) : Res (FaceGradScheme × Input) := do
  let (key, i) ← i.schemeName "faceNormalGradient"
  faceGradFactory.create key i

/-- The table of divergence operators: `Gauss`, whose constructor creates its interpolation from the same input
(operators/gaussGreenDiv.hpp:43-51). -/
def divFactory : Factory Input (InterpScheme × Input) :=
  Factory.empty.addSubType ⟨"Gauss", fun i => createInterp i, "Gauss-Green Divergence", "none"⟩

/-- `DivOperatorFactory::create(exec, mesh, inputs)` (operators/divOperator.hpp:30-39). -/
def createDiv (i : Input) : Res (InterpScheme × Input) := do
  let (key, i) ← i.schemeName "DivOperator"
  divFactory.create key i

/-- Constructor of `GaussGreenLaplacian` (operators/gaussGreenLaplacian.hpp:51-54): first the interpolation, then the
face-normal gradient, from the same input. -/
def gaussLaplacianCtor (i : Input) : Res ((InterpScheme × FaceGradScheme) × Input) := do
  let (s, i) ← createInterp i
  let (g, i) ← createFaceGrad i
  return ((s, g), i)

/-- The table of Laplacian operators (operators/gaussGreenLaplacian.hpp:36-54). -/
def laplacianFactory : Factory Input ((InterpScheme × FaceGradScheme) × Input) :=
  Factory.empty.addSubType ⟨"Gauss", gaussLaplacianCtor, "Gauss-Green Laplacian", "none"⟩

/-- `LaplacianOperatorFactory::create(exec, mesh, inputs)` (operators/laplacianOperator.hpp:30-39). -/
def createLaplacian (i : Input) : Res ((InterpScheme × FaceGradScheme) × Input) := do
  let (key, i) ← i.schemeName "LaplacianOperator"
  laplacianFactory.create key i

/-- The tokens a `build` function hands to `create`: from a dictionary a copy of the list stored in a sub-dictionary, from a
token list a copy of it (operators/divOperator.hpp:172-184, operators/laplacianOperator.hpp:160-172). -/
def Input.schemeTokens (sect key : String) : Input → Res Tokens
  | .dict d => do
    let sub ← d.subDict sect
    let a ← sub.get .tokens key
    match a with
    | .tokens ts n => return ⟨ts, n⟩
    | _ => .throw .badAnyCast
  | .tokens t => return t

/-- `DivOperator::build(input)` (operators/divOperator.hpp:169-186): the strategy it creates. -/
def divBuild (fluxName phiName : String) (i : Input) : Res InterpScheme := do
  let ts ← i.schemeTokens "divSchemes" ("div(" ++ fluxName ++ "," ++ phiName ++ ")")
  let (s, _) ← createDiv (.tokens ts)
  return s

/-- `LaplacianOperator::build(input)` (operators/laplacianOperator.hpp:157-174). -/
def laplacianBuild (gammaName phiName : String) (i : Input) : Res (InterpScheme × FaceGradScheme) := do
  let ts ← i.schemeTokens "laplacianSchemes" ("laplacian(" ++ gammaName ++ "," ++ phiName ++ ")")
  let (s, _) ← createLaplacian (.tokens ts)
  return s

/-- Which `build` function an operator has: that of the divergence, that of the Laplacian, or the empty one
(operators/divOperator.hpp:169-186, operators/laplacianOperator.hpp:157-174, operators/ddtOperator.hpp:32,
operators/sourceTerm.hpp:34, operators/surfaceIntegrate.hpp:46, dsl/operator.hpp:53). -/
inductive TermKind where
  | div (fluxName phiName : String)
  | laplacian (gammaName phiName : String)
  | plain
  deriving DecidableEq, Repr

/-- The strategy pointer of an operator once built (operators/divOperator.hpp:192, operators/laplacianOperator.hpp:180). -/
inductive Strategy where
  | div (s : InterpScheme)
  | laplacian (s : InterpScheme) (g : FaceGradScheme)
  deriving DecidableEq, Repr

/-- An operator together with its strategy pointer; `model` gives its operations for every strategy and state of the fields
it refers to (dsl/spatialOperator.hpp:134-181). -/
structure Term (K V : Type) where
  kind : TermKind
  strategy : Option Strategy
  model : Option Strategy → TimeState K V → OpModel K V

/-- The strategy `build` creates for an operator that has one at the moment (`cur`).
(dsl/spatialOperator.hpp:160) -/
def TermKind.buildStrategy (cur : Option Strategy) (i : Input) : TermKind → Res (Option Strategy)
  | .div f p => do
    let s ← divBuild f p i
    return some (.div s)
  | .laplacian g p => do
    let s ← laplacianBuild g p i
    return some (.laplacian s.1 s.2)
  | .plain => return cur

/-- `build(input)` of one operator (dsl/spatialOperator.hpp:92, 160; dsl/temporalOperator.hpp:90, 162). -/
def Term.build (i : Input) (t : Term K V) : Res (Term K V) := do
  let s ← t.kind.buildStrategy t.strategy i
  return { t with strategy := s }

/-- The live operators with their strategies.
(the `unique_ptr`s of dsl/spatialOperator.hpp and dsl/temporalOperator.hpp) -/
abbrev TermHeap (K V : Type) := List (Term K V)

/-- `op.build(input)` through a handle (dsl/expression.hpp:36-43). -/
def buildAt (d : Dict) (heap : TermHeap K V) (h : Nat) : Res (TermHeap K V) :=
  match heap[h]? with
  | some t => do
    let t' ← t.build (.dict d)
    return heap.set h t'
  | none => .ub

/-- `Expression::build(input)` (dsl/expression.hpp:34-44). -/
def Expr.build (eqn : Expr) (d : Dict) (heap : TermHeap K V) : Res (TermHeap K V) := do
  let heap ← eqn.temporal.foldlM (buildAt d) heap
  eqn.spatial.foldlM (buildAt d) heap

/-- The operator models behind the handles, for the current strategies and fields.
(dsl/spatialOperator.hpp:134-181) -/
def TermHeap.ops (heap : TermHeap K V) : OpsOf K V := fun st => heap.map fun t => t.model t.strategy st

/-- `dsl::solve(exp, solution, t, dt, fvSchemes, fvSolution)` with its first step, building the operators
(dsl/solver.hpp:37-87); the operators keep what was built. -/
def dslSolveBuild [Add K] [Sub K] [Mul K] [Div K] [Neg K] [Zero K] [One K] (e : ExecKind) (m : Mesh K) (bcs : List (VolumeBoundary K)) (table : SolverTable K)
    (fvSchemes fvSolution : Dict) (eqn : Expr) (heap : TermHeap K K) (st : TimeState K K) (t dt : K) :
    NR (TermHeap K K × TimeState K K) :=
  if eqn.temporal.length = 0 ∧ eqn.spatial.length = 0 then NR.lift .abort
  else do
    let heap ← NR.lift (eqn.build fvSchemes heap)
    let st ← dslSolve e m bcs table fvSchemes fvSolution heap.ops eqn st t dt
    return (heap, st)

section
variable [Add K] [Sub K] [Mul K] [Div K] [Neg K] [Zero K] [One K] [LinearOrder K]

/-- `DivOperator` with its names and strategy pointer (operators/divOperator.hpp:83-195); the fields it refers to are given as
functions of the state. -/
def divTerm (e : ExecKind) (m : Mesh K) (sp : SparsityPattern) (w : List K) (junk : Nat → K) (fluxName phiName : String)
    (flux : List K) (phi : TimeState K K → VolField K K) (type : OpType) (coeff : Coeff K) : Term K K where
  kind := .div fluxName phiName
  strategy := none
  model := fun s st => divOp e m sp (match s with | some (.div sch) => some sch | _ => none) w junk flux (phi st) type coeff

/-- `LaplacianOperator` with its names and strategy pointer (operators/laplacianOperator.hpp:79-183). -/
def laplacianTerm (e : ExecKind) (m : Mesh K) (sp : SparsityPattern) (δ : List K) (junk : Nat → K) (gammaName phiName : String)
    (gamma : List K) (phi : TimeState K K → VolField K K) (type : OpType) (coeff : Coeff K) : Term K K where
  kind := .laplacian gammaName phiName
  strategy := none
  model := fun s st => laplacianOp e m sp (match s with | some (.laplacian _ _) => true | _ => false) δ junk gamma (phi st) type coeff

end
end NeoFOAM
