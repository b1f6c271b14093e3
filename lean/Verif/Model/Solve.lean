import Verif.Model.Expression
import Verif.Model.Boundary

/-!
# Solving expressions: `dsl::solve`, the time integrators and the assembled expression
-/
namespace NeoFOAM
variable {K V : Type}

/-- What a run keeps between calls: the solution field and the internal field of its old-time field (`none`: `oldTime` has
not been called yet). The collection the old-time field lives in is modelled in `Model/Database.lean`; that it is created
once, as a copy, and found again is C06.
(core/database/oldTimeCollection.hpp:56-152) -/
structure TimeState (K V : Type) where
  sol : VolField K V
  old : Option (List V)

/-- `oldTime(solutionField).internalField()` (core/database/oldTimeCollection.hpp:74-100, 146-152): the first call copies the field. -/
def TimeState.oldTime (st : TimeState K V) : List V := st.old.getD st.sol.internal

/-- The operators of an expression hold references to the fields, so what the handles of the expression refer to depends on
the current fields.
(dsl/operator.hpp:22-66) -/
abbrev OpsOf (K V : Type) := TimeState K V → OpHeap K V

/-- `operator*(const scalar)` on the elements (fields/field.hpp:271-277); the version on memory blocks is `timesScalar`. -/
def scaleField [SMul K V] (e : ExecKind) (a : List V) (s : K) : NR (List V) :=
  elemKernel e 0 a.length (fun _ => .ok fun x => s • x) a

/-- `operator-(Field lhs, const Field& rhs)` on the elements (fields/field.hpp:453-458, fieldFreeFunctions.hpp:104-115). -/
def subField [Sub V] (e : ExecKind) (a b : List V) : NR (List V) :=
  if a.length ≠ b.length then NR.lift (.throw .dimensionMismatch)
  else elemKernel e 0 a.length (fun i => do
    let y ← rd b i
    return fun x => x - y) a

/-- `ForwardEuler::solve(eqn, solutionField, t, dt)` (timeIntegration/forwardEuler.hpp:36-56). -/
def forwardEuler [Add K] [Sub K] [Mul K] [Div K] [Neg K] [Zero K] [One K] [Add V] [Sub V] [Zero V] [SMul K V] (e : ExecKind) (m : Mesh K) (bcs : List (VolumeBoundary V))
    (ops : OpsOf K V) (eqn : Expr) (st : TimeState K V) (dt : K) : NR (TimeState K V) := do
  let source ← eqn.explicitOperationN (ops st) st.sol.internal.length
  let old := st.oldTime
  let sdt ← scaleField e source dt
  let new ← subField e old sdt
  let sol ← correctBoundaryConditions e m bcs { st.sol with internal := new }
  return ⟨sol, some sol.internal⟩

/-- A linear solver: what `solve(ls, x)` can leave in `x` (linearAlgebra/solver.hpp:30). -/
abbrev LinSolver (K : Type) := LinearSystem K → List K → NR (List K)

/-- The registered linear solvers: from a name and the settings to a solver.
(linearAlgebra/solver.hpp:14-41) -/
abbrev SolverTable (K : Type) := AMap String (Dict → LinSolver K)

/-- `Solver(exec, dict)` (linearAlgebra/solver.hpp:19-24, 57-58): an unknown name stops the program. -/
def createSolver (table : SolverTable K) (dict : Dict) : Res (LinSolver K) := do
  let key ← dict.get .str "solver"
  match key with
  | .str name => match AMap.find? table name with
    | some f => return f dict
    | none => .abort
  | _ => .abort

section
variable [Add K] [Sub K] [Mul K] [Div K] [Neg K] [Zero K] [One K]

/-- `rhs[i] -= expSource[i] * vol[i]` (dsl/solver.hpp:78-82, cellCentred/dsl/expression.hpp:92-96). -/
def subtractSource (e : ExecKind) (m : Mesh K) (src : List K) (ls : LinearSystem K) : NR (LinearSystem K) := do
  let r ← elemKernel e 0 ls.rhs.length (fun i => do
    let s ← rd src i
    let v ← rd m.cellVolumes i
    return fun x => x - s * v) ls.rhs
  return { ls with rhs := r }

/-- The system of a steady expression (dsl/solver.hpp:66-82). The pattern is built anew. -/
def steadySystem (e : ExecKind) (m : Mesh K) (heap : OpHeap K K) (eqn : Expr) : NR (LinearSystem K) := do
  let sp ← sparsityUpdate e m
  let ls ← NR.lift (createEmptyLinearSystem sp)
  let ls ← eqn.implicitOperation heap ls
  let src ← eqn.explicitOperationN heap m.nCells
  subtractSource e m src ls

/-- The steady branch of `dsl::solve` (dsl/solver.hpp:63-86). -/
def solveSteady (e : ExecKind) (m : Mesh K) (table : SolverTable K) (fvSolution : Dict) (ops : OpsOf K K) (eqn : Expr)
    (st : TimeState K K) : NR (TimeState K K) := do
  let ls ← steadySystem e m (ops st) eqn
  let solver ← NR.lift (createSolver table fvSolution)
  let x ← solver ls st.sol.internal
  return { st with sol := { st.sol with internal := x } }

/-- The system of `BackwardEuler::solve` (timeIntegration/backwardEuler.hpp:60-69). -/
def eulerSystem (e : ExecKind) (m : Mesh K) (heap : OpHeap K K) (eqn : Expr) (t dt : K) : NR (LinearSystem K) := do
  let sp ← sparsityUpdate e m
  let ls ← NR.lift (createEmptyLinearSystem sp)
  let ls ← eqn.implicitOperation heap ls
  eqn.implicitOperationT heap t dt ls

/-- `BackwardEuler::solve(eqn, solutionField, t, dt)` (timeIntegration/backwardEuler.hpp:44-80): `source` is computed and
never used. The operators see the old-time field because `oldTime` has been called before they assemble. -/
def backwardEuler (e : ExecKind) (m : Mesh K) (table : SolverTable K) (solutionDict : Dict) (ops : OpsOf K K) (eqn : Expr)
    (st : TimeState K K) (t dt : K) : NR (TimeState K K) := do
  let _source ← eqn.explicitOperationN (ops st) st.sol.internal.length
  let st1 : TimeState K K := ⟨st.sol, some st.oldTime⟩
  let ls ← eulerSystem e m (ops st1) eqn t dt
  let solver ← NR.lift (createSolver table solutionDict)
  let x ← solver ls st1.sol.internal
  return ⟨{ st1.sol with internal := x }, some x⟩

/-- What a `RungeKutta` object holds (timeIntegration/rungeKutta.hpp:138-149): its copy of the expression of the first call
(`none`: no call yet) and ARKode's memory, current time and current solution. The copy of the expression refers to the same
fields. -/
structure RKObj (K : Type) where
  expr : Option (OpsOf K K × Expr)
  tn : K
  yn : List K

/-- A new integrator (rungeKutta.hpp:75-77). -/
def RKObj.new : RKObj K := ⟨none, 0, []⟩

/-- `stringToERKTable(key)` (timeIntegration/sundials.hpp:57-75): all methods but one stop the program. -/
def stringToERKTable (key : String) : Res Unit := if key = "Forward-Euler" then .ok () else .abort

/-- `initSUNERKSolver` and `initODEMemory` (src/timeIntegration/rungeKutta.cpp:62-75, 121-142): ARKode starts at time `t` from a copy
of the old-time field. -/
def rkInit (schemeDict : Dict) (ops : OpsOf K K) (eqn : Expr) (old : List K) (t : K) : Res (RKObj K) := do
  let key ← schemeDict.get .str "Runge-Kutta-Method"
  match key with
  | .str s => do
    stringToERKTable s
    return ⟨some (ops, eqn), t, old⟩
  | _ => .abort

/-- `if (pdeExpr_ == nullptr) initSUNERKSolver(...)` (src/timeIntegration/rungeKutta.cpp:39). -/
def rkEnsure (schemeDict : Dict) (ops : OpsOf K K) (eqn : Expr) (old : List K) (t : K) (o : RKObj K) : Res (RKObj K) :=
  match o.expr with
  | none => rkInit schemeDict ops eqn old t
  | some _ => .ok o

/-- `explicitRKSolve(t, y, ydot, expr)` (timeIntegration/sundials.hpp:191-219): the right-hand side is evaluated with the fields the expression
refers to; of `y` only the length is used. -/
def explicitRKSolve (e : ExecKind) (o : RKObj K) (st : TimeState K K) (y : List K) : NR (List K) :=
  match o.expr with
  | none => NR.lift .abort
  | some (ops, eqn) => do
    let source ← eqn.explicitOperationN (ops st) y.length
    scaleField e source (-1 : K)

/-- `ARKodeEvolve(ark, tout, yout, &tret, ARK_ONE_STEP)` with a fixed step and the table `ARKODE_FORWARD_EULER_1_1` (Sundials, by its
documentation; called at src/timeIntegration/rungeKutta.cpp:44-46): the step starts from ARKode's own solution, what `yout` held is not
read. -/
def arkEvolve (e : ExecKind) (o : RKObj K) (st : TimeState K K) (dt : K) : NR (RKObj K) := do
  let ydot ← explicitRKSolve e o st o.yn
  return ⟨o.expr, o.tn + dt, List.zipWith (fun y k => y + dt * k) o.yn ydot⟩

/-- `NF_ASSERT` on a condition. (core/error.hpp:140-152) -/
def nfAssert (p : Prop) : NR Unit := fun out => (p ∧ out = .ok ()) ∨ (¬ p ∧ out = .abort)

/-- `sunNVectorToField` (timeIntegration/sundials.hpp:136-176). -/
def sunNVectorToField (e : ExecKind) (y : List K) (dst : List K) : NR (List K) :=
  elemKernel e 0 dst.length (fun i => do
    let x ← rd y i
    return fun _ => x) dst

/-- `RungeKutta::solve(exp, solutionField, t, dt)` (src/timeIntegration/rungeKutta.cpp:31-56). The boundary conditions are not
corrected. -/
def rungeKutta (e : ExecKind) (schemeDict : Dict) (ops : OpsOf K K) (eqn : Expr) (o : RKObj K) (st : TimeState K K) (t dt : K) :
    NR (RKObj K × TimeState K K) := do
  let st1 : TimeState K K := ⟨st.sol, some st.oldTime⟩
  let o1 ← NR.lift (rkEnsure schemeDict ops eqn st1.oldTime t o)
  let o2 ← arkEvolve e o1 st1 dt
  nfAssert (t + dt = o2.tn)
  let u ← sunNVectorToField e o2.yn st1.sol.internal
  return (o2, ⟨{ st1.sol with internal := u }, some u⟩)

/-- `TimeIntegration(schemeDict, solutionDict)` and its `solve` (timeIntegration/timeIntegration.hpp:74-82) with the
integrators named `forwardEuler` (forwardEuler.hpp:30), `backwardEuler` (backwardEuler.hpp:38) and, in builds with Sundials,
`Runge-Kutta` (rungeKutta.hpp:103). -/
def timeIntegrate (e : ExecKind) (m : Mesh K) (bcs : List (VolumeBoundary K)) (table : SolverTable K) (schemeDict solutionDict : Dict)
    (ops : OpsOf K K) (eqn : Expr) (st : TimeState K K) (t dt : K) : NR (TimeState K K) := do
  let type ← NR.lift (schemeDict.get .str "type")
  match type with
  | .str "forwardEuler" => forwardEuler e m bcs ops eqn st dt
  | .str "backwardEuler" => backwardEuler e m table solutionDict ops eqn st t dt
  | .str "Runge-Kutta" => do
    let r ← rungeKutta e schemeDict ops eqn .new st t dt
    return r.2
  | _ => NR.lift .abort

/-- `dsl::solve(exp, solution, t, dt, fvSchemes, fvSolution)` (dsl/solver.hpp:37-87), scalar fields. `exp.build` is left
out: the operators are taken as built. The time integrator gets `fvSchemes` as its solution dictionary (solver.hpp:57). -/
def dslSolve (e : ExecKind) (m : Mesh K) (bcs : List (VolumeBoundary K)) (table : SolverTable K) (fvSchemes fvSolution : Dict)
    (ops : OpsOf K K) (eqn : Expr) (st : TimeState K K) (t dt : K) : NR (TimeState K K) :=
  if eqn.temporal.length = 0 ∧ eqn.spatial.length = 0 then NR.lift .abort
  else if 0 < eqn.temporal.length then do
    let schemeDict ← NR.lift (fvSchemes.subDict "ddtSchemes")
    timeIntegrate e m bcs table schemeDict fvSchemes ops eqn st t dt
  else solveSteady e m table fvSolution ops eqn st

/-- `Expression::assemble(t, dt)` (cellCentred/dsl/expression.hpp:79-97) on the system the object holds. -/
def assembleExpr (e : ExecKind) (m : Mesh K) (heap : OpHeap K K) (eqn : Expr) (t dt : K) (ls : LinearSystem K) : NR (LinearSystem K) := do
  let src ← eqn.explicitOperationN heap m.nCells
  let src ← eqn.explicitOperationT heap t dt src
  let ls ← ls.reset e
  let ls ← eqn.implicitOperation heap ls
  let ls ← eqn.implicitOperationT heap t dt ls
  subtractSource e m src ls

/-- Kernel of `Expression::setReference` (cellCentred/dsl/expression.hpp:168-173): the range has one index, so the values it
reads are those before the loop. -/
def setReferenceBody (sp : SparsityPattern) (ls : LinearSystem K) (v : K) (c : Nat) : Res (List (Act LSArr K)) := do
  let r ← rd ls.matrix.rowOffs c
  let d ← rd sp.diagOffset c
  let diag ← rd ls.matrix.values (r + d)
  return Act.plain c .rhs c (· + diag * v) ++ Act.plain c .values (r + d) (· + diag)

/-- `Expression::setReference(refCell, refValue)` (cellCentred/dsl/expression.hpp:158-175). As written the template does not
compile when used (line 169 indexes a `Field`, whose `operator[]` is deleted); modelled with a view of `rowPtrs`. -/
def setReference (e : ExecKind) (sp : SparsityPattern) (refCell : Nat) (v : K) (ls : LinearSystem K) : NR (LinearSystem K) :=
  launchLS e refCell (refCell + 1) (setReferenceBody sp ls v) ls

/-- `Expression::solve(t, dt)` (cellCentred/dsl/expression.hpp:133-156). -/
def solveExpr (table : SolverTable K) (fvSolution : Dict) (eqn : Expr) (ls : LinearSystem K) (st : TimeState K K) : NR (TimeState K K) :=
  if eqn.temporal.length = 0 ∧ eqn.spatial.length = 0 then NR.lift .abort
  else if 0 < eqn.temporal.length then NR.lift .abort
  else do
    let solver ← NR.lift (createSolver table fvSolution)
    let _x ← solver ls st.sol.internal
    NR.lift .abort

end
end NeoFOAM
