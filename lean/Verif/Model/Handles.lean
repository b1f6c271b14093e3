import Verif.Model.Solve

/-!
# Objects that own a time integrator or a linear solver

`TimeIntegration` and `Solver` own the selected implementation through a `std::unique_ptr`. The integrators keep *references* to the two
dictionaries they are created with, so dictionaries are given here by their place in memory.
-/
namespace NeoFOAM
variable {K : Type}

/-- The dictionaries in memory; `none` if destroyed. (timeIntegration/timeIntegration.hpp:48-49 refers to them) -/
abbrev Dicts := List (Option Dict)

/-- Reading through a reference; undefined if the dictionary is gone. (timeIntegration/timeIntegration.hpp:48-49) -/
def Dicts.read (ds : Dicts) (a : Nat) : Res Dict :=
  match ds[a]? with
  | some (some d) => .ok d
  | _ => .ub

/-- The registered integrators: `ForwardEuler` (forwardEuler.hpp:15-63), `BackwardEuler` (backwardEuler.hpp:22-86) and, in builds with
Sundials, `RungeKutta` (rungeKutta.hpp:48-188) with what it keeps. -/
inductive Integrator (K : Type) where
  | forward
  | backward
  | rk (o : RKObj K)

/-- `TimeIntegration` (timeIntegration.hpp:57-88): the integrator (`none`: a null pointer) and where its dictionaries are
(timeIntegration.hpp:48-49). -/
structure TimeInt (K : Type) where
  scheme : Nat
  sol : Nat
  impl : Option (Integrator K)

/-- `TimeIntegration(schemeDict, solutionDict)` (timeIntegration.hpp:74-78): an unknown type stops the program. -/
def TimeInt.create [Add K] [Sub K] [Mul K] [Div K] [Neg K] [Zero K] [One K] (ds : Dicts) (scheme sol : Nat) : Res (TimeInt K) := do
  let d ← ds.read scheme
  let type ← d.get .str "type"
  match type with
  | .str "forwardEuler" => return ⟨scheme, sol, some .forward⟩
  | .str "backwardEuler" => return ⟨scheme, sol, some .backward⟩
  | .str "Runge-Kutta" => return ⟨scheme, sol, some (.rk .new)⟩
  | _ => .abort

/-- The copy constructor (timeIntegration.hpp:68-69). `ForwardEuler` and `BackwardEuler` are copied with their references
(forwardEuler.hpp:58-61, backwardEuler.hpp:82-85). The copy constructor of `RungeKutta` (src/timeIntegration/rungeKutta.cpp:9-22) leaves
the context of the copy null and then has `initODEMemory` dereference it (rungeKutta.cpp:121-131). -/
def TimeInt.copy (T : TimeInt K) : Res (TimeInt K) :=
  match T.impl with
  | none => .ub
  | some .forward => .ok ⟨T.scheme, T.sol, some .forward⟩
  | some .backward => .ok ⟨T.scheme, T.sol, some .backward⟩
  | some (.rk _) => .ub

/-- The move constructor (timeIntegration.hpp:71-72): the new object and what is left of the old one. -/
def TimeInt.move (T : TimeInt K) : TimeInt K × TimeInt K := (T, { T with impl := none })

section
variable [Add K] [Sub K] [Mul K] [Div K] [Neg K] [Zero K] [One K]

/-- `RungeKutta::solve` reads its scheme dictionary only while it has not been set up (src/timeIntegration/rungeKutta.cpp:39, 134-139). -/
def rkDictionary (ds : Dicts) (scheme : Nat) (o : RKObj K) : Res Dict :=
  match o.expr with
  | none => ds.read scheme
  | some _ => .ok []

/-- `TimeIntegration::solve(eqn, sol, t, dt)` (timeIntegration.hpp:80-83). -/
def TimeInt.solve (e : ExecKind) (m : Mesh K) (bcs : List (VolumeBoundary K)) (table : SolverTable K) (ds : Dicts) (ops : OpsOf K K) (eqn : Expr)
    (t dt : K) (T : TimeInt K) (st : TimeState K K) : NR (TimeInt K × TimeState K K) :=
  match T.impl with
  | none => NR.lift .ub
  | some .forward => do
    let st' ← forwardEuler e m bcs ops eqn st dt
    return (T, st')
  | some .backward => do
    let d ← NR.lift (ds.read T.sol)
    let st' ← backwardEuler e m table d ops eqn st t dt
    return (T, st')
  | some (.rk o) => do
    let d ← NR.lift (rkDictionary ds T.scheme o)
    let r ← rungeKutta e d ops eqn o st t dt
    return ({ T with impl := some (.rk r.1) }, r.2)

end

/-- `Solver` (linearAlgebra/solver.hpp:43-69): the selected solver, `none` for a null pointer. -/
structure SolverObj (K : Type) where
  impl : Option (LinSolver K)

/-- `Solver(exec, dict)` (linearAlgebra/solver.hpp:57-58). -/
def SolverObj.create (table : SolverTable K) (d : Dict) : Res (SolverObj K) := do
  let s ← createSolver table d
  return ⟨some s⟩

/-- The copy constructor (linearAlgebra/solver.hpp:48-49): `clone()` of a null pointer is undefined; `clone` of both solvers returns a null
pointer (linearAlgebra/ginkgo.hpp:63-67, petsc.hpp:71-75). -/
def SolverObj.copy (s : SolverObj K) : Res (SolverObj K) :=
  match s.impl with
  | none => .ub
  | some _ => .ok ⟨none⟩

/-- The move constructor (linearAlgebra/solver.hpp:51-52). -/
def SolverObj.move (s : SolverObj K) : SolverObj K × SolverObj K := (s, ⟨none⟩)

/-- `Solver::solve(ls, field)` (linearAlgebra/solver.hpp:60-63). -/
def SolverObj.solve (s : SolverObj K) (ls : LinearSystem K) (x : List K) : NR (List K) :=
  match s.impl with
  | none => NR.lift .ub
  | some f => f ls x

end NeoFOAM
