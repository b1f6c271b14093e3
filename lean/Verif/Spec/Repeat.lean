import Verif.Model.Calls
import Verif.Spec.Expression

/-!
# Specification: repeating a run

Nothing here needs laws of arithmetic: the operations may be those of floating-point numbers.
-/
namespace NeoFOAM
variable {K : Type}

/-- The call always ends in the same way, `r`: with this value, this exception, … -/
def NR.Is {α : Type u} (X : NR α) (r : Res α) : Prop := ∀ out, X out ↔ out = r

/-- Whatever system and starting values they get, the linear solvers always end in the same way. -/
def SolverTable.Repeatable (table : SolverTable K) : Prop :=
  ∀ name mk, AMap.find? table name = some mk → ∀ (settings : Dict) (ls : LinearSystem K) (x : List K), ∃ r, NR.Is (mk settings ls x) r

section
variable [Add K] [Sub K] [Mul K] [Div K] [Neg K] [Zero K] [One K] [LinearOrder K]

/-- A program on a mesh with given weights `w` and delta coefficients `δ`: compute the sparsity pattern, then, `n` times, write an expression
with the `exp::` and `imp::` functions and solve it at time `t k` with step `dt k`. In step `k` the fresh memory holds `junk k`. -/
def solveLoop (e : ExecKind) (m : Mesh K) (sch : InterpScheme) (w δ : List K) (junk : Nat → Nat → K) (calls : List (Call K)) (tr : ExT K)
    (bcs : List (VolumeBoundary K)) (table : SolverTable K) (fvSchemes fvSolution : Dict) (t dt : Nat → K) (n : Nat) (st : TimeState K K) :
    NR (TimeState K K) := do
  let sp ← sparsityUpdate e m
  (List.range n).foldlM (fun st k => do
    let p ← NR.lift (tr.build (callOps ⟨e, m, sp, sch, w, δ, junk k⟩ calls st))
    let ops : OpsOf K K := fun st' => match tr.build (callOps ⟨e, m, sp, sch, w, δ, junk k⟩ calls st') with | .ok q => q.2 | _ => []
    dslSolve e m bcs table fvSchemes fvSolution ops p.1 st (t k) (dt k)) st

end
end NeoFOAM
