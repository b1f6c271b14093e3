import Verif.Model.Solve
import Verif.Spec.Expression
import Verif.Spec.Boundary

/-!
# Specification: equations, exact solvers and time steps
-/
namespace NeoFOAM
open Finset
variable {K V : Type}

/-- What implicit contributions (`dv` to the coefficients, `dr` to the right hand side) add to the equation of cell `c` when
the cells have the values `x`: coefficients times values, minus the right hand side. -/
def implicitResidual [Field K] (m : Mesh K) (dv : Slot → K) (dr : Nat → K) (x : Nat → K) (c : Nat) : K :=
  dv (.diag c) * x c
    + (∑ f ∈ range m.nInternalFaces, if m.own f = c then dv (.upper f) * x (m.nbr f) else 0)
    + (∑ f ∈ range m.nInternalFaces, if m.nbr f = c then dv (.lower f) * x (m.own f) else 0)
    - dr c

/-- Whenever the solver returns, it returns a solution of the system. -/
def ExactSolver [Field K] (s : LinSolver K) : Prop :=
  ∀ ls x y, s ls x (.ok y) → y.length = ls.rhs.length ∧ ∀ i < ls.rhs.length, ls.residual (ix y) i = 0

section
variable [Field K]

/-- A solver that always returns a solution of a system that has one. -/
def Solving (s : LinSolver K) : Prop :=
  ExactSolver s ∧ ∀ ls x, (∃ y : List K, y.length = ls.rhs.length ∧ ∀ i < ls.rhs.length, ls.residual (ix y) i = 0) →
    (∃ y, s ls x (.ok y)) ∧ ∀ out, s ls x out → ∃ y, out = .ok y

/-- The system is stored on a sparsity pattern of the mesh, with a right hand side for every cell. -/
def LinearSystem.StoredFor (ls : LinearSystem K) (m : Mesh K) : Prop := ∃ sp : SparsityPattern, sp.For m ∧ ls.On sp m

/-- For the systems of the mesh and fields of its cells: whenever the solver returns, it returns a solution. -/
def ExactOn (m : Mesh K) (s : LinSolver K) : Prop :=
  ∀ ls x y, ls.StoredFor m → x.length = m.nCells → s ls x (.ok y) → y.length = m.nCells ∧ ∀ i < m.nCells, ls.residual (ix y) i = 0

/-- For the systems of the mesh and fields of its cells: the solver always returns a solution of a system that has one. -/
def SolvingOn (m : Mesh K) (s : LinSolver K) : Prop :=
  ∀ ls x, ls.StoredFor m → x.length = m.nCells → (∃ y : List K, y.length = m.nCells ∧ ∀ i < m.nCells, ls.residual (ix y) i = 0) →
    (∃ y, s ls x (.ok y)) ∧ ∀ out, s ls x out → ∃ y, out = .ok y ∧ y.length = m.nCells ∧ ∀ i < m.nCells, ls.residual (ix y) i = 0

theorem ExactSolver.on {s : LinSolver K} (h : ExactSolver s) (m : Mesh K) : ExactOn m s := by
  rintro ls x y ⟨sp, -, ho⟩ - hs
  have := h ls x y hs
  rwa [ho.rhsLen] at this

theorem Solving.on {s : LinSolver K} (h : Solving s) (m : Mesh K) : SolvingOn m s := by
  rintro ls x ⟨sp, hp, ho⟩ hx hy
  rw [← ho.rhsLen] at hy
  obtain ⟨h1, h2⟩ := h.2 ls x hy
  refine ⟨h1, fun out hout => ?_⟩
  obtain ⟨y, rfl⟩ := h2 out hout
  exact ⟨y, rfl, h.1.on m ls x y ⟨sp, hp, ho⟩ hx hout⟩

end

/-- The old-time field is the current field, or has not been asked for. -/
def TimeState.Synced (st : TimeState K V) : Prop := st.oldTime = st.sol.internal

/-- One explicit Euler step of `∂u/∂t + f(u) = 0`: the cells lose `dt · f`, a boundary face has what the last condition
storing into its patch prescribes for the new cell values, other boundary faces keep their data. -/
structure EulerStep [Field K] [AddCommGroup V] [Module K V] (m : Mesh K) (bcs : List (VolumeBoundary V)) (f : VolField K V → Nat → V)
    (dt : K) (φ φ' : VolField K V) : Prop where
  on : φ'.On m
  cells : ∀ c < m.nCells, φ'.cell c = φ.cell c - dt • f φ c
  bnd : ∀ b < m.nBoundaryFaces, ∀ pre c post, bcs = pre ++ c :: post → c.kind.Writes → c.patch.Has b →
    (∀ c' ∈ post, c'.kind.Writes → ¬ c'.patch.Has b) → Prescribes m φ' b c.kind (φ'.entry b)
  keep : ∀ b < m.nBoundaryFaces, (∀ c ∈ bcs, c.kind.Writes → ¬ c.patch.Has b) → φ'.entry b = φ.entry b

/-- A time loop: `n` calls of one step, step `k` with its own time step. -/
def timeLoop (step : K → TimeState K V → NR (TimeState K V)) (dt : Nat → K) : Nat → TimeState K V → NR (TimeState K V)
  | 0, st => pure st
  | n + 1, st => timeLoop step dt n st >>= step (dt n)

end NeoFOAM
