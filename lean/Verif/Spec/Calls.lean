import Verif.Model.Calls
import Verif.Spec.ConvDiff

/-!
# Specification: the equation a user writes with the term functions
-/
namespace NeoFOAM
variable {K : Type} [Field K] [LinearOrder K]

/-- Values of the field argument in the cells: those of the other field, or the new values `x` of the field the equation is for. -/
def argCells (of : Option (VolField K K)) (x : Nat → K) : Nat → K :=
  match of with
  | none => x
  | some ψ => ψ.cell

/-- What a term stands for in cell `c` (per volume) when the step or solve goes from the state `st` to the cell values `x`: explicit terms at the old
values, implicit terms at the new ones. Implicit divergence and Laplacian take the boundary data the field has. -/
def Call.value (S : Setting K) (dt : K) (st : TimeState K K) (x : Nat → K) : Call K → Nat → K
  | .expDiv flux of, c => S.m.netOutflow (fun f => ix flux f * Mesh.schemeFace S.sch S.m (ix S.w) (ix flux) (of.getD st.sol) f) c / S.m.vol c
  | .expFlux flux, c => S.m.netOutflow (ix flux) c / S.m.vol c
  | .expSource k of, c => ix k c * (of.getD st.sol).cell c
  | .impDdt, c => (x c - ix st.oldTime c) / dt
  | .impSource k of, c => ix k c * argCells of x c
  | .impDiv flux of, c => S.m.netOutflow ((of.getD st.sol).outFlux S.m (ix flux) (ix S.δ) (fun _ => 0) (argCells of x)) c / S.m.vol c
  | .impLaplacian gamma of, c => -(S.m.netOutflow ((of.getD st.sol).outFlux S.m (fun _ => 0) (ix S.δ) (ix gamma) (argCells of x)) c / S.m.vol c)

/-- Written with `exp::` (evaluated at the old values) or `imp::`. -/
def Call.IsExp : Call K → Prop
  | .expDiv _ _ | .expFlux _ | .expSource _ _ => True
  | _ => False

/-- The arguments fit the mesh. -/
def Call.Fits (m : Mesh K) : Call K → Prop
  | .expDiv flux of => flux.length = m.nFaces ∧ ∀ ψ ∈ of, ψ.On m
  | .expFlux flux => flux.length = m.nFaces
  | .expSource k of => k.length = m.nCells ∧ ∀ ψ ∈ of, ψ.On m
  | .impDdt => True
  | .impSource k of => k.length = m.nCells ∧ ∀ ψ ∈ of, ψ.On m
  | .impDiv flux of => flux.length = m.nFaces ∧ ∀ ψ ∈ of, ψ.On m
  | .impLaplacian gamma of => gamma.length = m.nFaces ∧ ∀ ψ ∈ of, ψ.On m

/-- An implicit term is one of the field the equation is solved for. -/
def Call.OfSolution : Call K → Prop
  | .impSource _ of | .impDiv _ of | .impLaplacian _ of => of = none
  | _ => True

/-- What the `h`-th term stands for. -/
def termValue (S : Setting K) (calls : List (Call K)) (dt : K) (st : TimeState K K) (x : Nat → K) (h c : Nat) : K :=
  match calls[h]? with
  | some a => a.value S dt st x c
  | none => 0

/-- The equation as written holds for the new cell values `x`: in every cell the signed, scaled sum of all terms is zero. -/
def EquationHolds (S : Setting K) (calls : List (Call K)) (tr : ExT K) (dt : K) (st : TimeState K K) (x : Nat → K) : Prop :=
  ∀ c < S.m.nCells, tr.value .temporal id (termValue S calls dt st x) c + tr.value .spatial id (termValue S calls dt st x) c = 0

/-- The composition refers to calls, each in a place of its sort. -/
def ExT.Over (tr : ExT K) (calls : List (Call K)) : Prop := ∀ k, ∀ h ∈ tr.leaves k, ∃ a, calls[h]? = some a ∧ a.sort = k

/-- The setting fits: a well-formed mesh, its sparsity pattern, weights and delta coefficients for the faces, and an executor and mesh for which schedules do not matter. -/
structure Setting.OK (S : Setting K) : Prop where
  wf : S.m.WF
  deg : ∀ c < S.m.nCells, 1 + S.m.deg c ≤ 256
  built : sparsityUpdate S.e S.m (.ok S.sp)
  wLen : S.w.length = S.m.nFaces
  δLen : S.δ.length = S.m.nFaces
  rep : S.m.Reproducible S.e

end NeoFOAM
