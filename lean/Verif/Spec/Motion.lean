import Verif.Spec.Components
import Verif.Spec.Geometry
import Mathlib.Algebra.Module.LinearMap.Defs

/-!
# Specification: meshes moved in space
-/
namespace NeoFOAM
variable {K : Type}

/-- A rigid motion of space: a linear map that keeps inner products (a rotation or a reflection), then a translation. -/
structure Motion (K : Type) [Field K] where
  rot : Vec K →ₗ[K] Vec K
  shift : Vec K
  dot : ∀ a b, vdot (rot a) (rot b) = vdot a b

/-- Where a point of space goes. -/
def Motion.pt [Field K] (μ : Motion K) (x : Vec K) : Vec K := μ.rot x + μ.shift

/-- The moved boundary mesh: points are moved, area vectors, normals and distance vectors are rotated, numbers stay. -/
def BoundaryMesh.move [Field K] (μ : Motion K) (b : BoundaryMesh K) : BoundaryMesh K :=
  { b with cf := b.cf.map μ.pt, cn := b.cn.map μ.pt, sf := b.sf.map μ.rot, nf := b.nf.map μ.rot, delta := b.delta.map μ.rot }

/-- The moved mesh. -/
def Mesh.move [Field K] (μ : Motion K) (m : Mesh K) : Mesh K :=
  { m with
    points := m.points.map μ.pt
    cellCentres := m.cellCentres.map μ.pt
    faceCentres := m.faceCentres.map μ.pt
    faceAreas := m.faceAreas.map μ.rot
    bnd := m.bnd.move μ }

/-- The same setting on the moved mesh. -/
def Setting.move [Field K] (μ : Motion K) (S : Setting K) : Setting K := { S with m := S.m.move μ }

end NeoFOAM

namespace NeoFOAM
variable {K : Type} [Field K] [LinearOrder K]

/-- A program: compute the geometry and the sparsity pattern of the mesh, then, `n` times, write an expression with the `exp::` and
`imp::` functions and solve it at time `t k` with step `dt k`. -/
def wholeRun (e : ExecKind) (m : Mesh K) (tiny : K) (sqrt : K → K) (junk : Nat → K) (sch : InterpScheme) (calls : List (Call K)) (tr : ExT K)
    (bcs : List (VolumeBoundary K)) (table : SolverTable K) (fvSchemes fvSolution : Dict) (t dt : Nat → K) (n : Nat) (st : TimeState K K) :
    NR (TimeState K K) := do
  let g ← geometryScheme e m tiny sqrt junk
  let sp ← sparsityUpdate e m
  let S : Setting K := ⟨e, m, sp, sch, g.weights, g.nonOrthDeltaCoeffs, junk⟩
  (List.range n).foldlM (fun st k => do
    let p ← NR.lift (tr.build (callOps S calls st))
    let ops : OpsOf K K := fun st' => match tr.build (callOps S calls st') with | .ok q => q.2 | _ => []
    dslSolve e m bcs table fvSchemes fvSolution ops p.1 st (t k) (dt k)) st

end NeoFOAM
