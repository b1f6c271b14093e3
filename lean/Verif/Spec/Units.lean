import Verif.Spec.Motion
import Verif.Base.RelAt

/-!
# Specification: a change of units
-/
namespace NeoFOAM
variable {K : Type}

/-- New units: a length `x` becomes `len * x`, a time `t` becomes `time * t`, a value `v` of the field becomes `val * v`. -/
structure Units (K : Type) [Field K] [LinearOrder K] where
  len : K
  time : K
  val : K
  len_pos : 0 < len
  time_pos : 0 < time
  val_ne : val ≠ 0

section
variable [Field K]

/-- The boundary mesh in new length units. -/
def BoundaryMesh.rescale (l : K) (b : BoundaryMesh K) : BoundaryMesh K :=
  { b with
    cf := b.cf.map (l • ·), cn := b.cn.map (l • ·), sf := b.sf.map (l ^ 2 • ·), magSf := b.magSf.map (l ^ 2 * ·), delta := b.delta.map (l • ·)
    deltaCoeffs := b.deltaCoeffs.map (l⁻¹ * ·) }

/-- The mesh in new length units. -/
def Mesh.rescale (l : K) (m : Mesh K) : Mesh K :=
  { m with
    points := m.points.map (l • ·)
    cellVolumes := m.cellVolumes.map (l ^ 3 * ·)
    cellCentres := m.cellCentres.map (l • ·)
    faceAreas := m.faceAreas.map (l ^ 2 • ·)
    faceCentres := m.faceCentres.map (l • ·)
    magFaceAreas := m.magFaceAreas.map (l ^ 2 * ·)
    bnd := m.bnd.rescale l }

variable [LinearOrder K] (u : Units K)

/-- Volume per time: the unit of face fluxes. -/
def Units.flux : K := u.len ^ 3 / u.time

/-- A field in new units. -/
def Units.field (φ : VolField K K) : VolField K K :=
  ⟨φ.internal.map (u.val * ·), φ.bValue.map (u.val * ·), φ.bRefValue.map (u.val * ·), φ.bVF, φ.bRefGrad.map (u.val / u.len * ·)⟩

/-- `φ'` is the field `φ` in new units. Reference gradients count only where the condition is not of fixed-value kind. -/
structure VolField.In (φ φ' : VolField K K) : Prop where
  internal : φ'.internal = φ.internal.map (u.val * ·)
  bValue : φ'.bValue = φ.bValue.map (u.val * ·)
  bRefValue : φ'.bRefValue = φ.bRefValue.map (u.val * ·)
  bVF : φ'.bVF = φ.bVF
  bRefGrad : ListRel (fun i x y => y = u.val / u.len * x ∨ φ.bVF[i]? = some 1) φ.bRefGrad φ'.bRefGrad

/-- The same run in new units: the field and, if there is one, its old-time field. -/
structure TimeState.In (st st' : TimeState K K) : Prop where
  sol : st.sol.In u st'.sol
  old : st'.old = st.old.map (·.map (u.val * ·))

/-- A boundary condition in new units. -/
def Units.bc (b : VolumeBoundary K) : VolumeBoundary K :=
  ⟨b.patch, match b.kind with
    | .fixedValue v => .fixedValue (u.val * v)
    | .fixedGradient g => .fixedGradient (u.val / u.len * g)
    | .extrapolated => .extrapolated
    | .calculated => .calculated
    | .empty => .empty⟩

/-- The arguments of a term in new units: fluxes are volumes per time, diffusivities areas per time, rates per time. -/
def Units.call : Call K → Call K
  | .expDiv flux of => .expDiv (flux.map (u.flux * ·)) (of.map u.field)
  | .expFlux flux => .expFlux (flux.map (u.val * u.flux * ·))
  | .expSource k of => .expSource (k.map (u.time⁻¹ * ·)) (of.map u.field)
  | .impDdt => .impDdt
  | .impSource k of => .impSource (k.map (u.time⁻¹ * ·)) (of.map u.field)
  | .impDiv flux of => .impDiv (flux.map (u.flux * ·)) (of.map u.field)
  | .impLaplacian gamma of => .impLaplacian (gamma.map (u.len ^ 2 / u.time * ·)) (of.map u.field)

/-- A linear system in new units: the coefficients are volumes per time. -/
def Units.system (ls : LinearSystem K) : LinearSystem K :=
  ⟨⟨ls.matrix.values.map (u.flux * ·), ls.matrix.colIdxs, ls.matrix.rowOffs⟩, ls.rhs.map (u.val * u.flux * ·)⟩

/-- The solvers of the table do not depend on units either: they return as many values as they are given, and solve the system in new units
exactly when they solve it in old units, with the same answer. -/
def SolverTable.UnitFree (table : SolverTable K) : Prop :=
  ∀ name f, AMap.find? table name = some f → ∀ d ls x, (∀ y, f d ls x (.ok y) → y.length = x.length) ∧
    NR.Rel (fun a b => b = a.map (u.val * ·)) (f d ls x) (f d (u.system ls) (x.map (u.val * ·)))

/-- No internal face has a distance between its cells that the geometry scheme takes for zero in one of the units but not in the other. -/
def Mesh.Resolved (m : Mesh K) (tiny l : K) : Prop :=
  ∀ f < m.nInternalFaces, (tiny < |vdot (m.sf f) (m.fctr f - m.ctr (m.own f))| + |vdot (m.sf f) (m.ctr (m.nbr f) - m.fctr f)| ↔
    tiny < l ^ 3 * (|vdot (m.sf f) (m.fctr f - m.ctr (m.own f))| + |vdot (m.sf f) (m.ctr (m.nbr f) - m.fctr f)|))

end
end NeoFOAM
