import Verif.Props.C72_Numbering
import Verif.Props.C43_Transport

/-!
# C72 – numbering and orientation: boundary conditions, time steps
-/
namespace NeoFOAM
open Finset
variable {K V : Type} [Field K] [AddCommGroup V] [Module K V] {r : Renumbering} {m m' : Mesh K}

/-- **C72, boundary conditions**: the same conditions on the renumbered mesh give the same field. -/
theorem C72_correct (hr : r.Of m m') (h : m.WF) (h' : m'.WF) {φ φ' : VolField K V} (ho : φ.On m) (ho' : φ'.On m') (hφ : r.Same m φ φ')
    (hδ : ∀ b < m.nBoundaryFaces, m'.bnd.deltaCoeffs.getD (r.bface b) 0 = m.bnd.deltaCoeffs.getD b 0)
    {bcs bcs' : List (VolumeBoundary V)} (hb : ∀ c ∈ bcs, c.patch.end_ ≤ m.nBoundaryFaces) (hb' : ∀ c ∈ bcs', c.patch.end_ ≤ m'.nBoundaryFaces)
    (hbc : r.Conditions m bcs bcs') (e e' : ExecKind) (ψ ψ' : VolField K V)
    (h1 : correctBoundaryConditions e m bcs φ (.ok ψ)) (h2 : correctBoundaryConditions e' m' bcs' φ' (.ok ψ')) : r.Same m ψ ψ' := by
  obtain ⟨_, q1, -, a2, a3⟩ := correctAll_ok e m h bcs φ ho hb _ h1
  obtain ⟨_, q2, -, b2, b3⟩ := correctAll_ok e' m' h' bcs' φ' ho' hb' _ h2
  cases q1; cases q2
  refine ⟨fun c hc => ?_, fun b hb1 => ?_⟩
  · have := hφ.cells c hc
    simpa only [VolField.cell, a2, b2] using this
  · rw [a3 b hb1, b3 _ (by rw [hr.nBoundary]; exact hr.bface.1 b hb1)]
    classical
    unfold bcFinal
    rw [hφ.bnd b hb1]
    clear h1 h2 a3 b3 hb hb'
    generalize φ.entry b = y
    induction hbc generalizing y with
    | nil => rfl
    | @cons c c' cs cs' hcc _ ih =>
      have : (if c'.kind.Writes ∧ c'.patch.Has (r.bface b) then bcData m' φ' (r.bface b) c'.kind else y)
          = if c.kind.Writes ∧ c.patch.Has b then bcData m φ b c.kind else y := by
        rw [hcc.1, hcc.2 b hb1]
        split
        · cases c.kind <;> simp only [bcData, hr.bnd b hb1, hφ.cells _ (h.fc_lt b hb1), hδ b hb1, hφ.bnd b hb1]
        · rfl
      simp only [List.foldl_cons, this]
      exact ih _

/-- Either no condition stores into the face in both lists, or the last one that does is of the same kind in both. -/
theorem Renumbering.Conditions.last {bcs bcs' : List (VolumeBoundary V)} (hbc : r.Conditions m bcs bcs') {b : Nat} (hb : b < m.nBoundaryFaces) :
    ((∀ c ∈ bcs, c.kind.Writes → ¬ c.patch.Has b) ∧ ∀ c ∈ bcs', c.kind.Writes → ¬ c.patch.Has (r.bface b)) ∨
    ∃ pre c post pre' c' post', bcs = pre ++ c :: post ∧ bcs' = pre' ++ c' :: post' ∧ c'.kind = c.kind ∧ c.kind.Writes ∧ c.patch.Has b ∧
      c'.patch.Has (r.bface b) ∧ (∀ d ∈ post, d.kind.Writes → ¬ d.patch.Has b) ∧ ∀ d ∈ post', d.kind.Writes → ¬ d.patch.Has (r.bface b) := by
  induction hbc with
  | nil => exact .inl ⟨by simp, by simp⟩
  | @cons c c' cs cs' hcc _ ih =>
    rcases ih with ⟨n1, n2⟩ | ⟨pre, d, post, pre', d', post', rfl, rfl, rest⟩
    · by_cases hw : c.kind.Writes ∧ c.patch.Has b
      · exact .inr ⟨[], c, cs, [], c', cs', rfl, rfl, hcc.1, hw.1, hw.2, (hcc.2 b hb).2 hw.2, n1, n2⟩
      · refine .inl ⟨?_, ?_⟩
        · intro d hd
          rcases List.mem_cons.1 hd with rfl | hd
          · exact fun a b => hw ⟨a, b⟩
          · exact n1 d hd
        · intro d hd
          rcases List.mem_cons.1 hd with rfl | hd
          · rw [hcc.1, hcc.2 b hb]; exact fun a b => hw ⟨a, b⟩
          · exact n2 d hd
    · exact .inr ⟨c :: pre, d, post, c' :: pre', d', post', rfl, rfl, rest⟩

/-- **C72, an explicit Euler step** keeps the two fields the same, if its terms are. -/
theorem EulerStep.renumber (hr : r.Of m m') (h : m.WF)
    (hδ : ∀ b < m.nBoundaryFaces, m'.bnd.deltaCoeffs.getD (r.bface b) 0 = m.bnd.deltaCoeffs.getD b 0)
    {bcs bcs' : List (VolumeBoundary V)} (hbc : r.Conditions m bcs bcs') {f f' : VolField K V → Nat → V} {φ φ' ψ ψ' : VolField K V} (hφ : r.Values m φ φ')
    (hf : r.Cells m (f φ) (f' φ')) {dt : K} (h1 : EulerStep m bcs f dt φ ψ) (h2 : EulerStep m' bcs' f' dt φ' ψ') : r.Values m ψ ψ' := by
  have hcell : r.Cells m ψ.cell ψ'.cell := by
    intro c hc
    rw [h2.cells _ (by rw [hr.nCells]; exact hr.cell.1 c hc), h1.cells c hc, hφ.cells c hc, hf c hc]
  refine ⟨hcell, fun b hb => ?_⟩
  have hb2 : r.bface b < m'.nBoundaryFaces := by rw [hr.nBoundary]; exact hr.bface.1 b hb
  rcases hbc.last hb with ⟨n1, n2⟩ | ⟨pre, c, post, pre', c', post', e1, e2, hk, hw, hc, hc', n1, n2⟩
  · have a := congrArg (·.value) (h1.keep b hb n1)
    have b' := congrArg (·.value) (h2.keep _ hb2 n2)
    exact b'.trans ((hφ.bnd b hb).trans a.symm)
  · have a := h1.bnd b hb pre c post e1 hw hc n1
    have b' := h2.bnd _ hb2 pre' c' post' e2 (by rw [hk]; exact hw) hc' n2
    rw [hk] at b'
    have g1 : ∀ x, (ψ.entry b).value = x ↔ ψ.bnd b = x := fun _ => Iff.rfl
    have g2 : ∀ x, (ψ'.entry (r.bface b)).value = x ↔ ψ'.bnd (r.bface b) = x := fun _ => Iff.rfl
    cases hkk : c.kind with
    | fixedValue v => rw [hkk] at a b'; exact b'.1.trans a.1.symm
    | fixedGradient g =>
      rw [hkk] at a b'
      have a := a.1
      have b' := b'.1
      rw [hr.bnd b hb, hcell _ (h.fc_lt b hb), hδ b hb] at b'
      exact b'.trans a.symm
    | extrapolated =>
      rw [hkk] at a b'
      have a := a.1
      have b' := b'.1
      rw [hr.bnd b hb, hcell _ (h.fc_lt b hb)] at b'
      exact b'.trans a.symm
    | calculated => rw [hkk] at hw; exact hw.elim
    | empty => rw [hkk] at hw; exact hw.elim

/-- **C72, explicit transport**: for every renumbering and choice of turned faces, flux, scheme, boundary conditions, initial field, number of steps and time
steps, on any two executors: `n` calls of `dsl::solve` on `ddt(u) + div(flux, u)` with forwardEuler on the two meshes (each with the weights its geometry
scheme computes) give the same values in corresponding cells and boundary faces, and no other outcome is possible. -/
theorem C72_transport [LinearOrder K] [IsStrictOrderedRing K] (hr : r.Of m m') (hgm : r.Geometry m m') (h : m.WF) (h' : m'.WF)
    (hδ : ∀ b < m.nBoundaryFaces, m'.bnd.deltaCoeffs.getD (r.bface b) 0 = m.bnd.deltaCoeffs.getD b 0)
    {bcs bcs' : List (VolumeBoundary K)} (hb : ∀ c ∈ bcs, c.patch.end_ ≤ m.nBoundaryFaces) (hb' : ∀ c ∈ bcs', c.patch.end_ ≤ m'.nBoundaryFaces)
    (hbc : r.Conditions m bcs bcs') (sch : InterpScheme) (e e' : ExecKind) (tiny : K) (ht : 0 ≤ tiny) (sqrt : K → K) (hs : IsSqrt sqrt)
    (gj gj' : Nat → K) (g g' : Geometry K) (hg : geometryScheme e m tiny sqrt gj (.ok g)) (hg' : geometryScheme e' m' tiny sqrt gj' (.ok g'))
    (sp sp' : SparsityPattern) (junk junk' : Nat → K)
    {flux flux' : List K} (hfl : flux.length = m.nFaces) (hfl' : flux'.length = m'.nFaces) (hf : r.Odd m (ix flux) (ix flux'))
    (eqn eqn' : Expr) (ops ops' : OpsOf K K)
    (hbuild : ∀ st, transportTree.build (transportOps e m sp sch g.weights junk flux st) = .ok (eqn, ops st))
    (hbuild' : ∀ st, transportTree.build (transportOps e' m' sp' sch g'.weights junk' flux' st) = .ok (eqn', ops' st))
    (table : SolverTable K) {fvSchemes : Dict} (fvSolution : Dict) (hd : AsksFor fvSchemes "forwardEuler")
    (st st' : TimeState K K) (ho : st.sol.On m) (ho' : st'.sol.On m') (hsy : st.Synced) (hsy' : st'.Synced) (hst : r.Values m st.sol st'.sol)
    (t t' : K) (dt : Nat → K) :
    ∃ u u' : Nat → TimeState K K, u 0 = st ∧ u' 0 = st' ∧
      (∀ k out, timeLoop (fun d st => dslSolve e m bcs table fvSchemes fvSolution ops eqn st t d) dt k st out ↔ out = .ok (u k)) ∧
      (∀ k out, timeLoop (fun d st => dslSolve e' m' bcs' table fvSchemes fvSolution ops' eqn' st t' d) dt k st' out ↔ out = .ok (u' k)) ∧
      ∀ k, r.Values m (u k).sol (u' k).sol := by
  obtain ⟨g1, hgd, hwl, -⟩ := C27_geometry h e tiny ht sqrt hs gj
  cases (hgd _).1 hg
  obtain ⟨g2, hgd', hwl', -⟩ := C27_geometry h' e' tiny ht sqrt hs gj'
  cases (hgd' _).1 hg'
  obtain ⟨hw, -, -⟩ := C72_geometry hr hgm h h' e e' tiny ht sqrt gj gj' g g' hg hg'
  obtain ⟨u, a0, a1, a2⟩ := transport_steps e h bcs hb sp sch g.weights hwl junk flux hfl eqn ops hbuild table fvSolution hd st ho hsy t dt
  obtain ⟨u', b0, b1, b2⟩ := transport_steps e' h' bcs' hb' sp' sch g'.weights hwl' junk' flux' hfl' eqn' ops' hbuild' table fvSolution hd st' ho' hsy' t' dt
  refine ⟨u, u', a0, b0, a1, b1, fun k => ?_⟩
  induction k with
  | zero => rw [a0, b0]; exact hst
  | succ k ih =>
    refine EulerStep.renumber hr h hδ hbc ih ?_ (a2 k) (b2 k)
    intro c hc
    have := netOutflow_renumber hr h (fluxFace_renumber hr h ih hw hf sch) hc
    simp only [smul_eq_mul] at this
    simp only
    rw [this, hr.vol c hc]

/-! ### The hypotheses can be met -/

/-- `row3` numbered from the other end, with one of its internal faces turned round. -/
def row3Back : Mesh ℚ := { topoMesh 3 [0, 2] [1, 1] [0, 2] with
  cellCentres := [(2, 0, 0), (1, 0, 0), (0, 0, 0)]
  faceAreas := [(-1, 0, 0), (1, 0, 0), (1, 0, 0), (1, 0, 0)] }

theorem row3Back_wf : row3Back.WF :=
  { topoMesh_wf 3 [0, 2] [1, 1] [0, 2] rfl (by decide) (by decide) (by decide) (by decide) with ctrLen := rfl, areaLen := rfl }

/-- The numbers. -/
def backwards : Renumbering := ⟨fun c => 2 - c, fun f => 1 - f, fun b => 1 - b, fun f => f == 1⟩

theorem backwards_of : backwards.Of row3 row3Back where
  nCells := rfl
  nInternal := rfl
  nBoundary := rfl
  cell := ⟨by decide, by decide⟩
  face := ⟨by decide, by decide⟩
  bface := ⟨by decide, by decide⟩
  kept := by decide
  turned := by decide
  bnd := by decide
  vol := by
    intro c hc
    have hc : c < 3 := hc
    interval_cases c <;> rfl

theorem backwards_geometry : backwards.Geometry row3 row3Back where
  ctr := by
    intro c hc
    have hc : c < 3 := hc
    interval_cases c <;> simp [backwards, row3Back, row3, topoMesh, Mesh.ctr, List.range, List.range.loop]
  fctr := by
    intro f hf
    have hf : f < 4 := hf
    interval_cases f <;> rfl
  sf := by
    intro f hf
    have hf : f < 4 := hf
    interval_cases f <;>
      simp [backwards, row3Back, row3, topoMesh, Mesh.sf, Renumbering.num, Renumbering.turns, List.replicate]
  mag := by
    intro f hf
    have hf : f < 4 := hf
    interval_cases f <;> rfl

/-- A field, a flux and conditions on the two meshes. -/
example : backwards.Same row3 row3Field ⟨[2, 5, 1], [9, 7], [9, 7], [1, 1], [0, 0]⟩ ∧
    backwards.Odd row3 (ix [3, 4, -3, 4]) (ix [(-4 : ℚ), 3, 4, -3]) ∧
    backwards.Conditions row3 [⟨⟨0, 0, 1⟩, .fixedValue (7 : ℚ)⟩, ⟨⟨1, 1, 2⟩, .extrapolated⟩] [⟨⟨0, 1, 2⟩, .fixedValue 7⟩, ⟨⟨1, 0, 1⟩, .extrapolated⟩] := by
  refine ⟨⟨?_, ?_⟩, ?_, ?_⟩
  · intro c hc
    have hc : c < 3 := hc
    interval_cases c <;> rfl
  · intro b hb
    have hb : b < 2 := hb
    interval_cases b <;> rfl
  · intro f hf
    have hf : f < 4 := hf
    interval_cases f <;> simp [backwards, row3, topoMesh, Renumbering.num, Renumbering.turns, ix]
  · refine .cons ⟨rfl, ?_⟩ (.cons ⟨rfl, ?_⟩ .nil)
    · intro b hb
      have hb : b < 2 := hb
      interval_cases b <;> simp [Patch.Has, backwards]
    · intro b hb
      have hb : b < 2 := hb
      interval_cases b <;> simp [Patch.Has, backwards]

end NeoFOAM
