import Verif.Proofs.ConvDiff
import Verif.Props.C42_Bounded

/-!
# C60 – implicit transport and diffusion stays within its bounds for every time step

Not with `extrapolated` boundaries where the flow leaves: they are assembled as fixed values (`C60_violation`).
-/
namespace NeoFOAM
open Finset
variable {K : Type} [Field K] [LinearOrder K] [IsStrictOrderedRing K]

/-- One call of `dsl::solve`: exactly one outcome, an implicit Euler step. -/
theorem convDiff_step {m : Mesh K} (h : m.WF) (h256 : ∀ c < m.nCells, 1 + m.deg c ≤ 256) (hv : ∀ c < m.nCells, 0 < m.vol c)
    (e : ExecKind) (hre : m.Reproducible e) {sp : SparsityPattern} (hsp : sparsityUpdate e m (.ok sp))
    (sch : InterpScheme) (w : List K) (junk : Nat → K) (flux δ gamma : List K)
    (hfl : flux.length = m.nFaces) (hδ : δ.length = m.nFaces) (hg : gamma.length = m.nFaces)
    (eqn : Expr) (ops : OpsOf K K) (hbuild : ∀ st, convDiffTree.build (convDiffOps e m sp sch w junk flux δ gamma st) = .ok (eqn, ops st))
    (bcs : List (VolumeBoundary K)) (table : SolverTable K) (fvSchemes fvSolution : Dict) (hd : AsksFor fvSchemes "backwardEuler")
    (solver : LinSolver K) (hso : createSolver table fvSchemes = .ok solver) (hex : SolvingOn m solver)
    (st : TimeState K K) (ho : st.sol.On m) (hsy : st.Synced) (hst : Stable m (ix flux) (ix δ) (ix gamma) st.sol) (t : K) {dt : K} (hdt : 0 < dt) :
    ∃ st', (∀ out, dslSolve e m bcs table fvSchemes fvSolution ops eqn st t dt out ↔ out = .ok st') ∧
      ImplicitStep m (ix flux) (ix δ) (ix gamma) dt st.sol st'.sol ∧ st'.Synced := by
  obtain ⟨_, hee, hp⟩ := pattern_for m h h256 e _ hsp
  cases hee
  have hu : ∀ out, sparsityUpdate e m out ↔ out = .ok sp :=
    fun out => ⟨fun ho => sparsity_single m h (hre.imp id And.left) _ _ ho hsp, fun ho => ho ▸ hsp⟩
  obtain ⟨ls, hon, hres, hdet⟩ := convDiff_system e h hp hu (hre.imp id And.right) sch w junk flux δ gamma hfl hδ hg eqn ops hbuild st ho hsy t dt
  have huniq : ∀ x y : Nat → K, (∀ i < ls.rhs.length, ls.residual x i = ls.residual y i) → ∀ i < ls.rhs.length, x i = y i := by
    intro x y hxy
    rw [hon.rhsLen] at hxy ⊢
    refine implicit_unique h hv hst hdt st.sol.cell x y fun c hc => ?_
    rw [← hres x c hc, ← hres y c hc]
    exact hxy c hc
  obtain ⟨y, hy1, hy2⟩ := exists_solution ls huniq
  have hone : ∀ z : List K, z.length = ls.rhs.length → (∀ i < ls.rhs.length, ls.residual (ix z) i = 0) → z = y := by
    intro z hz1 hz2
    refine List.ext_getElem (hz1.trans hy1.symm) fun i h1 h2 => ?_
    have := huniq (ix z) (ix y) (fun i hi => (hz2 i hi).trans (hy2 i hi).symm) i (by omega)
    simpa [ix, List.getD_eq_getElem?_getD, h1, h2] using this
  have hstored : ls.StoredFor m := ⟨sp, hp, hon⟩
  have hsolver : ∀ out, solver ls st.sol.internal out ↔ out = .ok y := by
    intro out
    obtain ⟨⟨z, hz⟩, hall⟩ := hex ls st.sol.internal hstored ho.int ⟨y, hy1.trans hon.rhsLen, fun i hi => hy2 i (by rw [hon.rhsLen]; exact hi)⟩
    rw [← hon.rhsLen] at hall
    constructor
    · intro hout
      obtain ⟨z', rfl, a, b⟩ := hall out hout
      rw [hone z' a b]
    · rintro rfl
      obtain ⟨z', he, a, b⟩ := hall _ hz
      cases he
      rw [← hone z a b]
      exact hz
  refine ⟨⟨{ st.sol with internal := y }, some y⟩, fun out => ?_, ⟨⟨by rw [hy1, hon.rhsLen], ho.val, ho.ref, ho.vf, ho.grad⟩, fun _ => rfl, fun c hc => ?_⟩, rfl⟩
  · rw [hdet bcs table fvSchemes fvSolution hd solver hso out]
    exact NR.bind_iff hsolver out
  · have := hy2 c (by rw [hon.rhsLen]; exact hc)
    rw [hres _ c hc] at this
    exact this

/-- `n` calls of `dsl::solve`. -/
theorem convDiff_steps {m : Mesh K} (h : m.WF) (h256 : ∀ c < m.nCells, 1 + m.deg c ≤ 256) (hv : ∀ c < m.nCells, 0 < m.vol c)
    (e : ExecKind) (hre : m.Reproducible e) {sp : SparsityPattern} (hsp : sparsityUpdate e m (.ok sp))
    (sch : InterpScheme) (w : List K) (junk : Nat → K) (flux δ gamma : List K)
    (hfl : flux.length = m.nFaces) (hδ : δ.length = m.nFaces) (hg : gamma.length = m.nFaces)
    (eqn : Expr) (ops : OpsOf K K) (hbuild : ∀ st, convDiffTree.build (convDiffOps e m sp sch w junk flux δ gamma st) = .ok (eqn, ops st))
    (bcs : List (VolumeBoundary K)) (table : SolverTable K) (fvSchemes fvSolution : Dict) (hd : AsksFor fvSchemes "backwardEuler")
    (solver : LinSolver K) (hso : createSolver table fvSchemes = .ok solver) (hex : SolvingOn m solver)
    (st : TimeState K K) (ho : st.sol.On m) (hsy : st.Synced) (hst : Stable m (ix flux) (ix δ) (ix gamma) st.sol) (t : K) (dt : Nat → K)
    (hdt : ∀ k, 0 < dt k) :
    ∃ u : Nat → TimeState K K, u 0 = st ∧
      (∀ k out, timeLoop (fun d st => dslSolve e m bcs table fvSchemes fvSolution ops eqn st t d) dt k st out ↔ out = .ok (u k)) ∧
      ∀ k, ImplicitStep m (ix flux) (ix δ) (ix gamma) (dt k) (u k).sol (u (k + 1)).sol ∧ ∀ b, (u k).sol.entry b = st.sol.entry b := by
  let Good := { s : TimeState K K // s.sol.On m ∧ s.Synced ∧ Stable m (ix flux) (ix δ) (ix gamma) s.sol }
  have hstep : ∀ (k : Nat) (s : Good), ∃ s' : Good,
      (∀ out, dslSolve e m bcs table fvSchemes fvSolution ops eqn s.1 t (dt k) out ↔ out = .ok s'.1) ∧
      ImplicitStep m (ix flux) (ix δ) (ix gamma) (dt k) s.1.sol s'.1.sol := by
    rintro k ⟨s, h1, h2, h3⟩
    obtain ⟨s', a, b, c⟩ := convDiff_step h h256 hv e hre hsp sch w junk flux δ gamma hfl hδ hg eqn ops hbuild bcs table fvSchemes fvSolution hd solver hso hex
      s h1 h2 h3 t (hdt k)
    exact ⟨⟨s', b.on, c, ⟨h3.free, h3.diff, fun i hi => by rw [b.bnd]; exact h3.bnd i hi⟩⟩, a, b⟩
  choose next hnext1 hnext2 using hstep
  let u : Nat → Good := fun k => Nat.rec ⟨st, ho, hsy, hst⟩ (fun k s => next k s) k
  refine ⟨fun k => (u k).1, rfl, fun k => ?_, fun k => ⟨?_, ?_⟩⟩
  · induction k with
    | zero => exact fun _ => Iff.rfl
    | succ k ih =>
      intro out
      refine Iff.trans (NR.bind_iff ih out) ?_
      exact hnext1 k (u k) out
  · exact hnext2 k (u k)
  · induction k with
    | zero => exact fun _ => rfl
    | succ k ih =>
      intro b
      exact ((hnext2 k (u k)).bnd b).trans (ih b)

/-- What conditions and geometry give. -/
theorem stable_of {m : Mesh K} (h : m.WF) (tiny : K) (ht : 0 ≤ tiny) (sqrt : K → K) (hs : IsSqrt sqrt) (gjunk : Nat → K) (e : ExecKind)
    (g : Geometry K) (hg : geometryScheme e m tiny sqrt gjunk (.ok g)) (hspan : ∀ f < m.nFaces, m.span f ≠ 0)
    (hmag : ∀ f < m.nFaces, 0 ≤ ix m.magFaceAreas f) {flux gamma : List K} (hgam : ∀ f < m.nFaces, 0 ≤ ix gamma f)
    (hdiv : m.DivergenceFree (ix flux)) {φ : VolField K K} {lo hi : K}
    (hbc : ImplicitBC m (ix flux) (ix g.nonOrthDeltaCoeffs) (ix gamma) lo hi φ) :
    g.nonOrthDeltaCoeffs.length = m.nFaces ∧ Stable m (ix flux) (ix g.nonOrthDeltaCoeffs) (ix gamma) φ ∧
    ∀ b < m.nBoundaryFaces, (φ.entry b).fraction = 1 → lo ≤ (φ.entry b).refValue ∧ (φ.entry b).refValue ≤ hi := by
  obtain ⟨g', hgd, -, -, hl, -, -, hpos⟩ := C27_geometry h e tiny ht sqrt hs gjunk
  cases (hgd _).1 hg
  refine ⟨hl, ⟨hdiv, fun f hf => ?_, fun b hb => ?_⟩, fun b hb h1 => ?_⟩
  · obtain ⟨-, -, q, -⟩ := hpos f hf (hspan f hf)
    exact mul_nonneg (mul_nonneg (hgam f hf) q.le) (hmag f hf)
  · obtain ⟨k, hk, rfl | ⟨v, rfl, h1, h2, h3⟩⟩ := hbc b hb
    · exact .inl ⟨hk.2.2, hk.2.1⟩
    · exact .inr ⟨hk.2.2, h3⟩
  · obtain ⟨k, hk, rfl | ⟨v, rfl, h2, h3, -⟩⟩ := hbc b hb
    · exact absurd (hk.2.2.symm.trans h1) zero_ne_one
    · rw [hk.2.1]; exact ⟨h2, h3⟩

/-- **C60**: for every valid mesh with positive volumes and no degenerate faces, divergence-free flux, non-negative diffusivity, bounds,
initial field within them, and *all* positive time steps: `n` calls of `dsl::solve` on
`ddt(u) + div(flux, u) - laplacian(gamma, u)` with backwardEuler have exactly one outcome, and in it the values of all cells are within
the bounds, for every `n` and every linear solver that solves solvable systems. What is missing: conditions other than `ImplicitBC`'s
(`extrapolated` boundaries, see `C60_violation`), the parallel executors on meshes that are not lines of cells (C22, C32) and round-off. -/
theorem C60_bounded_partial {m : Mesh K} (h : m.WF) (h256 : ∀ c < m.nCells, 1 + m.deg c ≤ 256) (hv : ∀ c < m.nCells, 0 < m.vol c)
    (hspan : ∀ f < m.nFaces, m.span f ≠ 0) (hmag : ∀ f < m.nFaces, 0 ≤ ix m.magFaceAreas f)
    (e : ExecKind) (hre : m.Reproducible e) {sp : SparsityPattern} (hsp : sparsityUpdate e m (.ok sp))
    (tiny : K) (ht : 0 ≤ tiny) (sqrt : K → K) (hs : IsSqrt sqrt) (gjunk : Nat → K) (g : Geometry K) (hg : geometryScheme e m tiny sqrt gjunk (.ok g))
    (sch : InterpScheme) (junk : Nat → K) (flux gamma : List K) (hfl : flux.length = m.nFaces) (hgl : gamma.length = m.nFaces)
    (hgam : ∀ f < m.nFaces, 0 ≤ ix gamma f) (hdiv : m.DivergenceFree (ix flux)) (eqn : Expr) (ops : OpsOf K K)
    (hbuild : ∀ st, convDiffTree.build (convDiffOps e m sp sch g.weights junk flux g.nonOrthDeltaCoeffs gamma st) = .ok (eqn, ops st))
    (bcs : List (VolumeBoundary K)) (table : SolverTable K) (fvSchemes fvSolution : Dict) (hd : AsksFor fvSchemes "backwardEuler")
    (solver : LinSolver K) (hso : createSolver table fvSchemes = .ok solver) (hex : SolvingOn m solver)
    (lo hi : K) (st : TimeState K K) (ho : st.sol.On m) (hsy : st.Synced)
    (hbc : ImplicitBC m (ix flux) (ix g.nonOrthDeltaCoeffs) (ix gamma) lo hi st.sol)
    (hin : ∀ c < m.nCells, lo ≤ st.sol.cell c ∧ st.sol.cell c ≤ hi) (t : K) (dt : Nat → K) (hdt : ∀ k, 0 < dt k) :
    ∃ u : Nat → TimeState K K, u 0 = st ∧
      (∀ k out, timeLoop (fun d st => dslSolve e m bcs table fvSchemes fvSolution ops eqn st t d) dt k st out ↔ out = .ok (u k)) ∧
      ∀ n, ∀ c < m.nCells, lo ≤ (u n).sol.cell c ∧ (u n).sol.cell c ≤ hi := by
  obtain ⟨hl, hst, hb⟩ := stable_of h tiny ht sqrt hs gjunk e g hg hspan hmag hgam hdiv hbc
  obtain ⟨u, h0, h1, h2⟩ := convDiff_steps h h256 hv e hre hsp sch g.weights junk flux g.nonOrthDeltaCoeffs gamma hfl hl hgl eqn ops hbuild bcs table
    fvSchemes fvSolution hd solver hso hex st ho hsy hst t dt hdt
  refine ⟨u, h0, h1, fun n => ?_⟩
  induction n with
  | zero => rw [h0]; exact hin
  | succ n ih =>
    obtain ⟨hstep, hent⟩ := h2 n
    exact implicit_bounds h hv (φ := (u n).sol) ⟨hst.free, hst.diff, fun b hb' => by rw [hent]; exact hst.bnd b hb'⟩ (hdt n)
      (fun b hb' hf => by rw [hent] at hf ⊢; exact hb b hb' hf) _ _ ih hstep.cells

/-- A solver that solves solvable systems. -/
theorem anySolution_solving : Solving (fun ls x out => (anySolution ls x out) ∨ ((¬ ∃ y, anySolution ls x (.ok y)) ∧ out = .abort) : LinSolver K) := by
  refine ⟨fun ls x y hy => ?_, fun ls x ⟨y, h1, h2⟩ => ⟨⟨y, .inl ⟨y, rfl, h1, h2⟩⟩, fun out hout => ?_⟩⟩
  · rcases hy with hy | ⟨-, hy⟩
    · exact anySolution_exact ls x y hy
    · cases hy
  · rcases hout with ⟨z, rfl, -⟩ | ⟨hno, -⟩
    · exact ⟨z, rfl⟩
    · exact absurd ⟨y, y, rfl, h1, h2⟩ hno

/-- The duct is a line of cells: the theorems hold on every executor. -/
theorem duct_reproducible (e : ExecKind) : duct.Reproducible e := by
  refine .inr ⟨⟨fun f hf g hg _ => ?_, fun f hf g hg _ => ?_⟩, ?_⟩
  · have : f < 1 := hf
    have : g < 1 := hg
    omega
  · have : f < 1 := hf
    have : g < 1 := hg
    omega
  · show ∀ b < 2, ∀ b' < 2, [0, 1].getD b 0 = [0, 1].getD b' 0 → b = b'
    decide

theorem duct_deg : ∀ c < duct.nCells, 1 + duct.deg c ≤ 256 := by
  intro c _
  have := deg_le duct c
  have h2 : duct.nInternalFaces = 1 := rfl
  omega

theorem duct_span : ∀ f < duct.nFaces, duct.span f ≠ 0 := by
  intro f hf
  have : f = 0 ∨ f = 1 ∨ f = 2 := by simp [duct] at hf; omega
  rcases this with rfl | rfl | rfl <;> simp [Mesh.span, duct, Mesh.own, Mesh.nbr, Mesh.fc, Mesh.ctr, Mesh.fctr] <;> norm_num

/-- Value 1 in the cells, `a` fixed at the inlet; boundary data of zero gradient at the outlet. -/
def ductImplicit (a : ℝ) : VolField ℝ ℝ := ⟨[1, 1], [a, 1], [a, 0], [1, 0], [0, 0]⟩

/-- The hypotheses of `C60_bounded_partial` can be met: flow through the duct with diffusivity 1, inlet value 0. -/
example (δ : List ℝ) (hδ : ∀ f < duct.nFaces, 0 < ix δ f) : duct.WF ∧ (∀ c < duct.nCells, 0 < duct.vol c) ∧ (∀ f < duct.nFaces, duct.span f ≠ 0) ∧
    (∀ f < duct.nFaces, 0 ≤ ix duct.magFaceAreas f) ∧ duct.DivergenceFree (ix ductFlux) ∧ (ductImplicit 0).On duct ∧
    ImplicitBC duct (ix ductFlux) (ix δ) (ix [1, 1, 1]) 0 1 (ductImplicit 0) ∧
    (∀ c < duct.nCells, 0 ≤ (ductImplicit 0).cell c ∧ (ductImplicit 0).cell c ≤ 1) ∧
    ∃ sp, sparsityUpdate .serial duct (.ok sp) := by
  obtain ⟨sp, hsp⟩ := C14_terminates duct duct_wf .serial
  refine ⟨duct_wf, duct_vol, duct_span, ?_, duct_divergenceFree, ⟨rfl, rfl, rfl, rfl, rfl⟩, ?_, ?_, sp, hsp⟩
  · intro f hf
    have : f = 0 ∨ f = 1 ∨ f = 2 := by simp [duct] at hf; omega
    rcases this with rfl | rfl | rfl <;> simp [duct, ix]
  · intro b hb
    have : b = 0 ∨ b = 1 := by simp [duct] at hb; omega
    rcases this with rfl | rfl
    · refine ⟨.fixedValue 0, ⟨rfl, rfl, rfl⟩, .inr ⟨0, rfl, le_rfl, zero_le_one, ?_⟩⟩
      have := hδ 1 (by simp [duct])
      simp [ix] at this
      simp [duct, ix, ductFlux]
      linarith
    · refine ⟨.fixedGradient 0, ⟨?_, rfl, rfl⟩, .inl rfl⟩
      simp [ductImplicit, VolField.entry, VolField.cell, duct, Mesh.fc]
  · intro c hc
    have : c = 0 ∨ c = 1 := by simp [duct] at hc; omega
    rcases this with rfl | rfl <;> simp [ductImplicit, VolField.cell]

/-- Value 1 in the cells, 0 fixed at the inlet; what `extrapolated` stores at the outlet. -/
def ductExtrapolated : VolField ℝ ℝ := ⟨[1, 1], [0, 1], [0, 1], [1, 1], [0, 0]⟩

/-- **C60 fails with an extrapolated outlet**: the duct with flux 1, no diffusion, values 1 in the cells, fixed value 0 at the inlet and
`extrapolated` at the outlet, where the flow leaves. All data is between 0 and 1. A backwardEuler step with `dt = 2` and any exact
solver gives `-1/3` in the second cell (and a step that returns exists): the condition is assembled as the fixed value the cell had. -/
theorem C60_violation : Prescribes duct ductExtrapolated 0 (.fixedValue 0) (ductExtrapolated.entry 0) ∧
    Prescribes duct ductExtrapolated 1 .extrapolated (ductExtrapolated.entry 1) ∧
    ∀ (δ w : List ℝ) (junk : Nat → ℝ), δ.length = 3 → ∃ sp eqn ops, sparsityUpdate .serial duct (.ok sp) ∧
      (∀ st, convDiffTree.build (convDiffOps .serial duct sp .upwind w junk ductFlux δ [0, 0, 0] st) = .ok (eqn, ops st)) ∧
      (∃ st', dslSolve .serial duct (ductBCs .extrapolated) [("exact", fun _ => anySolution)] backwardDict [] ops eqn ⟨ductExtrapolated, none⟩ 0 2 (.ok st')) ∧
      ∀ (solver : LinSolver ℝ), ExactSolver solver → ∀ st',
        dslSolve .serial duct (ductBCs .extrapolated) [("exact", fun _ => solver)] backwardDict [] ops eqn ⟨ductExtrapolated, none⟩ 0 2 (.ok st') →
        st'.sol.cell 1 = -1 / 3 := by
  refine ⟨⟨rfl, rfl, rfl⟩, ⟨?_, rfl, rfl⟩, fun δ w junk hδ => ?_⟩
  · simp [ductExtrapolated, VolField.entry, VolField.cell, duct, Mesh.fc]
  obtain ⟨sp, hsp⟩ := C14_terminates duct duct_wf .serial
  obtain ⟨_, heq, hp⟩ := pattern_for duct duct_wf duct_deg .serial _ hsp
  cases heq
  have hu : ∀ out, sparsityUpdate .serial duct out ↔ out = .ok sp :=
    fun out => ⟨fun ho => sparsity_serial_single _ duct_wf _ _ ho hsp, fun ho => ho ▸ hsp⟩
  obtain ⟨eqn, ops, hbuild⟩ := convDiff_build .serial duct sp .upwind w junk ductFlux δ [0, 0, 0]
  obtain ⟨ls, hon, hres, hdet⟩ := convDiff_system .serial duct_wf hp hu (.inl rfl) .upwind w junk ductFlux δ [0, 0, 0] rfl hδ rfl eqn ops hbuild
    ⟨ductExtrapolated, none⟩ ⟨rfl, rfl, rfl, rfl, rfl⟩ rfl 0 2
  have hds : AsksFor backwardDict "backwardEuler" := ⟨_, rfl, rfl⟩
  have r0 : ∀ x, ls.residual x 0 = (x 0 - 1) / 2 + x 0 := by
    intro x
    rw [hres x 0 (by simp [duct])]
    simp [Mesh.netOutflow, VolField.outFlux, duct, Mesh.own, Mesh.nbr, Mesh.fc, Mesh.vol, ix, ductFlux, ductExtrapolated, VolField.cell, VolField.entry,
      Finset.sum_range_succ]
  have r1 : ∀ x, ls.residual x 1 = (x 1 - 1) / 2 - x 0 + 1 := by
    intro x
    rw [hres x 1 (by simp [duct])]
    simp [Mesh.netOutflow, VolField.outFlux, duct, Mesh.own, Mesh.nbr, Mesh.fc, Mesh.vol, ix, ductFlux, ductExtrapolated, VolField.cell, VolField.entry,
      Finset.sum_range_succ]
    ring
  have hlen : ls.rhs.length = 2 := hon.rhsLen
  refine ⟨sp, eqn, ops, hsp, hbuild, ?_, ?_⟩
  · refine ⟨_, (hdet _ _ _ [] hds anySolution rfl _).2 ⟨.ok [1 / 3, -1 / 3], ⟨_, rfl, by rw [hlen]; rfl, fun i hi => ?_⟩, rfl⟩⟩
    rw [hlen] at hi
    interval_cases i
    · rw [r0]; simp [ix]; norm_num
    · rw [r1]; simp [ix]; norm_num
  · intro solver hex st' hrun
    obtain ⟨r, h1, h2⟩ := (hdet _ [("exact", fun _ => solver)] _ [] hds solver rfl _).1 hrun
    cases r with
    | ok x =>
      cases h2
      obtain ⟨-, b⟩ := hex _ _ _ h1
      have b0 := b 0 (by omega)
      have b1 := b 1 (by omega)
      rw [r0] at b0
      rw [r1] at b1
      show ix x 1 = _
      linarith
    | throw e => cases h2
    | abort => cases h2
    | ub => cases h2

end NeoFOAM
