import Verif.Proofs.SteadyDiff
import Verif.Props.C60_ImplicitTransport

/-!
# C63 – steady transport and diffusion: one solution, between the boundary values
-/
namespace NeoFOAM
open Finset
variable {K : Type} [Field K] [LinearOrder K] [IsStrictOrderedRing K]

/-- A system whose residual is, up to sign, the balance of steady transport: exactly one outcome. -/
theorem steady_solver {m : Mesh K} (h : m.WF) {flux δ gamma : Nat → K} {φ : VolField K K} (hst : Stable m flux δ gamma φ)
    (hfed : ∀ c < m.nCells, Fed m flux δ gamma φ c) {sp : SparsityPattern} (hp : sp.For m) (ls : LinearSystem K) (hon : ls.On sp m) (s : K) (hs : s ≠ 0)
    (hres : ∀ x, ∀ c < m.nCells, ls.residual x c = s * m.netOutflow (φ.outFlux m flux δ gamma x) c)
    (solver : LinSolver K) (hex : SolvingOn m solver) (x0 : List K) (hx0 : x0.length = m.nCells) :
    ∃ y : List K, y.length = m.nCells ∧ (∀ out, solver ls x0 out ↔ out = .ok y) ∧
      ∀ c < m.nCells, m.netOutflow (φ.outFlux m flux δ gamma (ix y)) c = 0 := by
  have huniq : ∀ x y : Nat → K, (∀ i < ls.rhs.length, ls.residual x i = ls.residual y i) → ∀ i < ls.rhs.length, x i = y i := by
    intro x y hxy
    rw [hon.rhsLen] at hxy ⊢
    refine steady_unique h hst hfed x y fun c hc => ?_
    have := hxy c hc
    rw [hres x c hc, hres y c hc] at this
    exact mul_left_cancel₀ hs this
  obtain ⟨y, hy1, hy2⟩ := exists_solution ls huniq
  have hone : ∀ z : List K, z.length = ls.rhs.length → (∀ i < ls.rhs.length, ls.residual (ix z) i = 0) → z = y := by
    intro z hz1 hz2
    refine List.ext_getElem (hz1.trans hy1.symm) fun i h1 h2 => ?_
    have := huniq (ix z) (ix y) (fun i hi => (hz2 i hi).trans (hy2 i hi).symm) i (by omega)
    simpa [ix, List.getD_eq_getElem?_getD, h1, h2] using this
  refine ⟨y, by rw [hy1, hon.rhsLen], fun out => ?_, fun c hc => ?_⟩
  · obtain ⟨⟨z, hz⟩, hall⟩ := hex ls x0 ⟨sp, hp, hon⟩ hx0 ⟨y, hy1.trans hon.rhsLen, fun i hi => hy2 i (by rw [hon.rhsLen]; exact hi)⟩
    rw [← hon.rhsLen] at hall
    constructor
    · intro hout
      obtain ⟨z', rfl, a, b⟩ := hall out hout
      rw [hone z' a b]
    · rintro rfl
      obtain ⟨z', he, a, b⟩ := hall _ hz
      cases he
      rw [← hone z a b]
      exact hz
  · have := hy2 c (by rw [hon.rhsLen]; exact hc)
    rw [hres _ c hc] at this
    exact (mul_eq_zero.1 this).resolve_left hs

/-- One call of `dsl::solve`: exactly one outcome, the balanced field. -/
theorem steady_solve {m : Mesh K} (h : m.WF) (h256 : ∀ c < m.nCells, 1 + m.deg c ≤ 256)
    (e : ExecKind) (hre : m.Reproducible e) {sp : SparsityPattern} (hsp : sparsityUpdate e m (.ok sp))
    (sch : InterpScheme) (w : List K) (junk : Nat → K) (flux δ gamma : List K)
    (hfl : flux.length = m.nFaces) (hδ : δ.length = m.nFaces) (hg : gamma.length = m.nFaces)
    (eqn : Expr) (ops : OpsOf K K) (hbuild : ∀ st, steadyTree.build (steadyOps e m sp sch w junk flux δ gamma st) = .ok (eqn, ops st))
    (bcs : List (VolumeBoundary K)) (table : SolverTable K) (fvSchemes fvSolution : Dict)
    (solver : LinSolver K) (hso : createSolver table fvSolution = .ok solver) (hex : SolvingOn m solver)
    (st : TimeState K K) (ho : st.sol.On m) (hst : Stable m (ix flux) (ix δ) (ix gamma) st.sol)
    (hfed : ∀ c < m.nCells, Fed m (ix flux) (ix δ) (ix gamma) st.sol c) (t dt : K) :
    ∃ x : List K, x.length = m.nCells ∧
      (∀ out, dslSolve e m bcs table fvSchemes fvSolution ops eqn st t dt out ↔ out = .ok { st with sol := { st.sol with internal := x } }) ∧
      ∀ c < m.nCells, m.netOutflow (st.sol.outFlux m (ix flux) (ix δ) (ix gamma) (ix x)) c = 0 := by
  obtain ⟨_, hee, hp⟩ := pattern_for m h h256 e _ hsp
  cases hee
  have hu : ∀ out, sparsityUpdate e m out ↔ out = .ok sp :=
    fun out => ⟨fun ho => sparsity_single m h (hre.imp id And.left) _ _ ho hsp, fun ho => ho ▸ hsp⟩
  obtain ⟨ls, hon, hres, hdet⟩ := steady_system e h hp hu (hre.imp id And.right) sch w junk flux δ gamma hfl hδ hg eqn ops hbuild st ho t dt bcs table
    fvSchemes fvSolution
  obtain ⟨y, h1, h2, h3⟩ := steady_solver h hst hfed hp ls hon 1 one_ne_zero (fun x c hc => by rw [hres x c hc, one_mul]) solver hex st.sol.internal ho.int
  refine ⟨y, h1, fun out => ?_, h3⟩
  rw [hdet solver hso out]
  exact NR.bind_iff h2 out

/-- **C63**: for every valid mesh without degenerate faces, divergence-free flux, non-negative diffusivity, zero-gradient boundaries and
boundary values within the bounds, such that a prescribed value reaches every cell (`Fed`), and every *initial field, also outside the
bounds*: `dsl::solve` of `div(flux, u) - laplacian(gamma, u)`, with every linear solver that solves solvable systems, has exactly one
outcome. In it what leaves each cell balances, the cell values are within the bounds, and no other field balances.
Outside the statement: other boundary conditions, parallel executors on meshes that are not lines of cells (C32), round-off. -/
theorem C63_steady {m : Mesh K} (h : m.WF) (h256 : ∀ c < m.nCells, 1 + m.deg c ≤ 256)
    (hspan : ∀ f < m.nFaces, m.span f ≠ 0) (hmag : ∀ f < m.nFaces, 0 ≤ ix m.magFaceAreas f)
    (e : ExecKind) (hre : m.Reproducible e) {sp : SparsityPattern} (hsp : sparsityUpdate e m (.ok sp))
    (tiny : K) (ht : 0 ≤ tiny) (sqrt : K → K) (hs : IsSqrt sqrt) (gjunk : Nat → K) (g : Geometry K) (hg : geometryScheme e m tiny sqrt gjunk (.ok g))
    (sch : InterpScheme) (junk : Nat → K) (flux gamma : List K) (hfl : flux.length = m.nFaces) (hgl : gamma.length = m.nFaces)
    (hgam : ∀ f < m.nFaces, 0 ≤ ix gamma f) (hdiv : m.DivergenceFree (ix flux)) (eqn : Expr) (ops : OpsOf K K)
    (hbuild : ∀ st, steadyTree.build (steadyOps e m sp sch g.weights junk flux g.nonOrthDeltaCoeffs gamma st) = .ok (eqn, ops st))
    (bcs : List (VolumeBoundary K)) (table : SolverTable K) (fvSchemes fvSolution : Dict)
    (solver : LinSolver K) (hso : createSolver table fvSolution = .ok solver) (hex : SolvingOn m solver)
    (lo hi : K) (st : TimeState K K) (ho : st.sol.On m)
    (hbc : ImplicitBC m (ix flux) (ix g.nonOrthDeltaCoeffs) (ix gamma) lo hi st.sol)
    (hfed : ∀ c < m.nCells, Fed m (ix flux) (ix g.nonOrthDeltaCoeffs) (ix gamma) st.sol c) (t dt : K) :
    ∃ x : List K, x.length = m.nCells ∧
      (∀ out, dslSolve e m bcs table fvSchemes fvSolution ops eqn st t dt out ↔ out = .ok { st with sol := { st.sol with internal := x } }) ∧
      (∀ c < m.nCells, m.netOutflow (st.sol.outFlux m (ix flux) (ix g.nonOrthDeltaCoeffs) (ix gamma) (ix x)) c = 0) ∧
      (∀ c < m.nCells, lo ≤ ix x c ∧ ix x c ≤ hi) ∧
      ∀ y : Nat → K, (∀ c < m.nCells, m.netOutflow (st.sol.outFlux m (ix flux) (ix g.nonOrthDeltaCoeffs) (ix gamma) y) c = 0) →
        ∀ c < m.nCells, y c = ix x c := by
  obtain ⟨hl, hst, hb⟩ := stable_of h tiny ht sqrt hs gjunk e g hg hspan hmag hgam hdiv hbc
  obtain ⟨x, h1, h2, h3⟩ := steady_solve h h256 e hre hsp sch g.weights junk flux g.nonOrthDeltaCoeffs gamma hfl hl hgl eqn ops hbuild bcs table
    fvSchemes fvSolution solver hso hex st ho hst hfed t dt
  exact ⟨x, h1, h2, h3, steady_bounds h hst hfed hb _ h3, fun y hy => steady_unique h hst hfed _ _ fun c hc => (hy c hc).trans (h3 c hc).symm⟩

/-- The hypotheses of `C63_steady` can be met: flow through the duct with diffusivity 1, inlet value 0, initial values 7. -/
example (δ : List ℝ) (hδ : ∀ f < duct.nFaces, 0 < ix δ f) :
    let φ : VolField ℝ ℝ := ⟨[7, 7], [0, 7], [0, 0], [1, 0], [0, 0]⟩
    φ.On duct ∧ duct.DivergenceFree (ix ductFlux) ∧ ImplicitBC duct (ix ductFlux) (ix δ) (ix [1, 1, 1]) 0 0 φ ∧
    ∀ c < duct.nCells, Fed duct (ix ductFlux) (ix δ) (ix [1, 1, 1]) φ c := by
  refine ⟨⟨rfl, rfl, rfl, rfl, rfl⟩, duct_divergenceFree, ?_, ?_⟩
  · intro b hb
    have : b = 0 ∨ b = 1 := by simp [duct] at hb; omega
    rcases this with rfl | rfl
    · refine ⟨.fixedValue 0, ⟨rfl, rfl, rfl⟩, .inr ⟨0, rfl, le_rfl, le_rfl, ?_⟩⟩
      have := hδ 1 (by simp [duct])
      simp [ix] at this
      simp [duct, ix, ductFlux]
      linarith
    · refine ⟨.fixedGradient 0, ⟨?_, rfl, rfl⟩, .inl rfl⟩
      simp [VolField.entry, VolField.cell, duct, Mesh.fc]
  · have f0 : Fed duct (ix ductFlux) (ix δ) (ix [1, 1, 1]) ⟨[7, 7], [0, 7], [0, 0], [1, 0], [0, 0]⟩ 0 := by
      have := Fed.boundary (m := duct) (flux := ix ductFlux) (δ := ix δ) (gamma := ix [1, 1, 1]) (φ := ⟨[7, 7], [0, 7], [0, 0], [1, 0], [0, 0]⟩) 0
        (by simp [duct]) rfl (by
          have := hδ 1 (by simp [duct])
          simp [ix] at this
          simp [duct, ix, ductFlux]
          linarith)
      exact this
    intro c hc
    have : c = 0 ∨ c = 1 := by simp [duct] at hc; omega
    rcases this with rfl | rfl
    · exact f0
    · exact Fed.nbr (m := duct) 0 (by simp [duct]) f0 (.inr (by simp [ix, ductFlux]))

/-- Data of zero gradient on both ends of the duct. -/
def ductInsulated : VolField ℝ ℝ := ⟨[0, 0], [0, 0], [0, 0], [0, 0], [0, 0]⟩

/-- **The condition `Fed` is needed**: in the insulated duct, without flow and with diffusivity 1, no prescribed value reaches a cell, and
`dsl::solve` with a solver that solves solvable systems may return every uniform field. -/
theorem C63_reached_needed : ImplicitBC duct (ix [0, 0, 0]) (ix [1, 1, 1]) (ix [1, 1, 1]) 0 0 ductInsulated ∧
    ∃ sp eqn ops, sparsityUpdate .serial duct (.ok sp) ∧
      (∀ st, steadyTree.build (steadyOps .serial duct sp .upwind [0, 0, 0] (fun _ => 0) [0, 0, 0] [1, 1, 1] [1, 1, 1] st) = .ok (eqn, ops st)) ∧
      ∀ a : ℝ, dslSolve .serial duct (ductBCs (.fixedGradient 0)) [("exact", fun _ => anySolution)] [] [("solver", .str "exact")] ops eqn
        ⟨ductInsulated, none⟩ 0 1 (.ok ⟨{ ductInsulated with internal := [a, a] }, none⟩) := by
  refine ⟨?_, ?_⟩
  · intro b hb
    refine ⟨.fixedGradient 0, ⟨?_, ?_, ?_⟩, .inl rfl⟩
    all_goals
      have : b = 0 ∨ b = 1 := by simp [duct] at hb; omega
      rcases this with rfl | rfl <;> simp [ductInsulated, VolField.entry, VolField.cell, duct, Mesh.fc]
  obtain ⟨sp, hsp⟩ := C14_terminates duct duct_wf .serial
  obtain ⟨_, heq, hp⟩ := pattern_for duct duct_wf duct_deg .serial _ hsp
  cases heq
  have hu : ∀ out, sparsityUpdate .serial duct out ↔ out = .ok sp :=
    fun out => ⟨fun ho => sparsity_serial_single _ duct_wf _ _ ho hsp, fun ho => ho ▸ hsp⟩
  obtain ⟨eqn, ops, hbuild⟩ := steady_build .serial duct sp .upwind [0, 0, 0] (fun _ => 0) [0, 0, 0] [1, 1, 1] [(1 : ℝ), 1, 1]
  refine ⟨sp, eqn, ops, hsp, hbuild, fun a => ?_⟩
  obtain ⟨ls, hon, hres, hdet⟩ := steady_system .serial duct_wf hp hu (.inl rfl) .upwind [0, 0, 0] (fun _ => 0) [0, 0, 0] [1, 1, 1] [1, 1, 1] rfl rfl rfl
    eqn ops hbuild ⟨ductInsulated, none⟩ ⟨rfl, rfl, rfl, rfl, rfl⟩ 0 1 (ductBCs (.fixedGradient 0)) [("exact", fun _ => anySolution)] [] [("solver", .str "exact")]
  have hlen : ls.rhs.length = 2 := hon.rhsLen
  refine (hdet anySolution rfl _).2 ⟨.ok [a, a], ⟨_, rfl, by rw [hlen]; rfl, fun i hi => ?_⟩, rfl⟩
  rw [hlen] at hi
  rw [hres _ i (by simpa [duct] using hi)]
  interval_cases i <;>
    simp [Mesh.netOutflow, VolField.outFlux, duct, Mesh.own, Mesh.nbr, Mesh.fc, ix, ductInsulated, VolField.entry, Finset.sum_range_succ]

end NeoFOAM
