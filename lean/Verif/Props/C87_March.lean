import Verif.Proofs.March
import Verif.Props.C63_SteadyTransport

/-!
# C87 – marching in time with backwardEuler converges to the solution of the steady equation

C88 – two runs: what is below stays below, and the distance between the runs never grows.
-/
namespace NeoFOAM
open Finset

/-- The same conditions and data at the boundary (the boundary values themselves, which follow the cells at a zero-gradient boundary,
may differ). -/
def VolField.SameBC {K : Type} [Zero K] (φ ψ : VolField K K) : Prop :=
  ∀ b, (φ.entry b).fraction = (ψ.entry b).fraction ∧ (φ.entry b).refValue = (ψ.entry b).refValue ∧ (φ.entry b).refGrad = (ψ.entry b).refGrad

section
variable {K : Type} [Field K] [LinearOrder K]

theorem outFlux_sameBC {φ ψ : VolField K K} (h : φ.SameBC ψ) (m : Mesh K) (flux δ gamma x : Nat → K) :
    φ.outFlux m flux δ gamma x = ψ.outFlux m flux δ gamma x := by
  funext f
  obtain ⟨h1, h2, h3⟩ := h (f - m.nInternalFaces)
  simp only [VolField.outFlux, h1, h2, h3]

theorem stable_sameBC {m : Mesh K} {flux δ gamma : Nat → K} {φ ψ : VolField K K} (h : φ.SameBC ψ) (hs : Stable m flux δ gamma ψ) :
    Stable m flux δ gamma φ := by
  refine ⟨hs.free, hs.diff, fun b hb => ?_⟩
  rw [(h b).1, (h b).2.2]
  exact hs.bnd b hb

theorem sameBC_of_entry {φ ψ : VolField K K} (h : ∀ b, φ.entry b = ψ.entry b) : φ.SameBC ψ := fun b => by rw [h b]; exact ⟨rfl, rfl, rfl⟩

variable [IsStrictOrderedRing K]

/-- **C87**: for every valid mesh with positive volumes and no degenerate faces, divergence-free flux, non-negative diffusivity, boundary
conditions and data `φ` such that a prescribed value reaches every cell, and least time step `d`: there are a field `x` within the bounds
of the boundary values, a factor `ρ < 1` and a constant `A` such that, for every field with these boundary data, *whatever its cell
values*,
* `dsl::solve` of the steady equation `div(flux, u) - laplacian(gamma, u)` returns exactly `x`, and
* `n` calls of `dsl::solve` on `ddt(u) + div(flux, u) - laplacian(gamma, u)` with backwardEuler and any time steps at least `d` have exactly
  one outcome, whose distance to `x` in each cell is at most `A ρⁿ` times the largest initial one.
In particular `x` is kept exactly by every step. Linear solvers are any that solve solvable systems.
Outside the statement: the parallel executors on meshes that are not lines of cells (C32), round-off. -/
theorem C87_marching {m : Mesh K} (h : m.WF) (h256 : ∀ c < m.nCells, 1 + m.deg c ≤ 256) (hv : ∀ c < m.nCells, 0 < m.vol c)
    (hspan : ∀ f < m.nFaces, m.span f ≠ 0) (hmag : ∀ f < m.nFaces, 0 ≤ ix m.magFaceAreas f)
    (e : ExecKind) (hre : m.Reproducible e) {sp : SparsityPattern} (hsp : sparsityUpdate e m (.ok sp))
    (tiny : K) (ht : 0 ≤ tiny) (sqrt : K → K) (hs : IsSqrt sqrt) (gjunk : Nat → K) (g : Geometry K) (hg : geometryScheme e m tiny sqrt gjunk (.ok g))
    (sch : InterpScheme) (junk : Nat → K) (flux gamma : List K) (hfl : flux.length = m.nFaces) (hgl : gamma.length = m.nFaces)
    (hgam : ∀ f < m.nFaces, 0 ≤ ix gamma f) (hdiv : m.DivergenceFree (ix flux))
    (eqn : Expr) (ops : OpsOf K K)
    (hbuild : ∀ st, convDiffTree.build (convDiffOps e m sp sch g.weights junk flux g.nonOrthDeltaCoeffs gamma st) = .ok (eqn, ops st))
    (seqn : Expr) (sops : OpsOf K K)
    (hsbuild : ∀ st, steadyTree.build (steadyOps e m sp sch g.weights junk flux g.nonOrthDeltaCoeffs gamma st) = .ok (seqn, sops st))
    (bcs : List (VolumeBoundary K)) (table : SolverTable K) (fvSchemes fvSolution : Dict) (hd : AsksFor fvSchemes "backwardEuler")
    (solver : LinSolver K) (hso : createSolver table fvSchemes = .ok solver) (hex : SolvingOn m solver)
    (ssolver : LinSolver K) (hsso : createSolver table fvSolution = .ok ssolver) (hsex : SolvingOn m ssolver)
    (lo hi : K) (φ : VolField K K) (hφ : φ.On m) (hbc : ImplicitBC m (ix flux) (ix g.nonOrthDeltaCoeffs) (ix gamma) lo hi φ)
    (hfed : ∀ c < m.nCells, Fed m (ix flux) (ix g.nonOrthDeltaCoeffs) (ix gamma) φ c) (d : K) (hd0 : 0 < d) :
    ∃ (x : List K) (ρ A : K), x.length = m.nCells ∧ (∀ c < m.nCells, lo ≤ ix x c ∧ ix x c ≤ hi) ∧ 0 ≤ ρ ∧ ρ < 1 ∧ 0 ≤ A ∧
      ∀ st : TimeState K K, st.sol.On m → st.sol.SameBC φ →
        (∀ t dt out, dslSolve e m bcs table fvSchemes fvSolution sops seqn st t dt out ↔ out = .ok { st with sol := { st.sol with internal := x } }) ∧
        ∀ (t : K) (dt : Nat → K), st.Synced → (∀ k, d ≤ dt k) → ∃ u : Nat → TimeState K K, u 0 = st ∧
          (∀ k out, timeLoop (fun dt st => dslSolve e m bcs table fvSchemes fvSolution ops eqn st t dt) dt k st out ↔ out = .ok (u k)) ∧
          ∀ D, (∀ c < m.nCells, |st.sol.cell c - ix x c| ≤ D) → ∀ n, ∀ c < m.nCells, |(u n).sol.cell c - ix x c| ≤ A * ρ ^ n * D := by
  obtain ⟨hl, hst, hb⟩ := stable_of h tiny ht sqrt hs gjunk e g hg hspan hmag hgam hdiv hbc
  obtain ⟨ρ, A, hρ0, hρ1, hA, hdecay⟩ := march_decay h hv hst hfed hd0
  obtain ⟨x, hx1, -, hx3⟩ := steady_solve h h256 e hre hsp sch g.weights junk flux g.nonOrthDeltaCoeffs gamma hfl hl hgl seqn sops hsbuild bcs table
    fvSchemes fvSolution ssolver hsso hsex ⟨φ, none⟩ hφ hst hfed 0 0
  refine ⟨x, ρ, A, hx1, steady_bounds h hst hfed hb _ hx3, hρ0, hρ1, hA, fun st hon hsame => ?_⟩
  have hst' := stable_sameBC hsame hst
  have hfed' : ∀ c < m.nCells, Fed m (ix flux) (ix g.nonOrthDeltaCoeffs) (ix gamma) st.sol c := fun c hc => (hfed c hc).congr fun b => (hsame b).1
  refine ⟨fun t dt out => ?_, fun t dt hsy hdt => ?_⟩
  · obtain ⟨y, hy1, hy2, hy3⟩ := steady_solve h h256 e hre hsp sch g.weights junk flux g.nonOrthDeltaCoeffs gamma hfl hl hgl seqn sops hsbuild bcs table
      fvSchemes fvSolution ssolver hsso hsex st hon hst' hfed' t dt
    have : y = x := by
      refine List.ext_getElem (hy1.trans hx1.symm) fun i h1 h2 => ?_
      have := steady_unique h hst hfed (ix y) (ix x) (fun c hc => by rw [hx3 c hc, ← outFlux_sameBC hsame, hy3 c hc]) i (by omega)
      simpa [ix, List.getD_eq_getElem?_getD, h1, h2] using this
    rw [← this]
    exact hy2 out
  · have hpos : ∀ k, 0 < dt k := fun k => lt_of_lt_of_le hd0 (hdt k)
    obtain ⟨u, h0, h1, h2⟩ := convDiff_steps h h256 hv e hre hsp sch g.weights junk flux g.nonOrthDeltaCoeffs gamma hfl hl hgl eqn ops hbuild bcs table
      fvSchemes fvSolution hd solver hso hex st hon hsy hst' t dt hpos
    refine ⟨u, h0, h1, fun D hD n => ?_⟩
    refine hdecay (ix x) hx3 (fun k => (u k).sol.cell) dt D (by rw [h0]; exact hD) hdt (fun k c hc => ?_) n
    have hq := (h2 k).1.cells c hc
    rwa [outFlux_sameBC (sameBC_of_entry (h2 k).2), outFlux_sameBC hsame] at hq

/-- **C88**: for every valid mesh with positive volumes and no degenerate faces, divergence-free flux and non-negative diffusivity, and two
runs of any number of backwardEuler calls of `dsl::solve` on `ddt(u) + div(flux, u) - laplacian(gamma, u)` with the same positive time
steps, from two fields with the same kinds of boundary conditions: both have exactly one outcome, and
* if the first field is nowhere above the second, in the cells and at the boundaries with fixed values, it never becomes so;
* if the boundary data are the same, the largest distance between the fields never grows.
Outside the statement: the parallel executors on meshes that are not lines of cells (C32), round-off. -/
theorem C88_comparison {m : Mesh K} (h : m.WF) (h256 : ∀ c < m.nCells, 1 + m.deg c ≤ 256) (hv : ∀ c < m.nCells, 0 < m.vol c)
    (hspan : ∀ f < m.nFaces, m.span f ≠ 0) (hmag : ∀ f < m.nFaces, 0 ≤ ix m.magFaceAreas f)
    (e : ExecKind) (hre : m.Reproducible e) {sp : SparsityPattern} (hsp : sparsityUpdate e m (.ok sp))
    (tiny : K) (ht : 0 ≤ tiny) (sqrt : K → K) (hs : IsSqrt sqrt) (gjunk : Nat → K) (g : Geometry K) (hg : geometryScheme e m tiny sqrt gjunk (.ok g))
    (sch : InterpScheme) (junk : Nat → K) (flux gamma : List K) (hfl : flux.length = m.nFaces) (hgl : gamma.length = m.nFaces)
    (hgam : ∀ f < m.nFaces, 0 ≤ ix gamma f) (hdiv : m.DivergenceFree (ix flux)) (eqn : Expr) (ops : OpsOf K K)
    (hbuild : ∀ st, convDiffTree.build (convDiffOps e m sp sch g.weights junk flux g.nonOrthDeltaCoeffs gamma st) = .ok (eqn, ops st))
    (bcs bcs' : List (VolumeBoundary K)) (table : SolverTable K) (fvSchemes fvSolution : Dict) (hd : AsksFor fvSchemes "backwardEuler")
    (solver : LinSolver K) (hso : createSolver table fvSchemes = .ok solver) (hex : SolvingOn m solver)
    (lo hi lo' hi' : K) (st st' : TimeState K K) (ho : st.sol.On m) (ho' : st'.sol.On m) (hsy : st.Synced) (hsy' : st'.Synced)
    (hbc : ImplicitBC m (ix flux) (ix g.nonOrthDeltaCoeffs) (ix gamma) lo hi st.sol)
    (hbc' : ImplicitBC m (ix flux) (ix g.nonOrthDeltaCoeffs) (ix gamma) lo' hi' st'.sol) (t : K) (dt : Nat → K) (hdt : ∀ k, 0 < dt k) :
    ∃ u u' : Nat → TimeState K K, u 0 = st ∧ u' 0 = st' ∧
      (∀ k out, timeLoop (fun d st => dslSolve e m bcs table fvSchemes fvSolution ops eqn st t d) dt k st out ↔ out = .ok (u k)) ∧
      (∀ k out, timeLoop (fun d st => dslSolve e m bcs' table fvSchemes fvSolution ops eqn st t d) dt k st' out ↔ out = .ok (u' k)) ∧
      ((∀ b < m.nBoundaryFaces, (st'.sol.entry b).fraction = (st.sol.entry b).fraction) →
        (∀ b < m.nBoundaryFaces, (st'.sol.entry b).fraction = 1 → (st.sol.entry b).refValue ≤ (st'.sol.entry b).refValue) →
        (∀ c < m.nCells, st.sol.cell c ≤ st'.sol.cell c) → ∀ n, ∀ c < m.nCells, (u n).sol.cell c ≤ (u' n).sol.cell c) ∧
      (st'.sol.SameBC st.sol → ∀ D, (∀ c < m.nCells, |st.sol.cell c - st'.sol.cell c| ≤ D) →
        ∀ n, ∀ c < m.nCells, |(u n).sol.cell c - (u' n).sol.cell c| ≤ D) := by
  obtain ⟨hl, hst, -⟩ := stable_of h tiny ht sqrt hs gjunk e g hg hspan hmag hgam hdiv hbc
  obtain ⟨-, hst', -⟩ := stable_of h tiny ht sqrt hs gjunk e g hg hspan hmag hgam hdiv hbc'
  obtain ⟨u, h0, h1, h2⟩ := convDiff_steps h h256 hv e hre hsp sch g.weights junk flux g.nonOrthDeltaCoeffs gamma hfl hl hgl eqn ops hbuild bcs table
    fvSchemes fvSolution hd solver hso hex st ho hsy hst t dt hdt
  obtain ⟨u', h0', h1', h2'⟩ := convDiff_steps h h256 hv e hre hsp sch g.weights junk flux g.nonOrthDeltaCoeffs gamma hfl hl hgl eqn ops hbuild bcs' table
    fvSchemes fvSolution hd solver hso hex st' ho' hsy' hst' t dt hdt
  have hc1 : ∀ k, ∀ c < m.nCells, m.vol c * ((u (k + 1)).sol.cell c - (u k).sol.cell c) / dt k
      + m.netOutflow (st.sol.outFlux m (ix flux) (ix g.nonOrthDeltaCoeffs) (ix gamma) (u (k + 1)).sol.cell) c = 0 := fun k c hc => by
    have hq := (h2 k).1.cells c hc
    rwa [outFlux_sameBC (sameBC_of_entry (h2 k).2)] at hq
  have hc2 : ∀ k, ∀ c < m.nCells, m.vol c * ((u' (k + 1)).sol.cell c - (u' k).sol.cell c) / dt k
      + m.netOutflow (st'.sol.outFlux m (ix flux) (ix g.nonOrthDeltaCoeffs) (ix gamma) (u' (k + 1)).sol.cell) c = 0 := fun k c hc => by
    have hq := (h2' k).1.cells c hc
    rwa [outFlux_sameBC (sameBC_of_entry (h2' k).2)] at hq
  refine ⟨u, u', h0, h0', h1, h1', fun hfr hle hin n => ?_, fun hsame D hD n => ?_⟩
  · induction n with
    | zero => rw [h0, h0']; exact hin
    | succ n ih =>
      refine implicit_mono_bc h hv hst hst' hfr (fun b hb hq => hle b hb ((hfr b hb).trans hq)) (hdt n) _ _ _ _ (hc1 n) (hc2 n) ih
  · induction n with
    | zero => rw [h0, h0']; exact hD
    | succ n ih =>
      refine implicit_contract h hv hst (hdt n) _ _ _ _ (hc1 n) (fun c hc => ?_) ih
      rw [← outFlux_sameBC hsame]
      exact hc2 n c hc

end

/-- Flow through the duct: value 0 fixed at the inlet, zero gradient at the outlet, values 7 in the cells. -/
def ductStart : VolField ℝ ℝ := ⟨[7, 7], [0, 7], [0, 0], [1, 0], [0, 0]⟩

theorem ductStart_meets (δ : List ℝ) (hδ : ∀ f < duct.nFaces, 0 < ix δ f) :
    ImplicitBC duct (ix ductFlux) (ix δ) (ix [1, 1, 1]) 0 0 ductStart ∧ ∀ c < duct.nCells, Fed duct (ix ductFlux) (ix δ) (ix [1, 1, 1]) ductStart c := by
  constructor
  · intro b hb
    have : b = 0 ∨ b = 1 := by simp [duct] at hb; omega
    rcases this with rfl | rfl
    · refine ⟨.fixedValue 0, ⟨rfl, rfl, rfl⟩, .inr ⟨0, rfl, le_rfl, le_rfl, ?_⟩⟩
      have := hδ 1 (by simp [duct])
      simp [ix] at this
      simp [duct, ix, ductFlux]
      linarith
    · refine ⟨.fixedGradient 0, ⟨?_, rfl, rfl⟩, .inl rfl⟩
      simp [ductStart, VolField.entry, VolField.cell, duct, Mesh.fc]
  · have f0 : Fed duct (ix ductFlux) (ix δ) (ix [1, 1, 1]) ductStart 0 :=
      Fed.boundary (m := duct) (flux := ix ductFlux) (δ := ix δ) (gamma := ix [1, 1, 1]) (φ := ductStart) 0
        (by simp [duct]) rfl (by
          have := hδ 1 (by simp [duct])
          simp [ix] at this
          simp [duct, ix, ductFlux]
          linarith)
    intro c hc
    have : c = 0 ∨ c = 1 := by simp [duct] at hc; omega
    rcases this with rfl | rfl
    · exact f0
    · exact Fed.nbr (m := duct) 0 (by simp [duct]) f0 (.inr (by simp [ix, ductFlux]))

/-- What returns whichever solution of the system there is. -/
def someSolution : LinSolver ℝ := fun ls x out => (anySolution ls x out) ∨ ((¬ ∃ y, anySolution ls x (.ok y)) ∧ out = .abort)

/-- The hypotheses of `C87_marching` can be met, on every executor: in the duct the values 7 decay to 0 with time steps at least 1. -/
example (e : ExecKind) : ∃ (ops : OpsOf ℝ ℝ) (eqn : Expr) (ρ A : ℝ), ρ < 1 ∧ ∀ dt : Nat → ℝ, (∀ k, 1 ≤ dt k) → ∀ n,
    ∃ st, timeLoop (fun dt st => dslSolve e duct [] [("exact", fun _ => someSolution)] backwardDict [("solver", .str "exact")] ops eqn st 0 dt) dt n
        ⟨ductStart, none⟩ (.ok st) ∧ ∀ c < 2, |st.sol.cell c| ≤ A * ρ ^ n * 7 := by
  obtain ⟨g, hgd, -, -, -, -, -, hq⟩ := C27_geometry duct_wf e 0 le_rfl Real.sqrt isSqrt_real (fun _ => 0)
  obtain ⟨sp, hsp⟩ := C14_terminates duct duct_wf e
  obtain ⟨eqn, ops, hb⟩ := convDiff_build e duct sp .upwind g.weights (fun _ => 0) ductFlux g.nonOrthDeltaCoeffs [1, 1, 1]
  obtain ⟨seqn, sops, hsb⟩ := steady_build e duct sp .upwind g.weights (fun _ => 0) ductFlux g.nonOrthDeltaCoeffs [1, 1, 1]
  obtain ⟨h1, h2⟩ := ductStart_meets g.nonOrthDeltaCoeffs fun f hf => (hq f hf (duct_span f hf)).2.2.1
  have hones : ∀ f < duct.nFaces, (0 : ℝ) ≤ ix [1, 1, 1] f := by
    intro f hf
    have : f = 0 ∨ f = 1 ∨ f = 2 := by simp [duct] at hf; omega
    rcases this with rfl | rfl | rfl <;> simp [ix]
  obtain ⟨x, ρ, A, hx, hx0, -, hρ, hA, hall⟩ := C87_marching duct_wf duct_deg duct_vol duct_span (by simpa [duct] using hones) e (duct_reproducible e) hsp
    0 le_rfl Real.sqrt isSqrt_real (fun _ => 0) g ((hgd _).2 rfl) .upwind (fun _ => 0) ductFlux [1, 1, 1] rfl rfl hones duct_divergenceFree eqn ops hb
    seqn sops hsb [] [("exact", fun _ => someSolution)] backwardDict [("solver", .str "exact")] ⟨_, rfl, rfl⟩
    someSolution rfl (anySolution_solving.on duct) someSolution rfl (anySolution_solving.on duct) 0 0 ductStart ⟨rfl, rfl, rfl, rfl, rfl⟩ h1 h2 1 one_pos
  refine ⟨ops, eqn, ρ, A, hρ, fun dt hdt n => ?_⟩
  obtain ⟨-, hm⟩ := hall ⟨ductStart, none⟩ ⟨rfl, rfl, rfl, rfl, rfl⟩ fun _ => ⟨rfl, rfl, rfl⟩
  obtain ⟨u, -, hu, hD⟩ := hm 0 dt rfl hdt
  have hz : ∀ c < duct.nCells, ix x c = 0 := fun c hc => le_antisymm (hx0 c hc).2 (hx0 c hc).1
  refine ⟨u n, (hu n _).2 rfl, fun c hc => ?_⟩
  have := hD 7 (fun c hc => by
    rw [hz c hc]
    have : c = 0 ∨ c = 1 := by simp [duct] at hc; omega
    rcases this with rfl | rfl <;> simp [ductStart, VolField.cell]) n c hc
  rwa [hz c hc, sub_zero] at this

/-- The insulated duct with the value `a` everywhere. -/
def ductUniform (a : ℝ) : VolField ℝ ℝ := ⟨[a, a], [a, a], [0, 0], [0, 0], [0, 0]⟩

/-- **A prescribed value must reach the cells**: in the insulated duct, without flow and with diffusivity 1, all uniform fields have the
same boundary data, and each is kept by every number of backwardEuler steps of any size: the runs have no common limit. -/
theorem C87_reached_needed : (∀ a a' : ℝ, (ductUniform a).SameBC (ductUniform a')) ∧
    ∃ (sp : SparsityPattern) (g : Geometry ℝ) (eqn : Expr) (ops : OpsOf ℝ ℝ), sparsityUpdate .serial duct (.ok sp) ∧
      geometryScheme .serial duct 0 Real.sqrt (fun _ => 0) (.ok g) ∧
      (∀ st, convDiffTree.build (convDiffOps .serial duct sp .upwind g.weights (fun _ => 0) [0, 0, 0] g.nonOrthDeltaCoeffs [1, 1, 1] st) = .ok (eqn, ops st)) ∧
      ∀ (a : ℝ) (dt : Nat → ℝ), (∀ k, 0 < dt k) → ∀ n, ∃ st,
        timeLoop (fun dt st => dslSolve .serial duct [] [("exact", fun _ => someSolution)] backwardDict [] ops eqn st 0 dt) dt n ⟨ductUniform a, none⟩ (.ok st) ∧
        ∀ c < duct.nCells, st.sol.cell c = a := by
  refine ⟨fun a a' b => ⟨rfl, rfl, rfl⟩, ?_⟩
  obtain ⟨g, hgd, -⟩ := C27_geometry duct_wf .serial 0 le_rfl Real.sqrt isSqrt_real (fun _ => 0)
  obtain ⟨sp, hsp⟩ := C14_terminates duct duct_wf .serial
  obtain ⟨eqn, ops, hb⟩ := convDiff_build .serial duct sp .upwind g.weights (fun _ => 0) [0, 0, 0] g.nonOrthDeltaCoeffs [(1 : ℝ), 1, 1]
  refine ⟨sp, g, eqn, ops, hsp, (hgd _).2 rfl, hb, fun a dt hdt n => ?_⟩
  have hones : ∀ f < duct.nFaces, (0 : ℝ) ≤ ix [1, 1, 1] f := by
    intro f hf
    have : f = 0 ∨ f = 1 ∨ f = 2 := by simp [duct] at hf; omega
    rcases this with rfl | rfl | rfl <;> simp [ix]
  have hbc : ImplicitBC duct (ix [0, 0, 0]) (ix g.nonOrthDeltaCoeffs) (ix [1, 1, 1]) a a (ductUniform a) := by
    intro b hb
    refine ⟨.fixedGradient 0, ⟨?_, ?_, ?_⟩, .inl rfl⟩
    all_goals
      have : b = 0 ∨ b = 1 := by simp [duct] at hb; omega
      rcases this with rfl | rfl <;> simp [ductUniform, VolField.entry, VolField.cell, duct, Mesh.fc]
  have hz : duct.DivergenceFree (ix [0, 0, 0]) := by
    intro c hc
    have : c = 0 ∨ c = 1 := by simp [duct] at hc; omega
    rcases this with rfl | rfl <;> simp [Mesh.netOutflow, duct, Mesh.own, Mesh.nbr, Mesh.fc, ix, Finset.sum_range_succ]
  obtain ⟨u, -, hu, hin⟩ := C60_bounded_partial duct_wf duct_deg duct_vol duct_span (by simpa [duct] using hones) .serial (.inl rfl) hsp
    0 le_rfl Real.sqrt isSqrt_real (fun _ => 0) g ((hgd _).2 rfl) .upwind (fun _ => 0) [0, 0, 0] [1, 1, 1] rfl rfl hones hz eqn ops hb
    [] [("exact", fun _ => someSolution)] backwardDict [] ⟨_, rfl, rfl⟩ someSolution rfl (anySolution_solving.on duct) a a ⟨ductUniform a, none⟩
    ⟨rfl, rfl, rfl, rfl, rfl⟩ rfl hbc (fun c hc => by
      have : c = 0 ∨ c = 1 := by simp [duct] at hc; omega
      rcases this with rfl | rfl <;> simp [ductUniform, VolField.cell]) 0 dt hdt
  exact ⟨u n, (hu n _).2 rfl, fun c hc => le_antisymm (hin n c hc).2 (hin n c hc).1⟩

/-- The hypotheses of `C88_comparison` can be met: the fields of the duct with 0 and with 7 in the cells. -/
example (δ : List ℝ) (hδ : ∀ f < duct.nFaces, 0 < ix δ f) :
    ImplicitBC duct (ix ductFlux) (ix δ) (ix [1, 1, 1]) 0 0 ductStart ∧
    (∀ b < duct.nBoundaryFaces, (ductStart.entry b).fraction = ((ductImplicit 0).entry b).fraction) ∧
    (∀ b < duct.nBoundaryFaces, (ductStart.entry b).fraction = 1 → ((ductImplicit 0).entry b).refValue ≤ (ductStart.entry b).refValue) ∧
    (∀ c < duct.nCells, (ductImplicit 0).cell c ≤ ductStart.cell c) ∧ ductStart.SameBC (ductImplicit 0) ∧
    ∀ c < duct.nCells, |(ductImplicit 0).cell c - ductStart.cell c| ≤ 6 := by
  refine ⟨(ductStart_meets δ hδ).1, fun b _ => rfl, fun b _ _ => le_of_eq rfl, fun c hc => ?_, fun b => ⟨rfl, rfl, rfl⟩, fun c hc => ?_⟩
  all_goals
    have : c = 0 ∨ c = 1 := by simp [duct] at hc; omega
    rcases this with rfl | rfl <;> simp [ductImplicit, ductStart, VolField.cell] <;> norm_num

end NeoFOAM
