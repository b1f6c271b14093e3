import Verif.Props.C75_ExplicitBudget
import Verif.Props.C87_March
import Verif.Props.C95_ExplicitConvergence
import Verif.Spec.FlowBC

/-!
# C98 – marching in time with forwardEuler reaches the solution of the steady equation
-/
namespace NeoFOAM
open Finset

section
variable {K : Type} [Field K] [LinearOrder K] [IsStrictOrderedRing K]

omit [IsStrictOrderedRing K] in
/-- What the explicit operators see of a field with these boundary values is what the implicit equation is assembled from. -/
theorem outflow_matches {m : Mesh K} (h : m.WF) {φ ψ : VolField K K} {flux δ gamma : Nat → K} {κ : K} (hgam : ∀ f < m.nFaces, gamma f = κ)
    (hb : ∀ b < m.nBoundaryFaces, ((φ.entry b).fraction = 0 ∧ (φ.entry b).refGrad = 0 ∧ ψ.bnd b = ψ.cell (m.fc b)) ∨
      ((φ.entry b).fraction = 1 ∧ ψ.bnd b = (φ.entry b).refValue)) (c : Nat) :
    m.netOutflow (ψ.outflow m flux δ κ) c = m.netOutflow (φ.outFlux m flux δ gamma ψ.cell) c := by
  have hfa := h.faces
  refine netOutflow_congr h (fun f hf => ?_) c
  simp only [VolField.outflow, VolField.outFlux, hgam f hf]
  by_cases hi : f < m.nInternalFaces
  · simp only [hi, if_true]
    ring
  · obtain ⟨b, rfl⟩ : ∃ b, f = m.nInternalFaces + b := ⟨f - m.nInternalFaces, by omega⟩
    simp only [hi, if_false, Nat.add_sub_cancel_left]
    rcases hb b (by omega) with ⟨h1, h2, h3⟩ | ⟨h1, h2⟩
    · rw [h1, h2, h3]; ring
    · rw [h1, h2]; ring

/-- A small explicit step keeps nonnegative data nonnegative. -/
theorem explicit_nonneg {m : Mesh K} (h : m.WF) (hv : ∀ c < m.nCells, 0 < m.vol c) {φ : VolField K K} {flux δ gamma : Nat → K} {κ dt : K} (hκ : 0 ≤ κ)
    (hgam : ∀ f < m.nFaces, gamma f = κ) (hdt : 0 ≤ dt) (hnn : ∀ f < m.nFaces, 0 ≤ ix m.magFaceAreas f * δ f) (hdiv : m.DivergenceFree flux) (hsm : SmallStep m flux δ κ dt)
    (hb : ∀ b < m.nBoundaryFaces, (φ.entry b).fraction = 0 ∨ (φ.entry b).fraction = 1 ∧ flux (m.nInternalFaces + b) ≤ 0)
    (z : Nat → K) (hz : ∀ c < m.nCells, 0 ≤ z c) : ∀ c < m.nCells, 0 ≤ z c - dt * (1 / m.vol c * m.netOutflow (φ.homog.outFlux m flux δ gamma z) c) := by
  intro c hc
  let ψ : VolField K K := ⟨(List.range m.nCells).map (fun c => -z c), (List.range m.nBoundaryFaces).map (fun b => (1 - (φ.entry b).fraction) * -z (m.fc b)), [], [], []⟩
  have hcell : ∀ c < m.nCells, ψ.cell c = -z c := fun c hc => by simp [ψ, VolField.cell, hc]
  have hbnd : ∀ b < m.nBoundaryFaces, ψ.bnd b = (1 - (φ.entry b).fraction) * -z (m.fc b) := fun b hb => by simp [ψ, VolField.bnd, hb]
  have key := explicitDiff_le (φ := ψ) (hi := 0) h hκ hdt hnn hdiv hsm (fun c hc => by rw [hcell c hc]; exact neg_nonpos.2 (hz c hc))
    (fun b hb' => by
      rw [hbnd b hb']
      have := hz _ (h.fc_lt b hb')
      rcases hb b hb' with h1 | ⟨h1, -⟩ <;> rw [h1] <;> simp [this])
    (fun b hb' hp => by
      rw [hbnd b hb', hcell _ (h.fc_lt b hb')]
      rcases hb b hb' with h1 | ⟨h1, h2⟩
      · rw [h1]; ring
      · exact absurd hp (not_lt.2 h2)) hc (hv c hc)
  rw [outflow_matches (φ := φ.homog) h hgam (fun b hb' => by
    rw [hbnd b hb', hcell _ (h.fc_lt b hb')]
    rcases hb b hb' with h1 | ⟨h1, -⟩
    · refine .inl ⟨h1, by simp [VolField.homog, VolField.entry], by rw [h1]; ring⟩
    · refine .inr ⟨h1, by rw [h1]; simp [VolField.homog, VolField.entry]⟩), hcell c hc,
    outFlux_congr h φ.homog flux δ gamma (y := fun c => -1 * z c) (fun c hc => by rw [hcell c hc]; ring), homog_smul] at key
  linarith

/-- Geometric decay of the distance to the balanced field under small explicit steps. -/
theorem explicit_march_decay {m : Mesh K} (h : m.WF) (hv : ∀ c < m.nCells, 0 < m.vol c) {flux δ gamma : Nat → K} {φ : VolField K K}
    (hs : Stable m flux δ gamma φ) (hfed : ∀ c < m.nCells, Fed m flux δ gamma φ c) {κ : K} (hκ : 0 ≤ κ) (hgam : ∀ f < m.nFaces, gamma f = κ)
    (hnn : ∀ f < m.nFaces, 0 ≤ ix m.magFaceAreas f * δ f)
    (hb : ∀ b < m.nBoundaryFaces, (φ.entry b).fraction = 0 ∨ (φ.entry b).fraction = 1 ∧ flux (m.nInternalFaces + b) ≤ 0) {d : K} (hd : 0 < d) :
    ∃ ρ A : K, 0 ≤ ρ ∧ ρ < 1 ∧ 0 ≤ A ∧ ∀ (x : Nat → K), (∀ c < m.nCells, m.netOutflow (φ.outFlux m flux δ gamma x) c = 0) →
      ∀ (u : Nat → Nat → K) (dt : Nat → K) (D : K), (∀ c < m.nCells, |u 0 c - x c| ≤ D) → (∀ k, d ≤ dt k ∧ SmallStep m flux δ κ (dt k)) →
        (∀ k, ∀ c < m.nCells, u (k + 1) c = u k c - dt k * (1 / m.vol c * m.netOutflow (φ.outFlux m flux δ gamma (u k)) c)) →
        ∀ k, ∀ c < m.nCells, |u k c - x c| ≤ A * ρ ^ k * D := by
  obtain ⟨w, hw, hbar⟩ := exists_barrier h hv hs hfed
  set W : K := 1 + d + ∑ c ∈ range m.nCells, w c with hWdef
  have hsum : 0 ≤ ∑ c ∈ range m.nCells, w c := Finset.sum_nonneg fun c hc => (hw c (mem_range.1 hc)).le
  have hwW : ∀ c < m.nCells, w c ≤ W := fun c hc => by
    have := Finset.single_le_sum (f := w) (fun i hi => (hw i (mem_range.1 hi)).le) (mem_range.2 hc)
    linarith
  have hW : 0 < W := by linarith
  have hq : d / W < 1 := (div_lt_one hW).2 (by linarith)
  have hq0 : 0 < d / W := div_pos hd hW
  have hρ : 0 ≤ 1 - d / W := by linarith
  set V : K := ∑ c ∈ range m.nCells, 1 / w c with hVdef
  have hV0 : ∀ c ∈ range m.nCells, 0 ≤ 1 / w c := fun c hc => div_nonneg zero_le_one (hw c (mem_range.1 hc)).le
  have hV : 0 ≤ V := Finset.sum_nonneg hV0
  refine ⟨1 - d / W, V * W, hρ, by linarith, mul_nonneg hV hW.le, fun x hx u dt D hu0 hdt hstep k c0 hc0 => ?_⟩
  have hD : 0 ≤ D := le_trans (abs_nonneg _) (hu0 c0 hc0)
  have hB : 0 ≤ V * D := mul_nonneg hV hD
  have key : ∀ k, ∀ c < m.nCells, |u k c - x c| ≤ (1 - d / W) ^ k * (V * D) * w c := by
    intro k
    induction k with
    | zero =>
      intro c hc
      have h1 := Finset.single_le_sum hV0 (mem_range.2 hc)
      rw [div_le_iff₀ (hw c hc)] at h1
      have h2 := mul_le_mul_of_nonneg_right h1 hD
      rw [pow_zero, one_mul]
      linarith [hu0 c hc, show V * w c * D = V * D * w c by ring]
    | succ k ih =>
      intro c hc
      set B := (1 - d / W) ^ k * (V * D) with hBdef
      have hB0 : 0 ≤ B := mul_nonneg (pow_nonneg hρ k) hB
      have side : ∀ s : K, (s = 1 ∨ s = -1) → 0 ≤ (1 - d / W) * B * w c + s * (u (k + 1) c - x c) := by
        intro s hs1
        have h1 := explicit_nonneg h hv hκ hgam (hd.le.trans (hdt k).1) hnn hs.free (hdt k).2 hb (fun c => B * w c + s * (u k c - x c))
          (fun c hc => by have := abs_le.1 (ih c hc); rcases hs1 with rfl | rfl <;> linarith [this.1, this.2]) c hc
        rw [homog_add (x := fun c => B * w c) (y := fun c => s * (u k c - x c)), homog_smul, homog_smul, hbar c hc, homog_outFlux, netOutflow_add, netOutflow_smul, hx c hc] at h1
        rw [hstep k c hc]
        have hvc := (hv c hc).ne'
        have e : B * w c + s * (u k c - x c) - dt k * (1 / m.vol c * (B * m.vol c + s * (m.netOutflow (φ.outFlux m flux δ gamma (u k)) c + (-1 : K) • (0 : K))))
            = B * w c - dt k * B + s * (u k c - dt k * (1 / m.vol c * m.netOutflow (φ.outFlux m flux δ gamma (u k)) c) - x c) := by
          simp only [smul_zero, add_zero]
          field_simp
          ring
        rw [e] at h1
        have h2 : d / W * w c ≤ dt k := by
          rw [div_mul_eq_mul_div, div_le_iff₀ hW]
          exact mul_le_mul (hdt k).1 (hwW c hc) (hw c hc).le (hd.le.trans (hdt k).1)
        have h3 := mul_le_mul_of_nonneg_left h2 hB0
        linarith [show (1 - d / W) * B * w c = B * w c - B * (d / W * w c) by ring]
      have h1 := side 1 (.inl rfl)
      have h2 := side (-1) (.inr rfl)
      rw [pow_succ', mul_assoc (1 - d / W), ← hBdef, abs_le]
      constructor <;> linarith
  refine le_trans (key k c0 hc0) ?_
  have h1 : (1 - d / W) ^ k * (V * D) * w c0 ≤ (1 - d / W) ^ k * (V * D) * W := mul_le_mul_of_nonneg_left (hwW c0 hc0) (mul_nonneg (pow_nonneg hρ k) hB)
  linarith [h1, show (1 - d / W) ^ k * (V * D) * W = V * W * (1 - d / W) ^ k * D by ring]

/-- **C98**: for every valid mesh with positive volumes and no degenerate faces, divergence-free flux, uniform diffusivity `κ ≥ 0`, boundary conditions such that a prescribed
value reaches every cell, and least time step `d`: there are a field `x` within the bounds of the boundary values, a factor `ρ < 1` and a constant `A` such that
* `dsl::solve` of the steady equation `div(flux, u) - laplacian(gamma, u)`, assembled implicitly, returns exactly `x`, whatever the cell values before, and
* `n` calls of `dsl::solve` on `ddt(u) + div(flux, u) - κ laplacian(u)` with forwardEuler, upwind interpolation and any time steps between `d` and the step limit, from
  every field whose boundary values are those of the conditions, have exactly one outcome, whose distance to `x` in each cell is at most `A ρⁿ` times the largest initial one.
In particular both discretisations have the same steady state. Beyond the step limit the explicit steps may diverge (`C95_limit_needed`).
Outside the statement: for the implicit solve, the parallel executors on meshes that are not lines of cells (C32); round-off. -/
theorem C98_marching {m : Mesh K} (h : m.WF) (h256 : ∀ c < m.nCells, 1 + m.deg c ≤ 256) (hv : ∀ c < m.nCells, 0 < m.vol c)
    (hspan : ∀ f < m.nFaces, m.span f ≠ 0) (hmag : ∀ f < m.nFaces, 0 ≤ ix m.magFaceAreas f)
    (e : ExecKind) (hre : m.Reproducible e) {sp : SparsityPattern} (hsp : sparsityUpdate e m (.ok sp))
    (tiny : K) (ht : 0 ≤ tiny) (sqrt : K → K) (hs : IsSqrt sqrt) (gjunk : Nat → K) (g : Geometry K) (hg : geometryScheme e m tiny sqrt gjunk (.ok g))
    (sch : InterpScheme) (junk : Nat → K) (flux gamma : List K) (hfl : flux.length = m.nFaces) (hgl : gamma.length = m.nFaces)
    (κ : K) (hκ : 0 ≤ κ) (hgam : ∀ f < m.nFaces, ix gamma f = κ) (hdiv : m.DivergenceFree (ix flux))
    (e' : ExecKind) (eqn : Expr) (ops : OpsOf K K)
    (hbuild : ∀ st, (explicitDiffTree κ).build (explicitDiffOps e' m sp .upwind g.weights junk flux g.nonOrthDeltaCoeffs gamma st) = .ok (eqn, ops st))
    (seqn : Expr) (sops : OpsOf K K)
    (hsbuild : ∀ st, steadyTree.build (steadyOps e m sp sch g.weights junk flux g.nonOrthDeltaCoeffs gamma st) = .ok (seqn, sops st))
    (bcs : List (VolumeBoundary K)) (hbs : ∀ c ∈ bcs, c.patch.end_ ≤ m.nBoundaryFaces) (table : SolverTable K) (fvSchemes fvSolution : Dict)
    (hd : AsksFor fvSchemes "forwardEuler") (ssolver : LinSolver K) (hsso : createSolver table fvSolution = .ok ssolver) (hsex : SolvingOn m ssolver)
    (lo hi : K) (φ : VolField K K) (hφ : φ.On m) (hbc : FlowBC m (ix flux) bcs lo hi φ)
    (hfed : ∀ c < m.nCells, Fed m (ix flux) (ix g.nonOrthDeltaCoeffs) (ix gamma) φ c) (d : K) (hd0 : 0 < d) :
    ∃ (x : List K) (ρ A : K), x.length = m.nCells ∧ (∀ c < m.nCells, lo ≤ ix x c ∧ ix x c ≤ hi) ∧ 0 ≤ ρ ∧ ρ < 1 ∧ 0 ≤ A ∧
      (∀ st : TimeState K K, st.sol.On m → st.sol.SameBC φ → ∀ t dt out,
        dslSolve e m bcs table fvSchemes fvSolution sops seqn st t dt out ↔ out = .ok { st with sol := { st.sol with internal := x } }) ∧
      ∀ st : TimeState K K, st.sol.On m → st.Synced → st.sol.Settled m bcs → ∀ (t : K) (dt : Nat → K),
        (∀ k, d ≤ dt k ∧ SmallStep m (ix flux) (ix g.nonOrthDeltaCoeffs) κ (dt k)) → ∃ u : Nat → TimeState K K, u 0 = st ∧
          (∀ k out, timeLoop (fun dt st => dslSolve e' m bcs table fvSchemes fvSolution ops eqn st t dt) dt k st out ↔ out = .ok (u k)) ∧
          ∀ D, (∀ c < m.nCells, |st.sol.cell c - ix x c| ≤ D) → ∀ n, ∀ c < m.nCells, |(u n).sol.cell c - ix x c| ≤ A * ρ ^ n * D := by
  have hgam0 : ∀ f < m.nFaces, 0 ≤ ix gamma f := fun f hf => by rw [hgam f hf]; exact hκ
  have hfa := h.faces
  obtain ⟨g', hgd, -, -, -, -, -, hδ⟩ := C27_geometry h e tiny ht sqrt hs gjunk
  cases (hgd _).1 hg
  have hnn : ∀ f < m.nFaces, 0 ≤ ix m.magFaceAreas f * ix g.nonOrthDeltaCoeffs f := fun f hf => mul_nonneg (hmag f hf) (hδ f hf (hspan f hf)).2.2.1.le
  have hibc : ImplicitBC m (ix flux) (ix g.nonOrthDeltaCoeffs) (ix gamma) lo hi φ := by
    intro b hb
    rcases hbc b hb with ⟨-, -, -, h3⟩ | ⟨h1, v, h2, h3, -, h5⟩
    · exact ⟨_, h3, .inl rfl⟩
    · refine ⟨_, h5, .inr ⟨v, rfl, h2, h3, h1.trans ?_⟩⟩
      have := mul_nonneg (hgam0 (m.nInternalFaces + b) (by omega)) (hnn (m.nInternalFaces + b) (by omega))
      linarith [show ix gamma (m.nInternalFaces + b) * (ix m.magFaceAreas (m.nInternalFaces + b) * ix g.nonOrthDeltaCoeffs (m.nInternalFaces + b))
        = ix gamma (m.nInternalFaces + b) * ix g.nonOrthDeltaCoeffs (m.nInternalFaces + b) * ix m.magFaceAreas (m.nInternalFaces + b) by ring]
  have hkind : ∀ b < m.nBoundaryFaces, (φ.entry b).fraction = 0 ∨ (φ.entry b).fraction = 1 ∧ ix flux (m.nInternalFaces + b) ≤ 0 := by
    intro b hb
    rcases hbc b hb with ⟨-, -, -, h3⟩ | ⟨h1, v, -, -, -, h5⟩
    · exact .inl h3.2.2
    · exact .inr ⟨h5.2.2, h1⟩
  obtain ⟨hl, hst, hb⟩ := stable_of h tiny ht sqrt hs gjunk e g hg hspan hmag hgam0 hdiv hibc
  obtain ⟨ρ, A, hρ0, hρ1, hA, hdecay⟩ := explicit_march_decay h hv hst hfed hκ hgam hnn hkind hd0
  obtain ⟨x, hx1, -, hx3⟩ := steady_solve h h256 e hre hsp sch g.weights junk flux g.nonOrthDeltaCoeffs gamma hfl hl hgl seqn sops hsbuild bcs table
    fvSchemes fvSolution ssolver hsso hsex ⟨φ, none⟩ hφ hst hfed 0 0
  refine ⟨x, ρ, A, hx1, steady_bounds h hst hfed hb _ hx3, hρ0, hρ1, hA, fun st hon hsame t dt out => ?_, fun st hon hsy hset t dt hdt => ?_⟩
  · obtain ⟨y, hy1, hy2, hy3⟩ := steady_solve h h256 e hre hsp sch g.weights junk flux g.nonOrthDeltaCoeffs gamma hfl hl hgl seqn sops hsbuild bcs table
      fvSchemes fvSolution ssolver hsso hsex st hon (stable_sameBC hsame hst) (fun c hc => (hfed c hc).congr fun b => (hsame b).1) t dt
    have : y = x := by
      refine List.ext_getElem (hy1.trans hx1.symm) fun i h1 h2 => ?_
      have := steady_unique h hst hfed (ix y) (ix x) (fun c hc => by rw [hx3 c hc, ← outFlux_sameBC hsame, hy3 c hc]) i (by omega)
      simpa [ix, List.getD_eq_getElem?_getD, h1, h2] using this
    rw [← this]
    exact hy2 out
  · obtain ⟨u, h0, h1, h2⟩ := explicitDiff_upwind e' h bcs hbs sp tiny ht sqrt hs gjunk g ((geometryScheme_det h e' tiny sqrt gjunk _).2 ((geometryScheme_det h e tiny sqrt gjunk _).1 hg)) junk flux gamma hfl κ eqn ops hbuild table fvSolution hd st hon hsy t dt
    have hbnd : ∀ n, ∀ b < m.nBoundaryFaces, ((φ.entry b).fraction = 0 ∧ (φ.entry b).refGrad = 0 ∧ (u n).sol.bnd b = (u n).sol.cell (m.fc b)) ∨
        ((φ.entry b).fraction = 1 ∧ (u n).sol.bnd b = (φ.entry b).refValue) := by
      intro n b hb
      cases n with
      | zero =>
        rw [h0]
        rcases hbc b hb with ⟨k, h3, h4, h5⟩ | ⟨-, v, -, -, h4, h5⟩
        · refine .inl ⟨h5.2.2, h5.2.1, ?_⟩
          have p := hset b hb k h3
          cases k with
          | fixedValue v => exact h4.elim
          | fixedGradient v =>
            have hz : v = 0 := h4
            have := p.1
            rw [hz, smul_zero, add_zero] at this
            exact this
          | extrapolated => exact p.1
          | calculated => exact h4.elim
          | empty => exact h4.elim
        · exact .inr ⟨h5.2.2, by rw [h5.2.1]; exact (hset b hb _ h4).1⟩
      | succ n =>
        rcases hbc b hb with ⟨k, h3, h4, h5⟩ | ⟨-, v, -, -, h4, h5⟩
        · exact .inl ⟨h5.2.2, h5.2.1, ((h2 n).decided hb h3).1 h4⟩
        · exact .inr ⟨h5.2.2, by rw [h5.2.1]; exact ((h2 n).decided hb h4).2 v rfl⟩
    refine ⟨u, h0, h1, fun D hD => ?_⟩
    refine hdecay (ix x) hx3 (fun k => (u k).sol.cell) dt D (by rw [h0]; exact hD) hdt (fun k c hc => ?_)
    rw [(h2 k).cells c hc, smul_eq_mul, outflow_matches h hgam (hbnd k)]

end

/-- The conditions of the duct: value 0 at the inlet, zero gradient at the outlet. -/
def ductMarchBCs : List (VolumeBoundary ℝ) := [⟨⟨0, 0, 1⟩, .fixedValue 0⟩, ⟨⟨1, 1, 2⟩, .fixedGradient 0⟩]

theorem ductMarch_meets : FlowBC duct (ix ductFlux) ductMarchBCs 0 0 ductStart ∧ ductStart.Settled duct ductMarchBCs := by
  have two : ∀ b, b < 2 → b = 0 ∨ b = 1 := by omega
  have dec0 : Decides ductMarchBCs 0 (.fixedValue 0) :=
    ⟨[], ⟨⟨0, 0, 1⟩, .fixedValue 0⟩, [⟨⟨1, 1, 2⟩, .fixedGradient 0⟩], rfl, rfl, trivial, ⟨le_rfl, Nat.zero_lt_one⟩, by simp [Patch.Has]⟩
  have dec1 : Decides ductMarchBCs 1 (.fixedGradient 0) :=
    ⟨[⟨⟨0, 0, 1⟩, .fixedValue 0⟩], ⟨⟨1, 1, 2⟩, .fixedGradient 0⟩, [], rfl, rfl, trivial, ⟨le_rfl, Nat.lt_succ_self 1⟩, by simp⟩
  constructor
  · intro b hb
    rcases two b hb with rfl | rfl
    · refine .inr ⟨?_, 0, le_rfl, le_rfl, dec0, rfl, rfl, rfl⟩
      simp [duct, ix, ductFlux]
    · refine .inl ⟨_, dec1, rfl, ?_, rfl, rfl⟩
      simp [ductStart, VolField.entry, VolField.cell, duct, Mesh.fc]
  · intro b hb k hk
    obtain ⟨pre, c, post, hbs, rfl, -, hhas, hpost⟩ := hk
    have hmem : c ∈ ductMarchBCs := by rw [hbs]; simp
    rcases two b hb with rfl | rfl <;> simp only [ductMarchBCs, List.mem_cons, List.not_mem_nil, or_false] at hmem <;> rcases hmem with rfl | rfl <;>
      simp_all [Prescribes, ductStart, VolField.entry, VolField.cell, Patch.Has, duct, Mesh.fc]

/-- The hypotheses of `C98_marching` can be met, on every executor: in the duct the values 7 are flushed out by explicit steps of some positive size. -/
example (e : ExecKind) : ∃ (ops : OpsOf ℝ ℝ) (eqn : Expr) (ρ A d : ℝ), ρ < 1 ∧ 0 < d ∧ ∀ n,
    ∃ st, timeLoop (fun dt st => dslSolve e duct ductMarchBCs [("exact", fun _ => someSolution)] forwardDict [("solver", .str "exact")] ops eqn st 0 dt) (fun _ => d) n
        ⟨ductStart, none⟩ (.ok st) ∧ ∀ c < 2, |st.sol.cell c| ≤ A * ρ ^ n * 7 := by
  obtain ⟨g, hgd, -, -, -, -, -, hq⟩ := C27_geometry duct_wf e 0 le_rfl Real.sqrt isSqrt_real (fun _ => 0)
  obtain ⟨sp, hsp⟩ := C14_terminates duct duct_wf e
  obtain ⟨eqn, ops, hb⟩ := explicitDiff_builds e duct sp g.weights ductFlux g.nonOrthDeltaCoeffs [1, 1, 1] (fun _ => 0) 1
  obtain ⟨seqn, sops, hsb⟩ := steady_build e duct sp .upwind g.weights (fun _ => 0) ductFlux g.nonOrthDeltaCoeffs [1, 1, 1]
  obtain ⟨-, h2⟩ := ductStart_meets g.nonOrthDeltaCoeffs fun f hf => (hq f hf (duct_span f hf)).2.2.1
  have hones : ∀ f < duct.nFaces, ix [1, 1, 1] f = (1 : ℝ) := by
    intro f hf
    have : f = 0 ∨ f = 1 ∨ f = 2 := by simp [duct] at hf; omega
    rcases this with rfl | rfl | rfl <;> simp [ix]
  obtain ⟨d, hd0, hsm⟩ := exists_smallStep duct_vol (ix ductFlux) (ix g.nonOrthDeltaCoeffs) (1 : ℝ)
  obtain ⟨x, ρ, A, hx, hx0, -, hρ, hA, -, hall⟩ := C98_marching duct_wf duct_deg duct_vol duct_span
    (by simpa [duct] using fun f hf => (hones f hf).symm ▸ zero_le_one) e (duct_reproducible e) hsp
    0 le_rfl Real.sqrt isSqrt_real (fun _ => 0) g ((hgd _).2 rfl) .upwind (fun _ => 0) ductFlux [1, 1, 1] rfl rfl 1 zero_le_one hones duct_divergenceFree e eqn ops hb
    seqn sops hsb ductMarchBCs (by simp [ductMarchBCs, duct]) [("exact", fun _ => someSolution)] forwardDict [("solver", .str "exact")] ⟨_, rfl, rfl⟩
    someSolution rfl (anySolution_solving.on duct) 0 0 ductStart ⟨rfl, rfl, rfl, rfl, rfl⟩ ductMarch_meets.1 h2 d hd0
  refine ⟨ops, eqn, ρ, A, d, hρ, hd0, fun n => ?_⟩
  obtain ⟨u, -, hu, hD⟩ := hall ⟨ductStart, none⟩ ⟨rfl, rfl, rfl, rfl, rfl⟩ rfl ductMarch_meets.2 0 (fun _ => d) fun _ => ⟨le_rfl, hsm⟩
  have hz : ∀ c < duct.nCells, ix x c = 0 := fun c hc => le_antisymm (hx0 c hc).2 (hx0 c hc).1
  refine ⟨u n, (hu n _).2 rfl, fun c hc => ?_⟩
  have := hD 7 (fun c hc => by
    rw [hz c hc]
    have : c = 0 ∨ c = 1 := by simp [duct] at hc; omega
    rcases this with rfl | rfl <;> simp [ductStart, VolField.cell]) n c hc
  rwa [hz c hc, sub_zero] at this

end NeoFOAM
