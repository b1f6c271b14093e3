import Verif.Props.C60_ImplicitTransport

/-!
# C61 – implicit transport and diffusion conserves the total up to boundary fluxes

# C62 – and does not increase the sum of squares
-/
namespace NeoFOAM
open Finset
variable {K : Type} [Field K] [LinearOrder K]

/-- Steps that return, whatever the data: every outcome of `n` calls of `dsl::solve` comes from `n` implicit Euler steps. -/
theorem convDiff_returns {m : Mesh K} (h : m.WF) (h256 : ∀ c < m.nCells, 1 + m.deg c ≤ 256)
    (e : ExecKind) (hre : m.Reproducible e) {sp : SparsityPattern} (hsp : sparsityUpdate e m (.ok sp))
    (sch : InterpScheme) (w : List K) (junk : Nat → K) (flux δ gamma : List K)
    (hfl : flux.length = m.nFaces) (hδ : δ.length = m.nFaces) (hg : gamma.length = m.nFaces)
    (eqn : Expr) (ops : OpsOf K K) (hbuild : ∀ st, convDiffTree.build (convDiffOps e m sp sch w junk flux δ gamma st) = .ok (eqn, ops st))
    (bcs : List (VolumeBoundary K)) (table : SolverTable K) (fvSchemes fvSolution : Dict) (hd : AsksFor fvSchemes "backwardEuler")
    (solver : LinSolver K) (hso : createSolver table fvSchemes = .ok solver) (hex : ExactOn m solver)
    (st : TimeState K K) (ho : st.sol.On m) (hsy : st.Synced) (t : K) (dt : Nat → K) (n : Nat) (st' : TimeState K K)
    (hrun : timeLoop (fun d st => dslSolve e m bcs table fvSchemes fvSolution ops eqn st t d) dt n st (.ok st')) :
    ∃ u : Nat → TimeState K K, u 0 = st ∧ u n = st' ∧ (∀ k ≤ n, (u k).sol.On m ∧ (u k).Synced ∧ ∀ b, (u k).sol.entry b = st.sol.entry b) ∧
      ∀ k < n, ImplicitStep m (ix flux) (ix δ) (ix gamma) (dt k) (u k).sol (u (k + 1)).sol := by
  obtain ⟨_, hee, hp⟩ := pattern_for m h h256 e _ hsp
  cases hee
  have hu : ∀ out, sparsityUpdate e m out ↔ out = .ok sp :=
    fun out => ⟨fun ho => sparsity_single m h (hre.imp id And.left) _ _ ho hsp, fun ho => ho ▸ hsp⟩
  induction n generalizing st' with
  | zero =>
    cases hrun
    exact ⟨fun _ => st, rfl, rfl, fun k _ => ⟨ho, hsy, fun _ => rfl⟩, fun k hk => absurd hk (Nat.not_lt_zero k)⟩
  | succ n ih =>
    obtain ⟨r, h1, h2⟩ := hrun
    cases r with
    | throw e => cases h2
    | abort => cases h2
    | ub => cases h2
    | ok s =>
      obtain ⟨u, u0, un, ugood, ustep⟩ := ih s h1
      obtain ⟨g1, g2, g3⟩ := ugood n le_rfl
      rw [un] at g1 g2 g3
      obtain ⟨ls, hon, hres, hdet⟩ := convDiff_system e h hp hu (hre.imp id And.right) sch w junk flux δ gamma hfl hδ hg eqn ops hbuild s g1 g2 t (dt n)
      obtain ⟨r, h3, h4⟩ := (hdet bcs table fvSchemes fvSolution hd solver hso _).1 h2
      cases r with
      | throw e => cases h4
      | abort => cases h4
      | ub => cases h4
      | ok x =>
        cases h4
        obtain ⟨a, b⟩ := hex _ _ _ ⟨sp, hp, hon⟩ g1.int h3
        have hstep : ImplicitStep m (ix flux) (ix δ) (ix gamma) (dt n) s.sol { s.sol with internal := x } :=
          ⟨⟨a, g1.val, g1.ref, g1.vf, g1.grad⟩, fun _ => rfl, fun c hc => by
            have := b c hc
            rw [hres _ c hc] at this
            exact this⟩
        refine ⟨fun k => if k ≤ n then u k else ⟨{ s.sol with internal := x }, some x⟩, ?_, ?_, fun k hk => ?_, fun k hk => ?_⟩
        · simp [u0]
        · simp
        · rcases Nat.lt_or_ge n k with q | q
          · simp only [if_neg (Nat.not_le.2 q)]
            exact ⟨hstep.on, rfl, fun b => g3 b⟩
          · simp only [if_pos q]
            exact ugood k q
        · rcases Nat.lt_or_ge k n with q | q
          · simp only [if_pos (show k ≤ n by omega), if_pos (show k + 1 ≤ n by omega)]
            exact ustep k q
          · have : k = n := by omega
            subst this
            simp only [le_refl, if_true, if_neg (show ¬ k + 1 ≤ k by omega), un]
            exact hstep

/-- **C61**: for every valid mesh, flux, diffusivity, boundary data, initial field and non-zero time steps: whenever `n` calls of
`dsl::solve` on `ddt(u) + div(flux, u) - laplacian(gamma, u)` with backwardEuler and an exact linear solver return, the total of `u` is
the initial one minus the sum over the steps of `dt` times what leaves through the boundary faces at the new values. What is
missing: the parallel executors on meshes that are not lines of cells (C22, C32). -/
theorem C61_conservation_partial {m : Mesh K} (h : m.WF) (h256 : ∀ c < m.nCells, 1 + m.deg c ≤ 256)
    (e : ExecKind) (hre : m.Reproducible e) {sp : SparsityPattern} (hsp : sparsityUpdate e m (.ok sp))
    (sch : InterpScheme) (w : List K) (junk : Nat → K) (flux δ gamma : List K)
    (hfl : flux.length = m.nFaces) (hδ : δ.length = m.nFaces) (hg : gamma.length = m.nFaces)
    (eqn : Expr) (ops : OpsOf K K) (hbuild : ∀ st, convDiffTree.build (convDiffOps e m sp sch w junk flux δ gamma st) = .ok (eqn, ops st))
    (bcs : List (VolumeBoundary K)) (table : SolverTable K) (fvSchemes fvSolution : Dict) (hd : AsksFor fvSchemes "backwardEuler")
    (solver : LinSolver K) (hso : createSolver table fvSchemes = .ok solver) (hex : ExactOn m solver)
    (st : TimeState K K) (ho : st.sol.On m) (hsy : st.Synced) (t : K) (dt : Nat → K) (hdt : ∀ k, dt k ≠ 0) (n : Nat) (st' : TimeState K K)
    (hrun : timeLoop (fun d st => dslSolve e m bcs table fvSchemes fvSolution ops eqn st t d) dt n st (.ok st')) :
    ∃ u : Nat → TimeState K K, u 0 = st ∧ u n = st' ∧
      st'.sol.total m = st.sol.total m - ∑ k ∈ range n, dt k * ∑ b ∈ range m.nBoundaryFaces,
        st.sol.outFlux m (ix flux) (ix δ) (ix gamma) (u (k + 1)).sol.cell (m.nInternalFaces + b) := by
  obtain ⟨u, h0, hn, hgood, hstep⟩ := convDiff_returns h h256 e hre hsp sch w junk flux δ gamma hfl hδ hg eqn ops hbuild bcs table fvSchemes fvSolution hd
    solver hso hex st ho hsy t dt n st' hrun
  refine ⟨u, h0, hn, ?_⟩
  rw [← hn]
  have key : ∀ j ≤ n, (u j).sol.total m = st.sol.total m - ∑ k ∈ range j, dt k * ∑ b ∈ range m.nBoundaryFaces,
        st.sol.outFlux m (ix flux) (ix δ) (ix gamma) (u (k + 1)).sol.cell (m.nInternalFaces + b) := by
    intro j hj
    induction j with
    | zero => simp [h0]
    | succ j ih =>
      rw [Finset.sum_range_succ, ← sub_sub, ← ih (by omega)]
      have hs := hstep j (by omega)
      have e0 : ∀ f, (u j).sol.outFlux m (ix flux) (ix δ) (ix gamma) (u (j + 1)).sol.cell f
          = st.sol.outFlux m (ix flux) (ix δ) (ix gamma) (u (j + 1)).sol.cell f := by
        intro f
        simp only [VolField.outFlux, (hgood j (by omega)).2.2]
      have e1 : (u (j + 1)).sol.total m = ∑ c ∈ range m.nCells, (m.vol c * (u j).sol.cell c
          - dt j * m.netOutflow (st.sol.outFlux m (ix flux) (ix δ) (ix gamma) (u (j + 1)).sol.cell) c) := by
        refine Finset.sum_congr rfl fun c hc => ?_
        rw [mem_range] at hc
        have := hs.cells c hc
        rw [funext e0] at this
        have hd := hdt j
        have e : m.vol c * ((u (j + 1)).sol.cell c - (u j).sol.cell c)
            = -(dt j * m.netOutflow (st.sol.outFlux m (ix flux) (ix δ) (ix gamma) (u (j + 1)).sol.cell) c) := by
          have := eq_neg_of_add_eq_zero_left this
          rw [div_eq_iff hd] at this
          rw [this]; ring
        rw [mul_sub] at e
        rw [sub_eq_add_neg, ← e]; ring
      rw [e1, Finset.sum_sub_distrib, ← Finset.mul_sum, sum_netOutflow h]
      rfl
  exact key n le_rfl

/-- Nothing crosses a zero-gradient boundary face without flow: the total is constant in a closed box. -/
theorem C61_closed_partial {m : Mesh K} (h : m.WF) (h256 : ∀ c < m.nCells, 1 + m.deg c ≤ 256)
    (e : ExecKind) (hre : m.Reproducible e) {sp : SparsityPattern} (hsp : sparsityUpdate e m (.ok sp))
    (sch : InterpScheme) (w : List K) (junk : Nat → K) (flux δ gamma : List K)
    (hfl : flux.length = m.nFaces) (hδ : δ.length = m.nFaces) (hg : gamma.length = m.nFaces)
    (eqn : Expr) (ops : OpsOf K K) (hbuild : ∀ st, convDiffTree.build (convDiffOps e m sp sch w junk flux δ gamma st) = .ok (eqn, ops st))
    (bcs : List (VolumeBoundary K)) (table : SolverTable K) (fvSchemes fvSolution : Dict) (hd : AsksFor fvSchemes "backwardEuler")
    (solver : LinSolver K) (hso : createSolver table fvSchemes = .ok solver) (hex : ExactOn m solver)
    (st : TimeState K K) (ho : st.sol.On m) (hsy : st.Synced) (t : K) (dt : Nat → K) (hdt : ∀ k, dt k ≠ 0)
    (hwall : ∀ b < m.nBoundaryFaces, ix flux (m.nInternalFaces + b) = 0 ∧ Prescribes m st.sol b (.fixedGradient 0) (st.sol.entry b))
    (n : Nat) (st' : TimeState K K)
    (hrun : timeLoop (fun d st => dslSolve e m bcs table fvSchemes fvSolution ops eqn st t d) dt n st (.ok st')) :
    st'.sol.total m = st.sol.total m := by
  obtain ⟨u, -, -, hc⟩ := C61_conservation_partial h h256 e hre hsp sch w junk flux δ gamma hfl hδ hg eqn ops hbuild bcs table fvSchemes fvSolution hd
    solver hso hex st ho hsy t dt hdt n st' hrun
  rw [hc, sub_eq_self]
  refine Finset.sum_eq_zero fun k _ => ?_
  rw [Finset.sum_eq_zero, mul_zero]
  intro b hb
  obtain ⟨h1, -, h2, h3⟩ := hwall b (mem_range.1 hb)
  simp only [VolField.outFlux, if_neg (show ¬ m.nInternalFaces + b < m.nInternalFaces by omega), Nat.add_sub_cancel_left, h1, h2, h3]
  ring

/-! ### C62 -/

omit [LinearOrder K] in
/-- Summation by parts. -/
theorem sum_mul_netOutflow {m : Mesh K} (h : m.WF) (x ψ : Nat → K) :
    ∑ c ∈ range m.nCells, x c * m.netOutflow ψ c = (∑ f ∈ range m.nInternalFaces, ψ f * (x (m.own f) - x (m.nbr f)))
      + ∑ b ∈ range m.nBoundaryFaces, ψ (m.nInternalFaces + b) * x (m.fc b) := by
  have hfaces := h.faces
  have key : ∀ (n : Nat) (cell : Nat → Nat) (w : Nat → K), (∀ f < n, cell f < m.nCells) →
      ∑ c ∈ range m.nCells, x c * ∑ f ∈ range n, (if cell f = c then w f else 0) = ∑ f ∈ range n, w f * x (cell f) := by
    intro n cell w hcell
    simp only [Finset.mul_sum]
    rw [Finset.sum_comm]
    refine Finset.sum_congr rfl fun f hf => ?_
    rw [Finset.sum_eq_single (cell f)]
    · simp [mul_comm]
    · intro c _ hc; rw [if_neg (Ne.symm hc), mul_zero]
    · intro hh; exact absurd (mem_range.2 (hcell f (mem_range.1 hf))) hh
  simp only [Mesh.netOutflow, mul_add, mul_sub]
  rw [Finset.sum_add_distrib, Finset.sum_sub_distrib, key m.nInternalFaces m.own ψ (fun f hf => h.own_lt f (by omega)),
    key m.nInternalFaces m.nbr ψ (fun f hf => h.nbr_lt f hf), key m.nBoundaryFaces m.fc (fun b => ψ (m.nInternalFaces + b)) (fun b hb => h.fc_lt b hb),
    ← Finset.sum_sub_distrib]

/-- Volume-weighted sum of squares. -/
def VolField.squares (m : Mesh K) (φ : VolField K K) : K := ∑ c ∈ range m.nCells, m.vol c * φ.cell c ^ 2

variable [IsStrictOrderedRing K]

/-- The spatial terms do not produce squares. -/
theorem dissipates {m : Mesh K} (h : m.WF) {flux δ gamma : Nat → K} (hdiv : m.DivergenceFree flux)
    (hdiff : ∀ f < m.nFaces, 0 ≤ gamma f * δ f * ix m.magFaceAreas f) {φ : VolField K K}
    (hb : ∀ b < m.nBoundaryFaces, ((φ.entry b).fraction = 0 ∧ (φ.entry b).refGrad = 0 ∧ 0 ≤ flux (m.nInternalFaces + b)) ∨
      ((φ.entry b).fraction = 1 ∧ (φ.entry b).refValue = 0 ∧
        flux (m.nInternalFaces + b) ≤ 2 * (gamma (m.nInternalFaces + b) * δ (m.nInternalFaces + b) * ix m.magFaceAreas (m.nInternalFaces + b))))
    (x : Nat → K) : 0 ≤ ∑ c ∈ range m.nCells, x c * m.netOutflow (φ.outFlux m flux δ gamma x) c := by
  have hfaces := h.faces
  have hz : ∑ c ∈ range m.nCells, x c ^ 2 * m.netOutflow flux c = 0 :=
    Finset.sum_eq_zero fun c hc => by rw [hdiv c (mem_range.1 hc), mul_zero]
  rw [sum_mul_netOutflow h (fun c => x c ^ 2) flux] at hz
  rw [sum_mul_netOutflow h]
  have b1 : ∑ f ∈ range m.nInternalFaces, (1 / 2 : K) * (flux f * (x (m.own f) ^ 2 - x (m.nbr f) ^ 2))
      ≤ ∑ f ∈ range m.nInternalFaces, φ.outFlux m flux δ gamma x f * (x (m.own f) - x (m.nbr f)) := by
    refine Finset.sum_le_sum fun f hf => ?_
    rw [mem_range] at hf
    have hd := hdiff f (by omega)
    have hsq := mul_nonneg hd (sq_nonneg (x (m.own f) - x (m.nbr f)))
    simp only [VolField.outFlux, if_pos hf]
    split
    · rename_i hp
      have := mul_nonneg hp (sq_nonneg (x (m.own f) - x (m.nbr f)))
      nlinarith
    · rename_i hp
      rw [not_le] at hp
      have := mul_nonneg (neg_nonneg.2 hp.le) (sq_nonneg (x (m.own f) - x (m.nbr f)))
      nlinarith
  have b2 : ∑ b ∈ range m.nBoundaryFaces, (1 / 2 : K) * (flux (m.nInternalFaces + b) * x (m.fc b) ^ 2)
      ≤ ∑ b ∈ range m.nBoundaryFaces, φ.outFlux m flux δ gamma x (m.nInternalFaces + b) * x (m.fc b) := by
    refine Finset.sum_le_sum fun b hb' => ?_
    rw [mem_range] at hb'
    simp only [VolField.outFlux, if_neg (show ¬ m.nInternalFaces + b < m.nInternalFaces by omega), Nat.add_sub_cancel_left]
    rcases hb b hb' with ⟨h1, h2, h3⟩ | ⟨h1, h2, h3⟩
    · rw [h1, h2]
      have := mul_nonneg h3 (sq_nonneg (x (m.fc b)))
      nlinarith
    · rw [h1, h2]
      have := mul_nonneg (sub_nonneg.2 h3) (sq_nonneg (x (m.fc b)))
      nlinarith
  rw [← Finset.mul_sum] at b1 b2
  have : (1 / 2 : K) * ((∑ f ∈ range m.nInternalFaces, flux f * (x (m.own f) ^ 2 - x (m.nbr f) ^ 2))
      + ∑ b ∈ range m.nBoundaryFaces, flux (m.nInternalFaces + b) * x (m.fc b) ^ 2) = 0 := by rw [hz, mul_zero]
  linarith

/-- **C62**: on a mesh with positive volumes and no degenerate faces, with a divergence-free flux, non-negative diffusivity, zero
gradient where the flow leaves (or along walls) and the value zero elsewhere on the boundary: whenever `n` calls of `dsl::solve` on
`ddt(u) + div(flux, u) - laplacian(gamma, u)` with backwardEuler and an exact solver return, `Σ V u²` is at most what it was, for
all positive time steps. What is missing: the parallel executors on meshes that are not lines of cells, and round-off. -/
theorem C62_energy_partial {m : Mesh K} (h : m.WF) (h256 : ∀ c < m.nCells, 1 + m.deg c ≤ 256) (hv : ∀ c < m.nCells, 0 < m.vol c)
    (hspan : ∀ f < m.nFaces, m.span f ≠ 0) (hmag : ∀ f < m.nFaces, 0 ≤ ix m.magFaceAreas f)
    (e : ExecKind) (hre : m.Reproducible e) {sp : SparsityPattern} (hsp : sparsityUpdate e m (.ok sp))
    (tiny : K) (ht : 0 ≤ tiny) (sqrt : K → K) (hs : IsSqrt sqrt) (gjunk : Nat → K) (g : Geometry K) (hg : geometryScheme e m tiny sqrt gjunk (.ok g))
    (sch : InterpScheme) (junk : Nat → K) (flux gamma : List K) (hfl : flux.length = m.nFaces) (hgl : gamma.length = m.nFaces)
    (hgam : ∀ f < m.nFaces, 0 ≤ ix gamma f) (hdiv : m.DivergenceFree (ix flux)) (eqn : Expr) (ops : OpsOf K K)
    (hbuild : ∀ st, convDiffTree.build (convDiffOps e m sp sch g.weights junk flux g.nonOrthDeltaCoeffs gamma st) = .ok (eqn, ops st))
    (bcs : List (VolumeBoundary K)) (table : SolverTable K) (fvSchemes fvSolution : Dict) (hd : AsksFor fvSchemes "backwardEuler")
    (solver : LinSolver K) (hso : createSolver table fvSchemes = .ok solver) (hex : ExactOn m solver)
    (st : TimeState K K) (ho : st.sol.On m) (hsy : st.Synced)
    (hbc : ∀ b < m.nBoundaryFaces,
      (Prescribes m st.sol b (.fixedGradient 0) (st.sol.entry b) ∧ 0 ≤ ix flux (m.nInternalFaces + b)) ∨
      (Prescribes m st.sol b (.fixedValue 0) (st.sol.entry b) ∧ ix flux (m.nInternalFaces + b)
        ≤ 2 * (ix gamma (m.nInternalFaces + b) * ix g.nonOrthDeltaCoeffs (m.nInternalFaces + b) * ix m.magFaceAreas (m.nInternalFaces + b))))
    (t : K) (dt : Nat → K) (hdt : ∀ k, 0 < dt k) (n : Nat) (st' : TimeState K K)
    (hrun : timeLoop (fun d st => dslSolve e m bcs table fvSchemes fvSolution ops eqn st t d) dt n st (.ok st')) :
    st'.sol.squares m ≤ st.sol.squares m := by
  obtain ⟨g', hgd, -, -, hl, -, -, hpos⟩ := C27_geometry h e tiny ht sqrt hs gjunk
  cases (hgd _).1 hg
  have hdiff : ∀ f < m.nFaces, 0 ≤ ix gamma f * ix g.nonOrthDeltaCoeffs f * ix m.magFaceAreas f := fun f hf => by
    obtain ⟨-, -, q, -⟩ := hpos f hf (hspan f hf)
    exact mul_nonneg (mul_nonneg (hgam f hf) q.le) (hmag f hf)
  obtain ⟨u, h0, hn, hgood, hstep⟩ := convDiff_returns h h256 e hre hsp sch g.weights junk flux g.nonOrthDeltaCoeffs gamma hfl hl hgl eqn ops hbuild bcs table
    fvSchemes fvSolution hd solver hso hex st ho hsy t dt n st' hrun
  rw [← hn, ← h0]
  have key : ∀ j ≤ n, (u j).sol.squares m ≤ (u 0).sol.squares m := by
    intro j hj
    induction j with
    | zero => exact le_rfl
    | succ j ih =>
      refine le_trans ?_ (ih (by omega))
      have hs := hstep j (by omega)
      have hdis := dissipates h hdiv hdiff (φ := (u j).sol) (fun b hb => by
        rw [(hgood j (by omega)).2.2]
        rcases hbc b hb with ⟨⟨-, q1, q2⟩, q3⟩ | ⟨⟨-, q1, q2⟩, q3⟩
        · exact .inl ⟨q2, q1, q3⟩
        · exact .inr ⟨q2, q1, q3⟩) (u (j + 1)).sol.cell
      have hsum : ∑ c ∈ range m.nCells, m.vol c * ((u (j + 1)).sol.cell c * ((u (j + 1)).sol.cell c - (u j).sol.cell c)) ≤ 0 := by
        have e : ∑ c ∈ range m.nCells, m.vol c * ((u (j + 1)).sol.cell c * ((u (j + 1)).sol.cell c - (u j).sol.cell c))
            = -(dt j * ∑ c ∈ range m.nCells, (u (j + 1)).sol.cell c * m.netOutflow ((u j).sol.outFlux m (ix flux) (ix g.nonOrthDeltaCoeffs) (ix gamma) (u (j + 1)).sol.cell) c) := by
          rw [Finset.mul_sum, ← Finset.sum_neg_distrib]
          refine Finset.sum_congr rfl fun c hc => ?_
          have := eq_neg_of_add_eq_zero_left (hs.cells c (mem_range.1 hc))
          rw [div_eq_iff (hdt j).ne'] at this
          linear_combination (u (j + 1)).sol.cell c * this
        rw [e, neg_nonpos]
        exact mul_nonneg (hdt j).le hdis
      have hle : (u (j + 1)).sol.squares m - (u j).sol.squares m
          ≤ 2 * ∑ c ∈ range m.nCells, m.vol c * ((u (j + 1)).sol.cell c * ((u (j + 1)).sol.cell c - (u j).sol.cell c)) := by
        unfold VolField.squares
        rw [← Finset.sum_sub_distrib, Finset.mul_sum]
        refine Finset.sum_le_sum fun c hc => ?_
        have := mul_nonneg (hv c (mem_range.1 hc)).le (sq_nonneg ((u (j + 1)).sol.cell c - (u j).sol.cell c))
        nlinarith
      linarith
  exact key n le_rfl

/-- The hypotheses of C61 and C62 on the boundary can be met in the duct; the others are those of C60. -/
example : ∀ b < duct.nBoundaryFaces,
      (Prescribes duct (ductImplicit 0) b (.fixedGradient 0) ((ductImplicit 0).entry b) ∧ 0 ≤ ix ductFlux (duct.nInternalFaces + b)) ∨
      (Prescribes duct (ductImplicit 0) b (.fixedValue 0) ((ductImplicit 0).entry b) ∧ ix ductFlux (duct.nInternalFaces + b)
        ≤ 2 * (ix [0, 0, 0] (duct.nInternalFaces + b) * ix [1, 1, 1] (duct.nInternalFaces + b) * ix duct.magFaceAreas (duct.nInternalFaces + b))) := by
  intro b hb
  have : b = 0 ∨ b = 1 := by simp [duct] at hb; omega
  rcases this with rfl | rfl
  · refine .inr ⟨⟨rfl, rfl, rfl⟩, ?_⟩
    simp [duct, ix, ductFlux]
  · refine .inl ⟨⟨?_, rfl, rfl⟩, ?_⟩
    · simp [ductImplicit, VolField.entry, VolField.cell, duct, Mesh.fc]
    · simp [duct, ix, ductFlux]

end NeoFOAM
