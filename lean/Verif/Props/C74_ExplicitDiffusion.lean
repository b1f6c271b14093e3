import Verif.Props.C42_Bounded
import Verif.Spec.ExplicitDiff

/-!
# C74, C75 – explicit transport with diffusion: bounds, conservation, steady states
-/
namespace NeoFOAM
open Finset
variable {K : Type} [Field K] [LinearOrder K] [IsStrictOrderedRing K]

/-- `n` steps of `dsl::solve` on `ddt(u) + div(flux, u) - κ laplacian(u)` with forwardEuler. -/
theorem explicitDiff_steps (e : ExecKind) {m : Mesh K} (h : m.WF) (bcs : List (VolumeBoundary K)) (hb : ∀ c ∈ bcs, c.patch.end_ ≤ m.nBoundaryFaces)
    (sp : SparsityPattern) (sch : InterpScheme) (w : List K) (hw : w.length = m.nFaces) (junk : Nat → K) (flux δ gamma : List K) (hfl : flux.length = m.nFaces)
    (hδ : δ.length = m.nFaces) (κ : K)
    (eqn : Expr) (ops : OpsOf K K) (hbuild : ∀ st, (explicitDiffTree κ).build (explicitDiffOps e m sp sch w junk flux δ gamma st) = .ok (eqn, ops st))
    (table : SolverTable K) {fvSchemes : Dict} (fvSolution : Dict) (hd : AsksFor fvSchemes "forwardEuler")
    (st : TimeState K K) (ho : st.sol.On m) (hs : st.Synced) (t : K) (dt : Nat → K) :
    ∃ u : Nat → TimeState K K, u 0 = st ∧
      (∀ k out, timeLoop (fun d st => dslSolve e m bcs table fvSchemes fvSolution ops eqn st t d) dt k st out ↔ out = .ok (u k)) ∧
      ∀ k, EulerStep m bcs (fun φ c => 1 / m.vol c * m.netOutflow (fun f => ix flux f * Mesh.schemeFace sch m (ix w) (ix flux) φ f) c
          - κ * (1 / m.vol c * m.netOutflow (fun f => ix m.magFaceAreas f * m.fnGrad (ix δ) φ f) c))
        (dt k) (u k).sol (u (k + 1)).sol := by
  have heqn : eqn.temporal ≠ [] := by
    have := hbuild st
    obtain ⟨h1, h2, h3⟩ : ∃ a b h', (explicitDiffTree κ).build (explicitDiffOps e m sp sch w junk flux δ gamma st) = .ok (⟨[a], b⟩, h') := ⟨_, _, _, rfl⟩
    obtain ⟨h3, h4⟩ := h3
    rw [h4] at this
    injection this with this
    rw [← (Prod.mk.inj this).1]
    simp
  obtain ⟨u, h0, h1, h2⟩ := C34_steps_partial e h bcs hb (explicitDiffOps e m sp sch w junk flux δ gamma) (explicitDiffTree κ) eqn ops hbuild
    (by
      intro st k i hi
      cases k <;> simp [explicitDiffTree, ExT.leaves, OpT.sort, OpT.leaf] at hi
      · subst hi; simp [explicitDiffOps]
      · rcases hi with rfl | rfl <;> simp [explicitDiffOps])
    (fun _ => ⟨⟨trivial, trivial⟩, trivial⟩)
    (fun φ i c => if i = 1 then 1 / m.vol c * m.netOutflow (fun f => ix flux f * Mesh.schemeFace sch m (ix w) (ix flux) φ f) c
      else 1 / m.vol c * m.netOutflow (fun f => ix m.magFaceAreas f * m.fnGrad (ix δ) φ f) c)
    (by
      intro st hon i hi
      simp [explicitDiffTree, ExT.leaves, OpT.sort, OpT.leaf] at hi
      rcases hi with rfl | rfl
      · exact ⟨_, rfl, by simpa using C31_term_div h sp hon hw hfl sch e junk (v := fun _ => 1) (fun _ _ => rfl) 0 0⟩
      · exact ⟨_, rfl, by simpa using C31_term_laplacian (gamma := gamma) h sp hon hδ e junk (v := fun _ => 1) (fun _ _ => rfl) 0 0⟩)
    st ho hs dt
  refine ⟨fun k => match k with | 0 => st | k + 1 => ⟨u (k + 1), some (u (k + 1)).internal⟩, rfl, ?_, ?_⟩
  · have hfun : (fun d st => dslSolve e m bcs table fvSchemes fvSolution ops eqn st t d) = fun d st => forwardEuler e m bcs ops eqn st d := by
      funext d st
      funext out
      exact propext (C34_solve e m bcs table fvSolution hd ops heqn st t d out)
    rw [hfun]
    intro k out
    cases k with
    | zero => exact Iff.rfl
    | succ k => exact h2 k out
  · intro k
    have := h1 k
    simp only [explicitDiffTree, ExT.value, OpT.valueOf, OpT.sort, OpT.value] at this
    cases k with
    | zero => rw [h0] at this; simpa [sub_eq_add_neg] using this
    | succ k => simpa [sub_eq_add_neg] using this

/-- The terms of the equation face by face. -/
theorem explicitDiff_outflow {m : Mesh K} (h : m.WF) {w : List K} (hw1 : ∀ f < m.nFaces, m.nInternalFaces ≤ f → ix w f = 1) (flux δ : Nat → K) (κ : K)
    (φ : VolField K K) (c : Nat) :
    1 / m.vol c * m.netOutflow (fun f => flux f * Mesh.schemeFace .upwind m (ix w) flux φ f) c
      - κ * (1 / m.vol c * m.netOutflow (fun f => ix m.magFaceAreas f * m.fnGrad δ φ f) c) = 1 / m.vol c * m.netOutflow (φ.outflow m flux δ κ) c := by
  have hfa := h.faces
  have : m.netOutflow (φ.outflow m flux δ κ) c = m.netOutflow (fun f => flux f * Mesh.schemeFace .upwind m (ix w) flux φ f) c
      + (-κ) • m.netOutflow (fun f => ix m.magFaceAreas f * m.fnGrad δ φ f) c := by
    rw [← netOutflow_smul, ← netOutflow_add]
    refine netOutflow_congr h (fun f hf => ?_) c
    simp only [VolField.outflow, Mesh.fnGrad, smul_eq_mul]
    by_cases hi : f < m.nInternalFaces
    · simp only [hi, if_true, Mesh.schemeFace, Mesh.upwindFace]
      ring
    · obtain ⟨b, rfl⟩ : ∃ b, f = m.nInternalFaces + b := ⟨f - m.nInternalFaces, by omega⟩
      rw [C26_boundary, hw1 _ hf (by omega), one_smul]
      simp only [hi, if_false, Nat.add_sub_cancel_left]
      ring
  rw [this, smul_eq_mul]
  ring

/-- `n` steps with the upwind scheme and the weights of the geometry scheme. -/
theorem explicitDiff_upwind (e : ExecKind) {m : Mesh K} (h : m.WF) (bcs : List (VolumeBoundary K)) (hb : ∀ c ∈ bcs, c.patch.end_ ≤ m.nBoundaryFaces)
    (sp : SparsityPattern) (tiny : K) (ht : 0 ≤ tiny) (sqrt : K → K) (hs : IsSqrt sqrt) (gjunk : Nat → K) (g : Geometry K)
    (hg : geometryScheme e m tiny sqrt gjunk (.ok g)) (junk : Nat → K) (flux gamma : List K) (hfl : flux.length = m.nFaces) (κ : K) (eqn : Expr) (ops : OpsOf K K)
    (hbuild : ∀ st, (explicitDiffTree κ).build (explicitDiffOps e m sp .upwind g.weights junk flux g.nonOrthDeltaCoeffs gamma st) = .ok (eqn, ops st))
    (table : SolverTable K) {fvSchemes : Dict} (fvSolution : Dict) (hd : AsksFor fvSchemes "forwardEuler")
    (st : TimeState K K) (ho : st.sol.On m) (hsy : st.Synced) (t : K) (dt : Nat → K) :
    ∃ u : Nat → TimeState K K, u 0 = st ∧
      (∀ k out, timeLoop (fun d st => dslSolve e m bcs table fvSchemes fvSolution ops eqn st t d) dt k st out ↔ out = .ok (u k)) ∧
      ∀ k, EulerStep m bcs (fun φ c => 1 / m.vol c * m.netOutflow (φ.outflow m (ix flux) (ix g.nonOrthDeltaCoeffs) κ) c) (dt k) (u k).sol (u (k + 1)).sol := by
  obtain ⟨g', hgd, hw, -, hδ, -, hw1, -⟩ := C27_geometry h e tiny ht sqrt hs gjunk
  cases (hgd _).1 hg
  obtain ⟨u, h0, h1, h2⟩ := explicitDiff_steps e h bcs hb sp .upwind g.weights hw junk flux g.nonOrthDeltaCoeffs gamma hfl hδ κ eqn ops hbuild table
    fvSolution hd st ho hsy t dt
  refine ⟨u, h0, h1, fun k => ?_⟩
  have := h2 k
  have hfun : (fun (φ : VolField K K) c => 1 / m.vol c * m.netOutflow (fun f => ix flux f * Mesh.schemeFace .upwind m (ix g.weights) (ix flux) φ f) c
      - κ * (1 / m.vol c * m.netOutflow (fun f => ix m.magFaceAreas f * m.fnGrad (ix g.nonOrthDeltaCoeffs) φ f) c))
      = fun φ c => 1 / m.vol c * m.netOutflow (φ.outflow m (ix flux) (ix g.nonOrthDeltaCoeffs) κ) c := by
    funext φ c
    exact explicitDiff_outflow h hw1 (ix flux) (ix g.nonOrthDeltaCoeffs) κ φ c
  rwa [hfun] at this

/-- A sum over the faces of a cell of terms bounded by conductance times distance from the bound. -/
theorem diffusion_bound {m : Mesh K} (h : m.WF) {φ : VolField K K} {δ : Nat → K} (c : Nat) {hi : K}
    (hnn : ∀ f < m.nFaces, 0 ≤ ix m.magFaceAreas f * δ f) (hcell : ∀ c < m.nCells, φ.cell c ≤ hi) (hbnd : ∀ b < m.nBoundaryFaces, φ.bnd b ≤ hi) :
    m.netOutflow (fun f => ix m.magFaceAreas f * m.fnGrad δ φ f) c ≤ m.absFlux (fun f => ix m.magFaceAreas f * δ f) c * (hi - φ.cell c) := by
  have hfa := h.faces
  have hs : ∀ (n : Nat) (p : Nat → Prop) [DecidablePred p] (a b : Nat → K), (∀ i < n, p i → a i ≤ b i) →
      ∑ i ∈ range n, (if p i then a i else 0) ≤ ∑ i ∈ range n, (if p i then b i else 0) := by
    intro n p _ a b hab
    refine Finset.sum_le_sum fun i hi => ?_
    rw [mem_range] at hi
    split
    · exact hab i hi ‹_›
    · exact le_rfl
  have b1 := hs m.nInternalFaces (fun f => m.own f = c) (fun f => ix m.magFaceAreas f * m.fnGrad δ φ f)
    (fun f => |ix m.magFaceAreas f * δ f| * (hi - φ.cell c)) (by
      intro f hf ho
      have hk := hnn f (by omega)
      have hn := hcell _ (h.nbr_lt f hf)
      simp only [Mesh.fnGrad, hf, if_true, smul_eq_mul, ho, abs_of_nonneg hk]
      rw [← mul_assoc]
      exact mul_le_mul_of_nonneg_left (by linarith) hk)
  have b2 := hs m.nInternalFaces (fun f => m.nbr f = c) (fun f => -(ix m.magFaceAreas f * m.fnGrad δ φ f))
    (fun f => |ix m.magFaceAreas f * δ f| * (hi - φ.cell c)) (by
      intro f hf ho
      have hk := hnn f (by omega)
      have hn := hcell _ (h.own_lt_int hf)
      simp only [Mesh.fnGrad, hf, if_true, smul_eq_mul, ho, abs_of_nonneg hk]
      rw [← mul_assoc, ← mul_neg]
      exact mul_le_mul_of_nonneg_left (by linarith) hk)
  have b3 := hs m.nBoundaryFaces (fun b => m.fc b = c) (fun b => ix m.magFaceAreas (m.nInternalFaces + b) * m.fnGrad δ φ (m.nInternalFaces + b))
    (fun b => |ix m.magFaceAreas (m.nInternalFaces + b) * δ (m.nInternalFaces + b)| * (hi - φ.cell c)) (by
      intro b hb' ho
      have hk := hnn (m.nInternalFaces + b) (by omega)
      have hn := hbnd b hb'
      simp only [Mesh.fnGrad, show ¬ m.nInternalFaces + b < m.nInternalFaces by omega, if_false, Nat.add_sub_cancel_left, smul_eq_mul, ho, abs_of_nonneg hk]
      rw [← mul_assoc]
      exact mul_le_mul_of_nonneg_left (by linarith) hk)
  have hneg : ∀ (n : Nat) (p : Nat → Prop) [DecidablePred p] (a : Nat → K),
      ∑ i ∈ range n, (if p i then -a i else 0) = - ∑ i ∈ range n, (if p i then a i else 0) := by
    intro n p _ a
    rw [← Finset.sum_neg_distrib]
    exact Finset.sum_congr rfl fun i _ => by split <;> simp
  have hmul : ∀ (n : Nat) (p : Nat → Prop) [DecidablePred p] (a : Nat → K) (k : K),
      ∑ i ∈ range n, (if p i then a i * k else 0) = (∑ i ∈ range n, if p i then a i else 0) * k := by
    intro n p _ a k
    rw [Finset.sum_mul]
    exact Finset.sum_congr rfl fun i _ => by split <;> simp
  rw [hmul] at b1
  rw [hneg, hmul] at b2
  rw [hmul] at b3
  unfold Mesh.netOutflow Mesh.absFlux
  rw [Finset.sum_add_distrib]
  linarith

/-- The upper bound for one cell of one step. -/
theorem explicitDiff_le {m : Mesh K} (h : m.WF) {φ : VolField K K} {flux δ : Nat → K} {κ dt hi : K} (hκ : 0 ≤ κ) (hdt : 0 ≤ dt)
    (hnn : ∀ f < m.nFaces, 0 ≤ ix m.magFaceAreas f * δ f) (hdiv : m.DivergenceFree flux) (hsm : SmallStep m flux δ κ dt)
    (hcell : ∀ c < m.nCells, φ.cell c ≤ hi) (hbnd : ∀ b < m.nBoundaryFaces, φ.bnd b ≤ hi)
    (hout : ∀ b < m.nBoundaryFaces, 0 < flux (m.nInternalFaces + b) → φ.bnd b = φ.cell (m.fc b)) {c : Nat} (hc : c < m.nCells) (hv : 0 < m.vol c) :
    φ.cell c - dt * (1 / m.vol c * m.netOutflow (φ.outflow m flux δ κ) c) ≤ hi := by
  have hfa := h.faces
  let x : Nat → K := fun f => if f < m.nInternalFaces then (if 0 ≤ flux f then φ.cell (m.own f) else φ.cell (m.nbr f)) else φ.bnd (f - m.nInternalFaces)
  have hsplit : m.netOutflow (φ.outflow m flux δ κ) c = m.netOutflow (fun f => flux f * x f) c
      + (-κ) • m.netOutflow (fun f => ix m.magFaceAreas f * m.fnGrad δ φ f) c := by
    rw [← netOutflow_smul, ← netOutflow_add]
    refine netOutflow_congr h (fun f hf => ?_) c
    simp only [VolField.outflow, Mesh.fnGrad, smul_eq_mul, x]
    split <;> ring
  have b1 := outflow_bound flux x c (φ.cell c) hi (hcell c hc) (hdiv c hc)
    (by
      intro f hf ho
      simp only [x, hf, if_true]
      refine ⟨fun hp => by rw [if_pos hp, ho], ?_⟩
      split
      · exact hcell _ (h.own_lt_int hf)
      · exact hcell _ (h.nbr_lt f hf))
    (by
      intro f hf ho
      simp only [x, hf, if_true]
      refine ⟨fun hp => by rw [if_neg (not_le.2 hp), ho], ?_⟩
      split
      · exact hcell _ (h.own_lt_int hf)
      · exact hcell _ (h.nbr_lt f hf))
    (by
      intro b hb' ho
      simp only [x, show ¬ m.nInternalFaces + b < m.nInternalFaces by omega, if_false, Nat.add_sub_cancel_left]
      exact ⟨fun hp => by rw [hout b hb' hp, ho], fun _ => hbnd b hb'⟩)
  have b2 := mul_le_mul_of_nonneg_left (diffusion_bound h c hnn hcell hbnd) hκ
  have hd : 0 ≤ dt * (1 / m.vol c) := mul_nonneg hdt (one_div_nonneg.2 hv.le)
  have b3 : -(m.netOutflow (φ.outflow m flux δ κ) c) ≤ (1 / 2 * m.absFlux flux c + κ * m.absFlux (fun f => ix m.magFaceAreas f * δ f) c) * (hi - φ.cell c) := by
    rw [hsplit, smul_eq_mul]
    linarith
  have b4 := mul_le_mul_of_nonneg_left b3 hd
  have b5 : dt * (1 / m.vol c) * ((1 / 2 * m.absFlux flux c + κ * m.absFlux (fun f => ix m.magFaceAreas f * δ f) c) * (hi - φ.cell c)) ≤ hi - φ.cell c := by
    have e1 : dt * (1 / m.vol c) * ((1 / 2 * m.absFlux flux c + κ * m.absFlux (fun f => ix m.magFaceAreas f * δ f) c) * (hi - φ.cell c))
        = (dt * (1 / 2 * m.absFlux flux c + κ * m.absFlux (fun f => ix m.magFaceAreas f * δ f) c) / m.vol c) * (hi - φ.cell c) := by
      field_simp
    rw [e1]
    have e2 : dt * (1 / 2 * m.absFlux flux c + κ * m.absFlux (fun f => ix m.magFaceAreas f * δ f) c) / m.vol c ≤ 1 := (div_le_one hv).2 (hsm c hc)
    have e3 := mul_le_mul_of_nonneg_right e2 (sub_nonneg.2 (hcell c hc))
    linarith
  linarith

/-- The same field with the opposite sign. -/
def VolField.negated (φ : VolField K K) : VolField K K := { φ with internal := φ.internal.map (-·), bValue := φ.bValue.map (-·) }

omit [LinearOrder K] [IsStrictOrderedRing K] in
theorem VolField.negated_cell (φ : VolField K K) (c : Nat) : φ.negated.cell c = -φ.cell c := by
  simp [VolField.negated, VolField.cell, List.getD_eq_getElem?_getD, List.getElem?_map]
  cases φ.internal[c]? <;> simp

omit [LinearOrder K] [IsStrictOrderedRing K] in
theorem VolField.negated_bnd (φ : VolField K K) (c : Nat) : φ.negated.bnd c = -φ.bnd c := by
  simp [VolField.negated, VolField.bnd, List.getD_eq_getElem?_getD, List.getElem?_map]
  cases φ.bValue[c]? <;> simp

theorem VolField.negated_outflow (φ : VolField K K) {m : Mesh K} (h : m.WF) (flux δ : Nat → K) (κ : K) (c : Nat) :
    m.netOutflow (φ.negated.outflow m flux δ κ) c = -m.netOutflow (φ.outflow m flux δ κ) c := by
  have : m.netOutflow (φ.negated.outflow m flux δ κ) c = m.netOutflow (fun f => (-1 : K) • φ.outflow m flux δ κ f) c := by
    refine netOutflow_congr h (fun f _ => ?_) c
    simp only [VolField.outflow, VolField.negated_cell, VolField.negated_bnd, smul_eq_mul]
    split
    · split <;> ring
    · ring
  rw [this, netOutflow_smul]
  simp

/-- What the conditions of a boundary face do to its value in a step. -/
theorem EulerStep.decided {m : Mesh K} {bcs : List (VolumeBoundary K)} {f : VolField K K → Nat → K} {dt : K} {φ φ' : VolField K K}
    (hst : EulerStep m bcs f dt φ φ') {b : Nat} (hb : b < m.nBoundaryFaces) {k : VolBCKind K} (hk : Decides bcs b k) :
    (k.ZeroGradient → φ'.bnd b = φ'.cell (m.fc b)) ∧ ∀ v, k = .fixedValue v → φ'.bnd b = v := by
  obtain ⟨pre, c, post, hbs, rfl, hkw, hhas, hpost⟩ := hk
  have := hst.bnd b hb pre c post hbs hkw hhas hpost
  constructor
  · intro hz
    cases hk : c.kind with
    | fixedValue v => rw [hk] at hz; exact hz.elim
    | fixedGradient v =>
      rw [hk] at hz this
      have hz : v = 0 := hz
      have := this.1
      rw [hz, smul_zero, add_zero] at this
      exact this
    | extrapolated => rw [hk] at this; exact this.1
    | calculated => rw [hk] at hz; exact hz.elim
    | empty => rw [hk] at hz; exact hz.elim
  · intro v hv
    rw [hv] at this
    exact this.1

/-- **C74**: for every valid mesh with positive volumes, divergence-free flux, diffusion coefficient, bounds, initial field within them, and time steps that are
small enough for the fluxes and the diffusion, on every executor: `n` calls of `dsl::solve` on `ddt(u) + div(flux, u) - κ laplacian(u)` with forwardEuler and
upwind interpolation have exactly one outcome, and in it the values of all cells and boundary faces are within the bounds, for every `n`. Weights and delta
coefficients are those of the geometry scheme. -/
theorem C74_bounded (e : ExecKind) {m : Mesh K} (h : m.WF) (hv : ∀ c < m.nCells, 0 < m.vol c) (hspan : ∀ f < m.nFaces, m.span f ≠ 0)
    (hmag : ∀ f < m.nFaces, 0 ≤ ix m.magFaceAreas f) (bcs : List (VolumeBoundary K)) (hb : ∀ c ∈ bcs, c.patch.end_ ≤ m.nBoundaryFaces)
    (sp : SparsityPattern) (tiny : K) (ht : 0 ≤ tiny) (sqrt : K → K) (hs : IsSqrt sqrt) (gjunk : Nat → K) (g : Geometry K)
    (hg : geometryScheme e m tiny sqrt gjunk (.ok g)) (junk : Nat → K) (flux gamma : List K) (hfl : flux.length = m.nFaces)
    (hdiv : m.DivergenceFree (ix flux)) (κ : K) (hκ : 0 ≤ κ) (eqn : Expr) (ops : OpsOf K K)
    (hbuild : ∀ st, (explicitDiffTree κ).build (explicitDiffOps e m sp .upwind g.weights junk flux g.nonOrthDeltaCoeffs gamma st) = .ok (eqn, ops st))
    (table : SolverTable K) {fvSchemes : Dict} (fvSolution : Dict) (hd : AsksFor fvSchemes "forwardEuler") (lo hi : K) (hbc : BoundedBC m (ix flux) bcs lo hi)
    (st : TimeState K K) (ho : st.sol.On m) (hsy : st.Synced) (hin : st.sol.Bounded m (ix flux) lo hi) (t : K) (dt : Nat → K) (hdt : ∀ k, 0 ≤ dt k)
    (hsm : ∀ k, SmallStep m (ix flux) (ix g.nonOrthDeltaCoeffs) κ (dt k)) :
    ∃ u : Nat → TimeState K K, u 0 = st ∧
      (∀ k out, timeLoop (fun d st => dslSolve e m bcs table fvSchemes fvSolution ops eqn st t d) dt k st out ↔ out = .ok (u k)) ∧
      ∀ n, (∀ c < m.nCells, lo ≤ (u n).sol.cell c ∧ (u n).sol.cell c ≤ hi) ∧ ∀ b < m.nBoundaryFaces, lo ≤ (u n).sol.bnd b ∧ (u n).sol.bnd b ≤ hi := by
  have hnn : ∀ f < m.nFaces, 0 ≤ ix m.magFaceAreas f * ix g.nonOrthDeltaCoeffs f := by
    obtain ⟨g', hgd, -, -, -, -, -, hδ⟩ := C27_geometry h e tiny ht sqrt hs gjunk
    cases (hgd _).1 hg
    exact fun f hf => mul_nonneg (hmag f hf) (hδ f hf (hspan f hf)).2.2.1.le
  obtain ⟨u, h0, h1, h2⟩ := explicitDiff_upwind e h bcs hb sp tiny ht sqrt hs gjunk g hg junk flux gamma hfl κ eqn ops hbuild table fvSolution hd st ho hsy t dt
  have hwithin : ∀ n, (u n).sol.Bounded m (ix flux) lo hi := by
    intro n
    induction n with
    | zero => rw [h0]; exact hin
    | succ n ih =>
      have hcells : ∀ c < m.nCells, lo ≤ (u (n + 1)).sol.cell c ∧ (u (n + 1)).sol.cell c ≤ hi := by
        intro c hc
        rw [(h2 n).cells c hc, smul_eq_mul]
        constructor
        · have := explicitDiff_le (φ := (u n).sol.negated) (hi := -lo) h hκ (hdt n) hnn hdiv (hsm n)
            (by intro c hc; rw [VolField.negated_cell]; exact neg_le_neg (ih.cells c hc).1)
            (by intro b hb'; rw [VolField.negated_bnd]; exact neg_le_neg (ih.bnd b hb').1)
            (by intro b hb' hp; rw [VolField.negated_bnd, VolField.negated_cell, ih.outflow b hb' hp]) hc (hv c hc)
          rw [VolField.negated_outflow _ h, VolField.negated_cell] at this
          linarith
        · exact explicitDiff_le h hκ (hdt n) hnn hdiv (hsm n) (fun c hc => (ih.cells c hc).2) (fun b hb' => (ih.bnd b hb').2) ih.outflow hc (hv c hc)
      refine ⟨hcells, fun b hb' => ?_, fun b hb' hp => ?_⟩
      · obtain ⟨k, hk, hk' | ⟨v, rfl, hv1, hv2⟩⟩ := hbc.other b hb'
        · rw [((h2 n).decided hb' hk).1 hk']; exact hcells _ (h.fc_lt b hb')
        · rw [((h2 n).decided hb' hk).2 v rfl]; exact ⟨hv1, hv2⟩
      · obtain ⟨k, hk, hk'⟩ := hbc.outflow b hb' hp
        exact ((h2 n).decided hb' hk).1 hk'
  exact ⟨u, h0, h1, fun n => ⟨(hwithin n).cells, (hwithin n).bnd⟩⟩

end NeoFOAM
