import Verif.Props.C43_Transport
import Verif.Props.C29_Courant
import Verif.Props.C25_Gradient

/-!
# C42 – explicit upwind transport with Courant number at most one stays within bounds

Not at outflow boundaries with a fixed value: the boundary value is used there whatever the direction of the flux
(`C42_violation`).
-/
namespace NeoFOAM
open Finset
variable {K : Type} [Field K] [LinearOrder K] [IsStrictOrderedRing K]

/-- The upper bound, for any face values `x` that equal the cell's value where the flow leaves it and are at most `hi` where it
enters. -/
theorem outflow_bound {m : Mesh K} (flux x : Nat → K) (c : Nat) (y hi : K) (hy : y ≤ hi) (h0 : m.netOutflow flux c = 0)
    (how : ∀ f < m.nInternalFaces, m.own f = c → (0 ≤ flux f → x f = y) ∧ x f ≤ hi)
    (hnb : ∀ f < m.nInternalFaces, m.nbr f = c → (flux f < 0 → x f = y) ∧ x f ≤ hi)
    (hbd : ∀ b < m.nBoundaryFaces, m.fc b = c → (0 < flux (m.nInternalFaces + b) → x (m.nInternalFaces + b) = y) ∧
      (flux (m.nInternalFaces + b) < 0 → x (m.nInternalFaces + b) ≤ hi)) :
    -(m.netOutflow (fun f => flux f * x f) c) ≤ 1 / 2 * m.absFlux flux c * (hi - y) := by
  have e1 : m.netOutflow (fun f => flux f * x f) c = m.netOutflow (fun f => flux f * (x f - y)) c := by
    have : (fun f => flux f * x f) = fun f => flux f * (x f - y) + y • flux f := by
      funext f; rw [smul_eq_mul]; ring
    rw [this, netOutflow_add, netOutflow_smul, h0]; simp
  have e2 : 1 / 2 * m.absFlux flux c * (hi - y) = 1 / 2 * (m.absFlux flux c - m.netOutflow flux c) * (hi - y) := by rw [h0, sub_zero]
  rw [e1, e2]
  have hs : ∀ (n : Nat) (p : Nat → Prop) [DecidablePred p] (a b : Nat → K), (∀ i < n, p i → a i ≤ b i) →
      ∑ i ∈ range n, (if p i then a i else 0) ≤ ∑ i ∈ range n, (if p i then b i else 0) := by
    intro n p _ a b hab
    refine Finset.sum_le_sum fun i hi => ?_
    rw [mem_range] at hi
    split
    · exact hab i hi ‹_›
    · exact le_rfl
  have b1 := hs m.nInternalFaces (fun f => m.own f = c) (fun f => -(flux f * (x f - y))) (fun f => 1 / 2 * (|flux f| - flux f) * (hi - y)) (by
    intro f hf ho
    obtain ⟨g1, g2⟩ := how f hf ho
    rcases le_or_gt 0 (flux f) with hp | hp
    · rw [g1 hp, abs_of_nonneg hp]; simp
    · rw [abs_of_neg hp]; nlinarith)
  have b2 := hs m.nInternalFaces (fun f => m.nbr f = c) (fun f => flux f * (x f - y)) (fun f => 1 / 2 * (|flux f| + flux f) * (hi - y)) (by
    intro f hf ho
    obtain ⟨g1, g2⟩ := hnb f hf ho
    rcases le_or_gt 0 (flux f) with hp | hp
    · rw [abs_of_nonneg hp]; nlinarith
    · rw [g1 hp, abs_of_neg hp]; simp)
  have b3 := hs m.nBoundaryFaces (fun b => m.fc b = c) (fun b => -(flux (m.nInternalFaces + b) * (x (m.nInternalFaces + b) - y)))
    (fun b => 1 / 2 * (|flux (m.nInternalFaces + b)| - flux (m.nInternalFaces + b)) * (hi - y)) (by
    intro b hb ho
    obtain ⟨g1, g2⟩ := hbd b hb ho
    rcases lt_trichotomy 0 (flux (m.nInternalFaces + b)) with hp | hp | hp
    · rw [g1 hp, abs_of_pos hp]; simp
    · rw [← hp]; simp
    · have := g2 hp
      rw [abs_of_neg hp]; nlinarith)
  have hneg : ∀ (n : Nat) (p : Nat → Prop) [DecidablePred p] (a : Nat → K),
      ∑ i ∈ range n, (if p i then -a i else 0) = - ∑ i ∈ range n, (if p i then a i else 0) := by
    intro n p _ a
    rw [← Finset.sum_neg_distrib]
    exact Finset.sum_congr rfl fun i _ => by split <;> simp
  have hlin : ∀ (n : Nat) (p : Nat → Prop) [DecidablePred p] (a b : Nat → K) (k : K),
      ∑ i ∈ range n, (if p i then 1 / 2 * (a i + k * b i) * (hi - y) else 0)
        = 1 / 2 * ((∑ i ∈ range n, if p i then a i else 0) + k * ∑ i ∈ range n, if p i then b i else 0) * (hi - y) := by
    intro n p _ a b k
    rw [Finset.mul_sum, ← Finset.sum_add_distrib, Finset.mul_sum, Finset.sum_mul]
    exact Finset.sum_congr rfl fun i _ => by split <;> simp
  have c1 := hlin m.nInternalFaces (fun f => m.own f = c) (fun f => |flux f|) flux (-1)
  have c2 := hlin m.nInternalFaces (fun f => m.nbr f = c) (fun f => |flux f|) flux 1
  have c3 := hlin m.nBoundaryFaces (fun b => m.fc b = c) (fun b => |flux (m.nInternalFaces + b)|) (fun b => flux (m.nInternalFaces + b)) (-1)
  simp only [neg_one_mul, ← sub_eq_add_neg, one_mul] at c1 c2 c3
  rw [hneg, c1] at b1
  rw [c2] at b2
  rw [hneg, c3] at b3
  unfold Mesh.netOutflow Mesh.absFlux
  rw [Finset.sum_add_distrib]
  linarith

/-- One cell of one step. -/
theorem step_le {m : Mesh K} (flux x : Nat → K) (c : Nat) (y hi dt : K) (hv : 0 < m.vol c) (hdt : 0 ≤ dt)
    (hco : 1 / 2 * dt * (m.absFlux flux c / m.vol c) ≤ 1) (hy : y ≤ hi) (h0 : m.netOutflow flux c = 0)
    (how : ∀ f < m.nInternalFaces, m.own f = c → (0 ≤ flux f → x f = y) ∧ x f ≤ hi)
    (hnb : ∀ f < m.nInternalFaces, m.nbr f = c → (flux f < 0 → x f = y) ∧ x f ≤ hi)
    (hbd : ∀ b < m.nBoundaryFaces, m.fc b = c → (0 < flux (m.nInternalFaces + b) → x (m.nInternalFaces + b) = y) ∧
      (flux (m.nInternalFaces + b) < 0 → x (m.nInternalFaces + b) ≤ hi)) :
    y - dt * (1 / m.vol c * m.netOutflow (fun f => flux f * x f) c) ≤ hi := by
  have h1 := outflow_bound flux x c y hi hy h0 how hnb hbd
  have h2 : 0 ≤ dt * (1 / m.vol c) := mul_nonneg hdt (one_div_nonneg.2 hv.le)
  have h3 := mul_le_mul_of_nonneg_left h1 h2
  have h4 : dt * (1 / m.vol c) * (1 / 2 * m.absFlux flux c * (hi - y)) ≤ 1 * (hi - y) := by
    have : dt * (1 / m.vol c) * (1 / 2 * m.absFlux flux c * (hi - y)) = (1 / 2 * dt * (m.absFlux flux c / m.vol c)) * (hi - y) := by
      field_simp
    rw [this]
    exact mul_le_mul_of_nonneg_right hco (by linarith)
  linarith

omit [IsStrictOrderedRing K] [LinearOrder K] in
theorem netOutflow_neg_mul (m : Mesh K) (flux x : Nat → K) (c : Nat) :
    m.netOutflow (fun f => flux f * -x f) c = -(m.netOutflow (fun f => flux f * x f) c) := by
  have : (fun f => flux f * -x f) = fun f => (-1 : K) • (flux f * x f) := by
    funext f; rw [smul_eq_mul]; ring
  rw [this, netOutflow_smul]; simp

/-- **C42**: for every valid mesh with positive volumes, divergence-free flux, bounds, initial field within them, and time steps for
which `computeCoNum` returns at most 1, on every executor: `n` calls of `dsl::solve` on `ddt(u) + div(flux, u)` with forwardEuler and
upwind interpolation have exactly one outcome, and in it the values of all cells are within the bounds, for every `n`. The
weights are those of the geometry scheme. What is missing: boundaries where the flow leaves are required to have zero gradient. -/
theorem C42_bounded_partial (e : ExecKind) {m : Mesh K} (h : m.WF) (hv : ∀ c < m.nCells, 0 < m.vol c)
    (bcs : List (VolumeBoundary K)) (hb : ∀ c ∈ bcs, c.patch.end_ ≤ m.nBoundaryFaces) (sp : SparsityPattern)
    (tiny : K) (ht : 0 ≤ tiny) (sqrt : K → K) (hs : IsSqrt sqrt) (gjunk : Nat → K) (g : Geometry K) (hg : geometryScheme e m tiny sqrt gjunk (.ok g))
    (junk : Nat → K) (flux : List K) (hfl : flux.length = m.nFaces) (hdiv : m.DivergenceFree (ix flux)) (eqn : Expr) (ops : OpsOf K K)
    (hbuild : ∀ st, transportTree.build (transportOps e m sp .upwind g.weights junk flux st) = .ok (eqn, ops st))
    (table : SolverTable K) {fvSchemes : Dict} (fvSolution : Dict) (hd : AsksFor fvSchemes "forwardEuler")
    (lo hi : K) (hbc : TransportBC m (ix flux) bcs lo hi)
    (st : TimeState K K) (ho : st.sol.On m) (hsy : st.Synced) (hin : st.sol.Within m (ix flux) lo hi) (t : K) (dt : Nat → K) (hdt : ∀ k, 0 ≤ dt k)
    (lowest : K) (hlow : lowest ≤ 0) (hco : ∀ k, ∃ co mean, computeCoNum e m sqrt lowest flux (dt k) (.ok (co, mean)) ∧ co ≤ 1) :
    ∃ u : Nat → TimeState K K, u 0 = st ∧
      (∀ k out, timeLoop (fun d st => dslSolve e m bcs table fvSchemes fvSolution ops eqn st t d) dt k st out ↔ out = .ok (u k)) ∧
      ∀ n, ∀ c < m.nCells, lo ≤ (u n).sol.cell c ∧ (u n).sol.cell c ≤ hi := by
  obtain ⟨g', hgd, hw, -, -, -, hw1, -⟩ := C27_geometry h e tiny ht sqrt hs gjunk
  cases (hgd _).1 hg
  have hfaces := h.faces
  obtain ⟨u, h0, h1, h2⟩ := transport_steps e h bcs hb sp .upwind g.weights hw junk flux hfl eqn ops hbuild table fvSolution hd st ho hsy t dt
  have hcell : ∀ k, ∀ c < m.nCells, 1 / 2 * dt k * (m.absFlux (ix flux) c / m.vol c) ≤ 1 := by
    intro k c hc
    obtain ⟨co, mean, h3, h4⟩ := hco k
    obtain ⟨M, hM, -, hout⟩ := C29_courant h hv (by omega) e hs lowest hlow hfl (dt k)
    have h5 := (hout _).1 h3
    cases h5
    have h6 := hM.2 ⟨c, hc, rfl⟩
    have h7 : 0 ≤ 1 / 2 * dt k := by have := hdt k; linarith
    exact (mul_le_mul_of_nonneg_left h6 h7).trans h4
  have hwithin : ∀ n, (u n).sol.Within m (ix flux) lo hi := by
    intro n
    induction n with
    | zero => rw [h0]; exact hin
    | succ n ih =>
      have hb1 : ∀ b < m.nBoundaryFaces, Mesh.schemeFace .upwind m (ix g.weights) (ix flux) (u n).sol (m.nInternalFaces + b) = (u n).sol.bnd b := by
        intro b hb'
        rw [C26_boundary, hw1 _ (by omega) (by omega), one_smul]
      have hcells : ∀ c < m.nCells, lo ≤ (u (n + 1)).sol.cell c ∧ (u (n + 1)).sol.cell c ≤ hi := by
        intro c hc
        rw [(h2 n).cells c hc, smul_eq_mul]
        have hdir := fun f hf => C26_direction m (ix g.weights) (ix flux) (u n).sol f hf
        constructor
        · have := step_le (m := m) (ix flux) (fun f => -(Mesh.schemeFace .upwind m (ix g.weights) (ix flux) (u n).sol f)) c (-(u n).sol.cell c) (-lo) (dt n)
            (hv c hc) (hdt n) (hcell n c hc) (neg_le_neg (ih.cells c hc).1) (hdiv c hc)
            (by
              intro f hf hoc
              refine ⟨fun hp => by rw [(hdir f hf).1 hp, hoc], ?_⟩
              rcases le_or_gt 0 (ix flux f) with hp | hp
              · rw [(hdir f hf).1 hp]; exact neg_le_neg (ih.cells _ (h.own_lt f (by omega))).1
              · rw [(hdir f hf).2 hp]; exact neg_le_neg (ih.cells _ (h.nbr_lt f hf)).1)
            (by
              intro f hf hoc
              refine ⟨fun hp => by rw [(hdir f hf).2 hp, hoc], ?_⟩
              rcases le_or_gt 0 (ix flux f) with hp | hp
              · rw [(hdir f hf).1 hp]; exact neg_le_neg (ih.cells _ (h.own_lt f (by omega))).1
              · rw [(hdir f hf).2 hp]; exact neg_le_neg (ih.cells _ (h.nbr_lt f hf)).1)
            (by
              intro b hb' hoc
              rw [hb1 b hb']
              exact ⟨fun hp => by rw [ih.outflow b hb' hp, hoc], fun hp => neg_le_neg (ih.inflow b hb' hp).1⟩)
          rw [netOutflow_neg_mul] at this
          linarith
        · exact step_le (m := m) (ix flux) (Mesh.schemeFace .upwind m (ix g.weights) (ix flux) (u n).sol) c ((u n).sol.cell c) hi (dt n)
            (hv c hc) (hdt n) (hcell n c hc) (ih.cells c hc).2 (hdiv c hc)
            (by
              intro f hf hoc
              refine ⟨fun hp => by rw [(hdir f hf).1 hp, hoc], ?_⟩
              rcases le_or_gt 0 (ix flux f) with hp | hp
              · rw [(hdir f hf).1 hp]; exact (ih.cells _ (h.own_lt f (by omega))).2
              · rw [(hdir f hf).2 hp]; exact (ih.cells _ (h.nbr_lt f hf)).2)
            (by
              intro f hf hoc
              refine ⟨fun hp => by rw [(hdir f hf).2 hp, hoc], ?_⟩
              rcases le_or_gt 0 (ix flux f) with hp | hp
              · rw [(hdir f hf).1 hp]; exact (ih.cells _ (h.own_lt f (by omega))).2
              · rw [(hdir f hf).2 hp]; exact (ih.cells _ (h.nbr_lt f hf)).2)
            (by
              intro b hb' hoc
              rw [hb1 b hb']
              exact ⟨fun hp => by rw [ih.outflow b hb' hp, hoc], fun hp => (ih.inflow b hb' hp).2⟩)
      have hzero : ∀ b < m.nBoundaryFaces, ∀ k, Decides bcs b k → k.ZeroGradient → (u (n + 1)).sol.bnd b = (u (n + 1)).sol.cell (m.fc b) := by
        rintro b hb' k ⟨pre, c, post, hbs, rfl, hkw, hhas, hpost⟩ hz
        have := (h2 n).bnd b hb' pre c post hbs hkw hhas hpost
        cases hk : c.kind with
        | fixedValue v => rw [hk] at hz; exact hz.elim
        | fixedGradient v =>
          rw [hk] at hz this
          have hz : v = 0 := hz
          have := this.1
          rw [hz, smul_zero, add_zero] at this
          exact this
        | extrapolated => rw [hk] at this; exact this.1
        | calculated => rw [hk] at hz; exact hz.elim
        | empty => rw [hk] at hz; exact hz.elim
      refine ⟨hcells, fun b hb' hp => ?_, fun b hb' hp => ?_⟩
      · obtain ⟨k, hk, hk' | ⟨v, rfl, hv1, hv2⟩⟩ := hbc.inflow b hb' hp
        · rw [hzero b hb' k hk hk']; exact hcells _ (h.fc_lt b hb')
        · obtain ⟨pre, c, post, hbs, hck, hkw, hhas, hpost⟩ := hk
          have := (h2 n).bnd b hb' pre c post hbs (by rw [hck]; exact hkw) hhas hpost
          rw [hck] at this
          have h3 : (u (n + 1)).sol.bnd b = v := this.1
          rw [h3]; exact ⟨hv1, hv2⟩
      · obtain ⟨k, hk, hk'⟩ := hbc.outflow b hb' hp
        exact hzero b hb' k hk hk'
  exact ⟨u, h0, h1, fun n => (hwithin n).cells⟩

/-- One round of a time loop. -/
theorem timeLoop_one {K V : Type} (step : K → TimeState K V → NR (TimeState K V)) (dt : Nat → K) (st : TimeState K V) (out) :
    timeLoop step dt 1 st out ↔ step (dt 0) st out :=
  NR.bind_iff (k := step (dt 0)) (a := st) (fun _ => Iff.rfl) out

/-! ### A duct of two cells -/

/-- Two unit cells in a row; boundary face 0 is at the first cell, boundary face 1 at the second. -/
noncomputable def duct : Mesh ℝ where
  points := []
  cellVolumes := [1, 1]
  cellCentres := [(0, 0, 0), (1, 0, 0)]
  faceAreas := [(1, 0, 0), (-1, 0, 0), (1, 0, 0)]
  faceCentres := [(1/2, 0, 0), (-1/2, 0, 0), (3/2, 0, 0)]
  magFaceAreas := [1, 1, 1]
  owner := [0, 0, 1]
  neighbour := [1]
  nCells := 2
  nInternalFaces := 1
  nBoundaryFaces := 2
  nBoundaries := 2
  nFaces := 3
  bnd := {
    faceCells := [0, 1]
    cf := [(-1/2, 0, 0), (3/2, 0, 0)]
    cn := [(0, 0, 0), (1, 0, 0)]
    sf := [(-1, 0, 0), (1, 0, 0)]
    magSf := [1, 1]
    nf := [(-1, 0, 0), (1, 0, 0)]
    delta := [(-1/2, 0, 0), (1/2, 0, 0)]
    weights := [1, 1]
    deltaCoeffs := [2, 2]
    offset := [0, 1, 2] }

theorem duct_wf : duct.WF := by
  constructor <;> first | rfl | (intro f hf; have : f = 0 ∨ f = 1 ∨ f = 2 := by simp [duct] at hf; omega
                                 rcases this with rfl | rfl | rfl <;> simp_all [duct, Mesh.own, Mesh.nbr, Mesh.fc])

theorem duct_vol : ∀ c < duct.nCells, 0 < duct.vol c := by
  intro c hc
  have : c = 0 ∨ c = 1 := by simp [duct] at hc; omega
  rcases this with rfl | rfl <;> simp [duct, Mesh.vol]

/-- A flow through the duct. -/
def ductFlux : List ℝ := [1, -1, 1]

theorem duct_divergenceFree : duct.DivergenceFree (ix ductFlux) := by
  intro c hc
  have : c = 0 ∨ c = 1 := by simp [duct] at hc; omega
  rcases this with rfl | rfl <;> simp [duct, Mesh.netOutflow, Mesh.own, Mesh.nbr, Mesh.fc, ix, ductFlux, Finset.sum_range_succ]

theorem duct_co (e : ExecKind) : ∃ co mean, computeCoNum e duct Real.sqrt (-1) ductFlux 1 (.ok (co, mean)) ∧ co ≤ 1 := by
  obtain ⟨M, hM, -, hout⟩ := C29_courant duct_wf duct_vol (by simp [duct]) e isSqrt_real (-1) (by norm_num) (flux := ductFlux) rfl 1
  refine ⟨_, _, (hout _).2 rfl, ?_⟩
  obtain ⟨c, hc, rfl⟩ := hM.1
  have : c = 0 ∨ c = 1 := by simp [duct] at hc; omega
  rcases this with rfl | rfl <;>
    simp [duct, Mesh.absFlux, Mesh.own, Mesh.nbr, Mesh.fc, Mesh.vol, ix, ductFlux, Finset.sum_range_succ] <;> norm_num

/-- Value 1 in the cells and at the inlet, `b` at the outlet. -/
def ductField (b : ℝ) : VolField ℝ ℝ := ⟨[1, 1], [1, b], [1, b], [1, 1], [0, 0]⟩

/-- Fixed value at the inlet and `k` at the outlet. -/
def ductBCs (k : VolBCKind ℝ) : List (VolumeBoundary ℝ) := [⟨⟨0, 0, 1⟩, .fixedValue 1⟩, ⟨⟨1, 1, 2⟩, k⟩]

/-- The hypotheses of `C42_bounded_partial` can be met. -/
example (e : ExecKind) : duct.DivergenceFree (ix ductFlux) ∧ TransportBC duct (ix ductFlux) (ductBCs .extrapolated) 0 1 ∧
    (ductField 1).On duct ∧ (ductField 1).Within duct (ix ductFlux) 0 1 ∧
    (∀ c ∈ ductBCs .extrapolated, c.patch.end_ ≤ duct.nBoundaryFaces) ∧
    ∃ co mean, computeCoNum e duct Real.sqrt (-1) ductFlux 1 (.ok (co, mean)) ∧ co ≤ 1 := by
  refine ⟨duct_divergenceFree, ⟨?_, ?_⟩, ⟨rfl, rfl, rfl, rfl, rfl⟩, ⟨?_, ?_, ?_⟩, ?_, duct_co e⟩
  · intro b hb hp
    have : b = 0 ∨ b = 1 := by simp [duct] at hb; omega
    rcases this with rfl | rfl
    · simp [duct, ix, ductFlux] at hp; norm_num at hp
    · exact ⟨.extrapolated, ⟨[⟨⟨0, 0, 1⟩, .fixedValue 1⟩], ⟨⟨1, 1, 2⟩, .extrapolated⟩, [], rfl, rfl, trivial, ⟨le_rfl, Nat.lt_succ_self 1⟩, by simp⟩, trivial⟩
  · intro b hb hp
    have : b = 0 ∨ b = 1 := by simp [duct] at hb; omega
    rcases this with rfl | rfl
    · refine ⟨.fixedValue 1, ⟨[], ⟨⟨0, 0, 1⟩, .fixedValue 1⟩, [⟨⟨1, 1, 2⟩, .extrapolated⟩], rfl, rfl, trivial, ⟨le_rfl, Nat.zero_lt_one⟩, ?_⟩, .inr ⟨1, rfl, ?_⟩⟩
      · simp [Patch.Has]
      · norm_num
    · simp [duct, ix, ductFlux] at hp; norm_num at hp
  · intro c hc
    have : c = 0 ∨ c = 1 := by simp [duct] at hc; omega
    rcases this with rfl | rfl <;> simp [ductField, VolField.cell]
  · intro b hb _
    have : b = 0 ∨ b = 1 := by simp [duct] at hb; omega
    rcases this with rfl | rfl <;> simp [ductField, VolField.bnd]
  · intro b hb _
    have : b = 0 ∨ b = 1 := by simp [duct] at hb; omega
    rcases this with rfl | rfl <;> simp [ductField, VolField.bnd, VolField.cell, duct, Mesh.fc]
  · simp [ductBCs, duct]

/-- **C42 fails with a fixed value where the flow leaves**: in the duct with value 1 in the cells and at the inlet and 0 fixed at the
outlet, a step with Courant number at most 1 gives the value 2 in the second cell, on every executor. -/
theorem C42_violation (e : ExecKind) (sp : SparsityPattern) (junk gjunk : Nat → ℝ) (t : ℝ) :
    ∃ g eqn ops st, geometryScheme e duct 0 Real.sqrt gjunk (.ok g) ∧
      (∀ st, transportTree.build (transportOps e duct sp .upwind g.weights junk ductFlux st) = .ok (eqn, ops st)) ∧
      duct.DivergenceFree (ix ductFlux) ∧ (∃ co mean, computeCoNum e duct Real.sqrt (-1) ductFlux 1 (.ok (co, mean)) ∧ co ≤ 1) ∧
      (∀ out, dslSolve e duct (ductBCs (.fixedValue 0)) [] forwardDict [] ops eqn ⟨ductField 0, none⟩ t 1 out ↔ out = .ok st) ∧
      st.sol.cell 1 = 2 := by
  obtain ⟨g, hgd, hw, -, -, -, hw1, -⟩ := C27_geometry duct_wf e 0 le_rfl Real.sqrt isSqrt_real gjunk
  obtain ⟨u, h0, h1, h2⟩ := transport_steps e duct_wf (ductBCs (.fixedValue 0)) (by simp [ductBCs, duct]) sp .upwind g.weights hw junk ductFlux rfl
    ⟨[4], [5]⟩ _ (fun _ => rfl) [] [] (fvSchemes := forwardDict) ⟨_, rfl, rfl⟩ ⟨ductField 0, none⟩ ⟨rfl, rfl, rfl, rfl, rfl⟩ rfl t (fun _ => 1)
  refine ⟨g, ⟨[4], [5]⟩, _, u 1, (hgd _).2 rfl, fun _ => rfl, duct_divergenceFree, duct_co e, fun out => ?_, ?_⟩
  · have := h1 1 out
    rw [timeLoop_one] at this
    exact this
  · have hc := (h2 0).cells 1 (by simp [duct])
    rw [h0] at hc
    rw [hc]
    have hb0 := C26_boundary .upwind duct (ix g.weights) (ix ductFlux) (ductField 0) 0
    have hb1 := C26_boundary .upwind duct (ix g.weights) (ix ductFlux) (ductField 0) 1
    rw [hw1 _ (by simp [duct]) (by simp [duct])] at hb0 hb1
    have hi := (C26_direction duct (ix g.weights) (ix ductFlux) (ductField 0) 0 (by simp [duct])).1 (by simp [ix, ductFlux])
    unfold Mesh.netOutflow
    simp only [show duct.nInternalFaces = 1 from rfl, show duct.nBoundaryFaces = 2 from rfl, Finset.sum_range_succ, Finset.sum_range_zero, zero_add] at hb0 hb1 ⊢
    simp only [Nat.reduceAdd, Nat.add_zero] at hb0 hb1 ⊢
    rw [hi, hb0, hb1]
    simp [duct, Mesh.own, Mesh.nbr, Mesh.fc, Mesh.vol, ix, ductFlux, ductField, VolField.cell, VolField.bnd]
    try norm_num

end NeoFOAM
