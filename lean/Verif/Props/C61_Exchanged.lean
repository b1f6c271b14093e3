import Verif.Props.C33_Exact
import Verif.Props.C61_ImplicitConservation

/-!
# C61, C62 fail on the parallel executors

A closed box of three cells with diffusion only. The pattern `solve` builds numbers the row of the middle cell in the other order than the
pattern the operators use, so the two diffusion coefficients of that cell are exchanged: the total and the sum of squares grow.
-/
namespace NeoFOAM
open Finset

/-- The systems of a step on the parallel executors. -/
theorem convDiff_exact {K : Type} [Field K] [LinearOrder K] {m : Mesh K} (h : m.WF) (h256 : ∀ c < m.nCells, 1 + m.deg c ≤ 256) (hbd : m.BndDistinct)
    (e0 : ExecKind) {sp : SparsityPattern} (hsp : sparsityUpdate e0 m (.ok sp))
    (sch : InterpScheme) (w : List K) (junk : Nat → K) (flux δ gamma : List K)
    (hfl : flux.length = m.nFaces) (hδ : δ.length = m.nFaces) (hg : gamma.length = m.nFaces)
    (eqn : Expr) (ops : OpsOf K K) (hbuild : ∀ st, convDiffTree.build (convDiffOps .parallel m sp sch w junk flux δ gamma st) = .ok (eqn, ops st))
    (bcs : List (VolumeBoundary K)) (table : SolverTable K) (fvSchemes fvSolution : Dict) (hd : AsksFor fvSchemes "backwardEuler")
    (solver : LinSolver K) (hso : createSolver table fvSchemes = .ok solver)
    (st : TimeState K K) (ho : st.sol.On m) (hsy : st.Synced) (t dt : K) :
    ∃ sys : (Slot → Slot) → LinearSystem K,
      (∀ π, m.Shuffles π → (sys π).StoredFor m ∧ ∀ x, ∀ c < m.nCells, (sys π).residual x c
        = shuffledResidual m π (cdDelta m (ix flux) (ix δ) (ix gamma) (ix st.sol.bVF))
            (cdRhs m (ix flux) (ix δ) (ix gamma) (ix st.sol.bVF) (ix st.sol.bRefValue) (ix st.sol.bRefGrad)) x c
          + shuffledResidual m π (diagDelta fun i => 1 * m.vol i / dt) (fun i => 1 * m.vol i / dt * ix st.oldTime i) x c) ∧
      ∀ out, dslSolve .parallel m bcs table fvSchemes fvSolution ops eqn st t dt out ↔ ∃ π, m.Shuffles π ∧
        (solver (sys π) st.sol.internal >>= fun x => pure ⟨{ st.sol with internal := x }, some x⟩ : NR (TimeState K K)) out := by
  obtain ⟨_, hee, hp⟩ := pattern_for m h h256 e0 _ hsp
  cases hee
  obtain ⟨heqn, hl, hcol, hi, ht, hx⟩ := convDiff_terms h .parallel (.inr hbd) hp sch w junk flux δ gamma hfl hδ hg eqn ops hbuild st ho hsy t dt
  have hev := C33_exact h h256 e0 hsp (convDiffOps .parallel m sp sch w junk flux δ gamma) hcol convDiffTree st ho.int hl
    ⟨⟨trivial, trivial⟩, trivial⟩ ⟨⟨trivial, trivial⟩, trivial⟩ eqn ops hbuild heqn t dt _ _ _ _ _ hi ht hx bcs table fvSchemes fvSolution hd solver hso
  rw [convDiff_dv, convDiff_dr, convDiff_tv, convDiff_tv] at hev
  exact hev

/-- One in cell 1, zero gradient everywhere on the boundary. -/
def boxField : VolField ℝ ℝ := ⟨[0, 1, 0], [0, 1, 0], [0, 0, 0], [0, 0, 0], [0, 0, 0]⟩

/-- Nothing flows. -/
def boxFlux : List ℝ := [0, 0, 0, 0, 0]

/-- Diffusivity 1 between cells 0 and 1, 9 between cells 0 and 2. -/
def boxGamma : List ℝ := [1, 9, 1, 1, 1]

/-- The two faces of cell 0 exchanged. -/
def boxSwap : Slot → Slot
  | .upper 0 => .upper 1
  | .upper 1 => .upper 0
  | s => s

theorem box_swap : fork.Shuffles boxSwap := by
  have h2 : ∀ f < fork.nInternalFaces, f = 0 ∨ f = 1 := fun f hf => by
    have : f < 2 := hf
    omega
  refine ⟨fun c _ => rfl, fun f hf => ?_, fun f hf => ⟨f, hf, rfl, rfl⟩, fun s t hs ht he => ?_⟩
  · rcases h2 f hf with rfl | rfl
    · exact ⟨1, (show 1 < 2 by decide), rfl, rfl⟩
    · exact ⟨0, (show 0 < 2 by decide), rfl, rfl⟩
  · have inv : ∀ s : Slot, s.Valid fork → boxSwap (boxSwap s) = s := by
      intro s hs
      cases s with
      | diag c => rfl
      | lower f => rfl
      | upper f => rcases h2 f hs with rfl | rfl <;> rfl
    rw [← inv s hs, ← inv t ht, he]

theorem fork_bnd : fork.BndDistinct := by
  show ∀ b < 3, ∀ b' < 3, [0, 1, 2].getD b 0 = [0, 1, 2].getD b' 0 → b = b'
  decide

theorem fork_deg : ∀ c < fork.nCells, 1 + fork.deg c ≤ 256 := by
  intro c _
  have := deg_le fork c
  have h2 : fork.nInternalFaces = 2 := rfl
  omega

theorem fork_nonOrth {sqrt : ℝ → ℝ} (hs : IsSqrt sqrt) : fork.nonOrth sqrt 0 = 1 ∧ fork.nonOrth sqrt 1 = 1 := by
  have h1 : sqrt 1 = 1 := by
    obtain ⟨a, b⟩ := hs 1 zero_le_one
    nlinarith
  constructor <;>
  · simp [Mesh.nonOrth, Mesh.span, fork, Mesh.own, Mesh.nbr, Mesh.ctr, Mesh.sf, vdot, vmag, h1]
    norm_num

/-- A step in the closed box can end with these values. -/
theorem box_run {sp : SparsityPattern} (hsp : sparsityUpdate .parallel fork (.ok sp)) (tiny : ℝ) (sqrt : ℝ → ℝ) (hs : IsSqrt sqrt) (gjunk : Nat → ℝ)
    (g : Geometry ℝ) (hg : geometryScheme .parallel fork tiny sqrt gjunk (.ok g)) (sch : InterpScheme) (junk : Nat → ℝ) (eqn : Expr) (ops : OpsOf ℝ ℝ)
    (hbuild : ∀ st, convDiffTree.build (convDiffOps .parallel fork sp sch g.weights junk boxFlux g.nonOrthDeltaCoeffs boxGamma st) = .ok (eqn, ops st)) :
    dslSolve .parallel fork [] [("exact", fun _ => anySolution)] backwardDict [] ops eqn ⟨boxField, none⟩ 0 1
      (.ok ⟨{ boxField with internal := [45 / 56, 101 / 112, 81 / 112] }, some [45 / 56, 101 / 112, 81 / 112]⟩) := by
  have hgeo := Res.ok.inj ((geometryScheme_det fork_wf .parallel tiny sqrt gjunk _).1 hg)
  have hδ : g.nonOrthDeltaCoeffs = (List.range 5).map (fork.nonOrth sqrt) := by rw [hgeo]; rfl
  have hδ0 : ix g.nonOrthDeltaCoeffs 0 = 1 := by rw [hδ]; exact (fork_nonOrth hs).1
  have hδ1 : ix g.nonOrthDeltaCoeffs 1 = 1 := by rw [hδ]; exact (fork_nonOrth hs).2
  obtain ⟨sys, q1, q2⟩ := convDiff_exact fork_wf fork_deg fork_bnd .parallel hsp sch g.weights junk boxFlux g.nonOrthDeltaCoeffs boxGamma rfl
    (by rw [hδ]; simp [fork]) rfl eqn ops hbuild [] [("exact", fun _ => anySolution)] backwardDict [] ⟨_, rfl, rfl⟩ anySolution rfl
    ⟨boxField, none⟩ ⟨rfl, rfl, rfl, rfl, rfl⟩ rfl 0 1
  obtain ⟨⟨sp', -, hon⟩, hres⟩ := q1 boxSwap box_swap
  refine (q2 _).2 ⟨boxSwap, box_swap, (NR.bind_def _ _ _).2 ⟨.ok [45 / 56, 101 / 112, 81 / 112], ⟨_, rfl, hon.rhsLen.symm, fun i hi => ?_⟩, rfl⟩⟩
  rw [hon.rhsLen] at hi
  rw [hres _ i hi]
  have hi : i < 3 := hi
  revert hδ0 hδ1
  generalize ix g.nonOrthDeltaCoeffs = d
  intro hδ0 hδ1
  interval_cases i <;>
  simp [shuffledResidual, cdDelta, cdRhs, divDelta, divRhs, lapDelta, lapRhs, lapCoef, diagDelta, hδ0, hδ1, sum_range_succ, boxSwap, Slot.col,
    show fork.nInternalFaces = 2 from rfl, show fork.nBoundaryFaces = 3 from rfl, fork, Mesh.own, Mesh.nbr, Mesh.fc, Mesh.vol, ix, boxField, boxFlux, boxGamma,
    TimeState.oldTime] <;>
  norm_num

/-- The walls of the box. -/
theorem box_walls : ∀ b < fork.nBoundaryFaces,
    ix boxFlux (fork.nInternalFaces + b) = 0 ∧ Prescribes fork boxField b (.fixedGradient 0) (boxField.entry b) := by
  intro b hb
  have hb : b < 3 := hb
  interval_cases b <;> refine ⟨?_, ?_, rfl, rfl⟩ <;> simp [fork, ix, boxFlux, boxField, VolField.entry, VolField.cell, Mesh.fc]

/-- **C61 fails on the parallel executors**: in a closed box (no flow, zero gradient on every boundary face) of three cells, a step of the
diffusion equation with backwardEuler and an exact solver can change the total, here from 1 to 17/7. All hypotheses of `C61_closed_partial` hold
except that the mesh is a chain of cells. -/
theorem C61_violation (tiny : ℝ) : ∃ (sp : SparsityPattern) (g : Geometry ℝ) (eqn : Expr) (ops : OpsOf ℝ ℝ) (st' : TimeState ℝ ℝ),
    fork.WF ∧ (∀ c < fork.nCells, 1 + fork.deg c ≤ 256) ∧ fork.BndDistinct ∧ sparsityUpdate .parallel fork (.ok sp) ∧
    geometryScheme .parallel fork tiny Real.sqrt (fun _ => 0) (.ok g) ∧
    (∀ st, convDiffTree.build (convDiffOps .parallel fork sp .upwind g.weights (fun _ => 0) boxFlux g.nonOrthDeltaCoeffs boxGamma st) = .ok (eqn, ops st)) ∧
    AsksFor backwardDict "backwardEuler" ∧ ExactSolver (anySolution : LinSolver ℝ) ∧ boxField.On fork ∧
    (∀ b < fork.nBoundaryFaces, ix boxFlux (fork.nInternalFaces + b) = 0 ∧ Prescribes fork boxField b (.fixedGradient 0) (boxField.entry b)) ∧
    dslSolve .parallel fork [] [("exact", fun _ => anySolution)] backwardDict [] ops eqn ⟨boxField, none⟩ 0 1 (.ok st') ∧
    boxField.total fork = 1 ∧ st'.sol.total fork = 17 / 7 := by
  obtain ⟨sp, hsp⟩ := C14_terminates fork fork_wf .parallel
  have hg := (geometryScheme_det fork_wf .parallel tiny Real.sqrt (fun _ => 0) _).2 rfl
  obtain ⟨eqn, ops, hbuild⟩ := convDiff_build .parallel fork sp .upwind _ (fun _ => 0) boxFlux _ boxGamma
  refine ⟨sp, _, eqn, ops, _, fork_wf, fork_deg, fork_bnd, hsp, hg, hbuild, ⟨_, rfl, rfl⟩, anySolution_exact, ⟨rfl, rfl, rfl, rfl, rfl⟩, box_walls,
    box_run hsp tiny Real.sqrt isSqrt_real _ _ hg .upwind _ eqn ops hbuild, ?_, ?_⟩
  · simp [VolField.total, fork, Mesh.vol, boxField, VolField.cell, sum_range_succ]
  · simp [VolField.total, fork, Mesh.vol, boxField, VolField.cell, sum_range_succ]
    norm_num

/-- **C62 fails on the parallel executors**: the same step takes the sum of squares from 1 to more than 1. All hypotheses of
`C62_energy_partial` hold except that the mesh is a chain of cells. -/
theorem C62_violation (tiny : ℝ) : ∃ (sp : SparsityPattern) (g : Geometry ℝ) (eqn : Expr) (ops : OpsOf ℝ ℝ) (st' : TimeState ℝ ℝ),
    fork.WF ∧ (∀ c < fork.nCells, 1 + fork.deg c ≤ 256) ∧ fork.BndDistinct ∧ (∀ c < fork.nCells, 0 < fork.vol c) ∧
    (∀ f < fork.nFaces, fork.span f ≠ 0) ∧ (∀ f < fork.nFaces, 0 ≤ ix fork.magFaceAreas f) ∧ (∀ f < fork.nFaces, 0 ≤ ix boxGamma f) ∧
    fork.DivergenceFree (ix boxFlux) ∧ sparsityUpdate .parallel fork (.ok sp) ∧ geometryScheme .parallel fork tiny Real.sqrt (fun _ => 0) (.ok g) ∧
    (∀ st, convDiffTree.build (convDiffOps .parallel fork sp .upwind g.weights (fun _ => 0) boxFlux g.nonOrthDeltaCoeffs boxGamma st) = .ok (eqn, ops st)) ∧
    AsksFor backwardDict "backwardEuler" ∧ ExactSolver (anySolution : LinSolver ℝ) ∧ boxField.On fork ∧
    (∀ b < fork.nBoundaryFaces, Prescribes fork boxField b (.fixedGradient 0) (boxField.entry b) ∧ 0 ≤ ix boxFlux (fork.nInternalFaces + b)) ∧
    dslSolve .parallel fork [] [("exact", fun _ => anySolution)] backwardDict [] ops eqn ⟨boxField, none⟩ 0 1 (.ok st') ∧
    boxField.squares fork < st'.sol.squares fork := by
  obtain ⟨sp, hsp⟩ := C14_terminates fork fork_wf .parallel
  have hg := (geometryScheme_det fork_wf .parallel tiny Real.sqrt (fun _ => 0) _).2 rfl
  obtain ⟨eqn, ops, hbuild⟩ := convDiff_build .parallel fork sp .upwind _ (fun _ => 0) boxFlux _ boxGamma
  have h3 : ∀ c < 3, c = 0 ∨ c = 1 ∨ c = 2 := by omega
  have h5 : ∀ c < 5, c = 0 ∨ c = 1 ∨ c = 2 ∨ c = 3 ∨ c = 4 := by omega
  refine ⟨sp, _, eqn, ops, _, fork_wf, fork_deg, fork_bnd, ?_, ?_, ?_, ?_, ?_, hsp, hg, hbuild, ⟨_, rfl, rfl⟩, anySolution_exact, ⟨rfl, rfl, rfl, rfl, rfl⟩,
    fun b hb => ⟨(box_walls b hb).2, (box_walls b hb).1.ge⟩,
    box_run hsp tiny Real.sqrt isSqrt_real _ _ hg .upwind _ eqn ops hbuild, ?_⟩
  · intro c hc
    rcases h3 c hc with rfl | rfl | rfl <;> simp [fork, Mesh.vol]
  · intro f hf
    rcases h5 f hf with rfl | rfl | rfl | rfl | rfl <;> simp [Mesh.span, fork, Mesh.own, Mesh.nbr, Mesh.fc, Mesh.ctr, Mesh.fctr] <;> norm_num
  · intro f hf
    rcases h5 f hf with rfl | rfl | rfl | rfl | rfl <;> simp [fork, ix]
  · intro f hf
    rcases h5 f hf with rfl | rfl | rfl | rfl | rfl <;> simp [boxGamma, ix]
  · intro c hc
    rcases h3 c hc with rfl | rfl | rfl <;>
      simp [fork, Mesh.netOutflow, Mesh.own, Mesh.nbr, Mesh.fc, ix, boxFlux, Finset.sum_range_succ]
  · simp [VolField.squares, fork, Mesh.vol, boxField, VolField.cell, sum_range_succ]
    norm_num

end NeoFOAM
