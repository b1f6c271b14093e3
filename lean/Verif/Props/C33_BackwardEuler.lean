import Verif.Proofs.Solve
import Verif.Props.C22_AssemblySchedules
import Verif.Props.C32_Steady

/-!
# C33 – backwardEuler advances the full equation

It advances the implicit terms only: explicit terms are evaluated and then dropped (`C33_violation`).
-/
namespace NeoFOAM
open Finset
variable {K : Type} [Field K]

/-- `fvSchemes` asks for the integrator `name`. -/
def AsksFor (fvSchemes : Dict) (name : String) : Prop :=
  ∃ d, fvSchemes.subDict "ddtSchemes" = .ok d ∧ d.get .str "type" = .ok (.str name)

omit [Field K] in
theorem dslSolve_backward [Add K] [Sub K] [Mul K] [Div K] [Neg K] [Zero K] [One K] (e : ExecKind) (m : Mesh K) (bcs : List (VolumeBoundary K)) (table : SolverTable K) {fvSchemes : Dict} (fvSolution : Dict)
    (hd : AsksFor fvSchemes "backwardEuler") (ops : OpsOf K K) {eqn : Expr} (hT : eqn.temporal ≠ []) (st : TimeState K K) (t dt : K) (out) :
    dslSolve e m bcs table fvSchemes fvSolution ops eqn st t dt out ↔ backwardEuler e m table fvSchemes ops eqn st t dt out := by
  obtain ⟨d, h1, h2⟩ := hd
  have : 0 < eqn.temporal.length := List.length_pos_iff.2 hT
  unfold dslSolve
  rw [if_neg (by omega), if_pos this]
  refine Iff.trans (NR.bind_iff (a := d) (fun o => by rw [h1]; exact Iff.rfl) out) ?_
  unfold timeIntegrate
  exact NR.bind_iff (a := Any.str "backwardEuler") (fun o => by rw [h2]; exact Iff.rfl) out

/-- **C33, the system**: a backwardEuler step hands the linear solver one system whose residual is the sum of the implicit
spatial and the implicit temporal contributions (the time derivatives refer to the old-time field), stores what the solver
returns as the solution and as the old-time field, and keeps the boundary data. The explicit contributions `val` play no part.
`s` gives the terms for the current fields; `hu` as in C32. -/
theorem C33_system (e : ExecKind) {m : Mesh K} (h : m.WF) {sp : SparsityPattern} (hp : sp.For m)
    (hu : ∀ out, sparsityUpdate e m out ↔ out = .ok sp)
    (s : OpsOf K K) (tr : ExT K) (st : TimeState K K) (hlen : st.sol.internal.length = m.nCells)
    (hl : ∀ k, ∀ h ∈ tr.leaves k, h < (s st).length ∧ h < (s ⟨st.sol, some st.oldTime⟩).length)
    (hf : tr.FieldsOK (s st) m.nCells) (hf' : tr.FieldsOK (s ⟨st.sol, some st.oldTime⟩) m.nCells)
    (eqn : Expr) (ops : OpsOf K K) (hb : ∀ st, tr.build (s st) = .ok (eqn, ops st)) (hT : eqn.temporal ≠ []) (t dt : K)
    (dv dvT : Nat → Slot → K) (dr drT val : Nat → Nat → K)
    (hi : ∀ h ∈ tr.leaves .spatial, ∃ o, (s ⟨st.sol, some st.oldTime⟩)[h]? = some o ∧ ImplTerm m sp 0 0 o (dv h) (dr h))
    (ht : ∀ h ∈ tr.leaves .temporal, ∃ o, (s ⟨st.sol, some st.oldTime⟩)[h]? = some o ∧ ImplTerm m sp t dt o (dvT h) (drT h))
    (hx : ∀ h ∈ tr.leaves .spatial, ∃ o, (s st)[h]? = some o ∧ ExplTerm m.nCells 0 0 o (val h)) :
    ∃ ls : LinearSystem K, ls.On sp m ∧
      (∀ x, ∀ c < m.nCells, ls.residual x c
        = implicitResidual m (tr.value .spatial (Slot.row m) dv) (tr.value .spatial id dr) x c
          + implicitResidual m (tr.value .temporal (Slot.row m) dvT) (tr.value .temporal id drT) x c) ∧
      ∀ (bcs : List (VolumeBoundary K)) (table : SolverTable K) (fvSchemes fvSolution : Dict), AsksFor fvSchemes "backwardEuler" →
        ∀ solver, createSolver table fvSchemes = .ok solver → ∀ out, dslSolve e m bcs table fvSchemes fvSolution ops eqn st t dt out ↔
          (solver ls st.sol.internal >>= fun x => pure ⟨{ st.sol with internal := x }, some x⟩ : NR (TimeState K K)) out := by
  have h1 := (C31_implicit m sp _ tr (fun k h hh => (hl k h hh).2) hf' eqn _ (hb _)).1 dv dr hi
  have h3 := (C31_implicit m sp _ tr (fun k h hh => (hl k h hh).2) hf' eqn _ (hb _)).2 t dt dvT drT ht
  have h2 := (C31_explicit_partial _ tr m.nCells (fun k h hh => (hl k h hh).1) hf eqn _ (hb _)).1 val hx
  obtain ⟨ls, hdet, ho, hr⟩ := eulerSystem_det h hp e hu h1 h3
  refine ⟨ls, ho, hr, fun bcs table fvSchemes fvSolution hd solver hs out => ?_⟩
  rw [dslSolve_backward e m bcs table fvSolution hd ops hT]
  unfold backwardEuler
  rw [hlen]
  refine Iff.trans (NR.bind_iff (explicitN_det h2) out) ?_
  refine Iff.trans (NR.bind_iff hdet out) ?_
  refine Iff.trans (NR.bind_iff (a := solver) (fun o => by rw [hs]; exact Iff.rfl) out) ?_
  exact Iff.rfl

/-- **C33 for equations without explicit spatial terms** (serial executor, or any executor on a chain of cells): with an exact linear solver, after a
backwardEuler step the implicit spatial and temporal contributions of the expression sum to zero in every cell, and the
old-time field equals the new solution. Missing: explicit terms (see `C33_violation`) and the parallel executors on
other meshes (see `C32_violation`). -/
theorem C33_equations_partial {m : Mesh K} (h : m.WF) (h256 : ∀ c < m.nCells, 1 + m.deg c ≤ 256) (e : ExecKind) (hre : e = .serial ∨ m.Chain) {sp : SparsityPattern}
    (hsp : sparsityUpdate e m (.ok sp))
    (s : OpsOf K K) (tr : ExT K) (st : TimeState K K) (hlen : st.sol.internal.length = m.nCells)
    (hl : ∀ k, ∀ h ∈ tr.leaves k, h < (s st).length ∧ h < (s ⟨st.sol, some st.oldTime⟩).length)
    (hf : tr.FieldsOK (s st) m.nCells) (hf' : tr.FieldsOK (s ⟨st.sol, some st.oldTime⟩) m.nCells)
    (eqn : Expr) (ops : OpsOf K K) (hb : ∀ st, tr.build (s st) = .ok (eqn, ops st)) (hT : eqn.temporal ≠ []) (t dt : K)
    (dv dvT : Nat → Slot → K) (dr drT val : Nat → Nat → K)
    (hi : ∀ h ∈ tr.leaves .spatial, ∃ o, (s ⟨st.sol, some st.oldTime⟩)[h]? = some o ∧ ImplTerm m sp 0 0 o (dv h) (dr h))
    (ht : ∀ h ∈ tr.leaves .temporal, ∃ o, (s ⟨st.sol, some st.oldTime⟩)[h]? = some o ∧ ImplTerm m sp t dt o (dvT h) (drT h))
    (hx : ∀ h ∈ tr.leaves .spatial, ∃ o, (s st)[h]? = some o ∧ ExplTerm m.nCells 0 0 o (val h))
    (bcs : List (VolumeBoundary K)) (table : SolverTable K) (fvSchemes fvSolution : Dict) (hd : AsksFor fvSchemes "backwardEuler")
    (solver : LinSolver K) (hs : createSolver table fvSchemes = .ok solver) (hex : ExactOn m solver)
    (st' : TimeState K K) (hrun : dslSolve e m bcs table fvSchemes fvSolution ops eqn st t dt (.ok st')) :
    st'.old = some st'.sol.internal ∧ (∀ b, st'.sol.entry b = st.sol.entry b) ∧ st'.sol.internal.length = m.nCells ∧
    ∀ c < m.nCells,
      implicitResidual m (tr.value .spatial (Slot.row m) dv) (tr.value .spatial id dr) (ix st'.sol.internal) c
        + implicitResidual m (tr.value .temporal (Slot.row m) dvT) (tr.value .temporal id drT) (ix st'.sol.internal) c = 0 := by
  obtain ⟨_, hee, hp⟩ := pattern_for m h h256 e _ hsp
  cases hee
  have hu : ∀ out, sparsityUpdate e m out ↔ out = .ok sp :=
    fun out => ⟨fun ho => sparsity_single m h hre _ _ ho hsp, fun ho => ho ▸ hsp⟩
  obtain ⟨ls, ho, hr, hdet⟩ := C33_system e h hp hu s tr st hlen hl hf hf' eqn ops hb hT t dt dv dvT dr drT val hi ht hx
  obtain ⟨r, h1, h2⟩ := (hdet bcs table fvSchemes fvSolution hd solver hs _).1 hrun
  cases r with
  | ok x =>
    cases h2
    obtain ⟨a, b⟩ := hex _ _ _ ⟨sp, hp, ho⟩ hlen h1
    exact ⟨rfl, fun _ => rfl, a, fun c hc => by rw [← hr _ c hc]; exact b c hc⟩
  | throw _ => cases h2
  | abort => cases h2
  | ub => cases h2

/-- **C33, the classical step**: for `ddt(u)` alone or with implicit terms, the temporal part of the equation of cell `c` is
`coefficient · V · (u_new - u_old) / dt`. -/
theorem C33_ddt (m : Mesh K) (v : Nat → K) (old : List K) (dt : K) (x : Nat → K) (c : Nat) :
    implicitResidual m (diagDelta fun i => v i * m.vol i / dt) (fun i => v i * m.vol i / dt * ix old i) x c
      = v c * m.vol c * (x c - ix old c) / dt := by
  simp [implicitResidual, diagDelta]
  ring

/-! ### Explicit terms are dropped -/

/-- One cell. -/
def cell0 : Mesh ℚ := topoMesh 1 [] [] []
theorem cell0_wf : cell0.WF := topoMesh_wf 1 [] [] [] rfl (by decide) (by decide) (by decide) (by decide)

theorem cell0_run : sparsityUpdate .serial cell0 (.ok cell1Pattern) := by
  unfold sparsityUpdate
  refine ⟨_, ticketRun_intro _ rfl rfl rfl, ?_⟩
  refine ⟨_, (C10_offsets _ _ rfl _).2 rfl, ?_⟩
  refine ⟨_, (parElem_det _ _ _ _ _ le_rfl _).2 rfl, ?_⟩
  refine ⟨_, ticketRun_intro _ rfl rfl rfl, ?_⟩
  refine ⟨_, ticketRun_intro _ rfl rfl rfl, ?_⟩
  refine ⟨_, ticketRun_intro _ rfl rfl rfl, ?_⟩
  rfl

/-- Value 1 in the cell. -/
def cell0State : TimeState ℚ ℚ := ⟨⟨[1], [], [], [], []⟩, none⟩

/-- `ddt(u) - u` with an explicit source. -/
def decayOps : OpsOf ℚ ℚ := fun st =>
  [ddtOp .serial cell0 cell1Pattern st.sol st.oldTime .implicit (Coeff.ofScalar 1),
   sourceOp .serial cell0 cell1Pattern [1] st.sol .explicit (Coeff.ofScalar 1)]

/-- `ddtSchemes { type backwardEuler; } solver exact;` -/
def backwardDict : Dict := [("ddtSchemes", .dict [("type", .str "backwardEuler")]), ("solver", .str "exact")]

/-- **C33 fails with explicit terms**: one step of `ddt(u) + u = 0`, the source explicit, from `u = 1` with any exact solver.
Whenever the step returns, the solution is still 1, and the equation of the cell has the residual `V·u = 1` instead of 0.
(And a step that returns exists.) -/
theorem C33_violation : (∃ st', dslSolve .serial cell0 [] [("exact", fun _ => anySolution)] backwardDict [] decayOps ⟨[0], [1]⟩ cell0State 0 1 (.ok st')) ∧
    ∀ (solver : LinSolver ℚ), ExactSolver solver → ∀ st',
      dslSolve .serial cell0 [] [("exact", fun _ => solver)] backwardDict [] decayOps ⟨[0], [1]⟩ cell0State 0 1 (.ok st') →
      st'.sol.internal = [1] ∧
      -- the equation with the source term: V (u_new - u_old)/dt + V · 1 · u_old
      cell0.vol 0 * (ix st'.sol.internal 0 - ix cell0State.oldTime 0) / 1 + cell0.vol 0 * (1 * ix cell0State.sol.internal 0) ≠ 0 := by
  have h256 : ∀ c < cell0.nCells, 1 + cell0.deg c ≤ 256 := by
    intro c hc
    have hc : c < 1 := hc
    interval_cases c; decide
  obtain ⟨_, he, hp⟩ := pattern_for cell0 cell0_wf h256 .serial _ cell0_run
  cases he
  have hu : ∀ out, sparsityUpdate .serial cell0 out ↔ out = .ok cell1Pattern :=
    fun out => ⟨fun ho => sparsity_serial_single _ cell0_wf _ _ ho cell0_run, fun ho => ho ▸ cell0_run⟩
  have hc : (Coeff.ofScalar (1 : ℚ)).On cell0.nCells (fun _ => 1) := fun _ _ => rfl
  have hφ : cell0State.sol.On cell0 := ⟨rfl, rfl, rfl, rfl, rfl⟩
  obtain ⟨ls, ho, hr, hdet⟩ := C33_system .serial cell0_wf hp hu decayOps (ExT.obj ⟨[0], [1]⟩) cell0State rfl
    (by
      intro k h hh
      cases k
      · have hh : h ∈ [0] := hh
        simp only [List.mem_cons, List.not_mem_nil, or_false] at hh
        subst hh; exact ⟨by decide, by decide⟩
      · have hh : h ∈ [1] := hh
        simp only [List.mem_cons, List.not_mem_nil, or_false] at hh
        subst hh; exact ⟨by decide, by decide⟩) trivial trivial ⟨[0], [1]⟩ decayOps (fun _ => rfl) (by simp) 0 1
    (fun _ _ => 0) (fun _ => diagDelta fun i => 1 * cell0.vol i / 1) (fun _ _ => 0) (fun _ i => 1 * cell0.vol i / 1 * ix cell0State.oldTime i)
    (fun _ i => 1 * (ix [1] i * cell0State.sol.cell i))
    (by
      intro h hh
      have hh : h ∈ [1] := hh
      simp only [List.mem_cons, List.not_mem_nil, or_false] at hh
      subst hh
      exact ⟨_, rfl, implTerm_explicit 0 0 rfl hc⟩)
    (by
      intro h hh
      have hh : h ∈ [0] := hh
      simp only [List.mem_cons, List.not_mem_nil, or_false] at hh
      subst hh
      exact ⟨_, rfl, C31_term_ddt_implicit cell0_wf hp cell0State.sol (old := cell0State.oldTime) rfl .serial hc 0 1⟩)
    (by
      intro h hh
      have hh : h ∈ [1] := hh
      simp only [List.mem_cons, List.not_mem_nil, or_false] at hh
      subst hh
      exact ⟨_, rfl, C31_term_source cell1Pattern hφ (k := [1]) rfl .serial hc 0 0⟩)
  have hres : ∀ x, ls.residual x 0 = x 0 - 1 := by
    intro x
    rw [hr x 0 (by decide)]
    simp [implicitResidual, ExT.value, diagDelta, cell0, topoMesh, cell0State, TimeState.oldTime, ix, Mesh.vol]
  have hds : AsksFor backwardDict "backwardEuler" := ⟨_, rfl, rfl⟩
  constructor
  · refine ⟨_, (hdet [] _ _ [] hds anySolution rfl _).2 ⟨.ok [1], ⟨_, rfl, ho.rhsLen.symm, fun i hi => ?_⟩, rfl⟩⟩
    rw [ho.rhsLen] at hi
    have hi : i < 1 := hi
    interval_cases i
    rw [hres]; simp [ix]
  · intro solver hex st' hrun
    obtain ⟨r, h1, h2⟩ := (hdet [] [("exact", fun _ => solver)] _ [] hds solver rfl _).1 hrun
    cases r with
    | ok x =>
      cases h2
      obtain ⟨a, b⟩ := hex _ _ _ h1
      rw [ho.rhsLen] at a b
      have a : x.length = 1 := a
      obtain ⟨y, rfl⟩ := List.length_eq_one_iff.1 a
      have := b 0 (by decide)
      rw [hres] at this
      have : y = 1 := by simpa [ix, sub_eq_zero] using this
      subst this
      refine ⟨rfl, ?_⟩
      simp [ix, cell0, topoMesh, Mesh.vol, cell0State, TimeState.oldTime]
    | throw e => cases h2
    | abort => cases h2
    | ub => cases h2

end NeoFOAM
