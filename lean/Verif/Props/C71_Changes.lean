import Verif.Props.C56_RungeKutta

/-!
# C71 – a time step advances the field from its current values, also when the user changed them since the last step

It does not: every integrator starts from the old-time field recorded at the end of the previous step, so a change of the solution
field between two steps (a clip, a coupling, a correction, a re-initialisation) is lost.
-/
namespace NeoFOAM
open Finset
variable {K V : Type} [Field K] [AddCommGroup V] [Module K V]

/-- One explicit step from the cell values `start`, with the terms evaluated at `φ`. `EulerStep` has `start = φ.internal`. -/
structure StepFrom (m : Mesh K) (bcs : List (VolumeBoundary V)) (f : VolField K V → Nat → V) (dt : K) (start : List V)
    (φ φ' : VolField K V) : Prop where
  on : φ'.On m
  cells : ∀ c < m.nCells, φ'.cell c = ix start c - dt • f φ c
  bnd : ∀ b < m.nBoundaryFaces, ∀ pre c post, bcs = pre ++ c :: post → c.kind.Writes → c.patch.Has b →
    (∀ c' ∈ post, c'.kind.Writes → ¬ c'.patch.Has b) → Prescribes m φ' b c.kind (φ'.entry b)
  keep : ∀ b < m.nBoundaryFaces, (∀ c ∈ bcs, c.kind.Writes → ¬ c.patch.Has b) → φ'.entry b = φ.entry b

/-- A step from the field's own values is the Euler step of C34. -/
theorem StepFrom.euler {m : Mesh K} {bcs : List (VolumeBoundary V)} {f : VolField K V → Nat → V} {dt : K} {φ φ' : VolField K V} :
    StepFrom m bcs f dt φ.internal φ φ' ↔ EulerStep m bcs f dt φ φ' :=
  ⟨fun h => ⟨h.on, h.cells, h.bnd, h.keep⟩, fun h => ⟨h.on, h.cells, h.bnd, h.keep⟩⟩

/-- **C71, forwardEuler**: for every mesh, boundary conditions, explicit expression, field and recorded old-time field, on every
executor: the step has one outcome, the cells are `old - dt · f(current)`; the current values enter the terms only. So the step
starts from the current values exactly when they are the recorded ones (C34). -/
theorem C71_forward (e : ExecKind) {m : Mesh K} (h : m.WF) (bcs : List (VolumeBoundary V)) (hb : ∀ c ∈ bcs, c.patch.end_ ≤ m.nBoundaryFaces)
    (s : OpsOf K V) (tr : ExT K) (eqn : Expr) (ops : OpsOf K V) (hbuild : ∀ st, tr.build (s st) = .ok (eqn, ops st))
    (hl : ∀ st, ∀ k, ∀ h ∈ tr.leaves k, h < (s st).length) (hf : ∀ st, tr.FieldsOK (s st) m.nCells)
    (val : VolField K V → Nat → Nat → V)
    (hx : ∀ st : TimeState K V, st.sol.On m → ∀ h ∈ tr.leaves .spatial, ∃ o, (s st)[h]? = some o ∧ ExplTerm m.nCells 0 0 o (val st.sol h))
    (st : TimeState K V) (ho : st.sol.On m) (hold : st.oldTime.length = m.nCells) (dt : K) :
    ∃ φ', StepFrom m bcs (fun φ => tr.value .spatial id (val φ)) dt st.oldTime st.sol φ' ∧
      ∀ out, forwardEuler e m bcs ops eqn st dt out ↔ out = .ok ⟨φ', some φ'.internal⟩ := by
  let f : VolField K V → Nat → V := fun φ => tr.value .spatial id (val φ)
  have hop : AddsTo m.nCells (eqn.explicitOperation (ops st)) (f st.sol) :=
    (C31_explicit_partial (s st) tr m.nCells (hl st) (hf st) eqn _ (hbuild st)).1 (val st.sol) (hx st ho)
  let new := List.zipWith (fun x y => x - y) st.oldTime (((List.range m.nCells).map (f st.sol)).map fun x => dt • x)
  have hnl : new.length = m.nCells := by simp [new, hold]
  have hon : ({ st.sol with internal := new } : VolField K V).On m := ⟨hnl, ho.2, ho.3, ho.4, ho.5⟩
  obtain ⟨φ', hd, h1, h2, h3, h4, -⟩ := C28_conditions e m h { st.sol with internal := new } hon bcs hb
  have hcell : ∀ c < m.nCells, φ'.cell c = ix st.oldTime c - dt • f st.sol c := by
    intro c hc
    unfold VolField.cell ix
    rw [h2]
    simp [new, List.getD, hc, hold]
  refine ⟨φ', ⟨h1, hcell, fun b hb' pre c post hcs hw hh hn => ?_, fun b hb' hn => h3 b hb' hn⟩, ?_⟩
  · have := h4 b hb' pre c post hcs hw hh hn
    have hc' : ∀ k, φ'.cell k = ({ st.sol with internal := new } : VolField K V).cell k := by
      intro k; unfold VolField.cell; rw [h2]
    cases hk : c.kind <;> rw [hk] at this hw <;> first | exact hw.elim | simpa [Prescribes, hc'] using this
  · intro out
    unfold forwardEuler
    rw [ho.1]
    refine Iff.trans (NR.bind_iff (explicitN_det hop) out) ?_
    refine Iff.trans (NR.bind_iff (scaleField_det e _ dt) out) ?_
    refine Iff.trans (NR.bind_iff (subField_det e (by simp [hold])) out) ?_
    exact NR.bind_iff hd out

/-- **C71, Runge-Kutta**: the same for a step with the Forward-Euler table by a new integrator, as `dsl::solve` makes it. -/
theorem C71_rungeKutta (e : ExecKind) {m : Mesh K}
    (s : OpsOf K K) (tr : ExT K) (eqn : Expr) (ops : OpsOf K K) (hbuild : ∀ st, tr.build (s st) = .ok (eqn, ops st))
    (hl : ∀ st, ∀ k, ∀ h ∈ tr.leaves k, h < (s st).length) (hf : ∀ st, tr.FieldsOK (s st) m.nCells)
    (val : VolField K K → Nat → Nat → K)
    (hx : ∀ st : TimeState K K, st.sol.On m → ∀ h ∈ tr.leaves .spatial, ∃ o, (s st)[h]? = some o ∧ ExplTerm m.nCells 0 0 o (val st.sol h))
    (dict : Dict) (hd : dict.get .str "Runge-Kutta-Method" = .ok (.str "Forward-Euler"))
    (st : TimeState K K) (ho : st.sol.On m) (hold : st.oldTime.length = m.nCells) (t dt : K) :
    ∃ r, (∀ out, rungeKutta e dict ops eqn .new st t dt out ↔ out = .ok r) ∧ r.2.sol.On m ∧
      r.2.sol = { st.sol with internal := r.2.sol.internal } ∧ r.2.old = some r.2.sol.internal ∧
      ∀ c < m.nCells, r.2.sol.cell c = ix st.oldTime c - dt * tr.value .spatial id (val st.sol) c :=
  rk_from (f := fun φ => tr.value .spatial id (val φ)) e hd ops eqn (fun st hon => (C31_explicit_partial (s st) tr m.nCells (hl st) (hf st) eqn _ (hbuild st)).1 (val st.sol) (hx st hon))
    st ho hold t dt

/-- An expression that is the time derivative of the solution field with a coefficient and nothing else. -/
def ddtOnly (e : ExecKind) (m : Mesh K) (sp : SparsityPattern) (c : Coeff K) : OpsOf K K := fun st =>
  [ddtOp e m sp st.sol st.oldTime .implicit c]

/-- **C71, backwardEuler**: a step of `ddt(u) = 0` (any coefficient without zeros, serial executor or any executor on a chain of cells, exact linear solver) does not keep
the current values: it brings back the recorded old-time values in every cell, whatever was stored in the field since. -/
theorem C71_backward [LinearOrder K] {m : Mesh K} (h : m.WF) (h256 : ∀ c < m.nCells, 1 + m.deg c ≤ 256) (e : ExecKind) (hre : e = .serial ∨ m.Chain) {sp : SparsityPattern}
    (hsp : sparsityUpdate e m (.ok sp)) {c : Coeff K} {v : Nat → K} (hc : c.On m.nCells v)
    (hv : ∀ c < m.nCells, v c * m.vol c ≠ 0) (st : TimeState K K) (ho : st.sol.On m) (hold : st.oldTime.length = m.nCells) (t dt : K) (hdt : dt ≠ 0)
    (bcs : List (VolumeBoundary K)) (table : SolverTable K) (fvSchemes fvSolution : Dict) (hd : AsksFor fvSchemes "backwardEuler")
    (solver : LinSolver K) (hs : createSolver table fvSchemes = .ok solver) (hex : ExactOn m solver)
    (st' : TimeState K K) (hrun : dslSolve e m bcs table fvSchemes fvSolution (ddtOnly e m sp c) ⟨[0], []⟩ st t dt (.ok st')) :
    st'.sol.internal = st.oldTime ∧ st'.old = some st.oldTime := by
  obtain ⟨_, hee, hp⟩ := pattern_for m h h256 e _ hsp
  cases hee
  have hlv : ∀ k, ∀ h ∈ (ExT.obj (K := K) ⟨[0], []⟩).leaves k, k = .temporal ∧ h = 0 := by
    intro k h hh
    cases k
    · have hh : h ∈ [0] := hh
      simpa using hh
    · have hh : h ∈ ([] : List Nat) := hh
      simp at hh
  obtain ⟨a1, -, a2, a3⟩ := C33_equations_partial h h256 e hre hsp (ddtOnly e m sp c) (ExT.obj ⟨[0], []⟩) st ho.1
    (fun k h hh => by obtain ⟨-, rfl⟩ := hlv k h hh; exact ⟨Nat.zero_lt_one, Nat.zero_lt_one⟩) trivial trivial ⟨[0], []⟩ (ddtOnly e m sp c)
    (fun _ => rfl) (by simp) t dt (fun _ _ => 0) (fun _ => diagDelta fun i => v i * m.vol i / dt) (fun _ _ => 0)
    (fun _ i => v i * m.vol i / dt * ix st.oldTime i) (fun _ _ => 0)
    (fun h hh => by obtain ⟨hk, -⟩ := hlv _ h hh; cases hk)
    (fun k hk => by
      obtain ⟨-, rfl⟩ := hlv _ k hk
      exact ⟨_, rfl, C31_term_ddt_implicit h hp st.sol (old := st.oldTime) hold e hc t dt⟩)
    (fun h hh => by obtain ⟨hk, -⟩ := hlv _ h hh; cases hk)
    bcs table fvSchemes fvSolution hd solver hs hex st' hrun
  have : st'.sol.internal = st.oldTime := by
    refine List.ext_getElem (by rw [a2, hold]) (fun i h1 h2 => ?_)
    have hi : i < m.nCells := by omega
    have := a3 i hi
    have e1 : implicitResidual m ((ExT.obj (K := K) ⟨[0], []⟩).value .temporal (Slot.row m) fun _ => diagDelta fun i => v i * m.vol i / dt)
        ((ExT.obj (K := K) ⟨[0], []⟩).value .temporal id fun _ i => v i * m.vol i / dt * ix st.oldTime i) (ix st'.sol.internal) i
        = implicitResidual m (diagDelta fun i => v i * m.vol i / dt) (fun i => v i * m.vol i / dt * ix st.oldTime i) (ix st'.sol.internal) i := by
      simp [implicitResidual, ExT.value]
    rw [e1, C33_ddt] at this
    have e2 : implicitResidual m ((ExT.obj (K := K) ⟨[0], []⟩).value .spatial (Slot.row m) fun _ _ => 0)
        ((ExT.obj (K := K) ⟨[0], []⟩).value .spatial id fun _ _ => 0) (ix st'.sol.internal) i = 0 := by
      simp [implicitResidual, ExT.value]
    rw [e2, zero_add, div_eq_zero_iff] at this
    have := (mul_eq_zero.1 (this.resolve_right hdt)).resolve_left (hv i hi)
    have := sub_eq_zero.1 this
    simpa [ix, List.getD, h1, h2] using this
  exact ⟨this, by rw [a1, this]⟩

/-- The user stores new cell values. -/
def TimeState.assign (st : TimeState K V) (x : List V) : TimeState K V := { st with sol := { st.sol with internal := x } }

/-- `ddt(u) = 0` on one cell. -/
def stillOps : OpsOf ℚ ℚ := ddtOnly .serial cell0 cell1Pattern (Coeff.ofScalar 1)

/-- **C71 fails**, with each of the two Euler integrators (`dict`): `ddt(u) = 0` from `u = 1`; the first step returns and keeps 1; the user stores 5; in
the second step, which returns too, the value is 1 again whenever it returns, and not 5. (`anySolution` returns any solution of the system; by `C71_backward`
any exact solver will do.) -/
theorem C71_violation : ∀ dict ∈ [forwardDict, backwardDict], ∃ st1 st2,
    dslSolve .serial cell0 [] [("exact", fun _ => anySolution)] dict [] stillOps ⟨[0], []⟩ cell0State 0 1 (.ok st1) ∧
    st1.sol.internal = [1] ∧
    dslSolve .serial cell0 [] [("exact", fun _ => anySolution)] dict [] stillOps ⟨[0], []⟩ (st1.assign [5]) 1 1 (.ok st2) ∧
    ∀ st2', dslSolve .serial cell0 [] [("exact", fun _ => anySolution)] dict [] stillOps ⟨[0], []⟩ (st1.assign [5]) 1 1 (.ok st2') →
      st2'.sol.internal = [1] := by
  have h256 : ∀ c < cell0.nCells, 1 + cell0.deg c ≤ 256 := by
    intro c hc
    have hc : c < 1 := hc
    interval_cases c; decide
  obtain ⟨_, he, hp⟩ := pattern_for cell0 cell0_wf h256 .serial _ cell0_run
  cases he
  have hu : ∀ out, sparsityUpdate .serial cell0 out ↔ out = .ok cell1Pattern :=
    fun out => ⟨fun ho => sparsity_serial_single _ cell0_wf _ _ ho cell0_run, fun ho => ho ▸ cell0_run⟩
  have hc : (Coeff.ofScalar (1 : ℚ)).On cell0.nCells (fun _ => 1) := fun _ _ => rfl
  have hlv : ∀ k, ∀ h ∈ (ExT.obj (K := ℚ) ⟨[0], []⟩).leaves k, k = .temporal ∧ h = 0 := by
    intro k h hh
    cases k
    · have hh : h ∈ [0] := hh
      simpa using hh
    · have hh : h ∈ ([] : List Nat) := hh
      simp at hh
  intro dict hdict
  simp only [List.mem_cons, List.not_mem_nil, or_false] at hdict
  rcases hdict with rfl | rfl
  · have key : ∀ (st : TimeState ℚ ℚ), st.sol.On cell0 → st.oldTime = [1] → ∀ t, ∃ st', st'.sol.internal = [1] ∧ st'.old = some [1] ∧ st'.sol.On cell0 ∧
        ∀ out, dslSolve .serial cell0 [] [("exact", fun _ => anySolution)] forwardDict [] stillOps ⟨[0], []⟩ st t 1 out ↔ out = .ok st' := by
      intro st ho hold t
      obtain ⟨φ', g1, g2⟩ := C71_forward .serial cell0_wf [] (by simp) stillOps (ExT.obj ⟨[0], []⟩) ⟨[0], []⟩ stillOps (fun _ => rfl)
        (fun st k h hh => by obtain ⟨-, rfl⟩ := hlv k h hh; exact Nat.zero_lt_one) (fun _ => trivial) (fun _ _ _ => 0)
        (fun st _ h hh => by obtain ⟨hk, -⟩ := hlv _ h hh; cases hk) st ho (by rw [hold]; rfl) 1
      have hc := g1.cells 0 (by decide)
      have hlen : φ'.internal.length = 1 := g1.on.1
      obtain ⟨y, hy⟩ := List.length_eq_one_iff.1 hlen
      have hy1 : y = 1 := by
        simpa [ExT.value, ix, hold, VolField.cell, hy] using hc
      rw [hy1] at hy
      refine ⟨⟨φ', some φ'.internal⟩, hy, by rw [hy], g1.on, fun out => ?_⟩
      rw [C34_solve .serial cell0 [] _ [] ⟨_, rfl, rfl⟩ stillOps (by simp)]
      exact g2 out
    obtain ⟨st1, a1, a2, a3, a4⟩ := key cell0State ⟨rfl, rfl, rfl, rfl, rfl⟩ rfl 0
    obtain ⟨st2, b1, -, -, b4⟩ := key (st1.assign [5]) ⟨rfl, a3.2, a3.3, a3.4, a3.5⟩ (by simp [TimeState.assign, TimeState.oldTime, a2]) 1
    refine ⟨st1, st2, (a4 _).2 rfl, a1, (b4 _).2 rfl, fun st2' h => ?_⟩
    cases (b4 _).1 h
    exact b1
  · have key : ∀ (st : TimeState ℚ ℚ), st.sol.On cell0 → st.oldTime = [1] → ∀ t, ∃ st', st'.sol.internal = [1] ∧ st'.old = some [1] ∧ st'.sol.On cell0 ∧
        dslSolve .serial cell0 [] [("exact", fun _ => anySolution)] backwardDict [] stillOps ⟨[0], []⟩ st t 1 (.ok st') := by
      intro st hon hold t
      obtain ⟨ls, ho, hr, hdet⟩ := C33_system .serial cell0_wf hp hu stillOps (ExT.obj ⟨[0], []⟩) st hon.1
        (fun k h hh => by obtain ⟨-, rfl⟩ := hlv k h hh; exact ⟨Nat.zero_lt_one, Nat.zero_lt_one⟩) trivial trivial ⟨[0], []⟩ stillOps
        (fun _ => rfl) (by simp) t 1 (fun _ _ => 0) (fun _ => diagDelta fun i => 1 * cell0.vol i / 1) (fun _ _ => 0)
        (fun _ i => 1 * cell0.vol i / 1 * ix st.oldTime i) (fun _ _ => 0)
        (fun h hh => by obtain ⟨hk, -⟩ := hlv _ h hh; cases hk)
        (fun k hk => by
          obtain ⟨-, rfl⟩ := hlv _ k hk
          exact ⟨_, rfl, C31_term_ddt_implicit cell0_wf hp st.sol (old := st.oldTime) (by rw [hold]; rfl) .serial hc t 1⟩)
        (fun h hh => by obtain ⟨hk, -⟩ := hlv _ h hh; cases hk)
      have hres : ∀ x, ls.residual x 0 = x 0 - 1 := by
        intro x
        rw [hr x 0 (by decide)]
        simp [implicitResidual, ExT.value, diagDelta, cell0, topoMesh, hold, ix, Mesh.vol]
      refine ⟨⟨{ st.sol with internal := [1] }, some [1]⟩, rfl, rfl, ⟨rfl, hon.2, hon.3, hon.4, hon.5⟩,
        (hdet [] _ _ [] ⟨_, rfl, rfl⟩ anySolution rfl _).2 ⟨.ok [1], ⟨_, rfl, ho.rhsLen.symm, fun i hi => ?_⟩, rfl⟩⟩
      rw [ho.rhsLen] at hi
      have hi : i < 1 := hi
      interval_cases i
      rw [hres]; simp [ix]
    obtain ⟨st1, a1, a2, a3, a4⟩ := key cell0State ⟨rfl, rfl, rfl, rfl, rfl⟩ rfl 0
    have hon2 : (st1.assign [5]).sol.On cell0 := ⟨rfl, a3.2, a3.3, a3.4, a3.5⟩
    have hold2 : (st1.assign [5]).oldTime = [1] := by simp [TimeState.assign, TimeState.oldTime, a2]
    obtain ⟨st2, b1, -, -, b4⟩ := key (st1.assign [5]) hon2 hold2 1
    refine ⟨st1, st2, a4, a1, b4, fun st2' h => ?_⟩
    rw [← hold2]
    refine (C71_backward cell0_wf h256 .serial (.inl rfl) cell0_run hc ?_ _ hon2 (by rw [hold2]; rfl) 1 1 one_ne_zero [] _ backwardDict [] ⟨_, rfl, rfl⟩
      anySolution rfl ?_ st2' h).1
    · intro c hc
      have hc : c < 1 := hc
      interval_cases c
      simp [cell0, topoMesh, Mesh.vol]
    · exact ExactSolver.on (fun ls x y ⟨z, hz, h1, h2⟩ => by cases hz; exact ⟨h1, h2⟩) _

end NeoFOAM
