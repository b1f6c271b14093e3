import Verif.Proofs.Solve
import Verif.Props.C15_Entry

/-!
# C32 – solve of a steady expression returns a field with zero total residual

Holds on the serial executor, on chains of cells, and on any executor that builds the same pattern again. On the parallel executors the pattern
built by `solve` can number the entries of a row differently from the pattern the operators use (`C32_violation`).
-/
namespace NeoFOAM
open Finset
variable {K : Type} [Field K]

/-- **C32, the system**: for every composition of implicit and explicit spatial terms, `solve` hands the linear solver named
in `fvSolution` one system, whose residual at any values `x` is the sum of the implicit contributions plus the cell volume
times the explicit contributions; it then stores what the solver returns and changes nothing else. `hu`: the pattern built
again is the one the operators use. -/
theorem C32_system (e : ExecKind) {m : Mesh K} (h : m.WF) {sp : SparsityPattern} (hp : sp.For m)
    (hu : ∀ out, sparsityUpdate e m out ↔ out = .ok sp)
    (s : OpHeap K K) (tr : ExT K) (hl : ∀ k, ∀ h ∈ tr.leaves k, h < s.length) (hf : tr.FieldsOK s m.nCells)
    (eqn : Expr) (s' : OpHeap K K) (hb : tr.build s = .ok (eqn, s')) (hT : eqn.temporal = []) (hS : eqn.spatial ≠ [])
    (dv : Nat → Slot → K) (dr val : Nat → Nat → K)
    (hi : ∀ h ∈ tr.leaves .spatial, ∃ o, s[h]? = some o ∧ ImplTerm m sp 0 0 o (dv h) (dr h))
    (hx : ∀ h ∈ tr.leaves .spatial, ∃ o, s[h]? = some o ∧ ExplTerm m.nCells 0 0 o (val h))
    (bcs : List (VolumeBoundary K)) (table : SolverTable K) (fvSchemes fvSolution : Dict) (ops : OpsOf K K) (st : TimeState K K)
    (hops : ops st = s') (t dt : K) :
    ∃ ls : LinearSystem K, ls.On sp m ∧
      (∀ x, ∀ c < m.nCells, ls.residual x c
        = implicitResidual m (tr.value .spatial (Slot.row m) dv) (tr.value .spatial id dr) x c
          + m.vol c * tr.value .spatial id val c) ∧
      ∀ solver, createSolver table fvSolution = .ok solver →
        ∀ out, dslSolve e m bcs table fvSchemes fvSolution ops eqn st t dt out ↔
          (solver ls st.sol.internal >>= fun x => pure { st with sol := { st.sol with internal := x } } : NR (TimeState K K)) out := by
  have h1 := (C31_implicit m sp s tr hl hf eqn s' hb).1 dv dr hi
  have h2 := (C31_explicit_partial s tr m.nCells hl hf eqn s' hb).1 val hx
  obtain ⟨ls, hd, ho, hr⟩ := steadySystem_det h hp e hu h1 h2
  refine ⟨ls, ho, hr, fun solver hs out => ?_⟩
  unfold dslSolve
  rw [if_neg (by simp [hT, hS]), if_neg (by simp [hT])]
  unfold solveSteady
  rw [hops]
  refine Iff.trans (NR.bind_iff hd out) ?_
  refine Iff.trans (NR.bind_iff (a := solver) (fun o => by rw [hs]; exact Iff.rfl) out) ?_
  exact Iff.rfl

/-- **C32, serial executor, or any executor on a chain of cells**: with an exact linear solver, whenever `solve` of a steady expression returns, in every cell the
implicit contributions plus the cell volume times the explicit contributions are zero. (The pattern of the operators is the
one cached for the mesh.) -/
theorem C32_equations_partial {m : Mesh K} (h : m.WF) (h256 : ∀ c < m.nCells, 1 + m.deg c ≤ 256) (e : ExecKind) (hre : e = .serial ∨ m.Chain) {sp : SparsityPattern}
    (hsp : sparsityUpdate e m (.ok sp))
    (s : OpHeap K K) (tr : ExT K) (hl : ∀ k, ∀ h ∈ tr.leaves k, h < s.length) (hf : tr.FieldsOK s m.nCells)
    (eqn : Expr) (s' : OpHeap K K) (hb : tr.build s = .ok (eqn, s')) (hT : eqn.temporal = []) (hS : eqn.spatial ≠ [])
    (dv : Nat → Slot → K) (dr val : Nat → Nat → K)
    (hi : ∀ h ∈ tr.leaves .spatial, ∃ o, s[h]? = some o ∧ ImplTerm m sp 0 0 o (dv h) (dr h))
    (hx : ∀ h ∈ tr.leaves .spatial, ∃ o, s[h]? = some o ∧ ExplTerm m.nCells 0 0 o (val h))
    (bcs : List (VolumeBoundary K)) (table : SolverTable K) (fvSchemes fvSolution : Dict) (ops : OpsOf K K) (st : TimeState K K)
    (hlen : st.sol.internal.length = m.nCells) (hops : ops st = s') (t dt : K) (solver : LinSolver K) (hs : createSolver table fvSolution = .ok solver) (hex : ExactOn m solver)
    (st' : TimeState K K) (hrun : dslSolve e m bcs table fvSchemes fvSolution ops eqn st t dt (.ok st')) :
    st'.sol.internal.length = m.nCells ∧ ∀ c < m.nCells,
      implicitResidual m (tr.value .spatial (Slot.row m) dv) (tr.value .spatial id dr) (ix st'.sol.internal) c
        + m.vol c * tr.value .spatial id val c = 0 := by
  obtain ⟨_, hee, hp⟩ := pattern_for m h h256 e _ hsp
  cases hee
  have hu : ∀ out, sparsityUpdate e m out ↔ out = .ok sp :=
    fun out => ⟨fun ho => sparsity_single m h hre _ _ ho hsp, fun ho => ho ▸ hsp⟩
  obtain ⟨ls, ho, hr, hd⟩ := C32_system e h hp hu s tr hl hf eqn s' hb hT hS dv dr val hi hx bcs table fvSchemes fvSolution ops st hops t dt
  obtain ⟨r, h1, h2⟩ := (hd solver hs _).1 hrun
  cases r with
  | ok x =>
    cases h2
    obtain ⟨a, b⟩ := hex _ _ _ ⟨sp, hp, ho⟩ hlen h1
    exact ⟨a, fun c hc => by rw [← hr _ c hc]; exact b c hc⟩
  | throw _ => cases h2
  | abort => cases h2
  | ub => cases h2

/-- An expression without operators stops the program. -/
theorem C32_nothing (e : ExecKind) (m : Mesh K) (bcs : List (VolumeBoundary K)) (table : SolverTable K) (fvSchemes fvSolution : Dict)
    (ops : OpsOf K K) (st : TimeState K K) (t dt : K) (out : Res (TimeState K K)) :
    dslSolve e m bcs table fvSchemes fvSolution ops Expr.empty st t dt out ↔ out = .abort := Iff.rfl

/-! ### The parallel executors -/

/-- The same system with other column indices. -/
def LinearSystem.withCols (ls : LinearSystem K) (c : List Nat) : LinearSystem K := ⟨{ ls.matrix with colIdxs := c }, ls.rhs⟩

omit [Field K] in
theorem launchLS_withCols {e : ExecKind} {a b : Nat} {body : Nat → Res (List (Act LSArr K))} {ls l1 : LinearSystem K} (c : List Nat)
    (hl : launchLS e a b body ls (.ok l1)) : launchLS e a b body (ls.withCols c) (.ok (l1.withCols c)) := by
  obtain ⟨r, h1, h2⟩ := (NR.bind_def _ _ _).1 hl
  refine (NR.bind_def _ _ _).2 ⟨r, h1, ?_⟩
  cases r with
  | ok f => cases h2; rfl
  | throw e => cases h2
  | abort => cases h2
  | ub => cases h2

theorem computeDivImp_withCols [LinearOrder K] {e : ExecKind} {m : Mesh K} {sp : SparsityPattern} {flux : List K} {φ : VolField K K} {s : Coeff K}
    {ls l1 : LinearSystem K} (c : List Nat) (h : computeDivImp e m sp flux φ s ls (.ok l1)) :
    computeDivImp e m sp flux φ s (ls.withCols c) (.ok (l1.withCols c)) := by
  obtain ⟨r, h1, h2⟩ := (NR.bind_def _ _ _).1 h
  cases r with
  | ok l => exact ⟨_, launchLS_withCols c h1, launchLS_withCols c h2⟩
  | throw e => cases h2
  | abort => cases h2
  | ub => cases h2

theorem sourceImplicit_withCols {e : ExecKind} {m : Mesh K} {sp : SparsityPattern} {k : List K} {s : Coeff K} {ls l1 : LinearSystem K} (c : List Nat)
    (h : sourceImplicit e m sp k s ls (.ok l1)) : sourceImplicit e m sp k s (ls.withCols c) (.ok (l1.withCols c)) := launchLS_withCols c h

theorem subtractSource_withCols {e : ExecKind} {m : Mesh K} {src : List K} {ls l1 : LinearSystem K} (c : List Nat)
    (h : subtractSource e m src ls (.ok l1)) : subtractSource e m src (ls.withCols c) (.ok (l1.withCols c)) := by
  obtain ⟨r, h1, h2⟩ := (NR.bind_def _ _ _).1 h
  refine (NR.bind_def _ _ _).2 ⟨r, h1, ?_⟩
  cases r with
  | ok f => cases h2; rfl
  | throw e => cases h2
  | abort => cases h2
  | ub => cases h2

/-- A solver that returns any solution there is. -/
def anySolution : LinSolver K := fun ls _ out => ∃ y, out = .ok y ∧ y.length = ls.rhs.length ∧ ∀ i < ls.rhs.length, ls.residual (ix y) i = 0

theorem anySolution_exact : ExactSolver (anySolution : LinSolver K) := by
  rintro ls x y ⟨y', h1, h2, h3⟩
  cases h1
  exact ⟨h2, h3⟩

/-- The pattern of the fan mesh in face order. -/
def fanOrdered : SparsityPattern := ⟨[0, 3, 5, 7], [0, 1, 2, 0, 1, 0, 2], [1, 2], [0, 0], [0, 1, 1]⟩

theorem fan_run_ordered : sparsityUpdate .parallel (fanMesh 1 2) (.ok fanOrdered) := by
  unfold sparsityUpdate
  refine ⟨_, ticketRun_intro _ rfl (Interleave.serial _) rfl, ?_⟩
  refine ⟨_, (C10_offsets _ _ rfl _).2 rfl, ?_⟩
  refine ⟨_, (parElem_det _ _ _ _ _ le_rfl _).2 rfl, ?_⟩
  refine ⟨_, ticketRun_intro _ rfl (Interleave.serial _) rfl, ?_⟩
  refine ⟨_, ticketRun_intro _ rfl (Interleave.serial _) rfl, ?_⟩
  refine ⟨_, ticketRun_intro _ rfl (Interleave.serial _) rfl, ?_⟩
  rfl

/-- Ones in the cells of the fan mesh. -/
def fanField : VolField ℚ ℚ := ⟨[1, 1, 1], [], [], [], []⟩

/-- Implicit divergence and source, explicit source. -/
def fanOps (e : ExecKind) : OpHeap ℚ ℚ :=
  [divOp e (fanMesh 1 2) fanOrdered (some .upwind) [1, 1] (fun _ => 0) [-1, -2] fanField .implicit (Coeff.ofScalar 1),
   sourceOp e (fanMesh 1 2) fanOrdered [1, 1, 1] fanField .implicit (Coeff.ofScalar 1),
   sourceOp e (fanMesh 1 2) fanOrdered [-1, -1, -1] fanField .explicit (Coeff.ofScalar 1)]

/-- The empty system of the pattern built again. -/
def fanFresh : LinearSystem ℚ := ⟨⟨[0, 0, 0, 0, 0, 0, 0], [0, 2, 1, 0, 1, 0, 2], [0, 3, 5, 7]⟩, [0, 0, 0]⟩

/-- Coefficients of the three operators. -/
def fanDv : Nat → Slot → ℚ
  | 0 => divDelta (fanMesh 1 2) (ix [-1, -2]) (ix fanField.bVF) (fun _ => 1)
  | 1 => diagDelta fun i => 1 * ix [1, 1, 1] i * (fanMesh 1 2).vol i
  | _ => fun _ => 0

/-- Right hand sides of the three operators. -/
def fanDr : Nat → Nat → ℚ
  | 0 => divRhs (fanMesh 1 2) (ix [-1, -2]) (ix fanField.bVF) (ix fanField.bRefValue) (fun _ => 1)
  | _ => fun _ => 0

/-- Explicit values of the three operators. -/
def fanVal : Nat → Nat → ℚ
  | 2 => fun i => 1 * (ix [-1, -1, -1] i * fanField.cell i)
  | _ => fun _ => 0

theorem fan_for : fanOrdered.For (fanMesh 1 2) := by
  obtain ⟨_, he, hp⟩ := pattern_for (fanMesh 1 2) fanMesh_wf.2 (by
    intro c hc
    have hc : c < 3 := hc
    interval_cases c <;> decide) .parallel _ fan_run_ordered
  cases he
  exact hp

theorem fan_coeff : (Coeff.ofScalar (1 : ℚ)).On (fanMesh 1 2).nCells (fun _ => 1) := fun _ _ => rfl
theorem fanField_on : fanField.On (fanMesh 1 2) := ⟨rfl, rfl, rfl, rfl, rfl⟩
theorem fan_bnd : (fanMesh 1 2).BndDistinct := fun b hb => absurd hb (by show ¬ b < 0; omega)

theorem fan_term (e : ExecKind) : ∀ h ∈ [0, 1, 2], ∃ o, (fanOps e)[h]? = some o ∧
    ImplTerm (fanMesh 1 2) fanOrdered 0 0 o (fanDv h) (fanDr h) ∧ ExplTerm (fanMesh 1 2).nCells 0 0 o (fanVal h) := by
  intro h hh
  simp only [List.mem_cons, List.not_mem_nil, or_false] at hh
  rcases hh with rfl | rfl | rfl
  · exact ⟨_, rfl, C31_term_div_implicit fanMesh_wf.2 fan_for fanField_on [1, 1] (flux := [-1, -2]) rfl .upwind e (Or.inr fan_bnd) (fun _ => 0) fan_coeff 0 0,
      explTerm_implicit 0 0 rfl fan_coeff⟩
  · exact ⟨_, rfl, C31_term_source_implicit fanMesh_wf.2 fan_for fanField (k := [1, 1, 1]) rfl e fan_coeff 0 0, explTerm_implicit 0 0 rfl fan_coeff⟩
  · exact ⟨_, rfl, implTerm_explicit 0 0 rfl fan_coeff, C31_term_source fanOrdered fanField_on (k := [-1, -1, -1]) rfl e fan_coeff 0 0⟩

theorem fan_source : (⟨[], [0, 1, 2]⟩ : Expr).explicitOperationN (fanOps .parallel) 3 (.ok [-1, -1, -1]) := by
  have hex := (C31_explicit_partial (fanOps .parallel) (ExT.obj (K := ℚ) ⟨[], [0, 1, 2]⟩) 3 (by
    intro k h hh
    cases k
    · cases hh
    · have hh : h ∈ [0, 1, 2] := hh
      show h < 3
      simp only [List.mem_cons, List.not_mem_nil, or_false] at hh
      omega) trivial _ _ rfl).1 fanVal (fun h hh => by
    obtain ⟨o, h1, h2, h3⟩ := fan_term .parallel h hh
    exact ⟨o, h1, h3⟩)
  rw [explicitN_det hex]
  simp [List.range_succ, ExT.value, fanVal, ix, VolField.cell, fanField]

theorem fan_impl {l0 l1 l2 : LinearSystem ℚ}
    (w1 : computeDivImp .parallel (fanMesh 1 2) fanOrdered [-1, -2] fanField (Coeff.ofScalar 1) l0 (.ok l1))
    (w2 : sourceImplicit .parallel (fanMesh 1 2) fanOrdered [1, 1, 1] (Coeff.ofScalar 1) l1 (.ok l2)) :
    (⟨[], [0, 1, 2]⟩ : Expr).implicitOperation (fanOps .parallel) l0 (.ok l2) := by
  refine ⟨.ok (fanOps .parallel), rfl, ?_⟩
  show implOps 0 0 (fanOps .parallel) l0 (.ok l2)
  unfold implOps fanOps
  simp only [List.foldlM_cons, List.foldlM_nil]
  refine (NR.bind_def _ _ _).2 ⟨.ok l1, w1, ?_⟩
  refine (NR.bind_def _ _ _).2 ⟨.ok l2, w2, ?_⟩
  exact (NR.bind_def _ _ _).2 ⟨.ok l2, rfl, rfl⟩

/-- The system the operators assemble when the rows of the system are in the other order. -/
theorem fan_system : ∃ l : LinearSystem ℚ,
    steadySystem .parallel (fanMesh 1 2) (fanOps .parallel) ⟨[], [0, 1, 2]⟩ (.ok (l.withCols [0, 2, 1, 0, 1, 0, 2])) ∧ l.On fanOrdered (fanMesh 1 2) ∧
    (∀ s : Slot, s.Valid (fanMesh 1 2) → l.matrix.val (fanOrdered.addr (fanMesh 1 2) s) = fanDv 0 s + fanDv 1 s) ∧
    ∀ c < 3, l.rhs.getD c 0 = fanDr 0 c + 1 := by
  have on0 : (fanFresh.withCols [0, 1, 2, 0, 1, 0, 2]).On fanOrdered (fanMesh 1 2) := ⟨rfl, rfl, rfl, rfl⟩
  obtain ⟨l1, a1, d1⟩ := Assembles.det fan_for (computeDivImp_ok fanMesh_wf.2 fan_for fanField_on (flux := [-1, -2]) rfl fan_coeff .parallel
    (Or.inr fan_bnd) _ on0) (computeDivImp_runs _ _ _ _ _ _ _)
  obtain ⟨l2, a2, d2⟩ := Assembles.det fan_for (sourceImplicit_ok fanMesh_wf.2 fan_for (k := [1, 1, 1]) rfl fan_coeff .parallel l1 a1.on) (launchLS_runs _ _ _ _ _)
  obtain ⟨l3, a3, d3⟩ := subtractSource_det fanMesh_wf.2 .parallel (src := [-1, -1, -1]) rfl l2 a2.on
  refine ⟨l3, ?_, a3.on, ?_, ?_⟩
  · have hemp : createEmptyLinearSystem (fanPattern 2 1) = .ok fanFresh := rfl
    unfold steadySystem
    refine (NR.bind_def _ _ _).2 ⟨.ok (fanPattern 2 1), fan_run_parallel, ?_⟩
    refine (NR.bind_def _ _ _).2 ⟨.ok fanFresh, hemp.symm, ?_⟩
    refine (NR.bind_def _ _ _).2 ⟨.ok (l2.withCols [0, 2, 1, 0, 1, 0, 2]), ?_, ?_⟩
    · have w1 : computeDivImp .parallel (fanMesh 1 2) fanOrdered [-1, -2] fanField (Coeff.ofScalar 1)
          ((fanFresh.withCols [0, 1, 2, 0, 1, 0, 2]).withCols [0, 2, 1, 0, 1, 0, 2]) (.ok (l1.withCols [0, 2, 1, 0, 1, 0, 2])) :=
        computeDivImp_withCols _ ((d1 _).2 rfl)
      have e1 : (fanFresh.withCols [0, 1, 2, 0, 1, 0, 2]).withCols [0, 2, 1, 0, 1, 0, 2] = fanFresh := rfl
      rw [e1] at w1
      exact fan_impl w1 (sourceImplicit_withCols [0, 2, 1, 0, 1, 0, 2] ((d2 _).2 rfl))
    · exact (NR.bind_def _ _ _).2 ⟨.ok [-1, -1, -1], fan_source, subtractSource_withCols _ ((d3 _).2 rfl)⟩
  · intro s hs
    rw [a3.coef s hs, a2.coef s hs, a1.coef s hs, add_zero]
    have : ∀ k, (fanFresh.withCols [0, 1, 2, 0, 1, 0, 2]).matrix.val k = 0 := val_replicate 7
    rw [this, zero_add]
    cases s <;> rfl
  · intro c hc
    rw [a3.rhs c hc, a2.rhs c hc, a1.rhs c hc]
    have : ∀ c, (fanFresh.withCols [0, 1, 2, 0, 1, 0, 2]).rhs.getD c 0 = 0 := val_replicate 3
    rw [this, zero_add, add_zero]
    have : -(ix ([-1, -1, -1] : List ℚ) c * (fanMesh 1 2).vol c) = 1 := by
      interval_cases c <;> simp [ix, Mesh.vol, fanMesh, topoMesh]
    rw [this]
    rfl

theorem fan_values {l : LinearSystem ℚ} (v : ∀ s : Slot, s.Valid (fanMesh 1 2) → l.matrix.val (fanOrdered.addr (fanMesh 1 2) s) = fanDv 0 s + fanDv 1 s) :
    l.matrix.val 0 = 1 ∧ l.matrix.val 1 = -1 ∧ l.matrix.val 2 = -2 ∧ l.matrix.val 3 = 0 ∧ l.matrix.val 4 = 2 ∧ l.matrix.val 5 = 0 ∧ l.matrix.val 6 = 3 := by
  refine ⟨(v (.diag 0) (by show 0 < 3; decide)).trans ?_, (v (.upper 0) (by show 0 < 2; decide)).trans ?_, (v (.upper 1) (by show 1 < 2; decide)).trans ?_, (v (.lower 0) (by show 0 < 2; decide)).trans ?_,
    (v (.diag 1) (by show 1 < 3; decide)).trans ?_, (v (.lower 1) (by show 1 < 2; decide)).trans ?_, (v (.diag 2) (by show 2 < 3; decide)).trans ?_⟩ <;>
  norm_num [fanDv, divDelta, diagDelta, fanMesh, topoMesh, sum_range_succ, Mesh.own, Mesh.nbr, ix, Mesh.vol]

/-- **C32 fails on the parallel executors**: `div(φ) + sp(φ) - 1 = 0` on a cell with two neighbours. The operators assemble
with the pattern cached for the mesh, `solve` builds another one whose rows are in a different order. With an exact linear
solver `solve` can return a field with a non-zero residual. -/
theorem C32_violation : ∃ (dv : Nat → Slot → ℚ) (dr val : Nat → Nat → ℚ) (st' : TimeState ℚ ℚ),
    (fanMesh 1 2).WF ∧ sparsityUpdate .parallel (fanMesh 1 2) (.ok fanOrdered) ∧
    (∀ h ∈ (ExT.obj (K := ℚ) ⟨[], [0, 1, 2]⟩).leaves .spatial, ∃ o, (fanOps .parallel)[h]? = some o ∧
      ImplTerm (fanMesh 1 2) fanOrdered 0 0 o (dv h) (dr h) ∧ ExplTerm 3 0 0 o (val h)) ∧
    ExactSolver (anySolution : LinSolver ℚ) ∧
    dslSolve .parallel (fanMesh 1 2) [] [("exact", fun _ => anySolution)] [] [("solver", .str "exact")] (fun _ => fanOps .parallel) ⟨[], [0, 1, 2]⟩
      ⟨fanField, none⟩ 0 1 (.ok st') ∧
    implicitResidual (fanMesh 1 2) ((ExT.obj ⟨[], [0, 1, 2]⟩).value (K := ℚ) .spatial (Slot.row (fanMesh 1 2)) dv)
        ((ExT.obj ⟨[], [0, 1, 2]⟩).value (K := ℚ) .spatial id dr) (ix st'.sol.internal) 0
      + (fanMesh 1 2).vol 0 * (ExT.obj ⟨[], [0, 1, 2]⟩).value (K := ℚ) .spatial id val 0 ≠ 0 := by
  obtain ⟨l, hsys, ho, hv, hr⟩ := fan_system
  obtain ⟨v0, v1, v2, v3, v4, v5, v6⟩ := fan_values hv
  refine ⟨fanDv, fanDr, fanVal, ⟨{ fanField with internal := [7 / 3, 1 / 2, 1 / 3] }, none⟩, fanMesh_wf.2, fan_run_ordered, fan_term .parallel, anySolution_exact, ?_, ?_⟩
  · unfold dslSolve
    rw [if_neg (by simp), if_neg (by simp)]
    refine ⟨_, hsys, ?_⟩
    refine ⟨.ok anySolution, rfl, ?_⟩
    refine ⟨.ok [7 / 3, 1 / 2, 1 / 3], ⟨_, rfl, ho.rhsLen.symm, fun i hi => ?_⟩, rfl⟩
    have hi : i < 3 := by
      change i < l.rhs.length at hi
      rw [ho.rhsLen] at hi
      exact hi
    have hrs : ∀ k, (l.withCols [0, 2, 1, 0, 1, 0, 2]).matrix.rs k = [0, 3, 5, 7].getD k 0 := by
      intro k; unfold CSR.rs; rw [show (l.withCols [0, 2, 1, 0, 1, 0, 2]).matrix.rowOffs = _ from ho.rowsEq]; rfl
    have hrr : (l.withCols [0, 2, 1, 0, 1, 0, 2]).rhs.getD i 0 = 1 := (hr i hi).trans (by
      interval_cases i <;> norm_num [fanDr, divRhs, fanMesh, topoMesh])
    unfold LinearSystem.residual
    rw [hrr, hrs, hrs]
    have hval : ∀ p, (l.withCols [0, 2, 1, 0, 1, 0, 2]).matrix.val p = l.matrix.val p := fun _ => rfl
    have hcol : ∀ p, (l.withCols [0, 2, 1, 0, 1, 0, 2]).matrix.col p = [0, 2, 1, 0, 1, 0, 2].getD p 0 := fun _ => rfl
    simp only [hval, hcol]
    interval_cases i <;> simp [sum_Ico_succ_top, sum_range_succ, v0, v1, v2, v3, v4, v5, v6, ix] <;> norm_num
  · simp [implicitResidual, ExT.value, fanDv, fanDr, fanVal, divDelta, divRhs, diagDelta, fanMesh, topoMesh, sum_range_succ, Mesh.own, Mesh.nbr, ix, Mesh.vol, VolField.cell, fanField]
    norm_num

/-- The hypotheses of `C32_equations_partial` are met: on the serial executor the same equation has the solution
`13/6, 1/2, 1/3`, and `solve` can return it. -/
example : sparsityUpdate .serial (fanMesh 1 2) (.ok fanOrdered) ∧
    (∀ h ∈ [0, 1, 2], ∃ o, (fanOps .serial)[h]? = some o ∧ ImplTerm (fanMesh 1 2) fanOrdered 0 0 o (fanDv h) (fanDr h) ∧
      ExplTerm (fanMesh 1 2).nCells 0 0 o (fanVal h)) ∧
    dslSolve .serial (fanMesh 1 2) [] [("exact", fun _ => anySolution)] [] [("solver", .str "exact")] (fun _ => fanOps .serial) ⟨[], [0, 1, 2]⟩
      ⟨fanField, none⟩ 0 1 (.ok ⟨{ fanField with internal := [13 / 6, 1 / 2, 1 / 3] }, none⟩) := by
  have hs : sparsityUpdate .serial (fanMesh 1 2) (.ok fanOrdered) := by
    unfold sparsityUpdate
    refine ⟨_, ticketRun_intro _ rfl rfl rfl, ?_⟩
    refine ⟨_, (C10_offsets _ _ rfl _).2 rfl, ?_⟩
    refine ⟨_, (parElem_det _ _ _ _ _ le_rfl _).2 rfl, ?_⟩
    refine ⟨_, ticketRun_intro _ rfl rfl rfl, ?_⟩
    refine ⟨_, ticketRun_intro _ rfl rfl rfl, ?_⟩
    refine ⟨_, ticketRun_intro _ rfl rfl rfl, ?_⟩
    rfl
  refine ⟨hs, fan_term .serial, ?_⟩
  obtain ⟨ls, ho, hr, hd⟩ := C32_system .serial fanMesh_wf.2 fan_for
    (fun out => ⟨fun ho => sparsity_serial_single _ fanMesh_wf.2 _ _ ho hs, fun ho => ho ▸ hs⟩)
    (fanOps .serial) (ExT.obj ⟨[], [0, 1, 2]⟩) (by
      intro k h hh
      cases k
      · cases hh
      · have hh : h ∈ [0, 1, 2] := hh
        show h < 3
        simp only [List.mem_cons, List.not_mem_nil, or_false] at hh
        omega) trivial ⟨[], [0, 1, 2]⟩ (fanOps .serial) rfl rfl (by simp) fanDv fanDr fanVal
    (fun h hh => by obtain ⟨o, h1, h2, h3⟩ := fan_term .serial h hh; exact ⟨o, h1, h2⟩)
    (fun h hh => by obtain ⟨o, h1, h2, h3⟩ := fan_term .serial h hh; exact ⟨o, h1, h3⟩)
    [] [("exact", fun _ => anySolution)] [] [("solver", .str "exact")] (fun _ => fanOps .serial) ⟨fanField, none⟩ rfl 0 1
  refine (hd anySolution rfl _).2 ⟨.ok [13 / 6, 1 / 2, 1 / 3], ⟨_, rfl, ho.rhsLen.symm, fun i hi => ?_⟩, rfl⟩
  rw [ho.rhsLen] at hi
  rw [hr _ i hi]
  have hi : i < 3 := hi
  interval_cases i <;>
  simp [implicitResidual, ExT.value, fanDv, fanDr, fanVal, divDelta, divRhs, diagDelta, fanMesh, topoMesh, sum_range_succ, Mesh.own, Mesh.nbr, ix, Mesh.vol, VolField.cell, fanField] <;>
  norm_num

end NeoFOAM
