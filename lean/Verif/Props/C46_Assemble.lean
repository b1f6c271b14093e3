import Verif.Props.C32_Steady
import Verif.Props.C33_BackwardEuler

/-!
# C46 – assembling an expression; C47 – solving an assembled expression
-/
namespace NeoFOAM
open Finset
variable {K : Type} [Field K]

/-- **C46**: on every executor, for every composition of operators and whatever the system held before, `assemble(t, dt)`
leaves one and the same system: its residual is the sum of the implicit spatial and temporal contributions plus the cell
volume times the explicit spatial and temporal contributions. (The expression assembles with the pattern the operators use.) -/
theorem C46_assemble (e : ExecKind) {m : Mesh K} (h : m.WF) {sp : SparsityPattern} (hp : sp.For m)
    (s : OpHeap K K) (tr : ExT K) (hl : ∀ k, ∀ h ∈ tr.leaves k, h < s.length) (hf : tr.FieldsOK s m.nCells)
    (eqn : Expr) (s' : OpHeap K K) (hb : tr.build s = .ok (eqn, s')) (t dt : K)
    (dv dvT : Nat → Slot → K) (dr drT val valT : Nat → Nat → K)
    (hi : ∀ h ∈ tr.leaves .spatial, ∃ o, s[h]? = some o ∧ ImplTerm m sp 0 0 o (dv h) (dr h))
    (ht : ∀ h ∈ tr.leaves .temporal, ∃ o, s[h]? = some o ∧ ImplTerm m sp t dt o (dvT h) (drT h))
    (hx : ∀ h ∈ tr.leaves .spatial, ∃ o, s[h]? = some o ∧ ExplTerm m.nCells 0 0 o (val h))
    (hxT : ∀ h ∈ tr.leaves .temporal, ∃ o, s[h]? = some o ∧ ExplTerm m.nCells t dt o (valT h)) :
    ∃ ls' : LinearSystem K, (∀ ls : LinearSystem K, ls.On sp m → ∀ out, assembleExpr e m s' eqn t dt ls out ↔ out = .ok ls') ∧ ls'.On sp m ∧
      ∀ x, ∀ c < m.nCells, ls'.residual x c
        = implicitResidual m (tr.value .spatial (Slot.row m) dv) (tr.value .spatial id dr) x c
          + implicitResidual m (tr.value .temporal (Slot.row m) dvT) (tr.value .temporal id drT) x c
          + m.vol c * (tr.value .spatial id val c + tr.value .temporal id valT c) := by
  have h1 := (C31_implicit m sp s tr hl hf eqn s' hb).1 dv dr hi
  have h2 := (C31_implicit m sp s tr hl hf eqn s' hb).2 t dt dvT drT ht
  have h3 := (C31_explicit_partial s tr m.nCells hl hf eqn s' hb).1 val hx
  have h4 := (C31_explicit_partial s tr m.nCells hl hf eqn s' hb).2 t dt valT hxT
  obtain ⟨l0, h0, on0, r0⟩ := empty_on (K := K) h hp
  obtain ⟨l1, a1, d1⟩ := h1 l0 on0
  obtain ⟨l2, a2, d2⟩ := h2 l1 a1.on
  have hsrc := h4 ((List.range m.nCells).map (tr.value .spatial id val)) (by simp)
  obtain ⟨l3, a3, d3⟩ := subtractSource_det h e
    (src := (List.range m.nCells).map fun c => ((List.range m.nCells).map (tr.value .spatial id val)).getD c 0 + tr.value .temporal id valT c)
    (by simp) l2 a2.on
  have he0 : ∀ ls : LinearSystem K, ls.On sp m → ∀ out, ls.reset e out ↔ out = .ok l0 := by
    intro ls ho out
    rw [C16_reset]
    have : createEmptyLinearSystem sp = (.ok ⟨⟨List.replicate ls.matrix.values.length 0, ls.matrix.colIdxs,
      ls.matrix.rowOffs⟩, List.replicate ls.rhs.length 0⟩ : Res (LinearSystem K)) := by
      have hr : (⟨List.replicate sp.colIdxs.length (0 : K), sp.colIdxs, sp.rowPtrs⟩ : CSR K).nRows = m.nCells := by
        simp [CSR.nRows, hp.rows.len]
      unfold createEmptyLinearSystem LinearSystem.mk'
      rw [if_pos (by rw [hr]; simp [hp.dlen]), ho.cols, ho.rowsEq, ho.vals, ho.rhsLen, hp.dlen]
    rw [← this, h0]
  refine ⟨l3, fun ls ho out => ?_, a3.on, fun x c hc => ?_⟩
  · unfold assembleExpr
    refine Iff.trans (NR.bind_iff (explicitN_det h3) out) ?_
    refine Iff.trans (NR.bind_iff hsrc out) ?_
    refine Iff.trans (NR.bind_iff (he0 ls ho) out) ?_
    refine Iff.trans (NR.bind_iff d1 out) ?_
    refine Iff.trans (NR.bind_iff d2 out) ?_
    exact d3 out
  · rw [a3.implicit h hp a2.on x hc, a2.implicit h hp a1.on x hc, a1.implicit h hp on0 x hc, r0, zero_add,
      implicitResidual_source (m := m) (fun i => ix ((List.range m.nCells).map fun c =>
        ((List.range m.nCells).map (tr.value .spatial id val)).getD c 0 + tr.value .temporal id valT c) i * m.vol i)]
    simp only [ix]
    rw [getD_range_map _ _ _ hc, getD_range_map _ _ _ hc]
    ring

/-- Assembling again, or with other contents, changes nothing. -/
theorem C46_again (e : ExecKind) {m : Mesh K} (h : m.WF) {sp : SparsityPattern} (hp : sp.For m)
    (s : OpHeap K K) (tr : ExT K) (hl : ∀ k, ∀ h ∈ tr.leaves k, h < s.length) (hf : tr.FieldsOK s m.nCells)
    (eqn : Expr) (s' : OpHeap K K) (hb : tr.build s = .ok (eqn, s')) (t dt : K)
    (dv dvT : Nat → Slot → K) (dr drT val valT : Nat → Nat → K)
    (hi : ∀ h ∈ tr.leaves .spatial, ∃ o, s[h]? = some o ∧ ImplTerm m sp 0 0 o (dv h) (dr h))
    (ht : ∀ h ∈ tr.leaves .temporal, ∃ o, s[h]? = some o ∧ ImplTerm m sp t dt o (dvT h) (drT h))
    (hx : ∀ h ∈ tr.leaves .spatial, ∃ o, s[h]? = some o ∧ ExplTerm m.nCells 0 0 o (val h))
    (hxT : ∀ h ∈ tr.leaves .temporal, ∃ o, s[h]? = some o ∧ ExplTerm m.nCells t dt o (valT h))
    (ls : LinearSystem K) (ho : ls.On sp m) (out) :
    (assembleExpr e m s' eqn t dt ls >>= assembleExpr e m s' eqn t dt) out ↔ assembleExpr e m s' eqn t dt ls out := by
  obtain ⟨l, hd, hon, -⟩ := C46_assemble e h hp s tr hl hf eqn s' hb t dt dv dvT dr drT val valT hi ht hx hxT
  refine Iff.trans (NR.bind_iff (hd ls ho) out) ?_
  rw [hd l hon, hd ls ho]

/-- The hypotheses are met: a transient equation with an implicit time derivative, implicit divergence and source and an explicit
source on the fan mesh, on the parallel executors. -/
example : (∀ h ∈ [0, 1, 2], ∃ o, (fanOps .parallel ++ [ddtOp .parallel (fanMesh 1 2) fanOrdered fanField [1, 1, 1] .implicit (Coeff.ofScalar 1)])[h]? = some o ∧
      ImplTerm (fanMesh 1 2) fanOrdered 0 0 o (fanDv h) (fanDr h) ∧ ExplTerm (fanMesh 1 2).nCells 0 0 o (fanVal h)) ∧
    (∀ h ∈ [3], ∃ o, (fanOps .parallel ++ [ddtOp .parallel (fanMesh 1 2) fanOrdered fanField [1, 1, 1] .implicit (Coeff.ofScalar 1)])[h]? = some o ∧
      ImplTerm (fanMesh 1 2) fanOrdered 0 (1 / 10) o (diagDelta fun i => 1 * (fanMesh 1 2).vol i / (1 / 10)) (fun i => 1 * (fanMesh 1 2).vol i / (1 / 10) * ix [1, 1, 1] i) ∧
      ExplTerm (fanMesh 1 2).nCells 0 (1 / 10) o (fun _ => 0)) := by
  constructor
  · intro h hh
    obtain ⟨o, h1, h2⟩ := fan_term .parallel h hh
    refine ⟨o, ?_, h2⟩
    rw [List.getElem?_append_left (List.getElem?_eq_some_iff.1 h1).1]
    exact h1
  · intro h hh
    simp only [List.mem_cons, List.not_mem_nil, or_false] at hh
    subst hh
    exact ⟨_, rfl, C31_term_ddt_implicit fanMesh_wf.2 fan_for fanField (old := [1, 1, 1]) rfl .parallel fan_coeff 0 (1 / 10), explTerm_implicit _ _ rfl fan_coeff⟩

/-- **C47 fails**: `solve(t, dt)` of an assembled expression never returns, whatever the expression, the dictionary and the
linear solver. -/
theorem C47_violation (table : SolverTable K) (fvSolution : Dict) (eqn : Expr) (ls : LinearSystem K) (st st' : TimeState K K) :
    ¬ solveExpr table fvSolution eqn ls st (.ok st') := by
  unfold solveExpr
  intro h
  split at h
  · cases h
  · split at h
    · cases h
    · obtain ⟨r1, h1, h2⟩ := (NR.bind_def _ _ _).1 h
      cases r1 with
      | ok solver =>
        obtain ⟨r2, h3, h4⟩ := (NR.bind_def _ _ _).1 h2
        cases r2 <;> cases h4
      | throw e => cases h2
      | abort => cases h2
      | ub => cases h2

/-- An expression with time derivatives, or with no term at all, stops the program before the linear solver is even looked up. -/
theorem C47_stops_at_once (table : SolverTable K) (fvSolution : Dict) (eqn : Expr) (h : eqn.temporal ≠ [] ∨ eqn.spatial = []) (ls : LinearSystem K)
    (st : TimeState K K) (out) : solveExpr table fvSolution eqn ls st out ↔ out = .abort := by
  unfold solveExpr
  by_cases hT : eqn.temporal = []
  · rw [if_pos ⟨by simp [hT], by simp [h.resolve_left (fun g => g hT)]⟩]
    exact Iff.rfl
  · have : 0 < eqn.temporal.length := List.length_pos_of_ne_nil hT
    rw [if_neg (by omega), if_pos this]
    exact Iff.rfl

/-- With a solver that succeeds the program is stopped. -/
theorem C47_stops (table : SolverTable K) (fvSolution : Dict) (eqn : Expr) (hT : eqn.temporal = []) (hS : eqn.spatial ≠ []) (ls : LinearSystem K)
    (st : TimeState K K) (solver : LinSolver K) (hs : createSolver table fvSolution = .ok solver) (x : List K)
    (hx : ∀ out, solver ls st.sol.internal out ↔ out = .ok x) (out) : solveExpr table fvSolution eqn ls st out ↔ out = .abort := by
  unfold solveExpr
  rw [if_neg (by simp [hS]), if_neg (by simp [hT])]
  refine Iff.trans (NR.bind_iff (a := solver) (fun o => by rw [hs]; exact Iff.rfl) out) ?_
  exact NR.bind_iff hx out

end NeoFOAM
