import Verif.Props.C71_Changes
import Verif.Props.C76_Written

/-!
# C71 – changes between time steps, backwardEuler with any implicit terms
-/
namespace NeoFOAM
variable {K : Type} [Field K] [LinearOrder K]

/-- The equation of a step with implicit terms only knows the cell values before the step from the recorded old-time field. -/
theorem equation_assign {S : Setting K} {calls : List (Call K)} {tr : ExT K} (hov : tr.Over calls) (hos : ∀ a ∈ calls, a.OfSolution)
    (himp : ∀ a ∈ calls, ¬ a.IsExp) (st : TimeState K K) (o : List K) (ho : st.old = some o) (new : List K) (dt : K) (x : Nat → K) :
    EquationHolds S calls tr dt (st.assign new) x ↔ EquationHolds S calls tr dt st x := by
  have key : ∀ k c, tr.value k id (termValue S calls dt (st.assign new) x) c = tr.value k id (termValue S calls dt st x) c := by
    intro k c
    refine ExT.value_congr k id _ _ c tr fun h hh => ?_
    obtain ⟨a, ha, -⟩ := hov _ h hh
    have hmem : a ∈ calls := List.mem_of_getElem? ha
    simp only [termValue, ha]
    have hs := hos a hmem
    have hi := himp a hmem
    cases a with
    | expDiv => exact (hi trivial).elim
    | expFlux => exact (hi trivial).elim
    | expSource => exact (hi trivial).elim
    | impDdt => simp [Call.value, TimeState.assign, TimeState.oldTime, ho]
    | impSource => rfl
    | impDiv flux of => cases hs; rfl
    | impLaplacian gamma of => cases hs; rfl
  unfold EquationHolds
  exact forall₂_congr fun c _ => by rw [key, key]

/-- **C71, backwardEuler**: for every equation of implicit terms (any mesh, coefficients, composition, boundary data): the user stores any values `new`
in the field after a step has recorded its old values; the next step then solves the equation of the field without the change. -/
theorem C71_backward_terms {S : Setting K} (hS : S.OK) (hv : ∀ c < S.m.nCells, S.m.vol c ≠ 0) (calls : List (Call K)) (tr : ExT K) (hov : tr.Over calls)
    (hfit : ∀ a ∈ calls, a.Fits S.m) (hos : ∀ a ∈ calls, a.OfSolution) (himp : ∀ a ∈ calls, ¬ a.IsExp)
    (hT : tr.leaves .temporal ≠ []) (st : TimeState K K) (ho : st.sol.On S.m) (o : List K) (hold : st.old = some o) (hol : o.length = S.m.nCells)
    (new : List K) (hnew : new.length = S.m.nCells)
    (hf : tr.FieldsOK (callOps S calls (st.assign new)) S.m.nCells) (eqn : Expr) (ops : OpsOf K K)
    (hb : ∀ st, tr.build (callOps S calls st) = .ok (eqn, ops st))
    (bcs : List (VolumeBoundary K)) (table : SolverTable K) (fvSchemes fvSolution : Dict) (hd : AsksFor fvSchemes "backwardEuler") (t dt : K)
    (solver : LinSolver K) (hs : createSolver table fvSchemes = .ok solver) (hex : ExactOn S.m solver) (st' : TimeState K K)
    (hrun : dslSolve S.e S.m bcs table fvSchemes fvSolution ops eqn (st.assign new) t dt (.ok st')) :
    EquationHolds S calls tr dt st st'.sol.cell ∧ (∀ b, st'.sol.entry b = st.sol.entry b) := by
  obtain ⟨h1, -, h3, -⟩ := C76_backward_partial hS hv calls tr hov hfit hos himp hT (st.assign new) ⟨hnew, ho.2, ho.3, ho.4, ho.5⟩
    (by simpa [TimeState.assign, TimeState.oldTime, hold] using hol) hf eqn ops hb bcs table fvSchemes fvSolution hd t dt solver hs hex st' hrun
  exact ⟨(equation_assign hov hos himp st o hold new dt _).1 h1, h3⟩

/-- `imp::ddt(u) + imp::source(1, u)` in one cell, recorded value 3, the user stores 8, `dt = 1`: the step gives 3/2 and not 4. -/
example (eqn : Expr) (ops : OpsOf ℚ ℚ) (hb : ∀ st, ddtPlus.build (callOps cellSetting [.impDdt, .impSource [1] none] st) = .ok (eqn, ops st))
    (st : TimeState ℚ ℚ) (ho : st.sol.On cell0) (hold : st.old = some [3]) (st' : TimeState ℚ ℚ)
    (hrun : dslSolve .serial cell0 [] [("exact", fun _ => anySolution)] backwardDict [] ops eqn (st.assign [8]) 0 1 (.ok st')) :
    st'.sol.cell 0 = 3 / 2 := by
  have h := (C71_backward_terms cellSetting_ok (by
      intro c hc
      have hc : c < 1 := hc
      interval_cases c
      simp [cellSetting, cell0, topoMesh, Mesh.vol]) [.impDdt, .impSource [1] none] ddtPlus (ddtPlus_over _ rfl) (by
      intro a ha
      simp only [List.mem_cons, List.not_mem_nil, or_false] at ha
      rcases ha with rfl | rfl
      · trivial
      · exact ⟨rfl, by simp⟩) (by
      intro a ha
      simp only [List.mem_cons, List.not_mem_nil, or_false] at ha
      rcases ha with rfl | rfl
      · trivial
      · rfl) (by
      intro a ha
      simp only [List.mem_cons, List.not_mem_nil, or_false] at ha
      rcases ha with rfl | rfl <;> exact id) (by simp [ddtPlus, ExT.leaves, OpT.sort]) st ho [3] hold rfl [8] rfl ⟨trivial, trivial⟩ eqn ops hb [] _ backwardDict []
    ⟨_, rfl, rfl⟩ 0 1 anySolution rfl (anySolution_exact.on _) st' hrun).1 0 (by decide)
  simp [ddtPlus, ExT.value, OpT.valueOf, OpT.sort, OpT.value, termValue, Call.value, argCells, TimeState.oldTime, hold, ix] at h
  linarith

end NeoFOAM
