import Verif.Props.C33_BackwardEuler

/-!
# C45 – the linear solver settings come from the solution dictionary

True for steady expressions. For transient ones `solve` passes `fvSchemes` on as the solution dictionary, so `fvSolution` is
never looked at.
-/
namespace NeoFOAM
variable {K : Type} [Field K]

/-- **C45 for steady expressions**: what `solve` does depends on `fvSolution` alone. -/
theorem C45_steady_partial (e : ExecKind) (m : Mesh K) (bcs : List (VolumeBoundary K)) (table : SolverTable K) (fvSchemes fvSchemes' fvSolution : Dict)
    (ops : OpsOf K K) {eqn : Expr} (hT : eqn.temporal = []) (st : TimeState K K) (t dt : K) (out) :
    dslSolve e m bcs table fvSchemes fvSolution ops eqn st t dt out ↔ dslSolve e m bcs table fvSchemes' fvSolution ops eqn st t dt out := by
  unfold dslSolve
  rw [if_neg (show ¬ 0 < eqn.temporal.length by simp [hT]), if_neg (show ¬ 0 < eqn.temporal.length by simp [hT])]

/-- A steady solve that returns has used the solver registered under the name found in `fvSolution`, with `fvSolution` as its
settings. -/
theorem C45_steady_named_partial (e : ExecKind) (m : Mesh K) (bcs : List (VolumeBoundary K)) (table : SolverTable K) (fvSchemes fvSolution : Dict)
    (ops : OpsOf K K) {eqn : Expr} (hT : eqn.temporal = []) (st st' : TimeState K K) (t dt : K)
    (h : dslSolve e m bcs table fvSchemes fvSolution ops eqn st t dt (.ok st')) :
    ∃ name make ls, AMap.find? fvSolution "solver" = some (.str name) ∧ AMap.find? table name = some make ∧
      make fvSolution ls st.sol.internal (.ok st'.sol.internal) := by
  unfold dslSolve at h
  split at h
  · cases h
  · rw [if_neg (by simp [hT])] at h
    obtain ⟨r1, h1, h2⟩ := (NR.bind_def _ _ _).1 h
    cases r1 with
    | ok ls =>
      obtain ⟨r2, h3, h4⟩ := (NR.bind_def _ _ _).1 h2
      cases r2 with
      | ok solver =>
        obtain ⟨r3, h5, h6⟩ := (NR.bind_def _ _ _).1 h4
        cases r3 with
        | ok x =>
          cases h6
          have h3 : createSolver table fvSolution = .ok solver := h3.symm
          unfold createSolver at h3
          obtain ⟨a, ha, hb⟩ := Res.bind_eq_ok.1 h3
          cases a with
          | str name =>
            simp only at hb
            cases hf : AMap.find? table name with
            | none => rw [hf] at hb; cases hb
            | some make =>
              rw [hf] at hb
              cases hb
              refine ⟨name, make, ls, ?_, hf, h5⟩
              unfold Dict.get Dict.index AMap.at? at ha
              cases hs : AMap.find? fvSolution "solver" with
              | none => rw [hs] at ha; cases ha
              | some v =>
                rw [hs] at ha
                simp only [Res.ok_bind, anyCast] at ha
                split at ha
                · cases ha; rfl
                · cases ha
          | int i => cases hb
          | i64 i => cases hb
          | field a b => cases hb
          | dict d => cases hb
          | tokens a b => cases hb
          | «opaque» a b => cases hb
        | throw e => cases h6
        | abort => cases h6
        | ub => cases h6
      | throw e => cases h4
      | abort => cases h4
      | ub => cases h4
    | throw e => cases h2
    | abort => cases h2
    | ub => cases h2

/-- **C45 fails for transient expressions**: `fvSolution` has no influence at all. -/
theorem C45_violation_ignored (e : ExecKind) (m : Mesh K) (bcs : List (VolumeBoundary K)) (table : SolverTable K)
    (fvSchemes fvSolution fvSolution' : Dict) (ops : OpsOf K K) {eqn : Expr} (hT : eqn.temporal ≠ []) (st : TimeState K K) (t dt : K) (out) :
    dslSolve e m bcs table fvSchemes fvSolution ops eqn st t dt out ↔ dslSolve e m bcs table fvSchemes fvSolution' ops eqn st t dt out := by
  have : 0 < eqn.temporal.length := List.length_pos_iff.2 hT
  unfold dslSolve
  rw [if_pos this, if_pos this]

/-- **C45 fails for transient expressions**: a backwardEuler step whose solver is named in `fvSolution`, as documented, and
not in `fvSchemes` never returns. -/
theorem C45_violation (e : ExecKind) (m : Mesh K) (bcs : List (VolumeBoundary K)) (table : SolverTable K)
    (fvSchemes fvSolution : Dict) (hd : AsksFor fvSchemes "backwardEuler") (hn : AMap.find? fvSchemes "solver" = none)
    (ops : OpsOf K K) {eqn : Expr} (hT : eqn.temporal ≠ []) (st st' : TimeState K K) (t dt : K) :
    ¬ dslSolve e m bcs table fvSchemes fvSolution ops eqn st t dt (.ok st') := by
  rw [dslSolve_backward e m bcs table fvSolution hd ops hT]
  intro h
  have hc : ∃ x, createSolver table fvSchemes = .throw x := by
    unfold createSolver Dict.get Dict.index AMap.at?
    rw [hn]
    exact ⟨_, rfl⟩
  obtain ⟨x, hc⟩ := hc
  obtain ⟨r1, h1, h2⟩ := (NR.bind_def _ _ _).1 h
  cases r1 with
  | ok src =>
    obtain ⟨r2, h3, h4⟩ := (NR.bind_def _ _ _).1 h2
    cases r2 with
    | ok ls =>
      obtain ⟨r3, h5, h6⟩ := (NR.bind_def _ _ _).1 h4
      have h5 : r3 = createSolver table fvSchemes := h5
      rw [hc] at h5
      subst h5
      cases h6
    | throw e => cases h4
    | abort => cases h4
    | ub => cases h4
  | throw e => cases h2
  | abort => cases h2
  | ub => cases h2

/-- The hypotheses are met. -/
example : AsksFor [("ddtSchemes", .dict [("type", .str "backwardEuler")])] "backwardEuler" ∧
    AMap.find? ([("ddtSchemes", .dict [("type", .str "backwardEuler")])] : Dict) "solver" = none := ⟨⟨_, rfl, rfl⟩, rfl⟩

/-- A steady solve that returns: the run of `C32_violation`. -/
example : ∃ st', dslSolve .parallel (fanMesh 1 2) [] [("exact", fun _ => anySolution)] [] [("solver", .str "exact")] (fun _ => fanOps .parallel)
    ⟨[], [0, 1, 2]⟩ ⟨fanField, none⟩ 0 1 (.ok st') := by
  obtain ⟨_, _, _, st', _, _, _, _, h, _⟩ := C32_violation
  exact ⟨st', h⟩

end NeoFOAM
