import Verif.Props.C66_Settings

/-!
# C67 – copies of time integrators and of linear solvers work as their originals

A copy of a forward or backward Euler integrator does. Copying a Runge-Kutta integrator is undefined behaviour, and a copy of a linear
solver holds a null pointer that its `solve` dereferences. Moving works, the object moved from can only be destroyed.
-/
namespace NeoFOAM
variable {K : Type} [Field K]

/-- **C67, Euler integrators**: a copy can be made, and every history of it, whatever happens to dictionaries in between, has the outcomes
the original would have. -/
theorem C67_copy_partial (e : ExecKind) (m : Mesh K) (bcs : List (VolumeBoundary K)) (table : SolverTable K) (T : TimeInt K)
    (hT : T.impl = some .forward ∨ T.impl = some .backward) :
    ∃ T', T.copy = .ok T' ∧ ∀ (es : List (IntEvent K)) (ds : Dicts) (st : TimeState K K) (out),
      runEvents e m bcs table es ds T' st out ↔ runEvents e m bcs table es ds T st out := by
  obtain ⟨a, b, impl⟩ := T
  rcases hT with h | h <;> cases h <;> exact ⟨_, rfl, fun _ _ _ _ => Iff.rfl⟩

/-- An integrator made by the constructor, if it is not a Runge-Kutta integrator, is one of those. -/
theorem C67_created {ds : Dicts} {a b : Nat} {d : Dict} {n : String} (hd : ds.read a = .ok d) (hn : d.get .str "type" = .ok (.str n))
    (hrk : n ≠ "Runge-Kutta") {T : TimeInt K} (h : TimeInt.create ds a b = .ok T) : T.impl = some .forward ∨ T.impl = some .backward := by
  unfold TimeInt.create at h
  rw [hd, Res.ok_bind, hn, Res.ok_bind] at h
  by_cases h1 : n = "forwardEuler"
  · subst h1; cases h; exact Or.inl rfl
  by_cases h2 : n = "backwardEuler"
  · subst h2; cases h; exact Or.inr rfl
  · split at h <;> simp_all

/-- **C67 fails for Runge-Kutta**: copying any Runge-Kutta integrator is undefined behaviour. -/
theorem C67_rk_violation (a b : Nat) (o : RKObj K) : TimeInt.copy ⟨a, b, some (.rk o)⟩ = .ub := rfl

/-- So it is for one just made by the constructor. -/
theorem C67_rk_created {ds : Dicts} {a b : Nat} {d : Dict} (hd : ds.read a = .ok d) (hn : d.get .str "type" = .ok (.str "Runge-Kutta")) :
    ∃ T : TimeInt K, TimeInt.create ds a b = .ok T ∧ T.copy = .ub := by
  refine ⟨⟨a, b, some (.rk .new)⟩, ?_, rfl⟩
  unfold TimeInt.create
  rw [hd, Res.ok_bind, hn, Res.ok_bind]
  rfl

/-- **C67, moving an integrator**: the new object makes every history as the old one would have; a step of the object moved from, whatever
its integrator was, is undefined behaviour. -/
theorem C67_move (e : ExecKind) (m : Mesh K) (bcs : List (VolumeBoundary K)) (table : SolverTable K) (T : TimeInt K) :
    (∀ (es : List (IntEvent K)) (ds : Dicts) (st : TimeState K K) (out),
      runEvents e m bcs table es ds T.move.1 st out ↔ runEvents e m bcs table es ds T st out) ∧
    ∀ (ds : Dicts) (ops : OpsOf K K) (eqn : Expr) (t dt : K) (st : TimeState K K) (out),
      T.move.2.solve e m bcs table ds ops eqn t dt st out ↔ out = .ub :=
  ⟨fun _ _ _ _ => Iff.rfl, fun _ _ _ _ _ _ _ => Iff.rfl⟩

omit [Field K] in
/-- **C67, a solver keeps its settings**: a `Solver` made from a dictionary solves every system with the solver the dictionary named at the
construction, with the settings it then held. -/
theorem C67_solver_kept (table : SolverTable K) {d : Dict} {n : String} {f : Dict → LinSolver K} (hd : d.get .str "solver" = .ok (.str n))
    (hf : AMap.find? table n = some f) :
    ∃ S, SolverObj.create table d = .ok S ∧ ∀ (ls : LinearSystem K) (x : List K) (out), S.solve ls x out ↔ f d ls x out := by
  refine ⟨⟨some (f d)⟩, ?_, fun _ _ _ => Iff.rfl⟩
  unfold SolverObj.create createSolver
  rw [hd, Res.ok_bind]
  simp only [hf]
  rfl

omit [Field K] in
/-- **C67 fails for linear solvers**: the copy of every solver made from a dictionary exists, and every `solve` of it is undefined
behaviour. -/
theorem C67_solver_violation (table : SolverTable K) {d : Dict} {S : SolverObj K} (h : SolverObj.create table d = .ok S) :
    ∃ S', S.copy = .ok S' ∧ ∀ (ls : LinearSystem K) (x : List K) (out), S'.solve ls x out ↔ out = .ub := by
  unfold SolverObj.create at h
  obtain ⟨f, -, h⟩ := Res.bind_eq_ok.1 h
  cases h
  exact ⟨_, rfl, fun _ _ _ => Iff.rfl⟩

omit [Field K] in
/-- **C67, moving a solver**: the new object solves as the old one, which can no longer be used. -/
theorem C67_solver_move (S : SolverObj K) (ls : LinearSystem K) (x : List K) (out) :
    (S.move.1.solve ls x out ↔ S.solve ls x out) ∧ (S.move.2.solve ls x out ↔ out = .ub) := ⟨Iff.rfl, Iff.rfl⟩

/-- Integrators and a solver meeting the hypotheses. -/
example : (∃ T : TimeInt ℚ, TimeInt.create settings 0 1 = .ok T ∧ ∃ T', T.copy = .ok T') ∧
    (∃ T : TimeInt ℚ, TimeInt.create [some rkDict] 0 0 = .ok T ∧ T.copy = .ub) ∧
    ∃ S : SolverObj ℚ, SolverObj.create [("exact", fun _ => anySolution)] backwardDict = .ok S :=
  ⟨⟨_, rfl, _, rfl⟩, C67_rk_created rfl rfl, ⟨_, rfl⟩⟩

end NeoFOAM
