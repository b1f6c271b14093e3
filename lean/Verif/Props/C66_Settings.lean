import Verif.Model.Handles
import Verif.Props.C56_RungeKutta
import Verif.Props.C33_BackwardEuler

/-!
# C66 – a time integrator keeps the settings it was created with

Forward Euler does. The other two read dictionaries they only refer to when they are used: settings changed after the construction are
used, and a dictionary that has been destroyed is read.
-/
namespace NeoFOAM
variable {K : Type} [Field K]

/-- What can happen to a program with a time integrator: a dictionary gets another content (or, with `none`, is destroyed), or the
integrator makes a step. -/
inductive IntEvent (K : Type) where
  | dict (a : Nat) (d : Option Dict)
  | step (ops : OpsOf K K) (eqn : Expr) (t dt : K)

/-- Running a history. -/
def runEvents (e : ExecKind) (m : Mesh K) (bcs : List (VolumeBoundary K)) (table : SolverTable K) :
    List (IntEvent K) → Dicts → TimeInt K → TimeState K K → NR (TimeInt K × TimeState K K)
  | [], _, T, st => pure (T, st)
  | .dict a d :: es, ds, T, st => runEvents e m bcs table es (ds.set a d) T st
  | .step ops eqn t dt :: es, ds, T, st => do
    let r ← T.solve e m bcs table ds ops eqn t dt st
    runEvents e m bcs table es ds r.1 r.2

/-- The steps of a history. -/
def IntEvent.steps (es : List (IntEvent K)) : List (IntEvent K) := es.filter fun x => match x with | .dict _ _ => false | .step .. => true

/-- The history does not touch the dictionary at `a`. -/
def IntEvent.Spares (es : List (IntEvent K)) (a : Nat) : Prop := ∀ d, IntEvent.dict a d ∉ es

section proofs

theorem nr_lift_bind {α β : Type} (a : α) (k : α → NR β) : (NR.lift (.ok a) >>= k) = k a := by
  funext out
  apply propext
  exact ⟨fun ⟨r, h1, h2⟩ => by cases h1; exact h2, fun h => ⟨_, rfl, h⟩⟩

theorem nr_pure_bind {α β : Type} (a : α) (k : α → NR β) : ((pure a : NR α) >>= k) = k a := nr_lift_bind a k

theorem nr_lift_ub_bind {α β : Type} (k : α → NR β) : (NR.lift .ub >>= k) = NR.lift .ub := by
  funext out
  apply propext
  exact ⟨fun ⟨r, h1, h2⟩ => by cases h1; exact h2, fun h => ⟨_, rfl, h⟩⟩

theorem nr_lift_abort_bind {α β : Type} (k : α → NR β) : (NR.lift .abort >>= k) = NR.lift .abort := by
  funext out
  apply propext
  exact ⟨fun ⟨r, h1, h2⟩ => by cases h1; exact h2, fun h => ⟨_, rfl, h⟩⟩

theorem nr_lift_throw_bind {α β : Type} (x : Exn) (k : α → NR β) : (NR.lift (.throw x) >>= k) = NR.lift (.throw x) := by
  funext out
  apply propext
  exact ⟨fun ⟨r, h1, h2⟩ => by cases h1; exact h2, fun h => ⟨_, rfl, h⟩⟩

theorem nr_bind_pure {α : Type} (R : NR α) : (R >>= pure) = R := by
  funext out
  apply propext
  constructor
  · rintro ⟨r, h1, h2⟩
    cases r <;> cases h2 <;> exact h1
  · intro h
    refine ⟨out, h, ?_⟩
    cases out <;> rfl

theorem nr_bind_assoc {α β γ : Type} (R : NR α) (k : α → NR β) (l : β → NR γ) : (R >>= k >>= l) = R >>= fun a => k a >>= l := by
  funext out
  apply propext
  constructor
  · rintro ⟨r, ⟨q, h1, h2⟩, h3⟩
    refine ⟨q, h1, ?_⟩
    cases q with
    | ok a => exact ⟨r, h2, h3⟩
    | _ => cases h2; exact h3
  · rintro ⟨q, h1, h2⟩
    cases q with
    | ok a =>
      obtain ⟨r, h3, h4⟩ := h2
      exact ⟨r, ⟨_, h1, h3⟩, h4⟩
    | _ => cases h2; exact ⟨_, ⟨_, h1, rfl⟩, rfl⟩

theorem read_set {ds : Dicts} {a b : Nat} (h : a ≠ b) (d : Option Dict) : Dicts.read (ds.set a d) b = ds.read b := by
  unfold Dicts.read
  rw [List.getElem?_set_ne h]

theorem solve_dicts {e : ExecKind} {m : Mesh K} {bcs : List (VolumeBoundary K)} {table : SolverTable K} {ds ds' : Dicts} {ops : OpsOf K K}
    {eqn : Expr} {t dt : K} {T : TimeInt K} (h1 : ds.read T.scheme = ds'.read T.scheme) (h2 : ds.read T.sol = ds'.read T.sol) (st : TimeState K K) :
    T.solve e m bcs table ds ops eqn t dt st = T.solve e m bcs table ds' ops eqn t dt st := by
  unfold TimeInt.solve rkDictionary
  rw [h1, h2]

/-- The places of the dictionaries never change. -/
theorem solve_places {e : ExecKind} {m : Mesh K} {bcs : List (VolumeBoundary K)} {table : SolverTable K} {ds : Dicts} {ops : OpsOf K K}
    {eqn : Expr} {t dt : K} {T T' : TimeInt K} {st st' : TimeState K K} (h : T.solve e m bcs table ds ops eqn t dt st (.ok (T', st'))) :
    T'.scheme = T.scheme ∧ T'.sol = T.sol := by
  obtain ⟨a, b, impl⟩ := T
  cases impl with
  | none => cases h
  | some i =>
    cases i with
    | forward =>
      obtain ⟨r, -, h⟩ := h
      cases r <;> cases h
      exact ⟨rfl, rfl⟩
    | backward =>
      obtain ⟨r, -, h⟩ := h
      cases r with
      | ok d =>
        obtain ⟨r, -, h⟩ := h
        cases r <;> cases h
        exact ⟨rfl, rfl⟩
      | _ => cases h
    | rk o =>
      obtain ⟨r, -, h⟩ := h
      cases r with
      | ok d =>
        obtain ⟨r, -, h⟩ := h
        cases r <;> cases h
        exact ⟨rfl, rfl⟩
      | _ => cases h

/-- An integrator that no longer looks at its dictionaries. -/
def TimeInt.SetUp (T : TimeInt K) : Prop := T.impl = some .forward ∨ ∃ o x, T.impl = some (.rk o) ∧ o.expr = some x

theorem solve_setUp {e : ExecKind} {m : Mesh K} {bcs : List (VolumeBoundary K)} {table : SolverTable K} {T : TimeInt K} (hT : T.SetUp)
    (ds ds' : Dicts) (ops : OpsOf K K) (eqn : Expr) (t dt : K) (st : TimeState K K) :
    T.solve e m bcs table ds ops eqn t dt st = T.solve e m bcs table ds' ops eqn t dt st := by
  obtain ⟨a, b, impl⟩ := T
  rcases hT with h | ⟨o, x, h, hx⟩
  · cases h; rfl
  · cases h
    simp only [TimeInt.solve, rkDictionary, hx]

theorem evolve_expr {e : ExecKind} {o o' : RKObj K} {st : TimeState K K} {dt : K} (h : arkEvolve e o st dt (.ok o')) : o'.expr = o.expr := by
  obtain ⟨r, -, h⟩ := h
  cases r <;> cases h
  rfl

/-- After its first step a Runge-Kutta integrator is set up. -/
theorem rk_setUp {e : ExecKind} {d : Dict} {ops : OpsOf K K} {eqn : Expr} {o o' : RKObj K} {st st' : TimeState K K} {t dt : K}
    (h : rungeKutta e d ops eqn o st t dt (.ok (o', st'))) : ∃ x, o'.expr = some x := by
  obtain ⟨r, h1, h⟩ := h
  cases r with
  | ok o1 =>
    obtain ⟨r, h2, h⟩ := h
    cases r with
    | ok o2 =>
      obtain ⟨r, -, h⟩ := h
      cases r with
      | ok u =>
        obtain ⟨r, -, h⟩ := h
        cases r with
        | ok v =>
          cases h
          rw [evolve_expr h2]
          have h1 : rkEnsure d ops eqn _ t o = .ok o1 := h1.symm
          unfold rkEnsure at h1
          cases ho : o.expr with
          | none =>
            rw [ho] at h1
            unfold rkInit at h1
            obtain ⟨k, -, h1⟩ := Res.bind_eq_ok.1 h1
            cases k with
            | str s =>
              obtain ⟨_, -, h1⟩ := Res.bind_eq_ok.1 h1
              cases h1
              exact ⟨_, rfl⟩
            | _ => cases h1
          | some x =>
            rw [ho] at h1
            cases h1
            exact ⟨x, ho⟩
        | _ => cases h
      | _ => cases h
    | _ => cases h
  | _ => cases h

theorem setUp_solve {e : ExecKind} {m : Mesh K} {bcs : List (VolumeBoundary K)} {table : SolverTable K} {ds : Dicts} {ops : OpsOf K K}
    {eqn : Expr} {t dt : K} {T T' : TimeInt K} {st st' : TimeState K K} (hT : T.SetUp) (h : T.solve e m bcs table ds ops eqn t dt st (.ok (T', st'))) :
    T'.SetUp := by
  obtain ⟨a, b, impl⟩ := T
  rcases hT with hi | ⟨o, x, hi, -⟩
  · cases hi
    obtain ⟨r, -, h⟩ := h
    cases r <;> cases h
    exact Or.inl rfl
  · cases hi
    obtain ⟨r, -, h⟩ := h
    cases r with
    | ok d =>
      obtain ⟨r, h1, h⟩ := h
      cases r with
      | ok r =>
        cases h
        obtain ⟨x, hx⟩ := rk_setUp (o' := r.1) (st' := r.2) h1
        exact Or.inr ⟨r.1, x, rfl, hx⟩
      | _ => cases h
    | _ => cases h

theorem runEvents_setUp (e : ExecKind) (m : Mesh K) (bcs : List (VolumeBoundary K)) (table : SolverTable K) (es : List (IntEvent K)) :
    ∀ (ds ds' : Dicts) (T : TimeInt K), T.SetUp → ∀ (st : TimeState K K) (out),
    (runEvents e m bcs table es ds T st out ↔ runEvents e m bcs table (IntEvent.steps es) ds' T st out) := by
  induction es with
  | nil => intro ds ds' T _ st out; exact Iff.rfl
  | cons x es ih =>
    intro ds ds' T hT st out
    cases x with
    | dict a d => exact ih (ds.set a d) ds' T hT st out
    | step ops eqn t dt =>
      change (T.solve e m bcs table ds ops eqn t dt st >>= fun r => runEvents e m bcs table es ds r.1 r.2) out ↔
        (T.solve e m bcs table ds' ops eqn t dt st >>= fun r => runEvents e m bcs table (IntEvent.steps es) ds' r.1 r.2) out
      rw [solve_setUp hT ds ds']
      constructor
      · rintro ⟨r, k1, k2⟩
        refine ⟨r, k1, ?_⟩
        cases r with
        | ok r => exact (ih ds ds' r.1 (setUp_solve hT k1) r.2 out).1 k2
        | _ => exact k2
      · rintro ⟨r, k1, k2⟩
        refine ⟨r, k1, ?_⟩
        cases r with
        | ok r => exact (ih ds ds' r.1 (setUp_solve hT k1) r.2 out).2 k2
        | _ => exact k2

end proofs

/-- **C66, untouched dictionaries**: a history that does not touch the two dictionaries given at construction has the outcomes of its
steps alone, whatever it does to other dictionaries; for every integrator. -/
theorem C66_spared_partial (e : ExecKind) (m : Mesh K) (bcs : List (VolumeBoundary K)) (table : SolverTable K) (es : List (IntEvent K))
    (ds : Dicts) (T : TimeInt K) (h1 : IntEvent.Spares es T.scheme) (h2 : IntEvent.Spares es T.sol) (st : TimeState K K) (out) :
    runEvents e m bcs table es ds T st out ↔ runEvents e m bcs table (IntEvent.steps es) ds T st out := by
  suffices H : ∀ es : List (IntEvent K), ∀ (ds ds' : Dicts) (T : TimeInt K) (st : TimeState K K), IntEvent.Spares es T.scheme → IntEvent.Spares es T.sol →
      ds.read T.scheme = ds'.read T.scheme → ds.read T.sol = ds'.read T.sol → ∀ out,
      (runEvents e m bcs table es ds T st out ↔ runEvents e m bcs table (IntEvent.steps es) ds' T st out) from
    H es ds ds T st h1 h2 rfl rfl out
  intro es
  induction es with
  | nil => intro ds ds' T st _ _ _ _ out; exact Iff.rfl
  | cons x es ih =>
    intro ds ds' T st h1 h2 e1 e2 out
    cases x with
    | dict a d =>
      have n1 : a ≠ T.scheme := fun h => h1 d (h ▸ List.mem_cons_self)
      have n2 : a ≠ T.sol := fun h => h2 d (h ▸ List.mem_cons_self)
      exact ih (ds.set a d) ds' T st (fun d h => h1 d (List.mem_cons_of_mem _ h)) (fun d h => h2 d (List.mem_cons_of_mem _ h))
        (by rw [read_set n1, e1]) (by rw [read_set n2, e2]) out
    | step ops eqn t dt =>
      change (T.solve e m bcs table ds ops eqn t dt st >>= fun r => runEvents e m bcs table es ds r.1 r.2) out ↔
        (T.solve e m bcs table ds' ops eqn t dt st >>= fun r => runEvents e m bcs table (IntEvent.steps es) ds' r.1 r.2) out
      rw [solve_dicts e1 e2 st]
      constructor
      · rintro ⟨r, k1, k2⟩
        refine ⟨r, k1, ?_⟩
        cases r with
        | ok r =>
          obtain ⟨p1, p2⟩ := solve_places k1
          exact (ih ds ds' r.1 r.2 (by rw [p1]; exact fun d h => h1 d (List.mem_cons_of_mem _ h))
            (by rw [p2]; exact fun d h => h2 d (List.mem_cons_of_mem _ h)) (by rw [p1, e1]) (by rw [p2, e2]) out).1 k2
        | _ => exact k2
      · rintro ⟨r, k1, k2⟩
        refine ⟨r, k1, ?_⟩
        cases r with
        | ok r =>
          obtain ⟨p1, p2⟩ := solve_places k1
          exact (ih ds ds' r.1 r.2 (by rw [p1]; exact fun d h => h1 d (List.mem_cons_of_mem _ h))
            (by rw [p2]; exact fun d h => h2 d (List.mem_cons_of_mem _ h)) (by rw [p1, e1]) (by rw [p2, e2]) out).2 k2
        | _ => exact k2

/-- **C66, a new integrator**: created with dictionaries holding `d1` and `d2`, it makes its first step as `timeIntegrate`, the model used
by the theorems on time stepping. -/
theorem C66_first (e : ExecKind) (m : Mesh K) (bcs : List (VolumeBoundary K)) (table : SolverTable K) (ds : Dicts) (a b : Nat) {d1 d2 : Dict}
    (h1 : ds.read a = .ok d1) (h2 : ds.read b = .ok d2) (ops : OpsOf K K) (eqn : Expr) (t dt : K) (st : TimeState K K) (out : Res (TimeState K K)) :
    (do
      let T ← NR.lift (TimeInt.create ds a b)
      let r ← T.solve e m bcs table ds ops eqn t dt st
      return r.2 : NR (TimeState K K)) out ↔ timeIntegrate e m bcs table d1 d2 ops eqn st t dt out := by
  unfold TimeInt.create timeIntegrate
  rw [h1, Res.ok_bind]
  cases hd : d1.get .str "type" with
  | ok v =>
    rw [Res.ok_bind, nr_lift_bind]
    split
    · rw [Res.pure_eq, nr_lift_bind]
      simp only [TimeInt.solve, nr_bind_assoc, nr_pure_bind, nr_bind_pure]
    · rw [Res.pure_eq, nr_lift_bind]
      simp only [TimeInt.solve, h2, nr_lift_bind, nr_bind_assoc, nr_pure_bind, nr_bind_pure]
    · rw [Res.pure_eq, nr_lift_bind]
      simp only [TimeInt.solve, rkDictionary, RKObj.new, h1, nr_lift_bind, nr_bind_assoc, nr_pure_bind, nr_bind_pure]
    · rw [nr_lift_abort_bind]
      split <;> first | rfl | (exfalso; simp_all)
  | throw x => rw [Res.throw_bind, nr_lift_throw_bind, nr_lift_throw_bind]
  | abort => rw [Res.abort_bind, nr_lift_abort_bind, nr_lift_abort_bind]
  | ub => rw [Res.ub_bind, nr_lift_ub_bind, nr_lift_ub_bind]

/-- **C66, forward Euler**: whatever happens to the dictionaries after the construction, changed or destroyed, the history has the outcomes
of its steps alone. -/
theorem C66_forward (e : ExecKind) (m : Mesh K) (bcs : List (VolumeBoundary K)) (table : SolverTable K) (es : List (IntEvent K))
    (ds ds' : Dicts) (a b : Nat) (st : TimeState K K) (out) :
    runEvents e m bcs table es ds ⟨a, b, some .forward⟩ st out ↔ runEvents e m bcs table (IntEvent.steps es) ds' ⟨a, b, some .forward⟩ st out :=
  runEvents_setUp e m bcs table es ds ds' _ (Or.inl rfl) st out

/-- **C66, Runge-Kutta after its first step**: likewise. -/
theorem C66_rk_kept (e : ExecKind) (m : Mesh K) (bcs : List (VolumeBoundary K)) (table : SolverTable K) {ds0 ds ds' : Dicts} {a b : Nat}
    {o : RKObj K} {ops : OpsOf K K} {eqn : Expr} {t dt : K} {st0 st : TimeState K K} {T : TimeInt K}
    (h : TimeInt.solve e m bcs table ds0 ops eqn t dt ⟨a, b, some (.rk o)⟩ st0 (.ok (T, st))) (es : List (IntEvent K)) (out) :
    runEvents e m bcs table es ds T st out ↔ runEvents e m bcs table (IntEvent.steps es) ds' T st out := by
  refine runEvents_setUp e m bcs table es ds ds' T ?_ st out
  obtain ⟨r, -, h⟩ := h
  cases r with
  | ok d =>
    obtain ⟨r, h1, h⟩ := h
    cases r with
    | ok r =>
      cases h
      obtain ⟨x, hx⟩ := rk_setUp (o' := r.1) (st' := r.2) h1
      exact Or.inr ⟨r.1, x, rfl, hx⟩
    | _ => cases h
  | _ => cases h

/-- **C66 fails for backward Euler**: a step uses what the solution dictionary holds at that moment, not what it held at the construction; … -/
theorem C66_backward_violation (e : ExecKind) (m : Mesh K) (bcs : List (VolumeBoundary K)) (table : SolverTable K) (ds : Dicts) (a b : Nat)
    (hb : b < ds.length) (d : Dict) (ops : OpsOf K K) (eqn : Expr) (t dt : K) (st : TimeState K K) (out : Res (TimeInt K × TimeState K K)) :
    runEvents e m bcs table [.dict b (some d), .step ops eqn t dt] ds ⟨a, b, some .backward⟩ st out ↔
      (do let st' ← backwardEuler e m table d ops eqn st t dt
          return (⟨a, b, some .backward⟩, st') : NR (TimeInt K × TimeState K K)) out := by
  have hr : Dicts.read (ds.set b (some d)) b = .ok d := by simp [Dicts.read, hb]
  change (TimeInt.solve e m bcs table (ds.set b (some d)) ops eqn t dt ⟨a, b, some .backward⟩ st >>= pure) out ↔ _
  rw [nr_bind_pure]
  simp only [TimeInt.solve, hr, nr_lift_bind]

/-- … and if it has been destroyed, the step is undefined behaviour. -/
theorem C66_backward_dangling (e : ExecKind) (m : Mesh K) (bcs : List (VolumeBoundary K)) (table : SolverTable K) (ds : Dicts) (a b : Nat)
    (ops : OpsOf K K) (eqn : Expr) (t dt : K) (st : TimeState K K) (out : Res (TimeInt K × TimeState K K)) :
    runEvents e m bcs table [.dict b none, .step ops eqn t dt] ds ⟨a, b, some .backward⟩ st out ↔ out = .ub := by
  have hr : Dicts.read (ds.set b none) b = .ub := by
    unfold Dicts.read
    by_cases hb : b < ds.length <;> simp [hb]
  change (TimeInt.solve e m bcs table (ds.set b none) ops eqn t dt ⟨a, b, some .backward⟩ st >>= pure) out ↔ _
  rw [nr_bind_pure]
  simp only [TimeInt.solve, hr, nr_lift_ub_bind]
  exact Iff.rfl

/-- **C66 fails for Runge-Kutta before its first step**: the method is the one the scheme dictionary names at that moment; … -/
theorem C66_rk_violation (e : ExecKind) (m : Mesh K) (bcs : List (VolumeBoundary K)) (table : SolverTable K) (ds : Dicts) (a b : Nat)
    (ha : a < ds.length) (d : Dict) (ops : OpsOf K K) (eqn : Expr) (t dt : K) (st : TimeState K K) (out : Res (TimeInt K × TimeState K K)) :
    runEvents e m bcs table [.dict a (some d), .step ops eqn t dt] ds ⟨a, b, some (.rk .new)⟩ st out ↔
      (do let r ← rungeKutta e d ops eqn .new st t dt
          return (⟨a, b, some (.rk r.1)⟩, r.2) : NR (TimeInt K × TimeState K K)) out := by
  have hr : Dicts.read (ds.set a (some d)) a = .ok d := by simp [Dicts.read, ha]
  change (TimeInt.solve e m bcs table (ds.set a (some d)) ops eqn t dt ⟨a, b, some (.rk .new)⟩ st >>= pure) out ↔ _
  rw [nr_bind_pure]
  simp only [TimeInt.solve, rkDictionary, RKObj.new, hr, nr_lift_bind]

/-- … and if it has been destroyed, the step is undefined behaviour. -/
theorem C66_rk_dangling (e : ExecKind) (m : Mesh K) (bcs : List (VolumeBoundary K)) (table : SolverTable K) (ds : Dicts) (a b : Nat)
    (ops : OpsOf K K) (eqn : Expr) (t dt : K) (st : TimeState K K) (out : Res (TimeInt K × TimeState K K)) :
    runEvents e m bcs table [.dict a none, .step ops eqn t dt] ds ⟨a, b, some (.rk .new)⟩ st out ↔ out = .ub := by
  have hr : Dicts.read (ds.set a none) a = .ub := by
    unfold Dicts.read
    by_cases hb : a < ds.length <;> simp [hb]
  change (TimeInt.solve e m bcs table (ds.set a none) ops eqn t dt ⟨a, b, some (.rk .new)⟩ st >>= pure) out ↔ _
  rw [nr_bind_pure]
  simp only [TimeInt.solve, rkDictionary, RKObj.new, hr, nr_lift_ub_bind]
  exact Iff.rfl

/-- The two dictionaries of a program that solves with the solver `exact`. -/
def settings : Dicts := [some [("type", .str "backwardEuler")], some backwardDict]

/-- **C66 fails, an instance**: a decay equation on one cell, integrator created by `TimeIntegration(scheme, solution)`. The step returns;
if the solution dictionary is given another content after the construction, it does not. -/
theorem C66_backward_example :
    ∃ T : TimeInt ℚ, TimeInt.create settings 0 1 = .ok T ∧
      (∃ r, runEvents .serial cell0 [] [("exact", fun _ => anySolution)] [.step decayOps ⟨[0], [1]⟩ 0 1] settings T cell0State (.ok r)) ∧
      ∀ r, ¬ runEvents .serial cell0 [] [("exact", fun _ => anySolution)] [.dict 1 (some [("solver", .str "other")]), .step decayOps ⟨[0], [1]⟩ 0 1]
        settings T cell0State (.ok r) := by
  refine ⟨⟨0, 1, some .backward⟩, rfl, ?_, ?_⟩
  · obtain ⟨st', h⟩ := C33_violation.1
    have hds : AsksFor backwardDict "backwardEuler" := ⟨_, rfl, rfl⟩
    have h := (dslSolve_backward _ _ _ _ [] hds decayOps (eqn := ⟨[0], [1]⟩) (by simp) _ _ _ _).1 h
    refine ⟨(⟨0, 1, some .backward⟩, st'), ?_⟩
    change (TimeInt.solve _ _ _ _ settings _ _ _ _ ⟨0, 1, some .backward⟩ _ >>= pure) _
    rw [nr_bind_pure]
    have hr : settings.read 1 = .ok backwardDict := rfl
    simp only [TimeInt.solve, hr, nr_lift_bind]
    exact ⟨_, h, rfl⟩
  · intro r h
    have h := (C66_backward_violation _ _ _ _ settings 0 1 (by decide) _ _ _ _ _ _ _).1 h
    obtain ⟨q, hq, h⟩ := h
    cases q with
    | ok st =>
      obtain ⟨_, -, hq⟩ := hq
      rename_i x
      cases x with
      | ok src =>
        obtain ⟨x, -, hq⟩ := hq
        cases x with
        | ok ls =>
          obtain ⟨x, hx, hq⟩ := hq
          have hx : x = .abort := hx
          subst hx
          cases hq
        | _ => cases hq
      | _ => cases hq
    | _ => cases h

/-- A history meeting the hypotheses of `C66_spared_partial`: the integrator of `settings`, and a third dictionary that is destroyed. -/
example : IntEvent.Spares ([.dict 2 none, .step decayOps ⟨[0], [1]⟩ 0 1] : List (IntEvent ℚ)) 0 ∧
    IntEvent.Spares ([.dict 2 none, .step decayOps ⟨[0], [1]⟩ 0 1] : List (IntEvent ℚ)) 1 := by
  constructor <;> intro d h <;> simp at h

end NeoFOAM
