import Verif.Props.C34_ForwardEuler

/-!
# C56 – the Runge-Kutta integrator with the Forward-Euler table makes forwardEuler's step

For every expression, mesh, initial field, number of steps and time steps. It does not correct the boundary conditions, so the two
agree only when these do not depend on the cells (`C56_violation`). An integrator that is kept between steps ignores every
expression but the first and every change of the field (`C56_kept`).
-/
namespace NeoFOAM
open Finset
variable {K : Type} [Field K]

/-- The cells lose `dt · f`, all boundary data stays. -/
structure CellStep (m : Mesh K) (f : VolField K K → Nat → K) (dt : K) (φ φ' : VolField K K) : Prop where
  on : φ'.On m
  cells : ∀ c < m.nCells, φ'.cell c = φ.cell c - dt * f φ c
  keep : φ' = { φ with internal := φ'.internal }

/-- A time loop with a new integrator in every step, as `dsl::solve` makes it; step `k` starts at `t k`. -/
def rkLoop (e : ExecKind) (dict : Dict) (ops : OpsOf K K) (eqn : Expr) (t dt : Nat → K) : Nat → TimeState K K → NR (TimeState K K)
  | 0, st => pure st
  | n + 1, st => rkLoop e dict ops eqn t dt n st >>= fun st => rungeKutta e dict ops eqn .new st (t n) (dt n) >>= fun r => pure r.2

/-- A time loop with one integrator object. -/
def rkKeptLoop (e : ExecKind) (dict : Dict) (ops : OpsOf K K) (eqn : Expr) (t dt : Nat → K) :
    Nat → RKObj K × TimeState K K → NR (RKObj K × TimeState K K)
  | 0, s => pure s
  | n + 1, s => rkKeptLoop e dict ops eqn t dt n s >>= fun s => rungeKutta e dict ops eqn s.1 s.2 (t n) (dt n)

section proofs

/-- The cells after a step that starts from `y`. -/
private def rkNew (m : Mesh K) (f : VolField K K → Nat → K) (dt : K) (φ : VolField K K) (y : List K) : List K :=
  List.zipWith (fun y k => y + dt * k) y (((List.range m.nCells).map (f φ)).map fun x => (-1 : K) • x)

private theorem rkNew_length {m : Mesh K} {f : VolField K K → Nat → K} {dt : K} {φ : VolField K K} {y : List K} (hy : y.length = m.nCells) :
    (rkNew m f dt φ y).length = m.nCells := by simp [rkNew, hy]

private theorem rkNew_get {m : Mesh K} {f : VolField K K → Nat → K} {dt : K} {φ : VolField K K} {y : List K} (hy : y.length = m.nCells) {c : Nat}
    (hc : c < m.nCells) : (rkNew m f dt φ y).getD c 0 = ix y c - dt * f φ c := by
  simp only [rkNew, ix, List.getD_eq_getElem?_getD]
  rw [List.getElem?_eq_getElem (by simp [hy, hc]), List.getElem?_eq_getElem (by omega)]
  simp; ring

private theorem rkNew_cell {m : Mesh K} {f : VolField K K → Nat → K} {dt : K} {φ : VolField K K} (ho : φ.On m) {c : Nat} (hc : c < m.nCells) :
    (rkNew m f dt φ φ.internal).getD c 0 = φ.cell c - dt * f φ c := rkNew_get ho.1 hc

private theorem rkNew_step {m : Mesh K} {f : VolField K K → Nat → K} {dt : K} {φ : VolField K K} (ho : φ.On m) :
    CellStep m f dt φ { φ with internal := rkNew m f dt φ φ.internal } :=
  ⟨⟨rkNew_length ho.1, ho.2, ho.3, ho.4, ho.5⟩, fun _ hc => rkNew_cell ho hc, rfl⟩

private theorem toField_det (e : ExecKind) (y dst : List K) (h : y.length = dst.length) (out : Res (List K)) :
    sunNVectorToField e y dst out ↔ out = .ok y := by
  unfold sunNVectorToField
  refine (elemKernel_list e dst.length _ (fun i => ix y i) dst rfl (fun i hi => by rw [rd_getD 0 (by omega)]; rfl) out).trans ?_
  rw [← list_eq_range_map (l := y) (g := fun i => ix y i) h (fun i _ => rfl)]

private theorem nfAssert_true {p : Prop} (h : p) (out) : nfAssert p out ↔ out = .ok () := by
  unfold nfAssert; simp [h]

private theorem nfAssert_false {p : Prop} (h : ¬ p) (out) : nfAssert p out ↔ out = .abort := by
  unfold nfAssert; simp [h]

private theorem evolve_det (e : ExecKind) {m : Mesh K} {f : VolField K K → Nat → K} (o : RKObj K) {ops0 : OpsOf K K} {eqn0 : Expr}
    (he : o.expr = some (ops0, eqn0)) (hy : o.yn.length = m.nCells)
    (hf : ∀ st : TimeState K K, st.sol.On m → AddsTo m.nCells (eqn0.explicitOperation (ops0 st)) (f st.sol))
    (st : TimeState K K) (ho : st.sol.On m) (dt : K) (out) :
    arkEvolve e o st dt out ↔ out = .ok ⟨o.expr, o.tn + dt, rkNew m f dt st.sol o.yn⟩ := by
  unfold arkEvolve
  have h1 : ∀ out, explicitRKSolve e o st o.yn out ↔ out = .ok (((List.range m.nCells).map (f st.sol)).map fun x => (-1 : K) • x) := by
    intro out
    unfold explicitRKSolve
    rw [he, hy]
    exact (NR.bind_iff (explicitN_det (hf st ho)) out).trans (scaleField_det e _ (-1 : K) out)
  exact NR.bind_iff h1 out

/-- One step of an initialised integrator. -/
private theorem rk_det (e : ExecKind) {m : Mesh K} {f : VolField K K → Nat → K} (dict : Dict) (ops : OpsOf K K) (eqn : Expr) (o o1 : RKObj K)
    {ops0 : OpsOf K K} {eqn0 : Expr} (st : TimeState K K) (ho : st.sol.On m) (t dt : K)
    (hi : rkEnsure dict ops eqn st.oldTime t o = .ok o1) (he : o1.expr = some (ops0, eqn0)) (hy : o1.yn.length = m.nCells)
    (hf : ∀ st : TimeState K K, st.sol.On m → AddsTo m.nCells (eqn0.explicitOperation (ops0 st)) (f st.sol)) (out) :
    rungeKutta e dict ops eqn o st t dt out ↔ (t = o1.tn ∧ out = .ok (⟨o1.expr, o1.tn + dt, rkNew m f dt st.sol o1.yn⟩,
      ⟨{ st.sol with internal := rkNew m f dt st.sol o1.yn }, some (rkNew m f dt st.sol o1.yn)⟩)) ∨ (t ≠ o1.tn ∧ out = .abort) := by
  unfold rungeKutta
  have hi' : rkEnsure dict ops eqn (TimeState.oldTime ⟨st.sol, some st.oldTime⟩) t o = .ok o1 := hi
  refine (NR.bind_iff (a := o1) (fun _ => by rw [hi']; exact Iff.rfl) out).trans ?_
  refine (NR.bind_iff (evolve_det e o1 he hy hf ⟨st.sol, some st.oldTime⟩ ho dt) out).trans ?_
  by_cases ht : t = o1.tn
  · refine (NR.bind_iff (nfAssert_true (by rw [ht])) out).trans ?_
    refine (NR.bind_iff (toField_det e _ _ (by rw [rkNew_length hy]; exact ho.1.symm)) out).trans ?_
    simp [ht]
  · have hn : ¬ t + dt = o1.tn + dt := fun h => ht (add_right_cancel h)
    constructor
    · rintro ⟨r, hr, h⟩
      rw [(nfAssert_false hn r).1 hr] at h
      exact .inr ⟨ht, h⟩
    · rintro (⟨h, -⟩ | ⟨-, rfl⟩)
      · exact absurd h ht
      · exact ⟨.abort, (nfAssert_false hn _).2 rfl, rfl⟩

private theorem rk_fresh (e : ExecKind) {m : Mesh K} {f : VolField K K → Nat → K} {dict : Dict}
    (hd : dict.get .str "Runge-Kutta-Method" = .ok (.str "Forward-Euler")) (ops : OpsOf K K) (eqn : Expr)
    (hf : ∀ st : TimeState K K, st.sol.On m → AddsTo m.nCells (eqn.explicitOperation (ops st)) (f st.sol))
    (st : TimeState K K) (ho : st.sol.On m) (hs : st.Synced) (t dt : K) (out) :
    rungeKutta e dict ops eqn .new st t dt out ↔ out = .ok (⟨some (ops, eqn), t + dt, rkNew m f dt st.sol st.sol.internal⟩,
      ⟨{ st.sol with internal := rkNew m f dt st.sol st.sol.internal }, some (rkNew m f dt st.sol st.sol.internal)⟩) := by
  have hi : rkEnsure dict ops eqn st.oldTime t .new = .ok ⟨some (ops, eqn), t, st.sol.internal⟩ := by
    unfold rkEnsure rkInit RKObj.new
    rw [hd, show st.oldTime = st.sol.internal from hs]
    rfl
  refine (rk_det e dict ops eqn .new _ st ho t dt hi rfl ho.1 hf out).trans ?_
  simp

/-- One step of a new integrator starts from the old-time field, whatever the field is; `f` is evaluated at the field. -/
theorem rk_from (e : ExecKind) {m : Mesh K} {f : VolField K K → Nat → K} {dict : Dict}
    (hd : dict.get .str "Runge-Kutta-Method" = .ok (.str "Forward-Euler")) (ops : OpsOf K K) (eqn : Expr)
    (hf : ∀ st : TimeState K K, st.sol.On m → AddsTo m.nCells (eqn.explicitOperation (ops st)) (f st.sol))
    (st : TimeState K K) (ho : st.sol.On m) (hold : st.oldTime.length = m.nCells) (t dt : K) :
    ∃ r, (∀ out, rungeKutta e dict ops eqn .new st t dt out ↔ out = .ok r) ∧ r.2.sol.On m ∧
      r.2.sol = { st.sol with internal := r.2.sol.internal } ∧ r.2.old = some r.2.sol.internal ∧
      ∀ c < m.nCells, r.2.sol.cell c = ix st.oldTime c - dt * f st.sol c := by
  have hi : rkEnsure dict ops eqn st.oldTime t .new = .ok ⟨some (ops, eqn), t, st.oldTime⟩ := by
    unfold rkEnsure rkInit RKObj.new
    rw [hd]
    rfl
  refine ⟨(⟨some (ops, eqn), t + dt, rkNew m f dt st.sol st.oldTime⟩,
      ⟨{ st.sol with internal := rkNew m f dt st.sol st.oldTime }, some (rkNew m f dt st.sol st.oldTime)⟩),
    fun out => (rk_det e dict ops eqn .new _ st ho t dt hi rfl hold hf out).trans (by simp),
    ⟨rkNew_length hold, ho.2, ho.3, ho.4, ho.5⟩, rfl, rfl, fun c hc => rkNew_get hold hc⟩

end proofs

/-- **C56**: for every explicit expression (any composition of operators), mesh, initial field, number of steps and time steps, on every
executor: after `k+1` steps with the Forward-Euler table the cells are those of the explicit Euler iteration, the old-time field
equals the field, the boundary data is what it was, and no other outcome is possible; it makes no difference whether every step has
its own integrator or one object makes all steps, one after the other in time. Missing: the boundary conditions
(`C56_violation`), other tables (`C56_methods`), the coefficient of the time derivative (as in C34). -/
theorem C56_steps_partial (e : ExecKind) {m : Mesh K}
    (s : OpsOf K K) (tr : ExT K) (eqn : Expr) (ops : OpsOf K K) (hbuild : ∀ st, tr.build (s st) = .ok (eqn, ops st))
    (hl : ∀ st, ∀ k, ∀ h ∈ tr.leaves k, h < (s st).length) (hf : ∀ st, tr.FieldsOK (s st) m.nCells)
    (val : VolField K K → Nat → Nat → K)
    (hx : ∀ st : TimeState K K, st.sol.On m → ∀ h ∈ tr.leaves .spatial, ∃ o, (s st)[h]? = some o ∧ ExplTerm m.nCells 0 0 o (val st.sol h))
    (dict : Dict) (hd : dict.get .str "Runge-Kutta-Method" = .ok (.str "Forward-Euler"))
    (st : TimeState K K) (ho : st.sol.On m) (hs : st.Synced) (t dt : Nat → K) :
    ∃ u : Nat → VolField K K, u 0 = st.sol ∧
      (∀ k, CellStep m (fun φ => tr.value .spatial id (val φ)) (dt k) (u k) (u (k + 1))) ∧
      (∀ k out, rkLoop e dict ops eqn t dt (k + 1) st out ↔ out = .ok ⟨u (k + 1), some (u (k + 1)).internal⟩) ∧
      ((∀ k, t (k + 1) = t k + dt k) → ∀ k, ∃ o, ∀ out, rkKeptLoop e dict ops eqn t dt (k + 1) (.new, st) out ↔
        out = .ok (o, ⟨u (k + 1), some (u (k + 1)).internal⟩)) := by
  let f : VolField K K → Nat → K := fun φ => tr.value .spatial id (val φ)
  have hop : ∀ st : TimeState K K, st.sol.On m → AddsTo m.nCells (eqn.explicitOperation (ops st)) (f st.sol) := fun st hon =>
    (C31_explicit_partial (s st) tr m.nCells (hl st) (hf st) eqn _ (hbuild st)).1 (val st.sol) (hx st hon)
  let u : Nat → { φ : VolField K K // φ.On m } := fun n => Nat.rec ⟨st.sol, ho⟩
    (fun k φ => ⟨{ φ.1 with internal := rkNew m f (dt k) φ.1 φ.1.internal }, (rkNew_step φ.2).on⟩) n
  refine ⟨fun n => (u n).1, rfl, fun k => rkNew_step (u k).2, ?_, ?_⟩
  · intro k
    induction k with
    | zero =>
      intro out
      refine (NR.bind_iff (a := st) (fun o => Iff.rfl) out).trans ?_
      exact NR.bind_iff (rk_fresh e hd ops eqn hop st ho hs (t 0) (dt 0)) out
    | succ k ih =>
      intro out
      refine (NR.bind_iff ih out).trans ?_
      exact NR.bind_iff (rk_fresh e hd ops eqn hop ⟨(u (k + 1)).1, some (u (k + 1)).1.internal⟩ (u (k + 1)).2 rfl (t (k + 1)) (dt (k + 1))) out
  · intro ht k
    refine ⟨⟨some (ops, eqn), t k + dt k, (u (k + 1)).1.internal⟩, ?_⟩
    induction k with
    | zero =>
      intro out
      refine (NR.bind_iff (a := (RKObj.new, st)) (fun o => Iff.rfl) out).trans ?_
      exact rk_fresh e hd ops eqn hop st ho hs (t 0) (dt 0) out
    | succ k ih =>
      intro out
      refine (NR.bind_iff ih out).trans ?_
      refine (rk_det e dict ops eqn _ ⟨some (ops, eqn), t k + dt k, (u (k + 1)).1.internal⟩ ⟨(u (k + 1)).1, some (u (k + 1)).1.internal⟩
        (u (k + 1)).2 (t (k + 1)) (dt (k + 1)) rfl rfl (u (k + 1)).2.1 hop out).trans ?_
      simp only [ht k, ne_eq, not_true_eq_false, false_and, or_false, true_and]
      exact Iff.rfl

/-- `dsl::solve` with `type Runge-Kutta` is one step of a new integrator. -/
theorem C56_solve (e : ExecKind) (m : Mesh K) (bcs : List (VolumeBoundary K)) (table : SolverTable K) {fvSchemes dict : Dict} (fvSolution : Dict)
    (hd : fvSchemes.subDict "ddtSchemes" = .ok dict) (ht : dict.get .str "type" = .ok (.str "Runge-Kutta")) (ops : OpsOf K K) {eqn : Expr}
    (hT : eqn.temporal ≠ []) (st : TimeState K K) (t dt : K) (out) :
    dslSolve e m bcs table fvSchemes fvSolution ops eqn st t dt out ↔
      (rungeKutta e dict ops eqn .new st t dt >>= fun r => pure r.2 : NR (TimeState K K)) out := by
  have : 0 < eqn.temporal.length := List.length_pos_iff.2 hT
  unfold dslSolve
  rw [if_neg (by omega), if_pos this]
  refine Iff.trans (NR.bind_iff (a := dict) (fun o => by rw [hd]; exact Iff.rfl) out) ?_
  unfold timeIntegrate
  exact NR.bind_iff (a := Any.str "Runge-Kutta") (fun o => by rw [ht]; exact Iff.rfl) out

/-- Any other method stops the program, also the ones the message lists as supported; a missing or mistyped entry throws. -/
theorem C56_methods (e : ExecKind) (dict : Dict) (ops : OpsOf K K) (eqn : Expr) (st : TimeState K K) (t dt : K) :
    (∀ s, dict.get .str "Runge-Kutta-Method" = .ok (.str s) → s ≠ "Forward-Euler" →
      ∀ out, rungeKutta e dict ops eqn .new st t dt out ↔ out = .abort) ∧
    (∀ x, dict.get .str "Runge-Kutta-Method" = .throw x → ∀ out, rungeKutta e dict ops eqn .new st t dt out ↔ out = .throw x) := by
  constructor
  · intro s hs hn out
    have hi : ∀ old, rkEnsure dict ops eqn old t .new = .abort := by
      intro old
      unfold rkEnsure rkInit RKObj.new stringToERKTable
      rw [hs]
      simp [hn]
    unfold rungeKutta
    constructor
    · rintro ⟨r, hr, h⟩
      have hr : r = _ := hr
      rw [hi] at hr
      subst hr
      exact h
    · rintro rfl
      exact ⟨.abort, (hi _).symm, rfl⟩
  · intro x hx out
    have hi : ∀ old, rkEnsure dict ops eqn old t .new = .throw x := by
      intro old
      unfold rkEnsure rkInit RKObj.new
      rw [hx]
      simp
    unfold rungeKutta
    constructor
    · rintro ⟨r, hr, h⟩
      have hr : r = _ := hr
      rw [hi] at hr
      subst hr
      exact h
    · rintro rfl
      exact ⟨.throw x, (hi _).symm, rfl⟩

/-- An integrator that has made a step ignores the expression and the dictionary it is given later, and starts from its own
solution, not from the field; at any other time than its own it stops the program. -/
theorem C56_kept (e : ExecKind) (dict dict' : Dict) (ops ops' : OpsOf K K) (eqn eqn' : Expr) (o : RKObj K) (x : OpsOf K K × Expr)
    (ho : o.expr = some x) (st : TimeState K K) (t dt : K) :
    (∀ out, rungeKutta e dict ops eqn o st t dt out ↔ rungeKutta e dict' ops' eqn' o st t dt out) ∧
    (t ≠ o.tn → ∀ r, ¬ rungeKutta e dict ops eqn o st t dt (.ok r)) ∧
    ∀ m : Mesh K, ∀ f : VolField K K → Nat → K, st.sol.On m → o.yn.length = m.nCells → t = o.tn →
      (∀ st : TimeState K K, st.sol.On m → AddsTo m.nCells (x.2.explicitOperation (x.1 st)) (f st.sol)) →
      ∃ r, (∀ out, rungeKutta e dict ops eqn o st t dt out ↔ out = .ok r) ∧
        ∀ c < m.nCells, r.2.sol.cell c = ix o.yn c - dt * f st.sol c := by
  have hen : ∀ dict ops eqn old, rkEnsure dict ops eqn old t o = .ok o := by
    intro dict ops eqn old; unfold rkEnsure; rw [ho]
  refine ⟨fun out => ?_, ?_, ?_⟩
  · unfold rungeKutta
    simp only [hen]
  · intro ht r hr
    unfold rungeKutta at hr
    obtain ⟨r1, h1, h⟩ := hr
    have h1 : r1 = _ := h1
    rw [hen] at h1
    subst h1
    obtain ⟨r2, h2, h⟩ := h
    cases r2 with
    | ok o2 =>
      obtain ⟨r3, h3, h⟩ := h
      have h2' : o2.tn = o.tn + dt := by
        unfold arkEvolve at h2
        obtain ⟨r4, h4, h2⟩ := h2
        cases r4 with
        | ok y =>
          have h2 : Res.ok o2 = _ := h2
          cases h2; rfl
        | throw x => cases h2
        | abort => cases h2
        | ub => cases h2
      rw [nfAssert_false (by rw [h2']; exact fun h => ht (add_right_cancel h))] at h3
      subst h3
      cases h
    | throw x => cases h
    | abort => cases h
    | ub => cases h
  · intro m f hon hy ht hf
    obtain ⟨ops0, eqn0⟩ := x
    refine ⟨(⟨o.expr, o.tn + dt, rkNew m f dt st.sol o.yn⟩, ⟨{ st.sol with internal := rkNew m f dt st.sol o.yn }, some (rkNew m f dt st.sol o.yn)⟩),
      fun out => (rk_det e dict ops eqn o o st hon t dt (hen ..) ho hy hf out).trans ?_, fun c hc => rkNew_get hy hc⟩
    simp [ht]

/-- A boundary condition whose stored values do not depend on the cells. -/
def VolBCKind.Constant {V : Type} : VolBCKind V → Prop
  | .fixedValue _ => True
  | .calculated => True
  | .empty => True
  | _ => False

section proofs

theorem bcFinal_constant (m : Mesh K) (φ : VolField K K) (x : List K) (b : Nat) (cs : List (VolumeBoundary K)) (hc : ∀ c ∈ cs, c.kind.Constant) :
    bcFinal m { φ with internal := x } b cs = bcFinal m φ b cs := by
  classical
  unfold bcFinal
  have h0 : ({ φ with internal := x } : VolField K K).entry b = φ.entry b := rfl
  rw [h0]
  generalize φ.entry b = y
  induction cs generalizing y with
  | nil => rfl
  | cons c cs ih =>
    have hcc := hc c (by simp)
    have : (if c.kind.Writes ∧ c.patch.Has b then bcData m { φ with internal := x } b c.kind else y) =
        if c.kind.Writes ∧ c.patch.Has b then bcData m φ b c.kind else y := by
      split
      · next h =>
        cases hk : c.kind with
        | fixedValue v => rfl
        | fixedGradient g => rw [hk] at hcc; exact hcc.elim
        | extrapolated => rw [hk] at hcc; exact hcc.elim
        | calculated => rw [hk] at h; exact h.1.elim
        | empty => rw [hk] at h; exact h.1.elim
      · rfl
    simp only [List.foldl_cons, this]
    exact ih (fun c' h' => hc c' (by simp [h'])) _

/-- Correcting constant conditions again after the cells changed does nothing. -/
theorem correct_constant (e : ExecKind) {m : Mesh K} (h : m.WF) (bcs : List (VolumeBoundary K)) (hb : ∀ c ∈ bcs, c.patch.end_ ≤ m.nBoundaryFaces)
    (hc : ∀ c ∈ bcs, c.kind.Constant) (φ : VolField K K) (ho : φ.On m) (hφ : correctBoundaryConditions e m bcs φ (.ok φ)) (x : List K)
    (hx : x.length = m.nCells) (out) :
    correctBoundaryConditions e m bcs { φ with internal := x } out ↔ out = .ok { φ with internal := x } := by
  have hon : ({ φ with internal := x } : VolField K K).On m := ⟨hx, ho.2, ho.3, ho.4, ho.5⟩
  obtain ⟨φ0, h0, g1, g2, g3⟩ := correctAll_ok e m h bcs φ ho hb _ hφ
  cases h0
  refine NR.iff_of_ok_runs ((correctAll_ok e m h bcs _ hon hb).mono ?_) (correctAll_runs e m bcs _) out
  rintro φ'' ⟨k1, k2, k3⟩
  refine VolField.ext_entry k1 hon k2 (fun b hb' => ?_)
  rw [k3 b hb', bcFinal_constant m φ x b bcs hc, ← g3 b hb']
  rfl

end proofs

/-- With boundary conditions that do not depend on the cells, and are met initially, any number of Runge-Kutta steps give exactly the
outcomes of as many forwardEuler steps. -/
theorem C56_agree_partial (e : ExecKind) {m : Mesh K} (h : m.WF) (bcs : List (VolumeBoundary K)) (hb : ∀ c ∈ bcs, c.patch.end_ ≤ m.nBoundaryFaces)
    (hc : ∀ c ∈ bcs, c.kind.Constant)
    (s : OpsOf K K) (tr : ExT K) (eqn : Expr) (ops : OpsOf K K) (hbuild : ∀ st, tr.build (s st) = .ok (eqn, ops st))
    (hl : ∀ st, ∀ k, ∀ h ∈ tr.leaves k, h < (s st).length) (hf : ∀ st, tr.FieldsOK (s st) m.nCells)
    (val : VolField K K → Nat → Nat → K)
    (hx : ∀ st : TimeState K K, st.sol.On m → ∀ h ∈ tr.leaves .spatial, ∃ o, (s st)[h]? = some o ∧ ExplTerm m.nCells 0 0 o (val st.sol h))
    (dict : Dict) (hd : dict.get .str "Runge-Kutta-Method" = .ok (.str "Forward-Euler"))
    (st : TimeState K K) (ho : st.sol.On m) (hs : st.Synced) (hφ : correctBoundaryConditions e m bcs st.sol (.ok st.sol)) (t dt : Nat → K)
    (k : Nat) (out) :
    rkLoop e dict ops eqn t dt k st out ↔ timeLoop (fun d st => forwardEuler e m bcs ops eqn st d) dt k st out := by
  let f : VolField K K → Nat → K := fun φ => tr.value .spatial id (val φ)
  have hop : ∀ st : TimeState K K, st.sol.On m → AddsTo m.nCells (eqn.explicitOperation (ops st)) (f st.sol) := fun st hon =>
    (C31_explicit_partial (s st) tr m.nCells (hl st) (hf st) eqn _ (hbuild st)).1 (val st.sol) (hx st hon)
  -- one step
  have one : ∀ st : TimeState K K, st.sol.On m → st.Synced → correctBoundaryConditions e m bcs st.sol (.ok st.sol) → ∀ t dt, ∃ st',
      st'.sol.On m ∧ st'.Synced ∧ correctBoundaryConditions e m bcs st'.sol (.ok st'.sol) ∧
      (∀ out, (rungeKutta e dict ops eqn .new st t dt >>= fun r => pure r.2 : NR (TimeState K K)) out ↔ out = .ok st') ∧
      ∀ out, forwardEuler e m bcs ops eqn st dt out ↔ out = .ok st' := by
    intro st ho hs hφ t dt
    let x := rkNew m f dt st.sol st.sol.internal
    have hxl : x.length = m.nCells := rkNew_length ho.1
    have hcor := correct_constant e h bcs hb hc st.sol ho hφ x hxl
    refine ⟨⟨{ st.sol with internal := x }, some x⟩, ⟨hxl, ho.2, ho.3, ho.4, ho.5⟩, rfl, (hcor _).2 rfl,
      fun out => NR.bind_iff (rk_fresh e hd ops eqn hop st ho hs t dt) out, fun out => ?_⟩
    unfold forwardEuler
    rw [ho.1]
    refine Iff.trans (NR.bind_iff (explicitN_det (hop st ho)) out) ?_
    refine Iff.trans (NR.bind_iff (scaleField_det e _ dt) out) ?_
    have hs' : st.oldTime = st.sol.internal := hs
    have hlen : st.sol.internal.length = m.nCells := ho.1
    simp only [hs']
    refine Iff.trans (NR.bind_iff (subField_det e (by simp [hlen])) out) ?_
    have hz : List.zipWith (fun x y => x - y) st.sol.internal (((List.range m.nCells).map (f st.sol)).map fun x => dt • x) = x := by
      apply List.ext_getElem
      · simp [hxl, hlen]
      · intro i h1 h2
        simp [x, rkNew]
        ring
    rw [hz]
    exact NR.bind_iff hcor out
  have main : ∀ k, ∃ st', st'.sol.On m ∧ st'.Synced ∧ correctBoundaryConditions e m bcs st'.sol (.ok st'.sol) ∧
      (∀ out, rkLoop e dict ops eqn t dt k st out ↔ out = .ok st') ∧
      ∀ out, timeLoop (fun d st => forwardEuler e m bcs ops eqn st d) dt k st out ↔ out = .ok st' := by
    intro k
    induction k with
    | zero => exact ⟨st, ho, hs, hφ, fun _ => Iff.rfl, fun _ => Iff.rfl⟩
    | succ k ih =>
      obtain ⟨st1, h1, h2, h3, h4, h5⟩ := ih
      obtain ⟨st2, g1, g2, g3, g4, g5⟩ := one st1 h1 h2 h3 (t k) (dt k)
      exact ⟨st2, g1, g2, g3, fun out => (NR.bind_iff h4 out).trans (g4 out), fun out => (NR.bind_iff h5 out).trans (g5 out)⟩
  obtain ⟨st', -, -, -, h4, h5⟩ := main k
  rw [h4, h5]

/-- **C56 fails for conditions that follow the cells**: where the value of a boundary face is extrapolated from its cell, and the
cell changes, the face keeps the old value after the step. -/
theorem C56_violation {m : Mesh K} {f : VolField K K → Nat → K} {dt : K} {φ φ' : VolField K K} (h : CellStep m f dt φ φ') {b : Nat}
    (hc : m.fc b < m.nCells) (h0 : Prescribes m φ b (.extrapolated : VolBCKind K) (φ.entry b)) (hd : dt * f φ (m.fc b) ≠ 0) :
    ¬ Prescribes m φ' b (.extrapolated : VolBCKind K) (φ'.entry b) := by
  rintro ⟨h1, -⟩
  have e1 : φ'.entry b = φ.entry b := by rw [h.keep]; rfl
  rw [e1, h0.1, h.cells _ hc] at h1
  exact hd (by linear_combination h1)

/-- `ddtSchemes { type Runge-Kutta; Runge-Kutta-Method Forward-Euler; }` -/
def rkDict : Dict := [("type", .str "Runge-Kutta"), ("Runge-Kutta-Method", .str "Forward-Euler")]

/-- `ddt(u) + u` on one cell with two boundary faces. -/
def faceOps : OpsOf ℚ ℚ := fun st =>
  [ddtOp .serial cell1 cell1Pattern st.sol st.oldTime .implicit (Coeff.ofScalar 1),
   sourceOp .serial cell1 cell1Pattern [1] st.sol .explicit (Coeff.ofScalar 1)]

/-- `u = 1`, extrapolated at the faces. -/
def faceState : TimeState ℚ ℚ := ⟨⟨[1], [1, 1], [1, 1], [1, 1], [0, 0]⟩, none⟩

/-- The hypotheses can be met, and the violation happens: one step of `ddt(u) + u = 0` with `dt = 1/2` from `u = 1` halves the cell value, the
extrapolated boundary value stays 1. -/
theorem C56_violation_example : ∃ st', (∀ out, rkLoop .parallel rkDict faceOps ⟨[0], [1]⟩ (fun _ => 0) (fun _ => 1/2) 1 faceState out ↔ out = .ok st') ∧
    st'.sol.cell 0 = 1/2 ∧ (st'.sol.entry 0).value = 1 ∧ Prescribes cell1 faceState.sol 0 (.extrapolated : VolBCKind ℚ) (faceState.sol.entry 0) ∧
    ¬ Prescribes cell1 st'.sol 0 (.extrapolated : VolBCKind ℚ) (st'.sol.entry 0) := by
  have hφ : faceState.sol.On cell1 := ⟨rfl, rfl, rfl, rfl, rfl⟩
  have hl : ∀ (st : TimeState ℚ ℚ) (k), ∀ h ∈ (ExT.obj (K := ℚ) ⟨[0], [1]⟩).leaves k, h < (faceOps st).length := by
    intro st k h hh
    cases k
    · have hh : h ∈ [0] := hh
      simp only [List.mem_cons, List.not_mem_nil, or_false] at hh
      subst hh; exact Nat.zero_lt_two
    · have hh : h ∈ [1] := hh
      simp only [List.mem_cons, List.not_mem_nil, or_false] at hh
      subst hh; exact Nat.one_lt_two
  obtain ⟨u, h0, h1, h2, -⟩ := C56_steps_partial .parallel (m := cell1) faceOps (ExT.obj ⟨[0], [1]⟩) ⟨[0], [1]⟩ faceOps (fun _ => rfl)
    hl (fun _ => trivial) (fun φ _ i => 1 * (ix [1] i * φ.cell i))
    (by
      intro st hon h hh
      have hh : h ∈ [1] := hh
      simp only [List.mem_cons, List.not_mem_nil, or_false] at hh
      subst hh
      exact ⟨_, rfl, C31_term_source cell1Pattern hon (k := [1]) rfl .serial (v := fun _ => 1) (fun _ _ => rfl) 0 0⟩)
    rkDict rfl faceState hφ rfl (fun _ => 0) (fun _ => 1/2)
  have hc := (h1 0).cells 0 (by decide)
  have hk := (h1 0).keep
  rw [h0] at hc hk
  have e1 : (u 1).cell 0 = 1/2 := by
    rw [hc]
    simp [ExT.value, faceState, ix, VolField.cell]
    norm_num
  have e2 : ((u 1).entry 0).value = 1 := by rw [hk]; rfl
  refine ⟨⟨u 1, some (u 1).internal⟩, h2 0, e1, e2, ⟨rfl, rfl, rfl⟩, ?_⟩
  rintro ⟨h, -⟩
  have hfc : cell1.fc 0 = 0 := rfl
  simp only [hfc] at h
  rw [e1, e2] at h
  norm_num at h

end NeoFOAM
