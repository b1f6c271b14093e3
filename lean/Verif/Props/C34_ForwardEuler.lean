import Verif.Proofs.Solve
import Verif.Props.C28_Boundary
import Verif.Props.C33_BackwardEuler

/-!
# C34 – forwardEuler advances u by -dt times the explicit terms, over any number of steps

The coefficient of the time derivative is not honoured (`C34_violation`).
-/
namespace NeoFOAM
open Finset
variable {K V : Type}

theorem scaleField_det [SMul K V] (e : ExecKind) (a : List V) (s : K) (out : Res (List V)) :
    scaleField e a s out ↔ out = .ok (a.map fun x => s • x) := by
  unfold scaleField
  rw [elemKernel_det e 0 a.length _ (fun _ x => s • x) a le_rfl (fun i _ _ => rfl)]
  have : (a.mapIdx fun i x => if 0 ≤ i ∧ i < a.length then s • x else x) = a.map fun x => s • x := by
    apply List.ext_getElem <;> simp
    intro i h1 h2
    omega
  rw [this]

theorem subField_det [Sub V] [Zero V] (e : ExecKind) {a b : List V} (h : a.length = b.length) (out : Res (List V)) :
    subField e a b out ↔ out = .ok (List.zipWith (fun x y => x - y) a b) := by
  unfold subField
  rw [if_neg (by omega), elemKernel_det e 0 a.length _ (fun i x => x - b.getD i 0) a le_rfl (fun i _ hi => by
    rw [rd_getD 0 (by omega)]; rfl)]
  have : (a.mapIdx fun i x => if 0 ≤ i ∧ i < a.length then x - b.getD i 0 else x) = List.zipWith (fun x y => x - y) a b := by
    apply List.ext_getElem
    · simp; omega
    · intro i h1 h2
      have h3 : i < a.length := by simpa using h1
      simp [h3, List.getD, List.getElem?_eq_getElem (show i < b.length by omega)]
  rw [this]

/-- `dsl::solve` with `type forwardEuler` is one such step. -/
theorem C34_solve [Add K] [Sub K] [Mul K] [Div K] [Neg K] [Zero K] [One K] (e : ExecKind) (m : Mesh K) (bcs : List (VolumeBoundary K)) (table : SolverTable K)
    {fvSchemes : Dict} (fvSolution : Dict)
    (hd : AsksFor fvSchemes "forwardEuler") (ops : OpsOf K K) {eqn : Expr} (hT : eqn.temporal ≠ []) (st : TimeState K K) (t dt : K) (out) :
    dslSolve e m bcs table fvSchemes fvSolution ops eqn st t dt out ↔ forwardEuler e m bcs ops eqn st dt out := by
  obtain ⟨d, h1, h2⟩ := hd
  have : 0 < eqn.temporal.length := List.length_pos_iff.2 hT
  unfold dslSolve
  rw [if_neg (by omega), if_pos this]
  refine Iff.trans (NR.bind_iff (a := d) (fun o => by rw [h1]; exact Iff.rfl) out) ?_
  unfold timeIntegrate
  exact NR.bind_iff (a := Any.str "forwardEuler") (fun o => by rw [h2]; exact Iff.rfl) out

variable [Field K] [AddCommGroup V] [Module K V]

/-- One step from a state whose old-time field is the current one. -/
theorem forwardEuler_det (e : ExecKind) {m : Mesh K} (h : m.WF) (bcs : List (VolumeBoundary V)) (hb : ∀ c ∈ bcs, c.patch.end_ ≤ m.nBoundaryFaces)
    (ops : OpsOf K V) (eqn : Expr) (f : VolField K V → Nat → V)
    (hf : ∀ st : TimeState K V, st.sol.On m → AddsTo m.nCells (eqn.explicitOperation (ops st)) (f st.sol)) (dt : K) (φ : VolField K V) (ho : φ.On m) :
    ∃ φ', EulerStep m bcs f dt φ φ' ∧ ∀ st : TimeState K V, st.sol = φ → st.Synced →
      ∀ out, forwardEuler e m bcs ops eqn st dt out ↔ out = .ok ⟨φ', some φ'.internal⟩ := by
  have hl : φ.internal.length = m.nCells := ho.1
  let new := List.zipWith (fun x y => x - y) φ.internal (((List.range m.nCells).map (f φ)).map fun x => dt • x)
  have hnl : new.length = m.nCells := by simp [new, hl]
  have hon : ({ φ with internal := new } : VolField K V).On m := ⟨hnl, ho.2, ho.3, ho.4, ho.5⟩
  obtain ⟨φ', hd, h1, h2, h3, h4, -⟩ := C28_conditions e m h { φ with internal := new } hon bcs hb
  have hcell : ∀ c < m.nCells, φ'.cell c = φ.cell c - dt • f φ c := by
    intro c hc
    unfold VolField.cell
    rw [h2]
    simp [new, List.getD, hc, hl]
  refine ⟨φ', ⟨h1, hcell, fun b hb' pre c post hcs hw hh hn => ?_, fun b hb' hn => h3 b hb' hn⟩, ?_⟩
  · have := h4 b hb' pre c post hcs hw hh hn
    have hc' : ∀ k, φ'.cell k = ({ φ with internal := new } : VolField K V).cell k := by
      intro k; unfold VolField.cell; rw [h2]
    cases hk : c.kind <;> rw [hk] at this hw <;> first | exact hw.elim | simpa [Prescribes, hc'] using this
  · rintro st rfl hs out
    unfold forwardEuler
    rw [hl]
    refine Iff.trans (NR.bind_iff (explicitN_det (hf st ho)) out) ?_
    refine Iff.trans (NR.bind_iff (scaleField_det e _ dt) out) ?_
    unfold TimeState.Synced at hs
    simp only [hs]
    refine Iff.trans (NR.bind_iff (subField_det e (by simp [hl])) out) ?_
    exact NR.bind_iff hd out

/-- **C34**: for every explicit expression (any composition of operators), mesh, boundary conditions, initial field, number of steps and
time steps, on every executor: after `k+1` calls of a forwardEuler step the solution is the `k+1`-st iterate of the explicit
Euler step, the old-time field equals it, and no other outcome is possible. `val φ h` is what the leaf operator `h` contributes
for the field `φ`. The coefficient of the time derivative is missing: see `C34_violation`. -/
theorem C34_steps_partial (e : ExecKind) {m : Mesh K} (h : m.WF) (bcs : List (VolumeBoundary V)) (hb : ∀ c ∈ bcs, c.patch.end_ ≤ m.nBoundaryFaces)
    (s : OpsOf K V) (tr : ExT K) (eqn : Expr) (ops : OpsOf K V) (hbuild : ∀ st, tr.build (s st) = .ok (eqn, ops st))
    (hl : ∀ st, ∀ k, ∀ h ∈ tr.leaves k, h < (s st).length) (hf : ∀ st, tr.FieldsOK (s st) m.nCells)
    (val : VolField K V → Nat → Nat → V)
    (hx : ∀ st : TimeState K V, st.sol.On m → ∀ h ∈ tr.leaves .spatial, ∃ o, (s st)[h]? = some o ∧ ExplTerm m.nCells 0 0 o (val st.sol h))
    (st : TimeState K V) (ho : st.sol.On m) (hs : st.Synced) (dt : Nat → K) :
    ∃ u : Nat → VolField K V, u 0 = st.sol ∧
      (∀ k, EulerStep m bcs (fun φ => tr.value .spatial id (val φ)) (dt k) (u k) (u (k + 1))) ∧
      ∀ k out, timeLoop (fun d st => forwardEuler e m bcs ops eqn st d) dt (k + 1) st out ↔ out = .ok ⟨u (k + 1), some (u (k + 1)).internal⟩ := by
  have hstep := fun d φ ho => forwardEuler_det e h bcs hb ops eqn (fun φ => tr.value .spatial id (val φ))
    (fun st hon => (C31_explicit_partial (s st) tr m.nCells (hl st) (hf st) eqn _ (hbuild st)).1 (val st.sol) (hx st hon)) d φ ho
  choose g hg1 hg2 using hstep
  let u : Nat → { φ : VolField K V // φ.On m } := fun n => Nat.rec ⟨st.sol, ho⟩ (fun k φ => ⟨g (dt k) φ.1 φ.2, (hg1 (dt k) φ.1 φ.2).on⟩) n
  refine ⟨fun n => (u n).1, rfl, fun k => hg1 (dt k) _ (u k).2, ?_⟩
  intro k
  induction k with
  | zero =>
    intro out
    refine Iff.trans (NR.bind_iff (a := st) (fun o => Iff.rfl) out) ?_
    exact hg2 (dt 0) _ (u 0).2 st rfl hs out
  | succ k ih =>
    intro out
    refine Iff.trans (NR.bind_iff ih out) ?_
    exact hg2 (dt (k + 1)) _ (u (k + 1)).2 ⟨(u (k + 1)).1, some (u (k + 1)).1.internal⟩ rfl rfl out

/-! ### The coefficient of the time derivative -/

/-- `2 ddt(u) + u` with an explicit source. -/
def slowOps : OpsOf ℚ ℚ := fun st =>
  [ddtOp .serial cell0 cell1Pattern st.sol st.oldTime .implicit (Coeff.ofScalar 2),
   sourceOp .serial cell0 cell1Pattern [1] st.sol .explicit (Coeff.ofScalar 1)]

/-- `ddtSchemes { type forwardEuler; }` -/
def forwardDict : Dict := [("ddtSchemes", .dict [("type", .str "forwardEuler")])]

/-- **C34 fails for coefficients other than 1**: a step of `2 ddt(u) + u = 0` with `dt = 1` from `u = 1` gives 0, the
solution of `ddt(u) + u = 0`; the equation asks for `1/2`. -/
theorem C34_violation : ∃ st', (∀ out, dslSolve .serial cell0 [] [] forwardDict [] slowOps ⟨[0], [1]⟩ cell0State 0 1 out ↔ out = .ok st') ∧
    st'.sol.internal = [0] ∧
    2 * (ix st'.sol.internal 0 - ix cell0State.sol.internal 0) / 1 + ix cell0State.sol.internal 0 ≠ 0 := by
  have hφ : cell0State.sol.On cell0 := ⟨rfl, rfl, rfl, rfl, rfl⟩
  have hl : ∀ (st : TimeState ℚ ℚ) (k), ∀ h ∈ (ExT.obj (K := ℚ) ⟨[0], [1]⟩).leaves k, h < (slowOps st).length := by
    intro st k h hh
    cases k
    · have hh : h ∈ [0] := hh
      simp only [List.mem_cons, List.not_mem_nil, or_false] at hh
      subst hh; exact Nat.zero_lt_two
    · have hh : h ∈ [1] := hh
      simp only [List.mem_cons, List.not_mem_nil, or_false] at hh
      subst hh; exact Nat.one_lt_two
  obtain ⟨u, h0, h1, h2⟩ := C34_steps_partial .serial cell0_wf [] (by simp) slowOps (ExT.obj ⟨[0], [1]⟩) ⟨[0], [1]⟩ slowOps (fun _ => rfl)
    hl (fun _ => trivial) (fun φ _ i => 1 * (ix [1] i * φ.cell i))
    (by
      intro st hon h hh
      have hh : h ∈ [1] := hh
      simp only [List.mem_cons, List.not_mem_nil, or_false] at hh
      subst hh
      exact ⟨_, rfl, C31_term_source cell1Pattern hon (k := [1]) rfl .serial (v := fun _ => 1) (fun _ _ => rfl) 0 0⟩)
    cell0State hφ rfl (fun _ => 1)
  have hc := (h1 0).cells 0 (by decide)
  rw [h0] at hc
  have hlen := (h1 0).on.1
  have hz : (u 1).internal = [0] := by
    have hlen : (u 1).internal.length = 1 := hlen
    obtain ⟨y, hy⟩ := List.length_eq_one_iff.1 hlen
    rw [hy]
    simp only [VolField.cell] at hc
    rw [hy] at hc
    have : y = 0 := by
      simpa [ExT.value, cell0State, ix] using hc
    rw [this]
  refine ⟨⟨u 1, some (u 1).internal⟩, fun out => ?_, hz, ?_⟩
  · rw [C34_solve .serial cell0 [] [] [] ⟨_, rfl, rfl⟩ slowOps (by simp)]
    refine Iff.trans ?_ (h2 0 out)
    exact (NR.bind_iff (k := fun st => forwardEuler .serial cell0 [] slowOps ⟨[0], [1]⟩ st 1) (a := cell0State) (fun o => Iff.rfl) out).symm
  · rw [hz]; simp [cell0State, ix]; norm_num

end NeoFOAM
