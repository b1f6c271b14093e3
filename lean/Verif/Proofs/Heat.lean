import Verif.Proofs.Poisson
import Verif.Props.C60_ImplicitTransport

/-!
# Steps of implicit diffusion, and errors of implicit steps
-/
namespace NeoFOAM
open Finset
variable {K : Type} [Field K] [LinearOrder K] [IsStrictOrderedRing K]

/-- Implicit Euler steps follow a reference that satisfies the equations up to what leaves a barrier: the distance stays below the barrier. -/
theorem implicit_follow {m : Mesh K} (h : m.WF) (hv : ∀ c < m.nCells, 0 < m.vol c) {flux δ gamma : Nat → K} {φ : VolField K K}
    (hs : Stable m flux δ gamma φ) {dt : K} (hdt : 0 < dt) {old new y y' w : Nat → K} {ρ : Nat → K}
    (hstep : ∀ c < m.nCells, m.vol c * (new c - old c) / dt + m.netOutflow (φ.outFlux m flux δ gamma new) c = 0)
    (href : ∀ c < m.nCells, m.vol c * (y' c - y c) / dt + m.netOutflow (φ.outFlux m flux δ gamma y') c = ρ c)
    (hbar : ∀ c < m.nCells, |ρ c| ≤ m.netOutflow (φ.homog.outFlux m flux δ gamma w) c) (hold : ∀ c < m.nCells, |old c - y c| ≤ w c) :
    ∀ c < m.nCells, |new c - y' c| ≤ w c := by
  have hL : ∀ c < m.nCells, m.netOutflow (φ.homog.outFlux m flux δ gamma fun c => new c - y' c) c
      = - (m.vol c * (new c - old c) / dt) - (ρ c - m.vol c * (y' c - y c) / dt) := by
    intro c hc
    rw [homog_outFlux, netOutflow_add, netOutflow_smul]
    have a := hstep c hc
    have b := href c hc
    simp only [smul_eq_mul]
    linear_combination a - b
  have h1 := implicit_nonneg h hv hs hdt (fun c => w c + (-1) * (new c - y' c)) fun c hc => by
    rw [homog_add, homog_smul, hL c hc]
    have a := (abs_le.1 (hbar c hc)).1
    have b := (abs_le.1 (hold c hc)).2
    have e : m.vol c * (w c + -1 * (new c - y' c)) / dt + (m.netOutflow (φ.homog.outFlux m flux δ gamma w) c
        + -1 * (-(m.vol c * (new c - old c) / dt) - (ρ c - m.vol c * (y' c - y c) / dt)))
        = m.vol c * (w c - (old c - y c)) / dt + (m.netOutflow (φ.homog.outFlux m flux δ gamma w) c + ρ c) := by
      field_simp
      ring
    rw [e]
    have : 0 ≤ m.vol c * (w c - (old c - y c)) / dt := div_nonneg (mul_nonneg (hv c hc).le (by linarith)) hdt.le
    linarith
  have h2 := implicit_nonneg h hv hs hdt (fun c => w c + (new c - y' c)) fun c hc => by
    rw [homog_add, hL c hc]
    have a := (abs_le.1 (hbar c hc)).2
    have b := (abs_le.1 (hold c hc)).1
    have e : m.vol c * (w c + (new c - y' c)) / dt + (m.netOutflow (φ.homog.outFlux m flux δ gamma w) c
        + (-(m.vol c * (new c - old c) / dt) - (ρ c - m.vol c * (y' c - y c) / dt)))
        = m.vol c * (w c + (old c - y c)) / dt + (m.netOutflow (φ.homog.outFlux m flux δ gamma w) c - ρ c) := by
      field_simp
      ring
    rw [e]
    have : 0 ≤ m.vol c * (w c + (old c - y c)) / dt := div_nonneg (mul_nonneg (hv c hc).le (by linarith)) hdt.le
    linarith
  intro c hc
  have a := h1 c hc
  have b := h2 c hc
  rw [abs_le]
  constructor <;> linarith

/-- `imp::ddt(u)` and `imp::laplacian(gamma, u)`. -/
def heatCalls (gamma : List K) : List (Call K) := [.impDdt, .impLaplacian gamma none]

/-- `ddt(u) - laplacian(gamma, u)`. -/
def heatTree : ExT K := .subOO (.var .temporal 0) (.var .spatial 1)

/-- One call of `dsl::solve` on `ddt(u) - laplacian(gamma, u)`: exactly one outcome, an implicit Euler step. -/
theorem heat_step {S : Setting K} (hS : S.OK) (hv : ∀ c < S.m.nCells, 0 < S.m.vol c) (gamma : List K) (hg : gamma.length = S.m.nFaces)
    (eqn : Expr) (ops : OpsOf K K) (hb : ∀ st, heatTree.build (callOps S (heatCalls gamma) st) = .ok (eqn, ops st))
    (bcs : List (VolumeBoundary K)) (table : SolverTable K) (fvSchemes fvSolution : Dict) (hd : AsksFor fvSchemes "backwardEuler")
    (solver : LinSolver K) (hso : createSolver table fvSchemes = .ok solver) (hex : SolvingOn S.m solver)
    (st : TimeState K K) (ho : st.sol.On S.m) (hsy : st.Synced) (hst : Stable S.m (fun _ => 0) (ix S.δ) (ix gamma) st.sol) (t : K) {dt : K} (hdt : 0 < dt) :
    ∃ st', (∀ out, dslSolve S.e S.m bcs table fvSchemes fvSolution ops eqn st t dt out ↔ out = .ok st') ∧
      ImplicitStep S.m (fun _ => 0) (ix S.δ) (ix gamma) dt st.sol st'.sol ∧ st'.Synced := by
  have hov : (heatTree : ExT K).Over (heatCalls gamma) := by
    intro k h hh
    cases k <;> simp [heatTree, ExT.leaves, OpT.sort, OpT.leaf] at hh <;> subst hh <;> exact ⟨_, rfl, rfl⟩
  have hfit : ∀ a ∈ heatCalls gamma, a.Fits S.m := by
    intro a ha
    simp only [heatCalls, List.mem_cons, List.not_mem_nil, or_false] at ha
    rcases ha with rfl | rfl
    · trivial
    · exact ⟨hg, by simp⟩
  have hos : ∀ a ∈ heatCalls gamma, a.OfSolution := by
    intro a ha
    simp only [heatCalls, List.mem_cons, List.not_mem_nil, or_false] at ha
    rcases ha with rfl | rfl
    · trivial
    · rfl
  have hol : st.oldTime.length = S.m.nCells := by rw [hsy]; exact ho.int
  obtain ⟨ls, hon, h2, h3⟩ := written_backward hS hov hfit (by simp [heatTree, ExT.leaves, OpT.sort]) st ho hol ⟨trivial, trivial⟩ hb t dt
  have hres : ∀ x, ∀ c < S.m.nCells, ls.residual x c
      = S.m.vol c * (x c - st.sol.cell c) / dt + S.m.netOutflow (st.sol.outFlux S.m (fun _ => 0) (ix S.δ) (ix gamma) x) c := by
    intro x c hc
    have hvc := (hv c hc).ne'
    rw [h2 x c hc, value_written hov hos _ _ _ _ _ hvc, value_written hov hos _ _ _ _ _ hvc]
    have e3 : ix st.oldTime c = st.sol.cell c := by rw [hsy]; rfl
    simp [heatTree, ExT.value, OpT.valueOf, OpT.sort, OpT.value, termValue, heatCalls, Call.value, argCells, e3, nthCall, Call.ev]
    field_simp
  have huniq : ∀ x y : Nat → K, (∀ i < ls.rhs.length, ls.residual x i = ls.residual y i) → ∀ i < ls.rhs.length, x i = y i := by
    intro x y hxy
    rw [hon.rhsLen] at hxy ⊢
    refine implicit_unique hS.wf hv hst hdt st.sol.cell x y fun c hc => ?_
    rw [← hres x c hc, ← hres y c hc]
    exact hxy c hc
  obtain ⟨y, hy1, hy2⟩ := exists_solution ls huniq
  have hone : ∀ z : List K, z.length = ls.rhs.length → (∀ i < ls.rhs.length, ls.residual (ix z) i = 0) → z = y := by
    intro z hz1 hz2
    refine List.ext_getElem (hz1.trans hy1.symm) fun i h1 h2 => ?_
    have := huniq (ix z) (ix y) (fun i hi => (hz2 i hi).trans (hy2 i hi).symm) i (by omega)
    simpa [ix, List.getD_eq_getElem?_getD, h1, h2] using this
  have hsolver : ∀ out, solver ls st.sol.internal out ↔ out = .ok y := by
    intro out
    obtain ⟨⟨z, hz⟩, hall⟩ := hex ls st.sol.internal ⟨S.sp, hS.patt, hon⟩ ho.int ⟨y, hy1.trans hon.rhsLen, fun i hi => hy2 i (by rw [hon.rhsLen]; exact hi)⟩
    rw [← hon.rhsLen] at hall
    constructor
    · intro hout
      obtain ⟨z', rfl, a, b⟩ := hall out hout
      rw [hone z' a b]
    · rintro rfl
      obtain ⟨z', he, a, b⟩ := hall _ hz
      cases he
      rw [← hone z a b]
      exact hz
  refine ⟨⟨{ st.sol with internal := y }, some y⟩, fun out => ?_, ⟨⟨by rw [hy1, hon.rhsLen], ho.val, ho.ref, ho.vf, ho.grad⟩, fun _ => rfl, fun c hc => ?_⟩, rfl⟩
  · rw [h3 bcs table fvSchemes fvSolution hd solver hso out]
    exact NR.bind_iff hsolver out
  · have := hy2 c (by rw [hon.rhsLen]; exact hc)
    rw [hres _ c hc] at this
    exact this

/-- `n` calls of `dsl::solve` on `ddt(u) - laplacian(gamma, u)`. -/
theorem heat_steps {S : Setting K} (hS : S.OK) (hv : ∀ c < S.m.nCells, 0 < S.m.vol c) (gamma : List K) (hg : gamma.length = S.m.nFaces)
    (eqn : Expr) (ops : OpsOf K K) (hb : ∀ st, heatTree.build (callOps S (heatCalls gamma) st) = .ok (eqn, ops st))
    (bcs : List (VolumeBoundary K)) (table : SolverTable K) (fvSchemes fvSolution : Dict) (hd : AsksFor fvSchemes "backwardEuler")
    (solver : LinSolver K) (hso : createSolver table fvSchemes = .ok solver) (hex : SolvingOn S.m solver)
    (st : TimeState K K) (ho : st.sol.On S.m) (hsy : st.Synced) (hst : Stable S.m (fun _ => 0) (ix S.δ) (ix gamma) st.sol) (t : K) (dt : Nat → K)
    (hdt : ∀ k, 0 < dt k) :
    ∃ u : Nat → TimeState K K, u 0 = st ∧
      (∀ k out, timeLoop (fun d st => dslSolve S.e S.m bcs table fvSchemes fvSolution ops eqn st t d) dt k st out ↔ out = .ok (u k)) ∧
      ∀ k, ImplicitStep S.m (fun _ => 0) (ix S.δ) (ix gamma) (dt k) (u k).sol (u (k + 1)).sol ∧ ∀ b, (u k).sol.entry b = st.sol.entry b := by
  let Good := { s : TimeState K K // s.sol.On S.m ∧ s.Synced ∧ Stable S.m (fun _ => 0) (ix S.δ) (ix gamma) s.sol }
  have hstep : ∀ (k : Nat) (s : Good), ∃ s' : Good,
      (∀ out, dslSolve S.e S.m bcs table fvSchemes fvSolution ops eqn s.1 t (dt k) out ↔ out = .ok s'.1) ∧
      ImplicitStep S.m (fun _ => 0) (ix S.δ) (ix gamma) (dt k) s.1.sol s'.1.sol := by
    rintro k ⟨s, h1, h2, h3⟩
    obtain ⟨s', a, b, c⟩ := heat_step hS hv gamma hg eqn ops hb bcs table fvSchemes fvSolution hd solver hso hex s h1 h2 h3 t (hdt k)
    exact ⟨⟨s', b.on, c, ⟨h3.free, h3.diff, fun i hi => by rw [b.bnd]; exact h3.bnd i hi⟩⟩, a, b⟩
  choose next hnext1 hnext2 using hstep
  let u : Nat → Good := fun k => Nat.rec ⟨st, ho, hsy, hst⟩ (fun k s => next k s) k
  refine ⟨fun k => (u k).1, rfl, fun k => ?_, fun k => ⟨?_, ?_⟩⟩
  · induction k with
    | zero => exact fun _ => Iff.rfl
    | succ k ih =>
      intro out
      refine Iff.trans (NR.bind_iff ih out) ?_
      exact hnext1 k (u k) out
  · exact hnext2 k (u k)
  · induction k with
    | zero => exact fun _ => rfl
    | succ k ih =>
      intro b
      exact ((hnext2 k (u k)).bnd b).trans (ih b)

end NeoFOAM
