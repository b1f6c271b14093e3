import Verif.Props.C76_Written
import Verif.Proofs.March
import Verif.Props.C63_SteadyTransport

/-!
# Steady diffusion with a source: one solution, and comparison
-/
namespace NeoFOAM
open Finset
variable {K : Type} [Field K] [LinearOrder K] [IsStrictOrderedRing K]

/-- Comparison for the steady balance: where as much leaves every cell as enters or more, the field is not negative. -/
theorem steady_nonneg {m : Mesh K} (h : m.WF) (hv : ∀ c < m.nCells, 0 < m.vol c) {flux δ gamma : Nat → K} {φ : VolField K K}
    (hs : Stable m flux δ gamma φ) (hfed : ∀ c < m.nCells, Fed m flux δ gamma φ c) (z : Nat → K)
    (hz : ∀ c < m.nCells, 0 ≤ m.netOutflow (φ.homog.outFlux m flux δ gamma z) c) : ∀ c < m.nCells, 0 ≤ z c := by
  obtain ⟨w, hw, hbar⟩ := exists_barrier h hv hs hfed
  have key : ∀ r : K, 0 < r → ∀ c < m.nCells, 0 ≤ z c + r * w c := by
    intro r hr c0 hc0
    obtain ⟨c, hc, hmin⟩ := Finset.exists_min_image (range m.nCells) (fun c => z c + r * w c) ⟨c0, mem_range.2 hc0⟩
    rw [mem_range] at hc
    refine le_trans ?_ (hmin c0 (mem_range.2 hc0))
    by_contra hlt
    rw [not_le] at hlt
    have h1 := outflow_at_min h (homog_stable hs) 0 (fun b _ _ => by simp [VolField.homog, VolField.entry]) (fun c => z c + r * w c) c hc
      (fun c' hc' => hmin c' (mem_range.2 hc')) hlt.le
    rw [homog_add, homog_smul, hbar c hc] at h1
    have h2 := hz c hc
    have h3 := mul_pos hr (hv c hc)
    linarith
  intro c hc
  by_contra hlt
  rw [not_le] at hlt
  have hwc := hw c hc
  have := key (-z c / (2 * w c)) (div_pos (by linarith) (by linarith)) c hc
  rw [div_mul_eq_mul_div, show -z c * w c / (2 * w c) = -z c / 2 by field_simp] at this
  linarith

/-- Comparison in the form used for error bounds: a field whose outflow is bounded by the outflow of a barrier is bounded by the barrier. -/
theorem steady_abs_le {m : Mesh K} (h : m.WF) (hv : ∀ c < m.nCells, 0 < m.vol c) {flux δ gamma : Nat → K} {φ : VolField K K}
    (hs : Stable m flux δ gamma φ) (hfed : ∀ c < m.nCells, Fed m flux δ gamma φ c) (z w : Nat → K)
    (hz : ∀ c < m.nCells, |m.netOutflow (φ.homog.outFlux m flux δ gamma z) c| ≤ m.netOutflow (φ.homog.outFlux m flux δ gamma w) c) :
    ∀ c < m.nCells, |z c| ≤ w c := by
  have h1 := steady_nonneg h hv hs hfed (fun c => w c + (-1) * z c) fun c hc => by
    rw [homog_add, homog_smul]
    have := (abs_le.1 (hz c hc)).2
    linarith
  have h2 := steady_nonneg h hv hs hfed (fun c => w c + z c) fun c hc => by
    rw [homog_add]
    have := (abs_le.1 (hz c hc)).1
    linarith
  intro c hc
  rw [abs_le]
  have a := h1 c hc
  have b := h2 c hc
  constructor <;> linarith

/-- A system whose residual is, up to sign, a balance with given sources: exactly one outcome. -/
theorem source_solver {m : Mesh K} (h : m.WF) {flux δ gamma : Nat → K} {φ : VolField K K} (hst : Stable m flux δ gamma φ)
    (hfed : ∀ c < m.nCells, Fed m flux δ gamma φ c) {sp : SparsityPattern} (hp : sp.For m) (ls : LinearSystem K) (hon : ls.On sp m) (s : K) (hs : s ≠ 0)
    (q : Nat → K) (hres : ∀ x, ∀ c < m.nCells, ls.residual x c = s * (m.netOutflow (φ.outFlux m flux δ gamma x) c - q c))
    (solver : LinSolver K) (hex : SolvingOn m solver) (x0 : List K) (hx0 : x0.length = m.nCells) :
    ∃ y : List K, y.length = m.nCells ∧ (∀ out, solver ls x0 out ↔ out = .ok y) ∧
      ∀ c < m.nCells, m.netOutflow (φ.outFlux m flux δ gamma (ix y)) c = q c := by
  have huniq : ∀ x y : Nat → K, (∀ i < ls.rhs.length, ls.residual x i = ls.residual y i) → ∀ i < ls.rhs.length, x i = y i := by
    intro x y hxy
    rw [hon.rhsLen] at hxy ⊢
    refine steady_unique h hst hfed x y fun c hc => ?_
    have := hxy c hc
    rw [hres x c hc, hres y c hc] at this
    have := mul_left_cancel₀ hs this
    linarith
  obtain ⟨y, hy1, hy2⟩ := exists_solution ls huniq
  have hone : ∀ z : List K, z.length = ls.rhs.length → (∀ i < ls.rhs.length, ls.residual (ix z) i = 0) → z = y := by
    intro z hz1 hz2
    refine List.ext_getElem (hz1.trans hy1.symm) fun i h1 h2 => ?_
    have := huniq (ix z) (ix y) (fun i hi => (hz2 i hi).trans (hy2 i hi).symm) i (by omega)
    simpa [ix, List.getD_eq_getElem?_getD, h1, h2] using this
  refine ⟨y, by rw [hy1, hon.rhsLen], fun out => ?_, fun c hc => ?_⟩
  · obtain ⟨⟨z, hz⟩, hall⟩ := hex ls x0 ⟨sp, hp, hon⟩ hx0 ⟨y, hy1.trans hon.rhsLen, fun i hi => hy2 i (by rw [hon.rhsLen]; exact hi)⟩
    rw [← hon.rhsLen] at hall
    constructor
    · intro hout
      obtain ⟨z', rfl, a, b⟩ := hall out hout
      rw [hone z' a b]
    · rintro rfl
      obtain ⟨z', he, a, b⟩ := hall _ hz
      cases he
      rw [← hone z a b]
      exact hz
  · have := hy2 c (by rw [hon.rhsLen]; exact hc)
    rw [hres _ c hc] at this
    have := (mul_eq_zero.1 this).resolve_left hs
    linarith

/-- `imp::laplacian(gamma, u) + exp::source(s, one)`, `u` the field solved for. -/
def poissonCalls (gamma s : List K) (one : VolField K K) : List (Call K) := [.impLaplacian gamma none, .expSource s (some one)]

/-- The sum of the two terms. -/
def poissonTree : ExT K := .addOO (.var .spatial 0) (.var .spatial 1)

/-- Solving `laplacian(gamma, u) + source(s, one)`: exactly one outcome, in which through the faces of every cell as much leaves as the source makes. -/
theorem poisson_solve {S : Setting K} (hS : S.OK) (hv : ∀ c < S.m.nCells, 0 < S.m.vol c) (gamma s : List K) (one : VolField K K)
    (hg : gamma.length = S.m.nFaces) (hsl : s.length = S.m.nCells) (hone : one.On S.m)
    (st : TimeState K K) (ho : st.sol.On S.m) (hol : st.oldTime.length = S.m.nCells)
    (eqn : Expr) (ops : OpsOf K K) (hb : poissonTree.build (callOps S (poissonCalls gamma s one) st) = .ok (eqn, ops st))
    (bcs : List (VolumeBoundary K)) (table : SolverTable K) (fvSchemes fvSolution : Dict)
    (solver : LinSolver K) (hso : createSolver table fvSolution = .ok solver) (hex : SolvingOn S.m solver)
    (hst : Stable S.m (fun _ => 0) (ix S.δ) (ix gamma) st.sol)
    (hfed : ∀ c < S.m.nCells, Fed S.m (fun _ => 0) (ix S.δ) (ix gamma) st.sol c) (t dt : K) :
    ∃ x : List K, x.length = S.m.nCells ∧
      (∀ out, dslSolve S.e S.m bcs table fvSchemes fvSolution ops eqn st t dt out ↔ out = .ok { st with sol := { st.sol with internal := x } }) ∧
      ∀ c < S.m.nCells, S.m.netOutflow (st.sol.outFlux S.m (fun _ => 0) (ix S.δ) (ix gamma) (ix x)) c = S.m.vol c * (ix s c * one.cell c) := by
  have hov : (poissonTree : ExT K).Over (poissonCalls gamma s one) := by
    intro k h hh
    cases k <;> simp [poissonTree, ExT.leaves, OpT.sort, OpT.leaf] at hh
    rcases hh with rfl | rfl <;> exact ⟨_, rfl, rfl⟩
  have hfit : ∀ a ∈ poissonCalls gamma s one, a.Fits S.m := by
    intro a ha
    simp only [poissonCalls, List.mem_cons, List.not_mem_nil, or_false] at ha
    rcases ha with rfl | rfl
    · exact ⟨hg, by simp⟩
    · refine ⟨hsl, ?_⟩
      intro ψ hψ
      cases hψ
      exact hone
  have hos : ∀ a ∈ poissonCalls gamma s one, a.OfSolution := by
    intro a ha
    simp only [poissonCalls, List.mem_cons, List.not_mem_nil, or_false] at ha
    rcases ha with rfl | rfl
    · rfl
    · trivial
  obtain ⟨ls, h1, h2, h3⟩ := written_steady hS hov hfit (by simp [poissonTree, ExT.leaves, OpT.sort]) (by simp [poissonTree, ExT.leaves, OpT.sort])
    st ho hol ⟨trivial, trivial⟩ hb bcs table fvSchemes fvSolution t dt
  have hres : ∀ x, ∀ c < S.m.nCells, ls.residual x c
      = (-1) * (S.m.netOutflow (st.sol.outFlux S.m (fun _ => 0) (ix S.δ) (ix gamma) x) c - S.m.vol c * (ix s c * one.cell c)) := by
    intro x c hc
    have hvc := (hv c hc).ne'
    rw [h2 x c hc, value_written hov hos _ _ _ _ _ hvc]
    simp [poissonTree, ExT.value, OpT.valueOf, OpT.sort, OpT.value, termValue, poissonCalls, Call.value, argCells]
    field_simp
    ring
  obtain ⟨y, hy1, hy2, hy3⟩ := source_solver hS.wf hst hfed hS.patt ls h1 (-1) (by simp) _ hres solver hex st.sol.internal ho.int
  refine ⟨y, hy1, fun out => ?_, hy3⟩
  rw [h3 solver hso out]
  exact NR.bind_iff hy2 out

end NeoFOAM
