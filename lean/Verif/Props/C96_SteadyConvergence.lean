import Verif.Props.C92_MeshConvergence
import Verif.Props.C94_UpwindConvergence

/-!
# C96 – refining the mesh: first-order convergence of steady transport with diffusion and sources
-/
namespace NeoFOAM
open Finset

/-- `imp::div(flux, u) - imp::laplacian(gamma, u) - exp::source(s, one)` is the first term minus the two others. -/
def flowTree {K : Type} : ExT K := .subEO (.subOO (.var .spatial 0) (.var .spatial 1)) (.var .spatial 2) rfl

theorem flow_build_left {K : Type} [Mul K] [One K] [Neg K] (a : OpModel K K) (bt : OpType) (c : OpModel K K) (be  : Option (Coeff K → K → K → List K → NR (List K)))
    (bi  : Option (Coeff K → K → K → LinearSystem K → NR (LinearSystem K))) :
    (ExT.subOO (.var .spatial 0) (.var .spatial 1) : ExT K).build [a, ⟨bt, ⟨1, [], false⟩, be, bi⟩, c] = 
    .ok (⟨[], [5,8]⟩, [a, ⟨bt, ⟨1, [], false⟩, be, bi⟩, c, a, ⟨bt, ⟨1, [], false⟩, be, bi⟩, a,⟨bt, ⟨1, [], false⟩, be, bi⟩, ⟨bt, ⟨1 * -1, [], false⟩, be, bi⟩,⟨bt, ⟨1 * -1, [], false⟩, be, bi⟩]) := by
   rfl
theorem flow_build_right {K : Type} [Mul K] [One K] [Neg K] (x0 x1 x3 x4 x5 x6 x7 x8 : OpModel K K) (ct : OpType)  (ce  : Option (Coeff K → K → K → List K → NR (List K)))
    (ci  : Option (Coeff K → K → K → LinearSystem K → NR (LinearSystem K))) :
    ∃ o, (exprSubOp ⟨[], [5,8]⟩ 2 : HM K K Expr) [x0,x1,⟨ct, ⟨1, [], false⟩, ce, ci⟩,x3,x4,x5,x6,x7,x8] = .ok (⟨[], [9,10,13]⟩, o) := ⟨_, rfl⟩
/-- The expression can be built from operators as the calls return them. -/
theorem flow_build {K : Type} [Mul K] [One K] [Neg K] (a : OpModel K K) (bt ct : OpType) (be ce : Option (Coeff K → K → K → List K → NR (List K)))
    (bi ci : Option (Coeff K → K → K → LinearSystem K → NR (LinearSystem K))) :
    ∃ eqn o, (flowTree : ExT K).build [a, ⟨bt, ⟨1, [], false⟩, be, bi⟩, ⟨ct, ⟨1, [], false⟩, ce, ci⟩] = .ok (eqn, o) := by
  unfold flowTree
  show ∃ eqn o, ((ExT.subOO (.var .spatial 0) (.var .spatial 1) : ExT K).build [a, ⟨bt, ⟨1, [], false⟩, be, bi⟩, ⟨ct, ⟨1, [], false⟩, ce, ci⟩] >>= fun (p : Expr × _) => ((OpT.build (.var .spatial 2) >>= fun h => exprSubOp p.1 h) : HM K K Expr) p.2) = Res.ok (eqn, o)
  rw [flow_build_left]
  obtain ⟨o, ho⟩ := flow_build_right (K := K) a ⟨bt, ⟨1, [], false⟩, be, bi⟩ a ⟨bt, ⟨1, [], false⟩, be, bi⟩ a ⟨bt, ⟨1, [], false⟩, be, bi⟩ ⟨bt, ⟨1 * -1, [], false⟩, be, bi⟩ ⟨bt, ⟨1 * -1, [], false⟩, be, bi⟩ ct ce ci
  exact ⟨_, o, ho⟩

section
variable {K : Type} [Field K] [LinearOrder K] [IsStrictOrderedRing K]

/-- `imp::div(flux, u) - imp::laplacian(gamma, u) - exp::source(s, one)`, `u` the field solved for. -/
def flowCalls (flux gamma s : List K) (one : VolField K K) : List (Call K) := [.impDiv flux none, .impLaplacian gamma none, .expSource s (some one)]

omit [IsStrictOrderedRing K] in
/-- What leaves through a face is what flow carries and what diffuses. -/
theorem outFlux_parts (φ : VolField K K) (m : Mesh K) (flux δ gamma x : Nat → K) (f : Nat) :
    φ.outFlux m flux δ gamma x f = φ.outFlux m flux δ (fun _ => 0) x f + φ.outFlux m (fun _ => 0) δ gamma x f := by
  unfold VolField.outFlux
  split <;> ring

/-- Solving `div(flux, u) - laplacian(gamma, u) - source(s, one)`: exactly one outcome, in which through the faces of every cell as much leaves as the source makes. -/
theorem flow_solve {S : Setting K} (hS : S.OK) (hv : ∀ c < S.m.nCells, 0 < S.m.vol c) (flux gamma s : List K) (one : VolField K K)
    (hfl : flux.length = S.m.nFaces) (hg : gamma.length = S.m.nFaces) (hsl : s.length = S.m.nCells) (hone : one.On S.m)
    (st : TimeState K K) (ho : st.sol.On S.m) (hol : st.oldTime.length = S.m.nCells)
    (eqn : Expr) (ops : OpsOf K K) (hb : flowTree.build (callOps S (flowCalls flux gamma s one) st) = .ok (eqn, ops st))
    (bcs : List (VolumeBoundary K)) (table : SolverTable K) (fvSchemes fvSolution : Dict)
    (solver : LinSolver K) (hso : createSolver table fvSolution = .ok solver) (hex : SolvingOn S.m solver)
    (hst : Stable S.m (ix flux) (ix S.δ) (ix gamma) st.sol)
    (hfed : ∀ c < S.m.nCells, Fed S.m (ix flux) (ix S.δ) (ix gamma) st.sol c) (t dt : K) :
    ∃ x : List K, x.length = S.m.nCells ∧
      (∀ out, dslSolve S.e S.m bcs table fvSchemes fvSolution ops eqn st t dt out ↔ out = .ok { st with sol := { st.sol with internal := x } }) ∧
      ∀ c < S.m.nCells, S.m.netOutflow (st.sol.outFlux S.m (ix flux) (ix S.δ) (ix gamma) (ix x)) c = S.m.vol c * (ix s c * one.cell c) := by
  have hov : (flowTree : ExT K).Over (flowCalls flux gamma s one) := by
    intro k h hh
    cases k <;> simp [flowTree, ExT.leaves, OpT.sort, OpT.leaf] at hh
    rcases hh with rfl | rfl | rfl <;> exact ⟨_, rfl, rfl⟩
  have hfit : ∀ a ∈ flowCalls flux gamma s one, a.Fits S.m := by
    intro a ha
    simp only [flowCalls, List.mem_cons, List.not_mem_nil, or_false] at ha
    rcases ha with rfl | rfl | rfl
    · exact ⟨hfl, by simp⟩
    · exact ⟨hg, by simp⟩
    · refine ⟨hsl, ?_⟩
      intro ψ hψ
      cases hψ
      exact hone
  have hos : ∀ a ∈ flowCalls flux gamma s one, a.OfSolution := by
    intro a ha
    simp only [flowCalls, List.mem_cons, List.not_mem_nil, or_false] at ha
    rcases ha with rfl | rfl | rfl
    · rfl
    · rfl
    · trivial
  obtain ⟨ls, h1, h2, h3⟩ := written_steady hS hov hfit (by simp [flowTree, ExT.leaves, OpT.sort]) (by simp [flowTree, ExT.leaves, OpT.sort])
    st ho hol ⟨⟨trivial, trivial⟩, trivial⟩ hb bcs table fvSchemes fvSolution t dt
  have hres : ∀ x, ∀ c < S.m.nCells, ls.residual x c
      = 1 * (S.m.netOutflow (st.sol.outFlux S.m (ix flux) (ix S.δ) (ix gamma) x) c - S.m.vol c * (ix s c * one.cell c)) := by
    intro x c hc
    have hvc := (hv c hc).ne'
    have hp : S.m.netOutflow (st.sol.outFlux S.m (ix flux) (ix S.δ) (ix gamma) x) c
        = S.m.netOutflow (st.sol.outFlux S.m (ix flux) (ix S.δ) (fun _ => 0) x) c + S.m.netOutflow (st.sol.outFlux S.m (fun _ => 0) (ix S.δ) (ix gamma) x) c := by
      rw [← netOutflow_add]
      congr 1
      funext f
      exact outFlux_parts ..
    rw [h2 x c hc, value_written hov hos _ _ _ _ _ hvc, hp]
    simp [flowTree, ExT.value, OpT.valueOf, OpT.sort, OpT.value, termValue, flowCalls, Call.value, argCells]
    field_simp
  obtain ⟨y, hy1, hy2, hy3⟩ := source_solver hS.wf hst hfed hS.patt ls h1 1 one_ne_zero _ hres solver hex st.sol.internal ho.int
  refine ⟨y, hy1, fun out => ?_, hy3⟩
  rw [h3 solver hso out]
  exact NR.bind_iff hy2 out

/-- The inlet value reaches every cell of the line. -/
theorem line_flow_fed (mag : Vec K → K) (n : Nat) (h1 : 1 ≤ n) {flux δ gamma : Nat → K} {v : K} (hv : 0 < v) (hfl : ∀ f < n + 1, flux f = if f = n - 1 then -v else v)
    (hd : ∀ f < n + 1, 0 ≤ gamma f * δ f * ix (mesh1D mag n).magFaceAreas f)
    {φ : VolField K K} (hleft : (φ.entry 0).fraction = 1) : ∀ c < n, Fed (mesh1D mag n) flux δ gamma φ c := by
  intro c
  have hi : (mesh1D mag n).nInternalFaces = n - 1 := rfl
  induction c with
  | zero =>
    intro _
    have := Fed.boundary (m := mesh1D mag n) (flux := flux) (δ := δ) (gamma := gamma) (φ := φ) 0 (by show 0 < 2; omega) hleft (by
      have := hd (n - 1) (by omega)
      rw [hi, Nat.add_zero, hfl _ (by omega), if_pos rfl]
      linarith)
    exact this
  | succ c ih =>
    intro hc
    have := Fed.nbr (m := mesh1D mag n) (flux := flux) (δ := δ) (gamma := gamma) (φ := φ) c (by rw [hi]; omega)
      (by rw [mesh1D_own mag n c (by omega), if_pos (by omega)]; exact ih (by omega)) (.inr (by rw [hfl c (by omega), if_neg (by omega)]; exact hv))
    rw [mesh1D_nbr mag n c (by omega)] at this
    exact this

/-- Steady flow with sources on the line: the outcome, and how it compares with a field `y` that is nearly in balance. -/
theorem line_flow_source {S : Setting K} (e e' : ExecKind) (mag : Vec K → K) (mjunk : Nat → Nat) (n : Nat) (h2 : 2 ≤ n)
    (hm : create1DUniformMesh e mag mjunk n (.ok S.m)) (tiny : K) (sqrt : K → K) (hs : IsSqrt sqrt) (gjunk : Nat → K) (g : Geometry K)
    (hg : geometryScheme e' S.m tiny sqrt gjunk (.ok g)) (hδ : S.δ = g.nonOrthDeltaCoeffs) (hw : S.w.length = n + 1) (hsp : sparsityUpdate S.e S.m (.ok S.sp))
    (flux gamma : List K) (hfll : flux.length = n + 1) (hgl : gamma.length = n + 1) (v k : K) (hv : 0 < v) (hk : 0 ≤ k)
    (hfl : ∀ f < n + 1, ix flux f = if f = n - 1 then -v else v) (hgam : ∀ f < n + 1, ix gamma f = k)
    (s : List K) (hsl : s.length = n) (one : VolField K K) (hone : one.On S.m)
    (st : TimeState K K) (ho : st.sol.On S.m) (hol : st.oldTime.length = n) (a : K)
    (hleft : Prescribes S.m st.sol 0 (.fixedValue a) (st.sol.entry 0)) (hright : Prescribes S.m st.sol 1 (.fixedGradient 0) (st.sol.entry 1))
    (eqn : Expr) (ops : OpsOf K K) (hb : flowTree.build (callOps S (flowCalls flux gamma s one) st) = .ok (eqn, ops st))
    (bcs : List (VolumeBoundary K)) (table : SolverTable K) (fvSchemes fvSolution : Dict)
    (solver : LinSolver K) (hso : createSolver table fvSolution = .ok solver) (hex : SolvingOn S.m solver) (t dt : K) :
    ∃ x : List K, x.length = n ∧
      (∀ out, dslSolve S.e S.m bcs table fvSchemes fvSolution ops eqn st t dt out ↔ out = .ok { st with sol := { st.sol with internal := x } }) ∧
      ∀ y w : Nat → K, (∀ c < n, |lineFlow v k a n y c - 1 / n * (ix s c * one.cell c)| ≤ lineFlow v k 0 n w c) → ∀ c < n, |ix x c - y c| ≤ w c := by
  have h1 : 1 ≤ n := by omega
  rw [create1D_closed e mag mjunk n h1, Res.ok.injEq] at hm
  have hn : (0 : K) < n := by exact_mod_cast h1
  obtain ⟨sdata, sm, ssp, ssch, sw, sδ, sjunk⟩ := S
  dsimp only at *
  subst hm
  subst hδ
  obtain ⟨-, hdl, hnd, -, -⟩ := mesh1D_geometry mag n h1 e' tiny sqrt hs gjunk g hg
  have hwf := mesh1D_wf mag n h1
  obtain ⟨-, hlr, hlf⟩ := hleft
  obtain ⟨-, hrg, hrf⟩ := hright
  have hδp : ∀ f < n + 1, 0 < ix g.nonOrthDeltaCoeffs f := by
    intro f hf
    rw [hnd f hf]
    split <;> positivity
  have hdiff : ∀ f < n + 1, 0 ≤ ix gamma f * ix g.nonOrthDeltaCoeffs f * ix (mesh1D mag n).magFaceAreas f := by
    intro f hf
    rw [mesh1D_mag mag n f hf, hgam f hf, mul_one]
    exact mul_nonneg hk (hδp f hf).le
  have hi : (mesh1D mag n).nInternalFaces = n - 1 := rfl
  have hst : Stable (mesh1D mag n) (ix flux) (ix g.nonOrthDeltaCoeffs) (ix gamma) st.sol := by
    refine ⟨line_flux_free mag n h1 hfl, hdiff, fun i hi' => ?_⟩
    have hi' : i < 2 := hi'
    have : i = 0 ∨ i = 1 := by omega
    rcases this with rfl | rfl
    · refine .inr ⟨hlf, ?_⟩
      have := hdiff (n - 1) (by omega)
      rw [hi, Nat.add_zero, hfl _ (by omega), if_pos rfl]
      linarith
    · exact .inl ⟨hrf, hrg⟩
  have hfed := line_flow_fed mag n h1 hv hfl hdiff hlf
  have hre : (mesh1D mag n).Reproducible sdata := mesh1D_reproducible mag n sdata (.inr h2)
  have hvol : ∀ c < (mesh1D mag n).nCells, 0 < (mesh1D mag n).vol c := by
    intro c hc
    rw [mesh1D_vol mag n c hc]
    positivity
  obtain ⟨x, hx1, hx2, hx3⟩ := flow_solve (S := ⟨sdata, mesh1D mag n, ssp, ssch, sw, g.nonOrthDeltaCoeffs, sjunk⟩)
    ⟨hwf, fun c _ => by have := mesh1D_deg mag n c; show 1 + (mesh1D mag n).deg c ≤ 256; omega, hsp, hw, hdl, hre⟩ hvol flux gamma s one hfll hgl hsl hone st ho hol eqn ops hb bcs table
    fvSchemes fvSolution solver hso hex hst hfed t dt
  refine ⟨x, hx1, hx2, fun y w hyw => ?_⟩
  refine steady_abs_le hwf hvol hst hfed (fun c => ix x c - y c) w fun c hc => ?_
  have hc' : c < n := hc
  rw [homog_outFlux, netOutflow_add, netOutflow_smul, hx3 c hc,
    line_flow mag n h2 hv.le hfl hnd hgam (φ := st.sol) (a := a) ⟨hlf, hlr⟩ ⟨hrf, hrg⟩ _ c hc',
    line_flow mag n h2 hv.le hfl hnd hgam (φ := st.sol.homog) (a := 0)
      ⟨hlf, by simp [VolField.homog, VolField.entry]⟩ ⟨hrf, by simp [VolField.homog, VolField.entry]⟩ w c hc']
  refine le_trans (le_of_eq ?_) (hyw c hc')
  dsimp only
  rw [mesh1D_vol mag n c hc', abs_sub_comm, smul_eq_mul]
  congr 1
  ring

/-- **C96, uniform source without diffusion**: the error is exactly `q / (2 v n)` in every cell: first order and no better. -/
theorem C96_uniform_source {S : Setting K} (e e' : ExecKind) (mag : Vec K → K) (mjunk : Nat → Nat) (n : Nat) (h2 : 2 ≤ n)
    (hm : create1DUniformMesh e mag mjunk n (.ok S.m)) (tiny : K) (sqrt : K → K) (hs : IsSqrt sqrt) (gjunk : Nat → K) (g : Geometry K)
    (hg : geometryScheme e' S.m tiny sqrt gjunk (.ok g)) (hδ : S.δ = g.nonOrthDeltaCoeffs) (hw : S.w.length = n + 1) (hsp : sparsityUpdate S.e S.m (.ok S.sp))
    (flux gamma : List K) (hfll : flux.length = n + 1) (hgl : gamma.length = n + 1) (v : K) (hv : 0 < v)
    (hfl : ∀ f < n + 1, ix flux f = if f = n - 1 then -v else v) (hgam : ∀ f < n + 1, ix gamma f = 0)
    (s : List K) (hsl : s.length = n) (one : VolField K K) (hone : one.On S.m) (q : K) (hq : ∀ c < n, one.cell c = 1 ∧ ix s c = q)
    (st : TimeState K K) (ho : st.sol.On S.m) (hol : st.oldTime.length = n) (a : K)
    (hleft : Prescribes S.m st.sol 0 (.fixedValue a) (st.sol.entry 0)) (hright : Prescribes S.m st.sol 1 (.fixedGradient 0) (st.sol.entry 1))
    (eqn : Expr) (ops : OpsOf K K) (hb : flowTree.build (callOps S (flowCalls flux gamma s one) st) = .ok (eqn, ops st))
    (bcs : List (VolumeBoundary K)) (table : SolverTable K) (fvSchemes fvSolution : Dict)
    (solver : LinSolver K) (hso : createSolver table fvSolution = .ok solver) (hex : SolvingOn S.m solver) (t dt : K) :
    ∃ x : List K, x.length = n ∧
      (∀ out, dslSolve S.e S.m bcs table fvSchemes fvSolution ops eqn st t dt out ↔ out = .ok { st with sol := { st.sol with internal := x } }) ∧
      ∀ c < n, ix x c - (a + q / v * (((c : K) + 1 / 2) / n)) = q / (2 * v * n) := by
  obtain ⟨x, hx1, hx2, hx3⟩ := line_flow_source e e' mag mjunk n h2 hm tiny sqrt hs gjunk g hg hδ hw hsp flux gamma hfll hgl v 0 hv le_rfl hfl hgam s hsl one hone st ho hol a hleft
    hright eqn ops hb bcs table fvSchemes fvSolution solver hso hex t dt
  refine ⟨x, hx1, hx2, fun c hc => ?_⟩
  have hn : (n : K) ≠ 0 := Nat.cast_ne_zero.2 (by omega)
  have hv' := hv.ne'
  have := hx3 (fun c => a + q / v * (((c : K) + 1) / n)) (fun _ => 0) (fun c hc => by
    have e0 : lineFlow v 0 0 n (fun _ => (0 : K)) c = 0 := by simp [lineFlow]
    rw [e0, (hq c hc).1, (hq c hc).2]
    have e1 : lineFlow v 0 a n (fun c => a + q / v * (((c : K) + 1) / n)) c = 1 / n * q := by
      unfold lineFlow
      by_cases hb : 1 ≤ c
      · have hkc : ((c - 1 : Nat) : K) = (c : K) - 1 := by rw [Nat.cast_sub hb]; simp
        simp only [if_pos hb, hkc, zero_mul, sub_zero, ite_self]
        field_simp
        ring
      · have hc0 : c = 0 := by omega
        subst hc0
        simp only [if_neg hb, zero_mul, sub_zero, ite_self]
        push_cast
        field_simp
        ring
    rw [e1]
    simp) c hc
  have := sub_eq_zero.1 (abs_eq_zero.1 (le_antisymm this (abs_nonneg _)))
  rw [this]
  field_simp
  ring

end

/-- **C96**: let `u` satisfy `v u' - k u'' = q` on the unit interval with speed `v > 0` and diffusivity `k ≥ 0` (`k = 0` is pure transport), with diffusion also zero gradient at
the outlet. On the mesh of `create1DUniformMesh` with two cells or more, inlet value `u 0` fixed on the left, zero gradient on the right, from every initial field and on every
executor, `dsl::solve` of `div(flux, u) - laplacian(gamma, u) - source(s, one)` has exactly one outcome, and the value of every cell differs from `u` at its centre by at most
`(M1/2 + M2/2 + 7 k M3/(24 v))/n + (5 M2/4 + k M4/(12 v))/n^2`. -/
theorem C96_convergence {S : Setting ℝ} (e e' : ExecKind) (mag : Vec ℝ → ℝ) (mjunk : Nat → Nat) (n : Nat) (h2 : 2 ≤ n)
    (hm : create1DUniformMesh e mag mjunk n (.ok S.m)) (tiny : ℝ) (sqrt : ℝ → ℝ) (hs : IsSqrt sqrt) (gjunk : Nat → ℝ) (g : Geometry ℝ)
    (hg : geometryScheme e' S.m tiny sqrt gjunk (.ok g)) (hδ : S.δ = g.nonOrthDeltaCoeffs) (hw : S.w.length = n + 1) (hsp : sparsityUpdate S.e S.m (.ok S.sp))
    (flux gamma : List ℝ) (hfll : flux.length = n + 1) (hgl : gamma.length = n + 1) (v k : ℝ) (hv : 0 < v) (hk : 0 ≤ k)
    (hfl : ∀ f < n + 1, ix flux f = if f = n - 1 then -v else v) (hgam : ∀ f < n + 1, ix gamma f = k)
    (u u1 u2 u3 u4 q : ℝ → ℝ) (d1 : DerivOn u u1) (d2 : DerivOn u1 u2) (d3 : 0 < k → DerivOn u2 u3) (d4 : 0 < k → DerivOn u3 u4) (hout : 0 < k → u1 1 = 0)
    (heq : ∀ x ∈ Set.Icc (0 : ℝ) 1, v * u1 x - k * u2 x = q x) (M1 M2 M3 M4 : ℝ)
    (hM1 : ∀ x ∈ Set.Icc (0 : ℝ) 1, |u1 x| ≤ M1) (hM2 : ∀ x ∈ Set.Icc (0 : ℝ) 1, |u2 x| ≤ M2)
    (hM3 : 0 < k → ∀ x ∈ Set.Icc (0 : ℝ) 1, |u3 x| ≤ M3) (hM4 : 0 < k → ∀ x ∈ Set.Icc (0 : ℝ) 1, |u4 x| ≤ M4)
    (s : List ℝ) (hsl : s.length = n) (one : VolField ℝ ℝ) (hone : one.On S.m) (hq : ∀ c < n, one.cell c = 1 ∧ ix s c = q (((c : ℝ) + 1 / 2) / n))
    (st : TimeState ℝ ℝ) (ho : st.sol.On S.m) (hol : st.oldTime.length = n)
    (hleft : Prescribes S.m st.sol 0 (.fixedValue (u 0)) (st.sol.entry 0)) (hright : Prescribes S.m st.sol 1 (.fixedGradient 0) (st.sol.entry 1))
    (eqn : Expr) (ops : OpsOf ℝ ℝ) (hb : flowTree.build (callOps S (flowCalls flux gamma s one) st) = .ok (eqn, ops st))
    (bcs : List (VolumeBoundary ℝ)) (table : SolverTable ℝ) (fvSchemes fvSolution : Dict)
    (solver : LinSolver ℝ) (hso : createSolver table fvSolution = .ok solver) (hex : SolvingOn S.m solver) (t dt : ℝ) :
    ∃ x : List ℝ, x.length = n ∧
      (∀ out, dslSolve S.e S.m bcs table fvSchemes fvSolution ops eqn st t dt out ↔ out = .ok { st with sol := { st.sol with internal := x } }) ∧
      ∀ c < n, |ix x c - u (((c : ℝ) + 1 / 2) / n)| ≤ (M1 / 2 + M2 / 2 + 7 * k * M3 / (24 * v)) / n + (5 * M2 / 4 + k * M4 / (12 * v)) / n ^ 2 := by
  have hn : (0 : ℝ) < n := by exact_mod_cast (by omega : 0 < n)
  have hn' : (n : ℝ) ≠ 0 := hn.ne'
  obtain ⟨x, hx1, hx2, hx3⟩ := line_flow_source e e' mag mjunk n h2 hm tiny sqrt hs gjunk g hg hδ hw hsp flux gamma hfll hgl v k hv hk hfl hgam s hsl one hone st ho hol (u 0) hleft
    hright eqn ops hb bcs table fvSchemes fvSolution solver hso hex t dt
  refine ⟨x, hx1, hx2, ?_⟩
  have hz1 : (0 : ℝ) ∈ Set.Icc (0 : ℝ) 1 := ⟨le_rfl, zero_le_one⟩
  have hM1' : 0 ≤ M1 := (abs_nonneg _).trans (hM1 0 hz1)
  have hM2' : 0 ≤ M2 := (abs_nonneg _).trans (hM2 0 hz1)
  have hkM3 : 0 ≤ k * M3 := by
    rcases hk.lt_or_eq with h | h
    · exact mul_nonneg hk ((abs_nonneg _).trans (hM3 h 0 hz1))
    · rw [← h]; simp
  have hkM4 : 0 ≤ k * M4 := by
    rcases hk.lt_or_eq with h | h
    · exact mul_nonneg hk ((abs_nonneg _).trans (hM4 h 0 hz1))
    · rw [← h]; simp
  set α : ℝ := M2 / (2 * n) + k / v * (M4 / (12 * n ^ 2) + 7 * M3 / (24 * n)) with hα
  set β : ℝ := M1 / (2 * n) + 5 / 4 * M2 / n ^ 2 with hβ
  have hα0 : 0 ≤ α := by
    have : α = M2 / (2 * n) + (k * M4 / (v * (12 * n ^ 2)) + 7 * (k * M3) / (v * (24 * n))) := by rw [hα]; field_simp
    rw [this]
    positivity
  have hβ0 : 0 ≤ β := by positivity
  set W : Nat → ℝ := fun c => α * (((c : ℝ) + 1) / n) + β with hWdef
  have key : ∀ c < n, |ix x c - u (lineCentre ℝ n c)| ≤ W c := by
    refine hx3 (fun c => u (lineCentre ℝ n c)) W fun c hc' => ?_
    have hx := lineCentre_mem n c hc'
    rw [(hq c hc').1, (hq c hc').2, mul_one]
    have hup := upwind_truncation d1 d2 hM1 hM2 n v hv.le (fun c => u (lineCentre ℝ n c)) (fun _ _ => rfl) c hc'
    have htr : |lineFlow v k (u 0) n (fun c => u (lineCentre ℝ n c)) c - 1 / n * q (lineCentre ℝ n c)|
        ≤ v * α / n + if 1 ≤ c then 0 else v * (M1 / (2 * n)) + k * (2 * n) * (5 / 4 * M2 / n ^ 2) := by
      rw [← heq _ hx]
      have hsplit : lineFlow v k (u 0) n (fun c => u (lineCentre ℝ n c)) c - 1 / n * (v * u1 (lineCentre ℝ n c) - k * u2 (lineCentre ℝ n c))
          = (v * u (lineCentre ℝ n c) - (if 1 ≤ c then v * u (lineCentre ℝ n (c - 1)) else v * u 0) - 1 / n * (v * u1 (lineCentre ℝ n c)))
            + ((if c < n - 1 then -(k * n * (u (lineCentre ℝ n (c + 1)) - u (lineCentre ℝ n c))) else 0)
              - (if 1 ≤ c then -(k * n * (u (lineCentre ℝ n c) - u (lineCentre ℝ n (c - 1)))) else k * (2 * n) * (u 0 - u (lineCentre ℝ n c)))
              - 1 / n * (-(k * u2 (lineCentre ℝ n c)))) := by
        unfold lineFlow
        split <;> split <;> ring
      rw [hsplit]
      have e8 : v * α / n = v * (M2 / (2 * n)) / n + k * (M4 / (12 * n ^ 2) + 7 * M3 / (24 * n)) / n := by rw [hα]; field_simp
      rw [e8]
      rcases hk.lt_or_eq with hk' | hk'
      · have hd := outlet_truncation d1 d2 (d3 hk') (d4 hk') (hout hk') hM2 (hM3 hk') (hM4 hk') n h2 k hk' (fun c => u (lineCentre ℝ n c)) (fun _ _ => rfl) c hc'
        refine (abs_add_le _ _).trans ((add_le_add hup hd).trans (le_of_eq ?_))
        split <;> ring
      · rw [← hk']
        simp only [zero_mul, neg_zero, ite_self, sub_zero, mul_zero, add_zero, zero_div]
        refine le_trans (le_of_eq ?_) hup
        rfl
    have hbar := flow_barrier n h2 v k α β hk hα0 c hc'
    have h10 : (if 1 ≤ c then 0 else v * (M1 / (2 * n)) + k * (2 * n) * (5 / 4 * M2 / n ^ 2)) ≤ if 1 ≤ c then 0 else (v + k * (2 * n)) * β := by
      split
      · exact le_rfl
      · rw [hβ]
        have a1 : 0 ≤ v * (5 / 4 * M2 / n ^ 2) := by positivity
        have a2 : 0 ≤ k * (2 * n) * (M1 / (2 * n)) := by positivity
        linarith
    exact htr.trans (le_trans (by linarith) hbar)
  intro c hc
  refine (key c hc).trans ?_
  show α * (((c : ℝ) + 1) / n) + β ≤ _
  have h4 : α * (((c : ℝ) + 1) / n) ≤ α := by
    refine mul_le_of_le_one_right hα0 ?_
    rw [div_le_one hn]
    exact_mod_cast hc
  refine (add_le_add_left h4 _).trans (le_of_eq ?_)
  rw [hα, hβ]
  field_simp
  ring

/-- The hypotheses of `C96_convergence` can be met for every executor and number of cells from two on, with diffusion: `u = x (2 - x)`, speed 3, diffusivity 2, source
`3 (2 - 2 x) + 4`. -/
example (es : ExecKind) (n : Nat) (h2 : 2 ≤ n) : ∃ (S : Setting ℝ) (g : Geometry ℝ) (flux s : List ℝ) (one : VolField ℝ ℝ) (st : TimeState ℝ ℝ) (eqn : Expr) (ops : OpsOf ℝ ℝ),
    S.e = es ∧ create1DUniformMesh .parallel (vmag Real.sqrt) (fun _ => 0) n (.ok S.m) ∧ geometryScheme .parallel S.m (1 / 1000) Real.sqrt (fun _ => 0) (.ok g) ∧
    S.δ = g.nonOrthDeltaCoeffs ∧ S.w.length = n + 1 ∧ sparsityUpdate S.e S.m (.ok S.sp) ∧ flux.length = n + 1 ∧ (∀ f < n + 1, ix flux f = if f = n - 1 then -3 else 3) ∧
    DerivOn (fun x => x * (2 - x)) (fun x => 2 - 2 * x) ∧ DerivOn (fun x => 2 - 2 * x) (fun _ => -2) ∧ DerivOn (fun _ => -2) (fun _ => 0) ∧ DerivOn (fun _ => 0) (fun _ => 0) ∧
    s.length = n ∧ one.On S.m ∧ (∀ c < n, one.cell c = 1 ∧ ix s c = 3 * (2 - 2 * (((c : ℝ) + 1 / 2) / n)) - 2 * (-2)) ∧ st.sol.On S.m ∧ st.oldTime.length = n ∧
    Prescribes S.m st.sol 0 (.fixedValue ((0 : ℝ) * (2 - 0))) (st.sol.entry 0) ∧ Prescribes S.m st.sol 1 (.fixedGradient 0) (st.sol.entry 1) ∧
    flowTree.build (callOps S (flowCalls flux (List.replicate (n + 1) 2) s one) st) = .ok (eqn, ops st) := by
  have h1 : 1 ≤ n := by omega
  have hwf := mesh1D_wf (vmag Real.sqrt) n h1
  obtain ⟨sp, hsp⟩ := C14_terminates _ hwf es
  obtain ⟨g, hgs⟩ : ∃ g, geometryScheme .parallel (mesh1D (vmag Real.sqrt) n) (1 / 1000) Real.sqrt (fun _ => 0) (.ok g) := ⟨_, (geometryScheme_det hwf .parallel _ _ _ _).2 rfl⟩
  set st : TimeState ℝ ℝ := ⟨⟨List.replicate n 7, [0, 7], [0, 0], [1, 0], [0, 0]⟩, some (List.replicate n 7)⟩ with hst
  set one : VolField ℝ ℝ := ⟨List.replicate n 1, [0, 0], [0, 0], [0, 0], [0, 0]⟩ with hone
  set s : List ℝ := (List.range n).map fun c : Nat => 3 * (2 - 2 * (((c : ℝ) + 1 / 2) / n)) - 2 * (-2) with hs
  set flux : List ℝ := (List.range (n + 1)).map fun f => if f = n - 1 then -3 else 3 with hflux
  obtain ⟨eqn, o, hbuild⟩ : ∃ eqn o, flowTree.build (callOps (⟨es, mesh1D (vmag Real.sqrt) n, sp, .upwind, List.replicate (n + 1) 0, g.nonOrthDeltaCoeffs, fun _ => 0⟩ : Setting ℝ)
      (flowCalls flux (List.replicate (n + 1) 2) s one) st) = .ok (eqn, o) := flow_build (.mk _ _ _ _) _ _ _ _ _ _
  refine ⟨⟨es, mesh1D (vmag Real.sqrt) n, sp, .upwind, List.replicate (n + 1) 0, g.nonOrthDeltaCoeffs, fun _ => 0⟩, g, flux, s, one, st, eqn, fun _ => o, rfl, (create1D_closed _ _ _ n h1 _).2 rfl, hgs, rfl, by simp, hsp,
    by simp [hflux], fun f hf => ?_, fun x _ => ?_, fun x _ => ?_, fun x _ => hasDerivWithinAt_const _ _ _, fun x _ => hasDerivWithinAt_const _ _ _, by simp [hs], ?_, fun c hc => ?_, ?_,
    by simp [hst, TimeState.oldTime], ?_, ?_, hbuild⟩
  · simp only [hflux, ix]
    rw [getD_range_map _ _ _ hf]
  · have := ((hasDerivAt_id x).mul ((hasDerivAt_id x).const_sub 2)).hasDerivWithinAt (s := Set.Icc 0 1)
    refine this.congr_deriv ?_
    simp
    ring
  · have := (((hasDerivAt_id x).const_mul 2).const_sub 2).hasDerivWithinAt (s := Set.Icc 0 1)
    refine this.congr_deriv ?_
    simp
  · exact ⟨by simp [hone, mesh1D], rfl, rfl, rfl, rfl⟩
  · refine ⟨by simp [hone, VolField.cell, hc], ?_⟩
    simp only [hs, ix]
    rw [getD_range_map _ _ _ hc]
  · exact ⟨by simp [hst, mesh1D], rfl, rfl, rfl, rfl⟩
  · exact ⟨by simp [hst, VolField.entry], by simp [hst, VolField.entry], rfl⟩
  · refine ⟨?_, rfl, rfl⟩
    rw [mesh1D_fc1]
    have : n - 1 < n := by omega
    simp [hst, VolField.entry, VolField.cell, this]

end NeoFOAM
