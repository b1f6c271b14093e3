import Verif.Proofs.Heat
import Verif.Props.C92_MeshConvergence
import Mathlib.Analysis.SpecialFunctions.Trigonometric.Deriv
import Mathlib.Analysis.SpecialFunctions.ExpDeriv

/-!
# C93 – refining mesh and time step: convergence of the heat equation, uniformly in time
-/
namespace NeoFOAM
open Finset

/-- A solution of the heat equation `u_t = k u_xx` on the unit interval up to time `T`, with constant end values `a` and `b`, twice differentiable in time and four times in space:
`ut`, `utt` are its time derivatives, `u1` to `u4` its space derivatives. The first argument is time. -/
structure HeatSolution (k T a b : ℝ) (u ut utt u1 u2 u3 u4 : ℝ → ℝ → ℝ) : Prop where
  eq : ∀ t ∈ Set.Icc 0 T, ∀ x ∈ Set.Icc (0 : ℝ) 1, ut t x = k * u2 t x
  time1 : ∀ x ∈ Set.Icc (0 : ℝ) 1, DerivIn (Set.Icc 0 T) (fun t => u t x) (fun t => ut t x)
  time2 : ∀ x ∈ Set.Icc (0 : ℝ) 1, DerivIn (Set.Icc 0 T) (fun t => ut t x) (fun t => utt t x)
  space1 : ∀ t ∈ Set.Icc 0 T, DerivOn (u t) (u1 t)
  space2 : ∀ t ∈ Set.Icc 0 T, DerivOn (u1 t) (u2 t)
  space3 : ∀ t ∈ Set.Icc 0 T, DerivOn (u2 t) (u3 t)
  space4 : ∀ t ∈ Set.Icc 0 T, DerivOn (u3 t) (u4 t)
  left : ∀ t ∈ Set.Icc 0 T, u t 0 = a
  right : ∀ t ∈ Set.Icc 0 T, u t 1 = b

/-- The time after `N` steps. -/
def timeAfter (dt : Nat → ℝ) (N : Nat) : ℝ := ∑ i ∈ range N, dt i

theorem lineCentre_mem (n c : Nat) (hc : c < n) : lineCentre ℝ n c ∈ Set.Icc (0 : ℝ) 1 := by
  have hn : (0 : ℝ) < n := by exact_mod_cast (by omega : 0 < n)
  have : (c : ℝ) + 1 ≤ n := by exact_mod_cast hc
  have c0 : (0 : ℝ) ≤ c := Nat.cast_nonneg c
  constructor
  · unfold lineCentre; positivity
  · unfold lineCentre; rw [div_le_one hn]; linarith

/-- **C93**: let `u` solve the heat equation with fixed end values. On the mesh of `create1DUniformMesh` with any number `n` of cells, from values within `ε` of the initial values of
`u` at the cell centres, every number of calls of `dsl::solve` on `ddt(u) - laplacian(gamma, u)` with backwardEuler and positive time steps up to `Δ` has exactly one
outcome, and as long as the time is at most `T` the value of every cell differs from `u` at its centre and the time reached by at most
`ε + (M4/48 + 5 M2/4)/n^2 + Mtt Δ/(8k)`: second order in the cell size, first order in the time step, not growing with time. -/
theorem C93_heat {S : Setting ℝ} (e e' : ExecKind) (mag : Vec ℝ → ℝ) (mjunk : Nat → Nat) (n : Nat) (h1 : 1 ≤ n) (hes : S.e = .serial ∨ 2 ≤ n)
    (hm : create1DUniformMesh e mag mjunk n (.ok S.m)) (tiny : ℝ) (sqrt : ℝ → ℝ) (hs : IsSqrt sqrt) (gjunk : Nat → ℝ) (g : Geometry ℝ)
    (hg : geometryScheme e' S.m tiny sqrt gjunk (.ok g)) (hδ : S.δ = g.nonOrthDeltaCoeffs) (hw : S.w.length = n + 1) (hsp : sparsityUpdate S.e S.m (.ok S.sp))
    (gamma : List ℝ) (hgl : gamma.length = n + 1) (k : ℝ) (hk : 0 < k) (hgam : ∀ f < n + 1, ix gamma f = k)
    (eqn : Expr) (ops : OpsOf ℝ ℝ) (hb : ∀ st, heatTree.build (callOps S (heatCalls gamma) st) = .ok (eqn, ops st))
    (bcs : List (VolumeBoundary ℝ)) (table : SolverTable ℝ) (fvSchemes fvSolution : Dict) (hd : AsksFor fvSchemes "backwardEuler")
    (solver : LinSolver ℝ) (hso : createSolver table fvSchemes = .ok solver) (hex : SolvingOn S.m solver)
    (T a b : ℝ) (u ut utt u1 u2 u3 u4 : ℝ → ℝ → ℝ) (hu : HeatSolution k T a b u ut utt u1 u2 u3 u4) (M2 M4 Mtt : ℝ)
    (hM2 : ∀ t ∈ Set.Icc 0 T, ∀ x ∈ Set.Icc (0 : ℝ) 1, |u2 t x| ≤ M2) (hM4 : ∀ t ∈ Set.Icc 0 T, ∀ x ∈ Set.Icc (0 : ℝ) 1, |u4 t x| ≤ M4)
    (hMt : ∀ t ∈ Set.Icc 0 T, ∀ x ∈ Set.Icc (0 : ℝ) 1, |utt t x| ≤ Mtt)
    (st : TimeState ℝ ℝ) (ho : st.sol.On S.m) (hsy : st.Synced) (ε : ℝ) (hini : ∀ c < n, |st.sol.cell c - u 0 (((c : ℝ) + 1 / 2) / n)| ≤ ε)
    (hleft : Prescribes S.m st.sol 0 (.fixedValue a) (st.sol.entry 0)) (hright : Prescribes S.m st.sol 1 (.fixedValue b) (st.sol.entry 1))
    (t : ℝ) (dt : Nat → ℝ) (Δ : ℝ) (hdt : ∀ i, 0 < dt i ∧ dt i ≤ Δ) :
    ∃ U : Nat → TimeState ℝ ℝ, U 0 = st ∧
      (∀ N out, timeLoop (fun d st => dslSolve S.e S.m bcs table fvSchemes fvSolution ops eqn st t d) dt N st out ↔ out = .ok (U N)) ∧
      ∀ N, timeAfter dt N ≤ T → ∀ c < n, |(U N).sol.cell c - u (timeAfter dt N) (((c : ℝ) + 1 / 2) / n)| ≤ ε + (M4 / 48 + 5 * M2 / 4) / n ^ 2 + Mtt * Δ / (8 * k) := by
  rw [create1D_closed e mag mjunk n h1, Res.ok.injEq] at hm
  have hn : (0 : ℝ) < n := by exact_mod_cast h1
  have hn' : (n : ℝ) ≠ 0 := hn.ne'
  obtain ⟨sdata, sm, ssp, ssch, sw, sδ, sjunk⟩ := S
  dsimp only at *
  subst hm
  subst hδ
  obtain ⟨-, hdl, hnd, -, -⟩ := mesh1D_geometry mag n h1 e' tiny sqrt hs gjunk g hg
  have hwf := mesh1D_wf mag n h1
  obtain ⟨-, hlr, hlf⟩ := hleft
  obtain ⟨-, hrr, hrf⟩ := hright
  have hδp : ∀ f < n + 1, 0 < ix g.nonOrthDeltaCoeffs f := by
    intro f hf
    rw [hnd f hf]
    split <;> positivity
  have hdiff : ∀ f < n + 1, 0 ≤ ix gamma f * ix g.nonOrthDeltaCoeffs f * ix (mesh1D mag n).magFaceAreas f := by
    intro f hf
    rw [mesh1D_mag mag n f hf, hgam f hf, mul_one]
    exact mul_nonneg hk.le (hδp f hf).le
  have hi : (mesh1D mag n).nInternalFaces = n - 1 := rfl
  have hst : Stable (mesh1D mag n) (fun _ => 0) (ix g.nonOrthDeltaCoeffs) (ix gamma) st.sol := by
    refine ⟨fun c _ => by simp [Mesh.netOutflow], hdiff, fun i hi' => .inr ?_⟩
    have hi' : i < 2 := hi'
    have : i = 0 ∨ i = 1 := by omega
    rcases this with rfl | rfl
    · exact ⟨hlf, hdiff _ (by rw [hi]; omega)⟩
    · exact ⟨hrf, hdiff _ (by rw [hi]; omega)⟩
  have hre : (mesh1D mag n).Reproducible sdata := mesh1D_reproducible mag n sdata hes
  have hv : ∀ c < (mesh1D mag n).nCells, 0 < (mesh1D mag n).vol c := by
    intro c hc
    rw [mesh1D_vol mag n c hc]
    positivity
  obtain ⟨U, hU0, hU1, hU2⟩ := heat_steps (S := ⟨sdata, mesh1D mag n, ssp, ssch, sw, g.nonOrthDeltaCoeffs, sjunk⟩)
    ⟨hwf, fun c _ => by have := mesh1D_deg mag n c; show 1 + (mesh1D mag n).deg c ≤ 256; omega, hsp, hw, hdl, hre⟩ hv gamma hgl eqn ops hb bcs table
    fvSchemes fvSolution hd solver hso hex st ho hsy hst t dt (fun i => (hdt i).1)
  refine ⟨U, hU0, hU1, ?_⟩
  have hτ0 : ∀ N, 0 ≤ timeAfter dt N := fun N => Finset.sum_nonneg fun i _ => (hdt i).1.le
  have hτs : ∀ N, timeAfter dt (N + 1) = timeAfter dt N + dt N := fun N => Finset.sum_range_succ _ _
  by_cases hT : 0 ≤ T
  swap
  · intro N hN
    have := hτ0 N
    exact absurd (this.trans hN) hT
  have hz : (0 : ℝ) ∈ Set.Icc (0 : ℝ) T := ⟨le_rfl, hT⟩
  have hz1 : (0 : ℝ) ∈ Set.Icc (0 : ℝ) 1 := ⟨le_rfl, zero_le_one⟩
  have hM2' : 0 ≤ M2 := (abs_nonneg _).trans (hM2 0 hz 0 hz1)
  have hM4' : 0 ≤ M4 := (abs_nonneg _).trans (hM4 0 hz 0 hz1)
  have hMt' : 0 ≤ Mtt := (abs_nonneg _).trans (hMt 0 hz 0 hz1)
  have hΔ : 0 < Δ := (hdt 0).1.trans_le (hdt 0).2
  have hε : 0 ≤ ε := (abs_nonneg _).trans (hini 0 (by omega))
  set α : ℝ := M4 / (12 * n ^ 2) + Mtt * Δ / (2 * k) with hα
  set β : ℝ := 5 / 4 * M2 / n ^ 2 + ε with hβ
  have hα0 : 0 ≤ α := by positivity
  have hβ0 : 0 ≤ β := by positivity
  set w : Nat → ℝ := fun c => α * lineBarrier ℝ n c + β with hwdef
  have key : ∀ N, timeAfter dt N ≤ T → ∀ c < n, |(U N).sol.cell c - u (timeAfter dt N) (lineCentre ℝ n c)| ≤ w c := by
    intro N
    induction N with
    | zero =>
      intro _ c hc
      rw [hU0]
      have h2 : timeAfter dt 0 = 0 := by simp [timeAfter]
      rw [h2]
      refine (hini c hc).trans ?_
      have := mul_nonneg hα0 (lineBarrier_le (K := ℝ) n c hc).1
      have : 0 ≤ 5 / 4 * M2 / n ^ 2 := by positivity
      show ε ≤ α * lineBarrier ℝ n c + β
      rw [hβ]
      linarith
    | succ N ih =>
      intro hN
      have hdN := (hdt N).1
      have ht0 : timeAfter dt N ∈ Set.Icc 0 T := ⟨hτ0 N, by have := hτs N; linarith⟩
      have ht1 : timeAfter dt (N + 1) ∈ Set.Icc 0 T := ⟨hτ0 _, hN⟩
      obtain ⟨hstep, hent⟩ := hU2 N
      have hst' : Stable (mesh1D mag n) (fun _ => 0) (ix g.nonOrthDeltaCoeffs) (ix gamma) (U N).sol :=
        ⟨hst.free, hst.diff, fun i hi => by rw [hent]; exact hst.bnd i hi⟩
      refine implicit_follow hwf hv hst' hdN (y := fun c => u (timeAfter dt N) (lineCentre ℝ n c)) (y' := fun c => u (timeAfter dt (N + 1)) (lineCentre ℝ n c)) (w := w)
        hstep.cells (fun c hc => rfl) (fun c hc => ?_) (ih ht0.2)
      have hc' : c < n := hc
      rw [line_outflow mag n h1 hnd hgam (φ := (U N).sol) (a := a) (b := b) ⟨by rw [hent]; exact hlf, by rw [hent]; exact hlr⟩
          ⟨by rw [hent]; exact hrf, by rw [hent]; exact hrr⟩ _ c hc',
        line_outflow mag n h1 hnd hgam (φ := (U N).sol.homog) (a := 0) (b := 0)
          ⟨(congrArg BEntry.fraction (hent 0)).trans hlf, by simp [VolField.homog, VolField.entry]⟩
          ⟨(congrArg BEntry.fraction (hent 1)).trans hrf, by simp [VolField.homog, VolField.entry]⟩ w c hc',
        line_barrier_outflow n h1 k α β w (fun _ _ => rfl) c hc', mesh1D_vol mag n c hc']
      have htr := line_truncation (hu.space1 _ ht1) (hu.space2 _ ht1) (hu.space3 _ ht1) (hu.space4 _ ht1) (hM2 _ ht1) (hM4 _ ht1) n h1 k hk
        (fun c => u (timeAfter dt (N + 1)) (lineCentre ℝ n c)) (fun _ _ => rfl) c hc'
      rw [hu.left _ ht1, hu.right _ ht1] at htr
      have hx := lineCentre_mem n c hc'
      have htime : |u (timeAfter dt N) (lineCentre ℝ n c) - u (timeAfter dt (N + 1)) (lineCentre ℝ n c) + dt N * ut (timeAfter dt (N + 1)) (lineCentre ℝ n c)| ≤ Mtt / 2 * dt N ^ 2 := by
        have := first_order (hu.time1 _ hx) (hu.time2 _ hx) (fun t ht => hMt t ht _ hx) (p := timeAfter dt (N + 1)) (r := -1) (y := dt N) (by norm_num) hdN.le (fun s hs => by
          have h3 := hτs N
          have h4 := hs.1
          have h5 := hs.2
          have h6 := hτ0 N
          constructor <;> linarith)
        rw [show timeAfter dt (N + 1) + -1 * dt N = timeAfter dt N by rw [hτs]; ring] at this
        refine le_trans (le_of_eq ?_) this
        congr 1
        ring
      have htime2 : |1 / n * (u (timeAfter dt (N + 1)) (lineCentre ℝ n c) - u (timeAfter dt N) (lineCentre ℝ n c)) / dt N - 1 / n * ut (timeAfter dt (N + 1)) (lineCentre ℝ n c)|
          ≤ 1 / n * (Mtt * Δ / 2) := by
        have e1 : 1 / n * (u (timeAfter dt (N + 1)) (lineCentre ℝ n c) - u (timeAfter dt N) (lineCentre ℝ n c)) / dt N - 1 / n * ut (timeAfter dt (N + 1)) (lineCentre ℝ n c)
            = -(1 / n / dt N) * (u (timeAfter dt N) (lineCentre ℝ n c) - u (timeAfter dt (N + 1)) (lineCentre ℝ n c) + dt N * ut (timeAfter dt (N + 1)) (lineCentre ℝ n c)) := by
          field_simp
          ring
        rw [e1, abs_mul, abs_neg, abs_of_pos (show 0 < 1 / (n : ℝ) / dt N by positivity)]
        refine (mul_le_mul_of_nonneg_left htime (show 0 ≤ 1 / (n : ℝ) / dt N by positivity)).trans ?_
        have e2 : 1 / (n : ℝ) / dt N * (Mtt / 2 * dt N ^ 2) = 1 / n * (Mtt * dt N / 2) := by field_simp
        rw [e2]
        have := mul_le_mul_of_nonneg_left (hdt N).2 hMt'
        have h7 : 0 ≤ 1 / (n : ℝ) := by positivity
        exact mul_le_mul_of_nonneg_left (by linarith) h7
      rw [hu.eq _ ht1 _ hx] at htime2
      refine le_trans (le_of_eq (congrArg abs ?_)) ((abs_add_le _ _).trans ((add_le_add htr htime2).trans ?_))
      · ring
      · have h8 : (0 : ℝ) ≤ (if c < n - 1 then 0 else k * (2 * n)) + if 1 ≤ c then 0 else k * (2 * n) := by
          have : 0 ≤ k * (2 * n) := by positivity
          split <;> split <;> linarith
        have h9 : 1 / (n : ℝ) * (k * α) = k * M4 / (12 * n ^ 3) + 1 / n * (Mtt * Δ / 2) := by
          rw [hα]
          field_simp
        rw [h9, hβ, mul_add]
        have := mul_nonneg h8 hε
        linarith
  intro N hN c hc
  refine (key N hN c hc).trans ?_
  show α * lineBarrier ℝ n c + β ≤ _
  have h4 := mul_le_mul_of_nonneg_left (lineBarrier_le (K := ℝ) n c hc).2 hα0
  refine (add_le_add_left h4 _).trans (le_of_eq ?_)
  rw [hα, hβ]
  field_simp
  ring

/-- A solution of the heat equation: the decaying sine `exp(-π² k t) sin(π x)`. -/
theorem decayingSine (k T : ℝ) : HeatSolution k T 0 0 (fun t x => Real.exp (-(Real.pi ^ 2 * k) * t) * Real.sin (Real.pi * x))
    (fun t x => -(Real.pi ^ 2 * k) * (Real.exp (-(Real.pi ^ 2 * k) * t) * Real.sin (Real.pi * x)))
    (fun t x => -(Real.pi ^ 2 * k) * (-(Real.pi ^ 2 * k) * (Real.exp (-(Real.pi ^ 2 * k) * t) * Real.sin (Real.pi * x))))
    (fun t x => Real.exp (-(Real.pi ^ 2 * k) * t) * (Real.pi * Real.cos (Real.pi * x)))
    (fun t x => Real.exp (-(Real.pi ^ 2 * k) * t) * (-Real.pi ^ 2 * Real.sin (Real.pi * x)))
    (fun t x => Real.exp (-(Real.pi ^ 2 * k) * t) * (-Real.pi ^ 3 * Real.cos (Real.pi * x)))
    (fun t x => Real.exp (-(Real.pi ^ 2 * k) * t) * (Real.pi ^ 4 * Real.sin (Real.pi * x))) := by
  have hlin : ∀ r s : ℝ, HasDerivAt (fun s : ℝ => r * s) r s := fun r s => by simpa using (hasDerivAt_id s).const_mul r
  have hsin : ∀ x : ℝ, HasDerivAt (fun x => Real.sin (Real.pi * x)) (Real.pi * Real.cos (Real.pi * x)) x := fun x => by
    have := (hlin Real.pi x).sin
    rwa [mul_comm] at this
  have hcos : ∀ x : ℝ, HasDerivAt (fun x => Real.cos (Real.pi * x)) (-(Real.pi * Real.sin (Real.pi * x))) x := fun x => by
    have := (hlin Real.pi x).cos
    exact this.congr_deriv (by ring)
  have hexp : ∀ r t : ℝ, HasDerivAt (fun t => Real.exp (r * t)) (r * Real.exp (r * t)) t := fun r t => by
    have := (hlin r t).exp
    rwa [mul_comm] at this
  refine ⟨fun t _ x _ => by ring, fun x _ t _ => ?_, fun x _ t _ => ?_, fun t _ x _ => ?_, fun t _ x _ => ?_, fun t _ x _ => ?_, fun t _ x _ => ?_, by simp, by simp⟩
  · exact (((hexp _ t).mul_const _).congr_deriv (by ring)).hasDerivWithinAt
  · exact ((((hexp _ t).mul_const _).const_mul _).congr_deriv (by ring)).hasDerivWithinAt
  · exact ((hsin x).const_mul _).hasDerivWithinAt
  · exact ((((hcos x).const_mul Real.pi).const_mul _).congr_deriv (by ring)).hasDerivWithinAt
  · exact ((((hsin x).const_mul (-Real.pi ^ 2)).const_mul _).congr_deriv (by ring)).hasDerivWithinAt
  · exact ((((hcos x).const_mul (-Real.pi ^ 3)).const_mul _).congr_deriv (by ring)).hasDerivWithinAt

/-- The hypotheses of `C93_heat` can be met, for every number of cells: the decaying sine, whose derivatives are bounded by powers of π. -/
example (es : ExecKind) (n : Nat) (h1 : 1 ≤ n) (k T : ℝ) (hk : 0 < k) : ∃ (S : Setting ℝ) (g : Geometry ℝ) (st : TimeState ℝ ℝ) (eqn : Expr) (ops : OpsOf ℝ ℝ),
    S.e = es ∧ create1DUniformMesh .parallel (vmag Real.sqrt) (fun _ => 0) n (.ok S.m) ∧ geometryScheme .parallel S.m (1 / 1000) Real.sqrt (fun _ => 0) (.ok g) ∧
    S.δ = g.nonOrthDeltaCoeffs ∧ S.w.length = n + 1 ∧ sparsityUpdate S.e S.m (.ok S.sp) ∧
    (∀ t ∈ Set.Icc 0 T, ∀ x ∈ Set.Icc (0 : ℝ) 1, |Real.exp (-(Real.pi ^ 2 * k) * t) * (-Real.pi ^ 2 * Real.sin (Real.pi * x))| ≤ Real.pi ^ 2 ∧
      |Real.exp (-(Real.pi ^ 2 * k) * t) * (Real.pi ^ 4 * Real.sin (Real.pi * x))| ≤ Real.pi ^ 4 ∧
      |-(Real.pi ^ 2 * k) * (-(Real.pi ^ 2 * k) * (Real.exp (-(Real.pi ^ 2 * k) * t) * Real.sin (Real.pi * x)))| ≤ (Real.pi ^ 2 * k) ^ 2) ∧
    st.sol.On S.m ∧ st.Synced ∧ (∀ c < n, |st.sol.cell c - Real.exp (-(Real.pi ^ 2 * k) * 0) * Real.sin (Real.pi * (((c : ℝ) + 1 / 2) / n))| ≤ 0) ∧
    Prescribes S.m st.sol 0 (.fixedValue (0 : ℝ)) (st.sol.entry 0) ∧ Prescribes S.m st.sol 1 (.fixedValue (0 : ℝ)) (st.sol.entry 1) ∧
    ∀ st, heatTree.build (callOps S (heatCalls (List.replicate (n + 1) k)) st) = .ok (eqn, ops st) := by
  have hwf := mesh1D_wf (vmag Real.sqrt) n h1
  obtain ⟨sp, hsp⟩ := C14_terminates _ hwf es
  obtain ⟨g, hgs⟩ : ∃ g, geometryScheme .parallel (mesh1D (vmag Real.sqrt) n) (1 / 1000) Real.sqrt (fun _ => 0) (.ok g) := ⟨_, (geometryScheme_det hwf .parallel _ _ _ _).2 rfl⟩
  set S : Setting ℝ := ⟨es, mesh1D (vmag Real.sqrt) n, sp, .upwind, List.replicate (n + 1) 0, g.nonOrthDeltaCoeffs, fun _ => 0⟩ with hS
  set l : List ℝ := (List.range n).map fun c : Nat => Real.sin (Real.pi * (((c : ℝ) + 1 / 2) / n)) with hl
  have hbuild : ∃ eqn : Expr, ∀ st, ∃ o, heatTree.build (callOps S (heatCalls (List.replicate (n + 1) k)) st) = .ok (eqn, o) := ⟨⟨[4], [7]⟩, fun st => ⟨_, rfl⟩⟩
  obtain ⟨eqn, hops⟩ := hbuild
  choose ops hops using hops
  refine ⟨S, g, ⟨⟨l, [0, 0], [0, 0], [1, 1], [0, 0]⟩, some l⟩, eqn, ops, rfl, (create1D_closed _ _ _ n h1 _).2 rfl, hgs, rfl, by simp [hS], hsp, fun t ht x _ => ?_,
    ⟨by simp [hl, hS, mesh1D], rfl, rfl, rfl, rfl⟩, rfl, fun c hc => ?_, ⟨rfl, rfl, rfl⟩, ⟨rfl, rfl, rfl⟩, hops⟩
  · have he : |Real.exp (-(Real.pi ^ 2 * k) * t)| ≤ 1 := by
      rw [abs_of_pos (Real.exp_pos _), Real.exp_le_one_iff]
      have := mul_nonneg (mul_nonneg (sq_nonneg Real.pi) hk.le) ht.1
      linarith
    have hs := Real.abs_sin_le_one (Real.pi * x)
    have hes : |Real.exp (-(Real.pi ^ 2 * k) * t)| * |Real.sin (Real.pi * x)| ≤ 1 := mul_le_one₀ he (abs_nonneg _) hs
    have hgen : ∀ r : ℝ, 0 ≤ r → |Real.exp (-(Real.pi ^ 2 * k) * t)| * |Real.sin (Real.pi * x)| * r ≤ r := fun r hr => mul_le_of_le_one_left hr hes
    have hp := Real.pi_pos
    refine ⟨?_, ?_, ?_⟩
    · rw [abs_mul, abs_mul, abs_neg, abs_of_pos (show 0 < Real.pi ^ 2 by positivity)]
      have := hgen (Real.pi ^ 2) (by positivity)
      linarith
    · rw [abs_mul, abs_mul, abs_of_pos (show 0 < Real.pi ^ 4 by positivity)]
      have := hgen (Real.pi ^ 4) (by positivity)
      linarith
    · rw [abs_mul, abs_mul, abs_mul, abs_neg, abs_of_pos (show 0 < Real.pi ^ 2 * k by positivity)]
      have := hgen ((Real.pi ^ 2 * k) ^ 2) (by positivity)
      linarith
  · show |l.getD c 0 - _| ≤ 0
    rw [hl, getD_range_map _ _ _ hc]
    simp

end NeoFOAM
