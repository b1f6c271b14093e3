import Verif.Proofs.Taylor
import Verif.Proofs.Poisson
import Verif.Props.C64_Line

/-!
# C92 – refining the mesh: second-order convergence of steady diffusion with a source on the line
-/
namespace NeoFOAM
open Finset
variable {K : Type} [Field K] [LinearOrder K] [IsStrictOrderedRing K]

/-- What leaves a cell of the line by diffusion, fixed values at both ends. -/
theorem line_outflow (mag : Vec K → K) (n : Nat) (h1 : 1 ≤ n) {δ gamma : Nat → K} {k a b : K}
    (hδ : ∀ f < n + 1, δ f = if f < n - 1 then (n : K) else 2 * n) (hg : ∀ f < n + 1, gamma f = k) {φ : VolField K K}
    (hl : (φ.entry 0).fraction = 1 ∧ (φ.entry 0).refValue = a) (hr : (φ.entry 1).fraction = 1 ∧ (φ.entry 1).refValue = b) (x : Nat → K) (c : Nat) (hc : c < n) :
    (mesh1D mag n).netOutflow (φ.outFlux (mesh1D mag n) (fun _ => 0) δ gamma x) c
      = (if c < n - 1 then -(k * n * (x (c + 1) - x c)) else -(k * (2 * n) * (b - x c)))
        - (if 1 ≤ c then -(k * n * (x c - x (c - 1))) else k * (2 * n) * (a - x c)) := by
  have hi : (mesh1D mag n).nInternalFaces = n - 1 := rfl
  have hfl : ∀ f < n + 1, φ.outFlux (mesh1D mag n) (fun _ => 0) δ gamma x f = if f < n - 1 then -(k * n * (x (f + 1) - x f))
      else if f = n - 1 then -(k * (2 * n) * (a - x 0)) else -(k * (2 * n) * (b - x (n - 1))) := by
    intro f hf
    unfold VolField.outFlux
    rw [hi, hδ f hf, hg f hf, mesh1D_mag mag n f hf]
    by_cases ha : f < n - 1
    · rw [if_pos ha, if_pos ha, if_pos ha, mesh1D_own mag n f hf, if_pos ha, mesh1D_nbr mag n f ha]
      ring
    · rw [if_neg ha, if_neg ha, if_neg ha]
      by_cases hb : f = n - 1
      · rw [if_pos hb, hb, Nat.sub_self, mesh1D_fc0]
        simp only [hl.1, hl.2]
        ring
      · have : f - (n - 1) = 1 := by omega
        rw [if_neg hb, this, mesh1D_fc1]
        simp only [hr.1, hr.2]
        ring
  rw [mesh1D_netOutflow mag n _ c hc]
  congr 1
  · by_cases ha : c < n - 1
    · rw [if_pos ha, if_pos ha, hfl c (by omega), if_pos ha]
    · rw [if_neg ha, if_neg ha, hfl n (by omega), if_neg (by omega), if_neg (by omega), show n - 1 = c by omega]
  · by_cases ha : 1 ≤ c
    · rw [if_pos ha, if_pos ha, hfl (c - 1) (by omega), if_pos (by omega), show c - 1 + 1 = c by omega]
    · rw [if_neg ha, if_neg ha, hfl (n - 1) (by omega), if_neg (by omega), if_pos rfl, show c = 0 by omega]
      ring

/-- The centre of cell `c` of the line of `n` cells. -/
def lineCentre (K : Type) [Field K] (n c : Nat) : K := ((c : K) + 1 / 2) / n

/-- The barrier: as much leaves every cell as a unit source makes. -/
def lineBarrier (K : Type) [Field K] (n c : Nat) : K := lineCentre K n c * (1 - lineCentre K n c) / 2 + 1 / (8 * n ^ 2)

/-- Steady diffusion with sources on the line: the outcome and its balance. -/
theorem line_poisson {S : Setting K} (e e' : ExecKind) (mag : Vec K → K) (mjunk : Nat → Nat) (n : Nat) (h1 : 1 ≤ n) (hes : S.e = .serial ∨ 2 ≤ n)
    (hm : create1DUniformMesh e mag mjunk n (.ok S.m)) (tiny : K) (sqrt : K → K) (hs : IsSqrt sqrt) (gjunk : Nat → K) (g : Geometry K)
    (hg : geometryScheme e' S.m tiny sqrt gjunk (.ok g)) (hδ : S.δ = g.nonOrthDeltaCoeffs) (hw : S.w.length = n + 1) (hsp : sparsityUpdate S.e S.m (.ok S.sp))
    (gamma : List K) (hgl : gamma.length = n + 1) (k : K) (hk : 0 < k) (hgam : ∀ f < n + 1, ix gamma f = k)
    (s : List K) (hsl : s.length = n) (one : VolField K K) (hone : one.On S.m)
    (st : TimeState K K) (ho : st.sol.On S.m) (hol : st.oldTime.length = n) (a b : K)
    (hleft : Prescribes S.m st.sol 0 (.fixedValue a) (st.sol.entry 0)) (hright : Prescribes S.m st.sol 1 (.fixedValue b) (st.sol.entry 1))
    (eqn : Expr) (ops : OpsOf K K) (hb : poissonTree.build (callOps S (poissonCalls gamma s one) st) = .ok (eqn, ops st))
    (bcs : List (VolumeBoundary K)) (table : SolverTable K) (fvSchemes fvSolution : Dict)
    (solver : LinSolver K) (hso : createSolver table fvSolution = .ok solver) (hex : SolvingOn S.m solver) (t dt : K) :
    ∃ x : List K, x.length = n ∧
      (∀ out, dslSolve S.e S.m bcs table fvSchemes fvSolution ops eqn st t dt out ↔ out = .ok { st with sol := { st.sol with internal := x } }) ∧
      (∀ y w : Nat → K, (∀ c < n, |(if c < n - 1 then -(k * n * (y (c + 1) - y c)) else -(k * (2 * n) * (b - y c)))
          - (if 1 ≤ c then -(k * n * (y c - y (c - 1))) else k * (2 * n) * (a - y c)) - 1 / n * (ix s c * one.cell c)| ≤
            (if c < n - 1 then -(k * n * (w (c + 1) - w c)) else -(k * (2 * n) * (0 - w c)))
              - (if 1 ≤ c then -(k * n * (w c - w (c - 1))) else k * (2 * n) * (0 - w c))) → ∀ c < n, |ix x c - y c| ≤ w c) := by
  rw [create1D_closed e mag mjunk n h1, Res.ok.injEq] at hm
  have hn : (0 : K) < n := by exact_mod_cast h1
  obtain ⟨sdata, sm, ssp, ssch, sw, sδ, sjunk⟩ := S
  dsimp only at *
  subst hm
  subst hδ
  obtain ⟨-, hdl, hnd, -, -⟩ := mesh1D_geometry mag n h1 e' tiny sqrt hs gjunk g hg
  have hwf := mesh1D_wf mag n h1
  obtain ⟨-, hlr, hlf⟩ := hleft
  obtain ⟨-, hrr, hrf⟩ := hright
  have hδp : ∀ f < n + 1, 0 < ix g.nonOrthDeltaCoeffs f := by
    intro f hf
    rw [hnd f hf]
    split <;> positivity
  have hfed := line_fed mag n h1 (ix g.nonOrthDeltaCoeffs) (ix gamma) hδp (fun f hf => by rw [hgam f hf]; exact hk) st.sol hlf
  have hdiff : ∀ f < n + 1, 0 ≤ ix gamma f * ix g.nonOrthDeltaCoeffs f * ix (mesh1D mag n).magFaceAreas f := by
    intro f hf
    rw [mesh1D_mag mag n f hf, hgam f hf, mul_one]
    exact mul_nonneg hk.le (hδp f hf).le
  have hi : (mesh1D mag n).nInternalFaces = n - 1 := rfl
  have hst : Stable (mesh1D mag n) (fun _ => 0) (ix g.nonOrthDeltaCoeffs) (ix gamma) st.sol := by
    refine ⟨fun c _ => by simp [Mesh.netOutflow], hdiff, fun i hi' => .inr ?_⟩
    have hi' : i < 2 := hi'
    have : i = 0 ∨ i = 1 := by omega
    rcases this with rfl | rfl
    · exact ⟨hlf, hdiff _ (by rw [hi]; omega)⟩
    · exact ⟨hrf, hdiff _ (by rw [hi]; omega)⟩
  have hre : (mesh1D mag n).Reproducible sdata := mesh1D_reproducible mag n sdata hes
  have hv : ∀ c < (mesh1D mag n).nCells, 0 < (mesh1D mag n).vol c := by
    intro c hc
    rw [mesh1D_vol mag n c hc]
    positivity
  obtain ⟨x, hx1, hx2, hx3⟩ := poisson_solve (S := ⟨sdata, mesh1D mag n, ssp, ssch, sw, g.nonOrthDeltaCoeffs, sjunk⟩)
    ⟨hwf, fun c _ => by have := mesh1D_deg mag n c; show 1 + (mesh1D mag n).deg c ≤ 256; omega, hsp, hw, hdl, hre⟩ hv gamma s one hgl hsl hone st ho hol eqn ops hb bcs table
    fvSchemes fvSolution solver hso hex hst hfed t dt
  refine ⟨x, hx1, hx2, fun y w hyw => ?_⟩
  refine steady_abs_le hwf hv hst hfed (fun c => ix x c - y c) w fun c hc => ?_
  have hc' : c < n := hc
  rw [homog_outFlux, netOutflow_add, netOutflow_smul, hx3 c hc,
    line_outflow mag n h1 hnd hgam ⟨hlf, hlr⟩ ⟨hrf, hrr⟩ y c hc',
    line_outflow mag n h1 hnd hgam (φ := st.sol.homog) (a := 0) (b := 0) ⟨hlf, by simp [VolField.homog, VolField.entry]⟩
      ⟨hrf, by simp [VolField.homog, VolField.entry]⟩ w c hc']
  refine le_trans (le_of_eq ?_) (hyw c hc')
  rw [abs_sub_comm]
  dsimp only
  rw [mesh1D_vol mag n c hc', smul_eq_mul]
  ring_nf

omit [LinearOrder K] [IsStrictOrderedRing K] in
/-- The balance of a linear profile plus a multiple of the barrier, with the end values of the linear profile. -/
theorem line_quadratic [CharZero K] (n : Nat) (h1 : 1 ≤ n) (k a b r : K) (y : Nat → K)
    (hy : ∀ c < n, y c = a + (b - a) * lineCentre K n c + r * lineBarrier K n c) (c : Nat) (hc : c < n) :
    (if c < n - 1 then -(k * n * (y (c + 1) - y c)) else -(k * (2 * n) * (b - y c)))
      - (if 1 ≤ c then -(k * n * (y c - y (c - 1))) else k * (2 * n) * (a - y c)) = 1 / n * (k * r) := by
  have hn : (n : K) ≠ 0 := Nat.cast_ne_zero.2 (by omega)
  have hR : (if c < n - 1 then -(k * n * (y (c + 1) - y c)) else -(k * (2 * n) * (b - y c))) = -(k * ((b - a) + r * (1 / 2 - (c + 1) / n))) := by
    by_cases ha : c < n - 1
    · rw [if_pos ha, hy _ (by omega), hy _ (by omega)]
      unfold lineBarrier lineCentre
      push_cast
      field_simp
      ring
    · have hcn : (c : K) = n - 1 := by
        have : c + 1 = n := by omega
        have : ((c + 1 : Nat) : K) = n := by rw [this]
        push_cast at this
        linear_combination this
      rw [if_neg ha, hy _ (by omega)]
      unfold lineBarrier lineCentre
      rw [hcn]
      field_simp
      ring
  have hL : (if 1 ≤ c then -(k * n * (y c - y (c - 1))) else k * (2 * n) * (a - y c)) = -(k * ((b - a) + r * (1 / 2 - c / n))) := by
    by_cases ha : 1 ≤ c
    · have hk : ((c - 1 : Nat) : K) = (c : K) - 1 := by rw [Nat.cast_sub ha]; simp
      rw [if_pos ha, hy _ (by omega), hy _ (by omega)]
      unfold lineBarrier lineCentre
      rw [hk]
      field_simp
      ring
    · have hc0 : c = 0 := by omega
      rw [if_neg ha, hy _ (by omega)]
      unfold lineBarrier lineCentre
      rw [hc0]
      push_cast
      field_simp
      ring
  rw [hR, hL]
  field_simp
  ring

/-- **C92, uniform source**: on the mesh of `create1DUniformMesh`, for every number of cells, diffusivity `k > 0`, uniform source `q` and end values `a` and `b`: solving
`laplacian(gamma, u) + source(s, one)` has exactly one outcome, and in every cell the value differs from the solution `a + (b - a) x + q/(2k) x (1 - x)` of `k u'' + q = 0` at
the centre by exactly `q / (8 k n^2)`. The error goes down with the square of the cell size, and no faster. -/
theorem C92_uniform_source {S : Setting K} (e e' : ExecKind) (mag : Vec K → K) (mjunk : Nat → Nat) (n : Nat) (h1 : 1 ≤ n) (hes : S.e = .serial ∨ 2 ≤ n)
    (hm : create1DUniformMesh e mag mjunk n (.ok S.m)) (tiny : K) (sqrt : K → K) (hs : IsSqrt sqrt) (gjunk : Nat → K) (g : Geometry K)
    (hg : geometryScheme e' S.m tiny sqrt gjunk (.ok g)) (hδ : S.δ = g.nonOrthDeltaCoeffs) (hw : S.w.length = n + 1) (hsp : sparsityUpdate S.e S.m (.ok S.sp))
    (gamma : List K) (hgl : gamma.length = n + 1) (k : K) (hk : 0 < k) (hgam : ∀ f < n + 1, ix gamma f = k)
    (s : List K) (hsl : s.length = n) (one : VolField K K) (hone : one.On S.m) (q : K) (hq : ∀ c < n, ix s c = q ∧ one.cell c = 1)
    (st : TimeState K K) (ho : st.sol.On S.m) (hol : st.oldTime.length = n) (a b : K)
    (hleft : Prescribes S.m st.sol 0 (.fixedValue a) (st.sol.entry 0)) (hright : Prescribes S.m st.sol 1 (.fixedValue b) (st.sol.entry 1))
    (eqn : Expr) (ops : OpsOf K K) (hb : poissonTree.build (callOps S (poissonCalls gamma s one) st) = .ok (eqn, ops st))
    (bcs : List (VolumeBoundary K)) (table : SolverTable K) (fvSchemes fvSolution : Dict)
    (solver : LinSolver K) (hso : createSolver table fvSolution = .ok solver) (hex : SolvingOn S.m solver) (t dt : K) :
    ∃ x : List K, x.length = n ∧
      (∀ out, dslSolve S.e S.m bcs table fvSchemes fvSolution ops eqn st t dt out ↔ out = .ok { st with sol := { st.sol with internal := x } }) ∧
      ∀ c < n, ix x c - (a + (b - a) * (((c : K) + 1 / 2) / n) + q / (2 * k) * ((((c : K) + 1 / 2) / n) * (1 - ((c : K) + 1 / 2) / n))) = q / (8 * k * n ^ 2) := by
  obtain ⟨x, hx1, hx2, hx3⟩ := line_poisson e e' mag mjunk n h1 hes hm tiny sqrt hs gjunk g hg hδ hw hsp gamma hgl k hk hgam s hsl one hone st ho hol a b hleft hright eqn ops hb bcs
    table fvSchemes fvSolution solver hso hex t dt
  refine ⟨x, hx1, hx2, fun c hc => ?_⟩
  have hn : (n : K) ≠ 0 := Nat.cast_ne_zero.2 (by omega)
  have hk' := hk.ne'
  have := hx3 (fun c => a + (b - a) * lineCentre K n c + q / k * lineBarrier K n c) (fun _ => 0) (fun c hc => by
    rw [line_quadratic n h1 k a b (q / k) (fun c => a + (b - a) * lineCentre K n c + q / k * lineBarrier K n c) (fun _ _ => rfl) c hc, (hq c hc).1, (hq c hc).2]
    rw [show k * (q / k) = q by field_simp]
    simp) c hc
  have := sub_eq_zero.1 (abs_eq_zero.1 (le_antisymm this (abs_nonneg _)))
  rw [this]
  unfold lineBarrier lineCentre
  field_simp
  ring

/-- The truncation error of the line: how far the exact solution's values at the centres are from balance. -/
theorem line_truncation {u u1 u2 u3 u4 : ℝ → ℝ} (d1 : DerivOn u u1) (d2 : DerivOn u1 u2) (d3 : DerivOn u2 u3) (d4 : DerivOn u3 u4) {M2 M4 : ℝ}
    (hM2 : ∀ x ∈ Set.Icc (0 : ℝ) 1, |u2 x| ≤ M2) (hM4 : ∀ x ∈ Set.Icc (0 : ℝ) 1, |u4 x| ≤ M4) (n : Nat) (h1 : 1 ≤ n) (k : ℝ) (hk : 0 < k) (y : Nat → ℝ)
    (hy : ∀ c < n, y c = u (lineCentre ℝ n c)) (c : Nat) (hc : c < n) :
    |(if c < n - 1 then -(k * n * (y (c + 1) - y c)) else -(k * (2 * n) * (u 1 - y c)))
      - (if 1 ≤ c then -(k * n * (y c - y (c - 1))) else k * (2 * n) * (u 0 - y c)) - 1 / n * (-(k * u2 (lineCentre ℝ n c)))|
      ≤ k * M4 / (12 * n ^ 3) + ((if c < n - 1 then 0 else k * (2 * n)) + if 1 ≤ c then 0 else k * (2 * n)) * (5 / 4 * M2 / n ^ 2) := by
  have hn : (0 : ℝ) < n := by exact_mod_cast h1
  have hn' : (n : ℝ) ≠ 0 := hn.ne'
  have hM2' : 0 ≤ M2 := (abs_nonneg _).trans (hM2 0 ⟨le_rfl, zero_le_one⟩)
  have hM4' : 0 ≤ M4 := (abs_nonneg _).trans (hM4 0 ⟨le_rfl, zero_le_one⟩)
  have hin : lineCentre ℝ n c ∈ Set.Icc (0 : ℝ) 1 := by
    have : (c : ℝ) + 1 ≤ n := by exact_mod_cast hc
    have c0 : (0 : ℝ) ≤ c := Nat.cast_nonneg c
    constructor
    · unfold lineCentre; positivity
    · unfold lineCentre; rw [div_le_one hn]; linarith
  have h0 : 0 ≤ k * M4 / (12 * n ^ 3) := by positivity
  have hu2 := hM2 _ hin
  by_cases ha : c < n - 1
  · by_cases hb : 1 ≤ c
    · rw [if_pos ha, if_pos hb, if_pos ha, if_pos hb, add_zero, zero_mul, add_zero, hy _ (by omega), hy _ (by omega), hy _ (by omega)]
      have e1 : lineCentre ℝ n (c + 1) = lineCentre ℝ n c + 1 / n := by unfold lineCentre; push_cast; field_simp; ring
      have e2 : lineCentre ℝ n (c - 1) = lineCentre ℝ n c - 1 / n := by
        have hk : ((c - 1 : Nat) : ℝ) = (c : ℝ) - 1 := by rw [Nat.cast_sub hb]; simp
        unfold lineCentre; rw [hk]; field_simp; ring
      have hlo : 0 ≤ lineCentre ℝ n c - 1 / n := by
        have : (1 : ℝ) ≤ c := by exact_mod_cast hb
        unfold lineCentre
        rw [← sub_div]
        apply div_nonneg _ hn.le
        linarith
      have hhi : lineCentre ℝ n c + 1 / n ≤ 1 := by
        have : ((c + 2 : Nat) : ℝ) ≤ n := by exact_mod_cast (by omega : c + 2 ≤ n)
        push_cast at this
        unfold lineCentre
        rw [← add_div, div_le_one hn]
        linarith
      have := second_difference d1 d2 d3 d4 hM4 (x := lineCentre ℝ n c) (h := 1 / n) (by positivity) hlo hhi
      rw [← e1, ← e2] at this
      have e3 : -(k * n * (u (lineCentre ℝ n (c + 1)) - u (lineCentre ℝ n c))) - -(k * n * (u (lineCentre ℝ n c) - u (lineCentre ℝ n (c - 1))))
          - 1 / n * (-(k * u2 (lineCentre ℝ n c)))
          = -(k * n) * (u (lineCentre ℝ n (c + 1)) - 2 * u (lineCentre ℝ n c) + u (lineCentre ℝ n (c - 1)) - (1 / n) ^ 2 * u2 (lineCentre ℝ n c)) := by
        field_simp
        ring
      rw [e3, abs_mul, abs_neg, abs_of_pos (mul_pos hk hn)]
      refine (mul_le_mul_of_nonneg_left this (mul_pos hk hn).le).trans (le_of_eq ?_)
      field_simp
    · rw [if_pos ha, if_neg hb, if_pos ha, if_neg hb, zero_add, hy _ (by omega), hy _ (by omega)]
      have hc0 : c = 0 := by omega
      subst hc0
      have hn2 : (2 : ℝ) ≤ n := by exact_mod_cast (by omega : 2 ≤ n)
      have e0 : lineCentre ℝ n 0 = 1 / (2 * n) := by unfold lineCentre; push_cast; field_simp; ring
      have e1 : lineCentre ℝ n (0 + 1) = 3 * (1 / (2 * n)) := by unfold lineCentre; push_cast; field_simp; ring
      have := end_difference d1 d2 hM2 (p := 0) (r := 1) (y := 1 / (2 * n)) (by norm_num) (by positivity) (fun s hs => by
        refine ⟨by simpa using hs.1, ?_⟩
        have h2 := hs.2
        have : 3 * (1 / (2 * n : ℝ)) ≤ 1 := by
          rw [mul_one_div, div_le_one (by positivity)]
          linarith
        linarith)
      rw [zero_add, zero_add, one_mul, one_mul, ← e1, ← e0] at this
      have e3 : -(k * n * (u (lineCentre ℝ n (0 + 1)) - u (lineCentre ℝ n 0))) - k * (2 * n) * (u 0 - u (lineCentre ℝ n 0)) - 1 / n * (-(k * u2 (lineCentre ℝ n 0)))
          = -(k * n) * (u (lineCentre ℝ n (0 + 1)) - 3 * u (lineCentre ℝ n 0) + 2 * u 0 - (1 / n) ^ 2 * u2 (lineCentre ℝ n 0)) := by
        field_simp
        ring
      rw [e3, abs_mul, abs_neg, abs_of_pos (mul_pos hk hn)]
      have h4 : |u (lineCentre ℝ n (0 + 1)) - 3 * u (lineCentre ℝ n 0) + 2 * u 0 - (1 / n) ^ 2 * u2 (lineCentre ℝ n 0)| ≤ 5 / 2 * M2 * (1 / n) ^ 2 := by
        refine (abs_sub _ _).trans ?_
        rw [abs_mul, abs_of_nonneg (show (0 : ℝ) ≤ (1 / n) ^ 2 by positivity)]
        have h5 := mul_le_mul_of_nonneg_left hu2 (show (0 : ℝ) ≤ (1 / n) ^ 2 by positivity)
        rw [e0] at this h5 ⊢
        have h6 : 6 * M2 * (1 / (2 * n) : ℝ) ^ 2 = 3 / 2 * M2 * (1 / n) ^ 2 := by field_simp; ring
        rw [h6] at this
        linarith
      refine (mul_le_mul_of_nonneg_left h4 (mul_pos hk hn).le).trans ?_
      have h5 : k * n * (5 / 2 * M2 * (1 / n) ^ 2) = k * (2 * n) * (5 / 4 * M2 / n ^ 2) := by field_simp; ring
      rw [h5]
      linarith
  · have hcn : (c : ℝ) = n - 1 := by
      have : c + 1 = n := by omega
      have : ((c + 1 : Nat) : ℝ) = n := by rw [this]
      push_cast at this
      linarith
    by_cases hb : 1 ≤ c
    · rw [if_neg ha, if_pos hb, if_neg ha, if_pos hb, add_zero, hy _ (by omega), hy _ (by omega)]
      have hn2 : (2 : ℝ) ≤ n := by exact_mod_cast (by omega : 2 ≤ n)
      have e0 : lineCentre ℝ n c = 1 + (-1) * (1 / (2 * n)) := by unfold lineCentre; rw [hcn]; field_simp; ring
      have e1 : lineCentre ℝ n (c - 1) = 1 + (-1) * (3 * (1 / (2 * n))) := by
        have hk : ((c - 1 : Nat) : ℝ) = (c : ℝ) - 1 := by rw [Nat.cast_sub hb]; simp
        unfold lineCentre; rw [hk, hcn]; field_simp; ring
      have := end_difference d1 d2 hM2 (p := 1) (r := -1) (y := 1 / (2 * n)) (by norm_num) (by positivity) (fun s hs => by
        have h1 := hs.1
        have h2 := hs.2
        have : 3 * (1 / (2 * n : ℝ)) ≤ 1 := by
          rw [mul_one_div, div_le_one (by positivity)]
          linarith
        constructor <;> linarith)
      rw [← e1, ← e0] at this
      have e3 : -(k * (2 * n) * (u 1 - u (lineCentre ℝ n c))) - -(k * n * (u (lineCentre ℝ n c) - u (lineCentre ℝ n (c - 1)))) - 1 / n * (-(k * u2 (lineCentre ℝ n c)))
          = -(k * n) * (u (lineCentre ℝ n (c - 1)) - 3 * u (lineCentre ℝ n c) + 2 * u 1 - (1 / n) ^ 2 * u2 (lineCentre ℝ n c)) := by
        field_simp
        ring
      rw [e3, abs_mul, abs_neg, abs_of_pos (mul_pos hk hn)]
      have h4 : |u (lineCentre ℝ n (c - 1)) - 3 * u (lineCentre ℝ n c) + 2 * u 1 - (1 / n) ^ 2 * u2 (lineCentre ℝ n c)| ≤ 5 / 2 * M2 * (1 / n) ^ 2 := by
        refine (abs_sub _ _).trans ?_
        rw [abs_mul, abs_of_nonneg (show (0 : ℝ) ≤ (1 / n) ^ 2 by positivity)]
        have h5 := mul_le_mul_of_nonneg_left hu2 (show (0 : ℝ) ≤ (1 / n) ^ 2 by positivity)
        have h6 : 6 * M2 * (1 / (2 * n) : ℝ) ^ 2 = 3 / 2 * M2 * (1 / n) ^ 2 := by field_simp; ring
        rw [h6] at this
        linarith
      refine (mul_le_mul_of_nonneg_left h4 (mul_pos hk hn).le).trans ?_
      have h5 : k * n * (5 / 2 * M2 * (1 / n) ^ 2) = k * (2 * n) * (5 / 4 * M2 / n ^ 2) := by field_simp; ring
      rw [h5]
      linarith
    · rw [if_neg ha, if_neg hb, if_neg ha, if_neg hb, hy _ (by omega)]
      have hc0 : c = 0 := by omega
      have hn1 : n = 1 := by omega
      subst hc0
      subst hn1
      have e0 : lineCentre ℝ 1 0 = 1 / 2 := by unfold lineCentre; norm_num
      have := middle_difference d1 d2 hM2
      rw [e0] at hu2 ⊢
      have e3 : -(k * (2 * ((1 : Nat) : ℝ)) * (u 1 - u (1 / 2))) - k * (2 * ((1 : Nat) : ℝ)) * (u 0 - u (1 / 2)) - 1 / ((1 : Nat) : ℝ) * (-(k * u2 (1 / 2)))
          = k * (u2 (1 / 2) - 2 * (u 1 - 2 * u (1 / 2) + u 0)) := by
        push_cast
        ring
      rw [e3, abs_mul, abs_of_pos hk]
      have h4 : |u2 (1 / 2) - 2 * (u 1 - 2 * u (1 / 2) + u 0)| ≤ 3 / 2 * M2 := by
        have a := abs_le.1 this
        have b := abs_le.1 hu2
        rw [abs_le]
        constructor <;> linarith [a.1, a.2, b.1, b.2]
      refine (mul_le_mul_of_nonneg_left h4 hk.le).trans ?_
      push_cast
      have := mul_nonneg hk.le hM2'
      have := mul_nonneg hk.le hM4'
      norm_num
      linarith

omit [LinearOrder K] [IsStrictOrderedRing K] in
/-- The outflow of a multiple of the barrier plus a constant, zero at both ends. -/
theorem line_barrier_outflow [CharZero K] (n : Nat) (h1 : 1 ≤ n) (k α β : K) (w : Nat → K) (hw : ∀ c < n, w c = α * lineBarrier K n c + β) (c : Nat) (hc : c < n) :
    (if c < n - 1 then -(k * n * (w (c + 1) - w c)) else -(k * (2 * n) * (0 - w c)))
      - (if 1 ≤ c then -(k * n * (w c - w (c - 1))) else k * (2 * n) * (0 - w c))
      = 1 / n * (k * α) + ((if c < n - 1 then 0 else k * (2 * n)) + if 1 ≤ c then 0 else k * (2 * n)) * β := by
  have := line_quadratic n h1 k 0 0 α (fun c => α * lineBarrier K n c) (fun c _ => by ring) c hc
  rw [← this]
  by_cases ha : c < n - 1
  · by_cases hb : 1 ≤ c
    · simp only [if_pos ha, if_pos hb]
      rw [hw _ (by omega), hw _ (by omega), hw _ (by omega)]
      ring
    · simp only [if_pos ha, if_neg hb]
      rw [hw _ (by omega), hw _ (by omega)]
      ring
  · by_cases hb : 1 ≤ c
    · simp only [if_neg ha, if_pos hb]
      rw [hw _ (by omega), hw _ (by omega)]
      ring
    · simp only [if_neg ha, if_neg hb]
      rw [hw _ (by omega)]
      ring

/-- The barrier is between zero and a quarter. -/
theorem lineBarrier_le (n c : Nat) (hc : c < n) : 0 ≤ lineBarrier K n c ∧ lineBarrier K n c ≤ 1 / 4 := by
  have hn : (0 : K) < n := by exact_mod_cast (by omega : 0 < n)
  have hn1 : (1 : K) ≤ n := by exact_mod_cast (by omega : 1 ≤ n)
  have hc1 : (c : K) + 1 ≤ n := by exact_mod_cast hc
  have c0 : (0 : K) ≤ c := Nat.cast_nonneg c
  have h0 : 0 ≤ lineCentre K n c := by unfold lineCentre; positivity
  have h1 : lineCentre K n c ≤ 1 := by unfold lineCentre; rw [div_le_one hn]; linarith
  have h2 : (1 : K) / (8 * n ^ 2) ≤ 1 / 8 := by
    apply one_div_le_one_div_of_le (by norm_num)
    nlinarith
  have h3 : (0 : K) ≤ 1 / (8 * n ^ 2) := by positivity
  unfold lineBarrier
  constructor
  · have := mul_nonneg h0 (sub_nonneg.2 h1)
    linarith
  · nlinarith [sq_nonneg (lineCentre K n c - 1 / 2)]

/-- **C92, convergence**: let `u` be four times differentiable on the unit interval with `k u'' + s = 0`. On the mesh of `create1DUniformMesh` with any number `n` of cells, with the source
sampled at the cell centres and the values of `u` fixed at both ends, solving `laplacian(gamma, u) + source(s, one)` has exactly one outcome for every linear solver that
solves solvable systems, and the value of every cell differs from `u` at its centre by at most `(M4/48 + 5 M2/4) / n^2`, where `M2` and `M4` bound the second and fourth derivative: the error
goes to zero with the square of the cell size. -/
theorem C92_convergence {S : Setting ℝ} (e e' : ExecKind) (mag : Vec ℝ → ℝ) (mjunk : Nat → Nat) (n : Nat) (h1 : 1 ≤ n) (hes : S.e = .serial ∨ 2 ≤ n)
    (hm : create1DUniformMesh e mag mjunk n (.ok S.m)) (tiny : ℝ) (sqrt : ℝ → ℝ) (hs : IsSqrt sqrt) (gjunk : Nat → ℝ) (g : Geometry ℝ)
    (hg : geometryScheme e' S.m tiny sqrt gjunk (.ok g)) (hδ : S.δ = g.nonOrthDeltaCoeffs) (hw : S.w.length = n + 1) (hsp : sparsityUpdate S.e S.m (.ok S.sp))
    (gamma : List ℝ) (hgl : gamma.length = n + 1) (k : ℝ) (hk : 0 < k) (hgam : ∀ f < n + 1, ix gamma f = k)
    (u u1 u2 u3 u4 : ℝ → ℝ) (d1 : DerivOn u u1) (d2 : DerivOn u1 u2) (d3 : DerivOn u2 u3) (d4 : DerivOn u3 u4) (M2 M4 : ℝ)
    (hM2 : ∀ x ∈ Set.Icc (0 : ℝ) 1, |u2 x| ≤ M2) (hM4 : ∀ x ∈ Set.Icc (0 : ℝ) 1, |u4 x| ≤ M4)
    (s : List ℝ) (hsl : s.length = n) (one : VolField ℝ ℝ) (hone : one.On S.m) (hq : ∀ c < n, one.cell c = 1 ∧ k * u2 (((c : ℝ) + 1 / 2) / n) + ix s c = 0)
    (st : TimeState ℝ ℝ) (ho : st.sol.On S.m) (hol : st.oldTime.length = n)
    (hleft : Prescribes S.m st.sol 0 (.fixedValue (u 0)) (st.sol.entry 0)) (hright : Prescribes S.m st.sol 1 (.fixedValue (u 1)) (st.sol.entry 1))
    (eqn : Expr) (ops : OpsOf ℝ ℝ) (hb : poissonTree.build (callOps S (poissonCalls gamma s one) st) = .ok (eqn, ops st))
    (bcs : List (VolumeBoundary ℝ)) (table : SolverTable ℝ) (fvSchemes fvSolution : Dict)
    (solver : LinSolver ℝ) (hso : createSolver table fvSolution = .ok solver) (hex : SolvingOn S.m solver) (t dt : ℝ) :
    ∃ x : List ℝ, x.length = n ∧
      (∀ out, dslSolve S.e S.m bcs table fvSchemes fvSolution ops eqn st t dt out ↔ out = .ok { st with sol := { st.sol with internal := x } }) ∧
      ∀ c < n, |ix x c - u (((c : ℝ) + 1 / 2) / n)| ≤ (M4 / 48 + 5 * M2 / 4) / n ^ 2 := by
  obtain ⟨x, hx1, hx2, hx3⟩ := line_poisson e e' mag mjunk n h1 hes hm tiny sqrt hs gjunk g hg hδ hw hsp gamma hgl k hk hgam s hsl one hone st ho hol (u 0) (u 1) hleft hright eqn ops
    hb bcs table fvSchemes fvSolution solver hso hex t dt
  refine ⟨x, hx1, hx2, fun c hc => ?_⟩
  have hn : (0 : ℝ) < n := by exact_mod_cast h1
  have hn' : (n : ℝ) ≠ 0 := hn.ne'
  have hM4' : 0 ≤ M4 := (abs_nonneg _).trans (hM4 0 ⟨le_rfl, zero_le_one⟩)
  have := hx3 (fun c => u (lineCentre ℝ n c)) (fun c => M4 / (12 * n ^ 2) * lineBarrier ℝ n c + 5 / 4 * M2 / n ^ 2) (fun c hc => by
    rw [line_barrier_outflow n h1 k (M4 / (12 * n ^ 2)) (5 / 4 * M2 / n ^ 2) (fun c => M4 / (12 * n ^ 2) * lineBarrier ℝ n c + 5 / 4 * M2 / n ^ 2) (fun _ _ => rfl) c hc]
    have h2 := line_truncation d1 d2 d3 d4 hM2 hM4 n h1 k hk (fun c => u (lineCentre ℝ n c)) (fun _ _ => rfl) c hc
    obtain ⟨q1, q2⟩ := hq c hc
    have h3 : ix s c * one.cell c = -(k * u2 (lineCentre ℝ n c)) := by
      rw [q1]
      unfold lineCentre
      linarith
    rw [h3]
    refine h2.trans (le_of_eq ?_)
    congr 1
    field_simp) c hc
  refine le_trans this ?_
  have h4 := mul_le_mul_of_nonneg_left (lineBarrier_le (K := ℝ) n c hc).2 (show 0 ≤ M4 / (12 * n ^ 2) by positivity)
  refine (add_le_add_left h4 _).trans (le_of_eq ?_)
  field_simp
  ring

/-- The hypotheses of `C92_convergence` can be met with a solution that is not a polynomial of low degree in every number of cells: `u = x^4`, `k = 2`. -/
example (es : ExecKind) (n : Nat) (h1 : 1 ≤ n) : ∃ (S : Setting ℝ) (g : Geometry ℝ) (s : List ℝ) (one : VolField ℝ ℝ) (st : TimeState ℝ ℝ) (eqn : Expr) (ops : OpsOf ℝ ℝ),
    S.e = es ∧ create1DUniformMesh .parallel (vmag Real.sqrt) (fun _ => 0) n (.ok S.m) ∧ geometryScheme .parallel S.m (1 / 1000) Real.sqrt (fun _ => 0) (.ok g) ∧
    S.δ = g.nonOrthDeltaCoeffs ∧ S.w.length = n + 1 ∧ sparsityUpdate S.e S.m (.ok S.sp) ∧
    DerivOn (fun x => x ^ 4) (fun x => 4 * x ^ 3) ∧ DerivOn (fun x => 4 * x ^ 3) (fun x => 12 * x ^ 2) ∧ DerivOn (fun x => 12 * x ^ 2) (fun x => 24 * x) ∧
    DerivOn (fun x => 24 * x) (fun _ => 24) ∧ (∀ x ∈ Set.Icc (0 : ℝ) 1, |12 * x ^ 2| ≤ 12) ∧
    s.length = n ∧ one.On S.m ∧ (∀ c < n, one.cell c = 1 ∧ 2 * (12 * (((c : ℝ) + 1 / 2) / n) ^ 2) + ix s c = 0) ∧ st.sol.On S.m ∧ st.oldTime.length = n ∧
    Prescribes S.m st.sol 0 (.fixedValue ((0 : ℝ) ^ 4)) (st.sol.entry 0) ∧ Prescribes S.m st.sol 1 (.fixedValue ((1 : ℝ) ^ 4)) (st.sol.entry 1) ∧
    poissonTree.build (callOps S (poissonCalls (List.replicate (n + 1) 2) s one) st) = .ok (eqn, ops st) := by
  have hwf := mesh1D_wf (vmag Real.sqrt) n h1
  obtain ⟨sp, hsp⟩ := C14_terminates _ hwf es
  obtain ⟨g, hgs⟩ : ∃ g, geometryScheme .parallel (mesh1D (vmag Real.sqrt) n) (1 / 1000) Real.sqrt (fun _ => 0) (.ok g) := ⟨_, (geometryScheme_det hwf .parallel _ _ _ _).2 rfl⟩
  have hder : ∀ (j : ℕ) (a : ℝ), DerivOn (fun x => a * x ^ (j + 1)) (fun x => a * ((j + 1) * x ^ j)) := by
    intro j a x _
    have := ((hasDerivAt_pow (j + 1) x).const_mul a).hasDerivWithinAt (s := Set.Icc 0 1)
    refine this.congr_deriv ?_
    push_cast
    rfl
  have hcast : ∀ {f f' g g' : ℝ → ℝ}, DerivOn f f' → f = g → f' = g' → DerivOn g g' := by
    rintro f f' g g' h rfl rfl
    exact h
  set st : TimeState ℝ ℝ := ⟨⟨List.replicate n 7, [0 ^ 4, 1 ^ 4], [0 ^ 4, 1 ^ 4], [1, 1], [0, 0]⟩, some (List.replicate n 7)⟩ with hst
  set one : VolField ℝ ℝ := ⟨List.replicate n 1, [0, 0], [0, 0], [0, 0], [0, 0]⟩ with hone
  set s : List ℝ := (List.range n).map fun c : Nat => -(24 * (((c : ℝ) + 1 / 2) / n) ^ 2) with hs
  obtain ⟨eqn, o, hbuild⟩ : ∃ eqn o, poissonTree.build (callOps (⟨es, mesh1D (vmag Real.sqrt) n, sp, .upwind, List.replicate (n + 1) 0, g.nonOrthDeltaCoeffs, fun _ => 0⟩ : Setting ℝ)
      (poissonCalls (List.replicate (n + 1) 2) s one) st) = .ok (eqn, o) := ⟨_, _, rfl⟩
  refine ⟨⟨es, mesh1D (vmag Real.sqrt) n, sp, .upwind, List.replicate (n + 1) 0, g.nonOrthDeltaCoeffs, fun _ => 0⟩, g, s, one, st, eqn, fun _ => o, rfl, (create1D_closed _ _ _ n h1 _).2 rfl, hgs, rfl, by simp, hsp,
    hcast (hder 3 1) (by simp) (by funext x; push_cast; ring), hcast (hder 2 4) rfl (by funext x; push_cast; ring), hcast (hder 1 12) rfl (by funext x; push_cast; ring),
    hcast (hder 0 24) (by simp) (by simp), fun x hx => ?_, by simp [hs], ?_, fun c hc => ?_, ?_, by simp [hst, TimeState.oldTime], ?_, ?_, hbuild⟩
  · rw [abs_of_nonneg (by positivity)]
    have := pow_le_one₀ (n := 2) hx.1 hx.2
    linarith
  · exact ⟨by simp [hone, mesh1D], rfl, rfl, rfl, rfl⟩
  · refine ⟨by simp [hone, VolField.cell, hc], ?_⟩
    simp only [hs, ix]
    rw [getD_range_map _ _ _ hc]
    ring
  · exact ⟨by simp [hst, mesh1D], rfl, rfl, rfl, rfl⟩
  · exact ⟨rfl, rfl, rfl⟩
  · exact ⟨rfl, rfl, rfl⟩

end NeoFOAM
