import Verif.Props.C74_ExplicitDiffusion
import Verif.Props.C94_UpwindConvergence

/-!
# C95 – refining mesh and time step: convergence of explicit transport and diffusion
-/
namespace NeoFOAM
open Finset

section
variable {K : Type} [Field K] [LinearOrder K] [IsStrictOrderedRing K]

/-- Explicit Euler steps follow a reference that satisfies the equations up to what leaves a barrier, if the steps are small enough to keep nonnegative data nonnegative. -/
theorem explicit_follow (n : Nat) {A A0 : (Nat → K) → Nat → K} (hA : ∀ x y c, A x c - A y c = A0 (fun c => x c - y c) c)
    (hadd : ∀ x y r c, A0 (fun c => x c + r * y c) c = A0 x c + r * A0 y c) {θ : K} (hθ : 0 ≤ θ)
    (hmono : ∀ z, (∀ c < n, 0 ≤ z c) → ∀ c < n, 0 ≤ z c - θ * A0 z c) {old new y y' w ρ : Nat → K}
    (hstep : ∀ c < n, new c = old c - θ * A old c) (href : ∀ c < n, y' c = y c - θ * A y c + θ * ρ c) (hbar : ∀ c < n, |ρ c| ≤ A0 w c)
    (hold : ∀ c < n, |old c - y c| ≤ w c) : ∀ c < n, |new c - y' c| ≤ w c := by
  intro c hc
  have h1 := hmono (fun c => w c + (-1) * (old c - y c)) (fun c hc => by have := (abs_le.1 (hold c hc)).2; linarith) c hc
  have h2 := hmono (fun c => w c + 1 * (old c - y c)) (fun c hc => by have := (abs_le.1 (hold c hc)).1; linarith) c hc
  rw [hadd] at h1 h2
  rw [← hA] at h1 h2
  have a := mul_nonneg hθ (show 0 ≤ A0 w c + ρ c by have := (abs_le.1 (hbar c hc)).1; linarith)
  have b := mul_nonneg hθ (show 0 ≤ A0 w c - ρ c by have := (abs_le.1 (hbar c hc)).2; linarith)
  rw [hstep c hc, href c hc, abs_le]
  constructor
  · have e : old c - θ * A old c - (y c - θ * A y c + θ * ρ c) + w c
        = (w c + 1 * (old c - y c) - θ * (A0 w c + 1 * (A old c - A y c))) + θ * (A0 w c - ρ c) := by ring
    linarith
  · have e : w c - (old c - θ * A old c - (y c - θ * A y c + θ * ρ c))
        = (w c + -1 * (old c - y c) - θ * (A0 w c + -1 * (A old c - A y c))) + θ * (A0 w c + ρ c) := by ring
    linarith

/-- What leaves cell `c` of the line by explicit transport to the right and diffusion: inlet value on the left, the cell's value at the outlet. -/
theorem line_flow_explicit (mag : Vec K → K) (n : Nat) (h2 : 2 ≤ n) {flux δ : Nat → K} {v k a : K} (hv : 0 ≤ v)
    (hfl : ∀ f < n + 1, flux f = if f = n - 1 then -v else v) (hδ : ∀ f < n + 1, δ f = if f < n - 1 then (n : K) else 2 * n) {φ : VolField K K}
    (hl : φ.bnd 0 = a) (hr : φ.bnd 1 = φ.cell (n - 1)) (c : Nat) (hc : c < n) :
    (mesh1D mag n).netOutflow (φ.outflow (mesh1D mag n) flux δ k) c = lineFlow v k a n φ.cell c := by
  have hi : (mesh1D mag n).nInternalFaces = n - 1 := rfl
  have hof : ∀ f < n + 1, φ.outflow (mesh1D mag n) flux δ k f = if f < n - 1 then v * φ.cell f - k * n * (φ.cell (f + 1) - φ.cell f)
      else if f = n - 1 then -(v * a + k * (2 * n) * (a - φ.cell 0)) else v * φ.cell (n - 1) := by
    intro f hf
    unfold VolField.outflow
    rw [hi, hδ f hf, hfl f hf, mesh1D_mag mag n f hf]
    by_cases ha : f < n - 1
    · rw [if_pos ha, if_pos ha, if_pos ha, if_neg (show ¬ f = n - 1 by omega), if_pos hv, mesh1D_own mag n f hf, if_pos ha, mesh1D_nbr mag n f ha]
      ring
    · rw [if_neg ha, if_neg ha, if_neg ha]
      by_cases hb : f = n - 1
      · rw [if_pos hb, if_pos hb, hb, Nat.sub_self, mesh1D_fc0, hl]
        ring
      · have : f - (n - 1) = 1 := by omega
        rw [if_neg hb, if_neg hb, this, mesh1D_fc1, hr]
        ring
  rw [mesh1D_netOutflow mag n _ c hc]
  unfold lineFlow
  congr 1
  · by_cases ha : c < n - 1
    · rw [if_pos ha, if_pos ha, hof c (by omega), if_pos ha]
    · rw [if_neg ha, if_neg ha, hof n (by omega), if_neg (by omega), if_neg (by omega), show n - 1 = c by omega]
  · by_cases ha : 1 ≤ c
    · rw [if_pos ha, if_pos ha, hof (c - 1) (by omega), if_pos (by omega), show c - 1 + 1 = c by omega]
    · rw [if_neg ha, if_neg ha, hof (n - 1) (by omega), if_neg (by omega), if_pos rfl, show c = 0 by omega]
      ring

theorem lineFlow_sub (v k a : K) (n : Nat) (x y : Nat → K) (c : Nat) : lineFlow v k a n x c - lineFlow v k a n y c = lineFlow v k 0 n (fun c => x c - y c) c := by
  unfold lineFlow
  split <;> split <;> ring

theorem lineFlow_add (v k : K) (n : Nat) (x y : Nat → K) (r : K) (c : Nat) :
    lineFlow v k 0 n (fun c => x c + r * y c) c = lineFlow v k 0 n x c + r * lineFlow v k 0 n y c := by
  unfold lineFlow
  split <;> split <;> ring

/-- Small steps keep nonnegative data nonnegative. -/
theorem lineFlow_mono {v k : K} (hv : 0 ≤ v) (hk : 0 ≤ k) (n : Nat) (h2 : 2 ≤ n) {θ : K} (hθ : 0 ≤ θ) (hθ1 : θ * (v + 3 * k * n) ≤ 1) (z : Nat → K) (hz : ∀ c < n, 0 ≤ z c)
    (c : Nat) (hc : c < n) : 0 ≤ z c - θ * lineFlow v k 0 n z c := by
  have hn : (0 : K) ≤ n := Nat.cast_nonneg n
  have hkn := mul_nonneg hk hn
  have key : lineFlow v k 0 n z c ≤ (v + 3 * k * n) * z c := by
    unfold lineFlow
    have h0 := mul_nonneg hkn (hz c hc)
    by_cases ha : c < n - 1
    · have h1 := mul_nonneg hkn (hz (c + 1) (by omega))
      rw [if_pos ha]
      by_cases hb : 1 ≤ c
      · have h3 := mul_nonneg hkn (hz (c - 1) (by omega))
        have h4 := mul_nonneg hv (hz (c - 1) (by omega))
        rw [if_pos hb]
        linarith
      · rw [if_neg hb]
        linarith
    · have h3 := mul_nonneg hkn (hz (c - 1) (by omega))
      have h4 := mul_nonneg hv (hz (c - 1) (by omega))
      rw [if_neg ha, if_pos (show 1 ≤ c by omega)]
      linarith
  have h5 := mul_le_mul_of_nonneg_left key hθ
  have h6 := mul_le_mul_of_nonneg_right hθ1 (hz c hc)
  have e : θ * ((v + 3 * k * n) * z c) = θ * (v + 3 * k * n) * z c := by ring
  linarith

/-- The steps of explicit transport and diffusion on the line. -/
theorem line_explicit_steps (e e' : ExecKind) (mag : Vec K → K) (mjunk : Nat → Nat) (n : Nat) (h2 : 2 ≤ n) (m : Mesh K)
    (hm : create1DUniformMesh e' mag mjunk n (.ok m)) (tiny : K) (ht : 0 ≤ tiny) (sqrt : K → K) (hs : IsSqrt sqrt) (gjunk : Nat → K) (g : Geometry K)
    (hg : geometryScheme e m tiny sqrt gjunk (.ok g)) (sp : SparsityPattern) (junk : Nat → K) (flux gamma : List K) (hfll : flux.length = n + 1)
    (v k : K) (hv : 0 ≤ v) (hfl : ∀ f < n + 1, ix flux f = if f = n - 1 then -v else v) (eqn : Expr) (ops : OpsOf K K)
    (hbuild : ∀ st, (explicitDiffTree k).build (explicitDiffOps e m sp .upwind g.weights junk flux g.nonOrthDeltaCoeffs gamma st) = .ok (eqn, ops st))
    (bcs : List (VolumeBoundary K)) (hb : ∀ c ∈ bcs, c.patch.end_ ≤ 2) (a : K) (hbl : Decides bcs 0 (.fixedValue a)) (kr : VolBCKind K) (hbr : Decides bcs 1 kr)
    (hkr : kr.ZeroGradient) (table : SolverTable K) (fvSchemes fvSolution : Dict) (hd : AsksFor fvSchemes "forwardEuler")
    (st : TimeState K K) (ho : st.sol.On m) (hsy : st.Synced) (hl0 : st.sol.bnd 0 = a) (hr0 : st.sol.bnd 1 = st.sol.cell (n - 1)) (t : K) (dt : Nat → K) :
    ∃ U : Nat → TimeState K K, U 0 = st ∧
      (∀ N out, timeLoop (fun d st => dslSolve e m bcs table fvSchemes fvSolution ops eqn st t d) dt N st out ↔ out = .ok (U N)) ∧
      ∀ N, ∀ c < n, (U (N + 1)).sol.cell c = (U N).sol.cell c - dt N * n * lineFlow v k a n (U N).sol.cell c := by
  have h1 : 1 ≤ n := by omega
  rw [create1D_closed e' mag mjunk n h1, Res.ok.injEq] at hm
  subst hm
  have hn : (0 : K) < n := by exact_mod_cast h1
  obtain ⟨-, hdl, hnd, -, -⟩ := mesh1D_geometry mag n h1 e tiny sqrt hs gjunk g hg
  have hwf := mesh1D_wf mag n h1
  obtain ⟨U, hU0, hU1, hU2⟩ := explicitDiff_upwind e hwf bcs hb sp tiny ht sqrt hs gjunk g hg junk flux gamma hfll k eqn ops hbuild table fvSolution hd st ho hsy t dt
  refine ⟨U, hU0, hU1, ?_⟩
  have hbd : ∀ N, (U N).sol.bnd 0 = a ∧ (U N).sol.bnd 1 = (U N).sol.cell (n - 1) := by
    intro N
    cases N with
    | zero => rw [hU0]; exact ⟨hl0, hr0⟩
    | succ N =>
      refine ⟨((hU2 N).decided (show 0 < 2 by omega) hbl).2 a rfl, ?_⟩
      rw [((hU2 N).decided (show 1 < 2 by omega) hbr).1 hkr, mesh1D_fc1]
  intro N c hc
  rw [(hU2 N).cells c hc, mesh1D_vol mag n c hc, line_flow_explicit mag n h2 hv hfl hnd (hbd N).1 (hbd N).2 c hc, smul_eq_mul, one_div_one_div]
  ring

/-- **C95, Courant number one**: with time steps of Courant number exactly one, explicit upwind transport on the line moves every profile along without any error: the value of
every cell is the profile at the centre, moved back by the distance travelled. -/
theorem C95_courant_one (e e' : ExecKind) (mag : Vec K → K) (mjunk : Nat → Nat) (n : Nat) (h2 : 2 ≤ n) (m : Mesh K)
    (hm : create1DUniformMesh e' mag mjunk n (.ok m)) (tiny : K) (ht : 0 ≤ tiny) (sqrt : K → K) (hs : IsSqrt sqrt) (gjunk : Nat → K) (g : Geometry K)
    (hg : geometryScheme e m tiny sqrt gjunk (.ok g)) (sp : SparsityPattern) (junk : Nat → K) (flux gamma : List K) (hfll : flux.length = n + 1)
    (v : K) (hv : 0 < v) (hfl : ∀ f < n + 1, ix flux f = if f = n - 1 then -v else v) (eqn : Expr) (ops : OpsOf K K)
    (hbuild : ∀ st, (explicitDiffTree 0).build (explicitDiffOps e m sp .upwind g.weights junk flux g.nonOrthDeltaCoeffs gamma st) = .ok (eqn, ops st))
    (bcs : List (VolumeBoundary K)) (hb : ∀ c ∈ bcs, c.patch.end_ ≤ 2) (a : K) (hbl : Decides bcs 0 (.fixedValue a)) (kr : VolBCKind K) (hbr : Decides bcs 1 kr)
    (hkr : kr.ZeroGradient) (table : SolverTable K) (fvSchemes fvSolution : Dict) (hd : AsksFor fvSchemes "forwardEuler")
    (profile : K → K) (hin : ∀ x < 0, profile x = a)
    (st : TimeState K K) (ho : st.sol.On m) (hsy : st.Synced) (hini : ∀ c < n, st.sol.cell c = profile (((c : K) + 1 / 2) / n))
    (hl0 : st.sol.bnd 0 = a) (hr0 : st.sol.bnd 1 = st.sol.cell (n - 1)) (t dt : K) (hdt : v * dt = 1 / n) :
    ∃ U : Nat → TimeState K K, U 0 = st ∧
      (∀ N out, timeLoop (fun d st => dslSolve e m bcs table fvSchemes fvSolution ops eqn st t d) (fun _ => dt) N st out ↔ out = .ok (U N)) ∧
      ∀ N, ∀ c < n, (U N).sol.cell c = profile (((c : K) + 1 / 2) / n - v * (N * dt)) := by
  obtain ⟨U, hU0, hU1, hU2⟩ := line_explicit_steps e e' mag mjunk n h2 m hm tiny ht sqrt hs gjunk g hg sp junk flux gamma hfll v 0 hv.le hfl eqn ops hbuild bcs hb a hbl kr hbr hkr
    table fvSchemes fvSolution hd st ho hsy hl0 hr0 t (fun _ => dt)
  refine ⟨U, hU0, hU1, ?_⟩
  have hn : (0 : K) < n := by exact_mod_cast (by omega : 0 < n)
  have hcfl : dt * n * v = 1 := by
    have : dt * n * v = v * dt * n := by ring
    rw [this, hdt, one_div_mul_cancel hn.ne']
  have hdist : ∀ N : Nat, v * (N * dt) = N / n := by
    intro N
    have : v * (N * dt) = N * (v * dt) := by ring
    rw [this, hdt, mul_one_div]
  intro N
  induction N with
  | zero =>
    intro c hc
    rw [hU0, hini c hc, hdist]
    simp
  | succ N ih =>
    intro c hc
    have hflow : lineFlow v 0 a n (U N).sol.cell c = v * (U N).sol.cell c - (if 1 ≤ c then v * (U N).sol.cell (c - 1) else v * a) := by
      unfold lineFlow
      split <;> split <;> ring
    rw [hU2 N c hc, hflow, hdist]
    have e1 : (U N).sol.cell c - dt * n * (v * (U N).sol.cell c - (if 1 ≤ c then v * (U N).sol.cell (c - 1) else v * a))
        = (U N).sol.cell c - dt * n * v * ((U N).sol.cell c - (if 1 ≤ c then (U N).sol.cell (c - 1) else a)) := by
      split <;> ring
    rw [e1, hcfl, one_mul, sub_sub_cancel]
    by_cases hc1 : 1 ≤ c
    · rw [if_pos hc1, ih (c - 1) (by omega), hdist]
      congr 1
      rw [Nat.cast_sub hc1]
      push_cast
      field_simp
      ring
    · rw [if_neg hc1, hin]
      have : c = 0 := by omega
      subst this
      rw [← sub_div]
      refine div_neg_of_neg_of_pos ?_ hn
      push_cast
      have : (0 : K) ≤ N := Nat.cast_nonneg N
      have h3 : (1 : K) / 2 < 1 := by norm_num
      linarith

/-- What leaves cell `c` of the line by diffusion, with fixed values at both ends. -/
def lineHeat (k a b : K) (n : Nat) (x : Nat → K) (c : Nat) : K :=
  (if c < n - 1 then -(k * n * (x (c + 1) - x c)) else -(k * (2 * n) * (b - x c)))
    - (if 1 ≤ c then -(k * n * (x c - x (c - 1))) else k * (2 * n) * (a - x c))

theorem line_heat_explicit (mag : Vec K → K) (n : Nat) (h1 : 1 ≤ n) {flux δ : Nat → K} {k a b : K} (hfl : ∀ f < n + 1, flux f = 0)
    (hδ : ∀ f < n + 1, δ f = if f < n - 1 then (n : K) else 2 * n) {φ : VolField K K} (hl : φ.bnd 0 = a) (hr : φ.bnd 1 = b) (c : Nat) (hc : c < n) :
    (mesh1D mag n).netOutflow (φ.outflow (mesh1D mag n) flux δ k) c = lineHeat k a b n φ.cell c := by
  have hi : (mesh1D mag n).nInternalFaces = n - 1 := rfl
  have hof : ∀ f < n + 1, φ.outflow (mesh1D mag n) flux δ k f = if f < n - 1 then -(k * n * (φ.cell (f + 1) - φ.cell f))
      else if f = n - 1 then -(k * (2 * n) * (a - φ.cell 0)) else -(k * (2 * n) * (b - φ.cell (n - 1))) := by
    intro f hf
    unfold VolField.outflow
    rw [hi, hδ f hf, hfl f hf, mesh1D_mag mag n f hf]
    by_cases ha : f < n - 1
    · rw [if_pos ha, if_pos ha, if_pos ha, mesh1D_own mag n f hf, if_pos ha, mesh1D_nbr mag n f ha]
      ring
    · rw [if_neg ha, if_neg ha, if_neg ha]
      by_cases hb : f = n - 1
      · rw [if_pos hb, hb, Nat.sub_self, mesh1D_fc0, hl]
        ring
      · have : f - (n - 1) = 1 := by omega
        rw [if_neg hb, this, mesh1D_fc1, hr]
        ring
  rw [mesh1D_netOutflow mag n _ c hc]
  unfold lineHeat
  congr 1
  · by_cases ha : c < n - 1
    · rw [if_pos ha, if_pos ha, hof c (by omega), if_pos ha]
    · rw [if_neg ha, if_neg ha, hof n (by omega), if_neg (by omega), if_neg (by omega), show n - 1 = c by omega]
  · by_cases ha : 1 ≤ c
    · rw [if_pos ha, if_pos ha, hof (c - 1) (by omega), if_pos (by omega), show c - 1 + 1 = c by omega]
    · rw [if_neg ha, if_neg ha, hof (n - 1) (by omega), if_neg (by omega), if_pos rfl, show c = 0 by omega]
      ring

theorem lineHeat_sub (k a b : K) (n : Nat) (x y : Nat → K) (c : Nat) : lineHeat k a b n x c - lineHeat k a b n y c = lineHeat k 0 0 n (fun c => x c - y c) c := by
  unfold lineHeat
  split <;> split <;> ring

theorem lineHeat_add (k : K) (n : Nat) (x y : Nat → K) (r : K) (c : Nat) : lineHeat k 0 0 n (fun c => x c + r * y c) c = lineHeat k 0 0 n x c + r * lineHeat k 0 0 n y c := by
  unfold lineHeat
  split <;> split <;> ring

theorem lineHeat_mono {k : K} (hk : 0 ≤ k) (n : Nat) {θ : K} (hθ : 0 ≤ θ) (hθ1 : θ * (4 * k * n) ≤ 1) (z : Nat → K) (hz : ∀ c < n, 0 ≤ z c)
    (c : Nat) (hc : c < n) : 0 ≤ z c - θ * lineHeat k 0 0 n z c := by
  have hkn := mul_nonneg hk (show (0 : K) ≤ n from Nat.cast_nonneg n)
  have key : lineHeat k 0 0 n z c ≤ 4 * k * n * z c := by
    unfold lineHeat
    have h0 := mul_nonneg hkn (hz c hc)
    by_cases ha : c < n - 1
    · have h1 := mul_nonneg hkn (hz (c + 1) (by omega))
      rw [if_pos ha]
      by_cases hb : 1 ≤ c
      · have h3 := mul_nonneg hkn (hz (c - 1) (by omega))
        rw [if_pos hb]
        linarith
      · rw [if_neg hb]
        linarith
    · rw [if_neg ha]
      by_cases hb : 1 ≤ c
      · have h3 := mul_nonneg hkn (hz (c - 1) (by omega))
        rw [if_pos hb]
        linarith
      · rw [if_neg hb]
        linarith
  have h5 := mul_le_mul_of_nonneg_left key hθ
  have h6 := mul_le_mul_of_nonneg_right hθ1 (hz c hc)
  have e : θ * (4 * k * n * z c) = θ * (4 * k * n) * z c := by ring
  linarith

end

/-- **C95**: let `u` solve `u_t + v u_x = k u_xx` with speed `v > 0` and diffusivity `k ≥ 0`. On the mesh of `create1DUniformMesh` with two cells or more, inlet value fixed on the
left, zero gradient on the right, from values within `ε` of the initial values of `u` at the centres, every number of calls of `dsl::solve` on
`ddt(u) + div(flux, u) - k laplacian(u)` with forwardEuler, explicit terms and upwind interpolation has exactly one outcome, and with time steps up to `Δ` within the limit
`Δ (v n + 3 k n^2) ≤ 1` the value of every cell differs from `u` at its centre and the time reached, up to `T`, by at most the bound. -/
theorem C95_transport (e e' : ExecKind) (mag : Vec ℝ → ℝ) (mjunk : Nat → Nat) (n : Nat) (h2 : 2 ≤ n) (m : Mesh ℝ)
    (hm : create1DUniformMesh e' mag mjunk n (.ok m)) (tiny : ℝ) (ht : 0 ≤ tiny) (sqrt : ℝ → ℝ) (hs : IsSqrt sqrt) (gjunk : Nat → ℝ) (g : Geometry ℝ)
    (hg : geometryScheme e m tiny sqrt gjunk (.ok g)) (sp : SparsityPattern) (junk : Nat → ℝ) (flux gamma : List ℝ) (hfll : flux.length = n + 1)
    (v k : ℝ) (hv : 0 < v) (hk : 0 ≤ k) (hfl : ∀ f < n + 1, ix flux f = if f = n - 1 then -v else v) (eqn : Expr) (ops : OpsOf ℝ ℝ)
    (hbuild : ∀ st, (explicitDiffTree k).build (explicitDiffOps e m sp .upwind g.weights junk flux g.nonOrthDeltaCoeffs gamma st) = .ok (eqn, ops st))
    (bcs : List (VolumeBoundary ℝ)) (hb : ∀ c ∈ bcs, c.patch.end_ ≤ 2) (a : ℝ) (hbl : Decides bcs 0 (.fixedValue a)) (kr : VolBCKind ℝ) (hbr : Decides bcs 1 kr)
    (hkr : kr.ZeroGradient) (table : SolverTable ℝ) (fvSchemes fvSolution : Dict) (hd : AsksFor fvSchemes "forwardEuler")
    (T : ℝ) (u ut utt u1 u2 u3 u4 : ℝ → ℝ → ℝ) (hu : TransportSolution v k T a u ut utt u1 u2 u3 u4) (Mtt M1 M2 M3 M4 : ℝ)
    (hM : TransportBounds k T utt u1 u2 u3 u4 Mtt M1 M2 M3 M4) (hM3 : 0 ≤ M3) (hM4 : 0 ≤ M4)
    (st : TimeState ℝ ℝ) (ho : st.sol.On m) (hsy : st.Synced) (ε : ℝ) (hini : ∀ c < n, |st.sol.cell c - u 0 (((c : ℝ) + 1 / 2) / n)| ≤ ε)
    (hl0 : st.sol.bnd 0 = a) (hr0 : st.sol.bnd 1 = st.sol.cell (n - 1)) (t : ℝ) (dt : Nat → ℝ) (Δ : ℝ) (hdt : ∀ i, 0 < dt i ∧ dt i ≤ Δ)
    (hcfl : Δ * (v * n + 3 * k * n ^ 2) ≤ 1) :
    ∃ U : Nat → TimeState ℝ ℝ, U 0 = st ∧
      (∀ N out, timeLoop (fun d st => dslSolve e m bcs table fvSchemes fvSolution ops eqn st t d) dt N st out ↔ out = .ok (U N)) ∧
      ∀ N, timeAfter dt N ≤ T → ∀ c < n, |(U N).sol.cell c - u (timeAfter dt N) (((c : ℝ) + 1 / 2) / n)|
        ≤ ε + (M1 / 2 + M2 / 2 + 7 * k * M3 / (24 * v)) / n + (5 * M2 / 4 + k * M4 / (12 * v)) / n ^ 2 + Mtt * Δ / (2 * v) := by
  obtain ⟨U, hU0, hU1, hU2⟩ := line_explicit_steps e e' mag mjunk n h2 m hm tiny ht sqrt hs gjunk g hg sp junk flux gamma hfll v k hv.le hfl eqn ops hbuild bcs hb a hbl kr hbr hkr
    table fvSchemes fvSolution hd st ho hsy hl0 hr0 t dt
  refine ⟨U, hU0, hU1, ?_⟩
  have hn : (0 : ℝ) < n := by exact_mod_cast (by omega : 0 < n)
  have hτ0 : ∀ N, 0 ≤ timeAfter dt N := fun N => Finset.sum_nonneg fun i _ => (hdt i).1.le
  have hτs : ∀ N, timeAfter dt (N + 1) = timeAfter dt N + dt N := fun N => Finset.sum_range_succ _ _
  by_cases hT : 0 ≤ T
  swap
  · intro N hN
    exact absurd ((hτ0 N).trans hN) hT
  have hz : (0 : ℝ) ∈ Set.Icc (0 : ℝ) T := ⟨le_rfl, hT⟩
  have hz1 : (0 : ℝ) ∈ Set.Icc (0 : ℝ) 1 := ⟨le_rfl, zero_le_one⟩
  have hM1' : 0 ≤ M1 := (abs_nonneg _).trans (hM.b1 0 hz 0 hz1)
  have hM2' : 0 ≤ M2 := (abs_nonneg _).trans (hM.b2 0 hz 0 hz1)
  have hMt' : 0 ≤ Mtt := (abs_nonneg _).trans (hM.tt 0 hz 0 hz1)
  have hΔ : 0 < Δ := (hdt 0).1.trans_le (hdt 0).2
  have hε : 0 ≤ ε := (abs_nonneg _).trans (hini 0 (by omega))
  set α : ℝ := M2 / (2 * n) + k / v * (M4 / (12 * n ^ 2) + 7 * M3 / (24 * n)) + Mtt * Δ / (2 * v) with hα
  set β : ℝ := M1 / (2 * n) + 5 / 4 * M2 / n ^ 2 + ε with hβ
  have hα0 : 0 ≤ α := by positivity
  have hβ0 : 0 ≤ β := by positivity
  set W : Nat → ℝ := fun c => α * (((c : ℝ) + 1) / n) + β with hWdef
  have key : ∀ N, timeAfter dt N ≤ T → ∀ c < n, |(U N).sol.cell c - u (timeAfter dt N) (lineCentre ℝ n c)| ≤ W c := by
    intro N
    induction N with
    | zero =>
      intro _ c hc
      rw [hU0]
      have h3 : timeAfter dt 0 = 0 := by simp [timeAfter]
      rw [h3]
      refine (hini c hc).trans ?_
      show ε ≤ α * (((c : ℝ) + 1) / n) + β
      have : 0 ≤ α * (((c : ℝ) + 1) / n) := by positivity
      have : 0 ≤ M1 / (2 * n) + 5 / 4 * M2 / n ^ 2 := by positivity
      rw [hβ]
      linarith
    | succ N ih =>
      intro hN
      have hdN := (hdt N).1
      have ht0 : timeAfter dt N ∈ Set.Icc 0 T := ⟨hτ0 N, by have := hτs N; linarith⟩
      have hθ : 0 < dt N * n := by positivity
      have hθ1 : dt N * n * (v + 3 * k * n) ≤ 1 := by
        have e1 : dt N * n * (v + 3 * k * n) = dt N * (v * n + 3 * k * n ^ 2) := by ring
        rw [e1]
        exact (mul_le_mul_of_nonneg_right (hdt N).2 (by positivity)).trans hcfl
      refine explicit_follow n (lineFlow_sub v k a n) (fun x y r c => lineFlow_add v k n x y r c) hθ.le (lineFlow_mono hv.le hk n h2 hθ.le hθ1)
        (y := fun c => u (timeAfter dt N) (lineCentre ℝ n c)) (y' := fun c => u (timeAfter dt (N + 1)) (lineCentre ℝ n c)) (w := W)
        (ρ := fun c => lineFlow v k a n (fun c => u (timeAfter dt N) (lineCentre ℝ n c)) c
          + (u (timeAfter dt (N + 1)) (lineCentre ℝ n c) - u (timeAfter dt N) (lineCentre ℝ n c)) / (dt N * n))
        (hU2 N) (fun c hc => by field_simp; ring) (fun c hc => ?_) (ih ht0.2)
      have hx := lineCentre_mem n c hc
      have htr := flow_truncation hu hM hv hk n h2 _ ht0 c hc
      have hbar := flow_barrier n h2 v k α β hk hα0 c hc
      have htime : |u (timeAfter dt (N + 1)) (lineCentre ℝ n c) - u (timeAfter dt N) (lineCentre ℝ n c) - dt N * ut (timeAfter dt N) (lineCentre ℝ n c)| ≤ Mtt / 2 * dt N ^ 2 := by
        have := first_order (hu.time1 _ hx) (hu.time2 _ hx) (fun t ht => hM.tt t ht _ hx) (p := timeAfter dt N) (r := 1) (y := dt N) (by norm_num) hdN.le (fun s hs => by
          have h3 := hτs N
          have h4 := hs.1
          have h5 := hs.2
          have h6 := hτ0 N
          constructor <;> linarith)
        rw [one_mul, show timeAfter dt N + dt N = timeAfter dt (N + 1) from (hτs N).symm] at this
        exact this
      have htime2 : |(u (timeAfter dt (N + 1)) (lineCentre ℝ n c) - u (timeAfter dt N) (lineCentre ℝ n c)) / (dt N * n) - 1 / n * ut (timeAfter dt N) (lineCentre ℝ n c)|
          ≤ 1 / n * (Mtt * Δ / 2) := by
        have e1 : (u (timeAfter dt (N + 1)) (lineCentre ℝ n c) - u (timeAfter dt N) (lineCentre ℝ n c)) / (dt N * n) - 1 / n * ut (timeAfter dt N) (lineCentre ℝ n c)
            = (1 / n / dt N) * (u (timeAfter dt (N + 1)) (lineCentre ℝ n c) - u (timeAfter dt N) (lineCentre ℝ n c) - dt N * ut (timeAfter dt N) (lineCentre ℝ n c)) := by
          field_simp
        rw [e1, abs_mul, abs_of_pos (show 0 < 1 / (n : ℝ) / dt N by positivity)]
        refine (mul_le_mul_of_nonneg_left htime (show 0 ≤ 1 / (n : ℝ) / dt N by positivity)).trans ?_
        have e2 : 1 / (n : ℝ) / dt N * (Mtt / 2 * dt N ^ 2) = 1 / n * (Mtt * dt N / 2) := by field_simp
        rw [e2]
        have := mul_le_mul_of_nonneg_left (hdt N).2 hMt'
        have h7 : 0 ≤ 1 / (n : ℝ) := by positivity
        exact mul_le_mul_of_nonneg_left (by linarith) h7
      refine le_trans (le_of_eq (congrArg abs ?_)) ((abs_add_le _ _).trans ((add_le_add htr htime2).trans (le_trans ?_ hbar)))
      · ring
      · have h9 : v * α / n = v * (M2 / (2 * n) + k / v * (M4 / (12 * n ^ 2) + 7 * M3 / (24 * n))) / n + 1 / n * (Mtt * Δ / 2) := by
          rw [hα]
          field_simp
        rw [h9]
        have h10 : (if 1 ≤ c then 0 else v * (M1 / (2 * n)) + k * (2 * n) * (5 / 4 * M2 / n ^ 2)) ≤ if 1 ≤ c then 0 else (v + k * (2 * n)) * β := by
          split
          · exact le_rfl
          · rw [hβ]
            have a1 : 0 ≤ v * (5 / 4 * M2 / n ^ 2 + ε) := by positivity
            have a2 : 0 ≤ k * (2 * n) * (M1 / (2 * n) + ε) := by positivity
            linarith
        linarith
  intro N hN c hc
  refine (key N hN c hc).trans ?_
  show α * (((c : ℝ) + 1) / n) + β ≤ _
  have h4 : α * (((c : ℝ) + 1) / n) ≤ α := by
    refine mul_le_of_le_one_right hα0 ?_
    rw [div_le_one hn]
    exact_mod_cast hc
  refine (add_le_add_left h4 _).trans (le_of_eq ?_)
  rw [hα, hβ]
  field_simp
  ring

/-- **C95, diffusion**: let `u` solve `u_t = k u_xx` with fixed end values. With zero flux and both end values fixed, every number of calls of `dsl::solve` on
`ddt(u) + div(flux, u) - k laplacian(u)` with forwardEuler and explicit terms has exactly one outcome, and with time steps up to `Δ` within the limit `4 k n^2 Δ ≤ 1` the value
of every cell differs from `u` at its centre and the time reached by at most `ε + (M4/48 + 5 M2/4)/n^2 + Mtt Δ/(8k)`. -/
theorem C95_heat (e e' : ExecKind) (mag : Vec ℝ → ℝ) (mjunk : Nat → Nat) (n : Nat) (h1 : 1 ≤ n) (m : Mesh ℝ)
    (hm : create1DUniformMesh e' mag mjunk n (.ok m)) (tiny : ℝ) (ht : 0 ≤ tiny) (sqrt : ℝ → ℝ) (hs : IsSqrt sqrt) (gjunk : Nat → ℝ) (g : Geometry ℝ)
    (hg : geometryScheme e m tiny sqrt gjunk (.ok g)) (sp : SparsityPattern) (junk : Nat → ℝ) (flux gamma : List ℝ) (hfll : flux.length = n + 1)
    (k : ℝ) (hk : 0 < k) (hfl : ∀ f < n + 1, ix flux f = 0) (eqn : Expr) (ops : OpsOf ℝ ℝ)
    (hbuild : ∀ st, (explicitDiffTree k).build (explicitDiffOps e m sp .upwind g.weights junk flux g.nonOrthDeltaCoeffs gamma st) = .ok (eqn, ops st))
    (bcs : List (VolumeBoundary ℝ)) (hb : ∀ c ∈ bcs, c.patch.end_ ≤ 2) (a b : ℝ) (hbl : Decides bcs 0 (.fixedValue a)) (hbr : Decides bcs 1 (.fixedValue b))
    (table : SolverTable ℝ) (fvSchemes fvSolution : Dict) (hd : AsksFor fvSchemes "forwardEuler")
    (T : ℝ) (u ut utt u1 u2 u3 u4 : ℝ → ℝ → ℝ) (hu : HeatSolution k T a b u ut utt u1 u2 u3 u4) (M2 M4 Mtt : ℝ)
    (hM2 : ∀ t ∈ Set.Icc 0 T, ∀ x ∈ Set.Icc (0 : ℝ) 1, |u2 t x| ≤ M2) (hM4 : ∀ t ∈ Set.Icc 0 T, ∀ x ∈ Set.Icc (0 : ℝ) 1, |u4 t x| ≤ M4)
    (hMt : ∀ t ∈ Set.Icc 0 T, ∀ x ∈ Set.Icc (0 : ℝ) 1, |utt t x| ≤ Mtt)
    (st : TimeState ℝ ℝ) (ho : st.sol.On m) (hsy : st.Synced) (ε : ℝ) (hini : ∀ c < n, |st.sol.cell c - u 0 (((c : ℝ) + 1 / 2) / n)| ≤ ε)
    (hl0 : st.sol.bnd 0 = a) (hr0 : st.sol.bnd 1 = b) (t : ℝ) (dt : Nat → ℝ) (Δ : ℝ) (hdt : ∀ i, 0 < dt i ∧ dt i ≤ Δ)
    (hlim : 4 * k * n ^ 2 * Δ ≤ 1) :
    ∃ U : Nat → TimeState ℝ ℝ, U 0 = st ∧
      (∀ N out, timeLoop (fun d st => dslSolve e m bcs table fvSchemes fvSolution ops eqn st t d) dt N st out ↔ out = .ok (U N)) ∧
      ∀ N, timeAfter dt N ≤ T → ∀ c < n, |(U N).sol.cell c - u (timeAfter dt N) (((c : ℝ) + 1 / 2) / n)| ≤ ε + (M4 / 48 + 5 * M2 / 4) / n ^ 2 + Mtt * Δ / (8 * k) := by
  rw [create1D_closed e' mag mjunk n h1, Res.ok.injEq] at hm
  subst hm
  have hn : (0 : ℝ) < n := by exact_mod_cast h1
  obtain ⟨-, hdl, hnd, -, -⟩ := mesh1D_geometry mag n h1 e tiny sqrt hs gjunk g hg
  have hwf := mesh1D_wf mag n h1
  obtain ⟨U, hU0, hU1, hE⟩ := explicitDiff_upwind e hwf bcs hb sp tiny ht sqrt hs gjunk g hg junk flux gamma hfll k eqn ops hbuild table fvSolution hd st ho hsy t dt
  refine ⟨U, hU0, hU1, ?_⟩
  have hbd : ∀ N, (U N).sol.bnd 0 = a ∧ (U N).sol.bnd 1 = b := by
    intro N
    cases N with
    | zero => rw [hU0]; exact ⟨hl0, hr0⟩
    | succ N => exact ⟨((hE N).decided (show 0 < 2 by omega) hbl).2 a rfl, ((hE N).decided (show 1 < 2 by omega) hbr).2 b rfl⟩
  have hU2 : ∀ N, ∀ c < n, (U (N + 1)).sol.cell c = (U N).sol.cell c - dt N * n * lineHeat k a b n (U N).sol.cell c := by
    intro N c hc
    rw [(hE N).cells c hc, mesh1D_vol mag n c hc, line_heat_explicit mag n h1 hfl hnd (hbd N).1 (hbd N).2 c hc, smul_eq_mul, one_div_one_div]
    ring
  have hτ0 : ∀ N, 0 ≤ timeAfter dt N := fun N => Finset.sum_nonneg fun i _ => (hdt i).1.le
  have hτs : ∀ N, timeAfter dt (N + 1) = timeAfter dt N + dt N := fun N => Finset.sum_range_succ _ _
  by_cases hT : 0 ≤ T
  swap
  · intro N hN
    exact absurd ((hτ0 N).trans hN) hT
  have hz : (0 : ℝ) ∈ Set.Icc (0 : ℝ) T := ⟨le_rfl, hT⟩
  have hz1 : (0 : ℝ) ∈ Set.Icc (0 : ℝ) 1 := ⟨le_rfl, zero_le_one⟩
  have hM2' : 0 ≤ M2 := (abs_nonneg _).trans (hM2 0 hz 0 hz1)
  have hM4' : 0 ≤ M4 := (abs_nonneg _).trans (hM4 0 hz 0 hz1)
  have hMt' : 0 ≤ Mtt := (abs_nonneg _).trans (hMt 0 hz 0 hz1)
  have hΔ : 0 < Δ := (hdt 0).1.trans_le (hdt 0).2
  have hε : 0 ≤ ε := (abs_nonneg _).trans (hini 0 (by omega))
  set α : ℝ := M4 / (12 * n ^ 2) + Mtt * Δ / (2 * k) with hα
  set β : ℝ := 5 / 4 * M2 / n ^ 2 + ε with hβ
  have hα0 : 0 ≤ α := by positivity
  have hβ0 : 0 ≤ β := by positivity
  set w : Nat → ℝ := fun c => α * lineBarrier ℝ n c + β with hwdef
  have key : ∀ N, timeAfter dt N ≤ T → ∀ c < n, |(U N).sol.cell c - u (timeAfter dt N) (lineCentre ℝ n c)| ≤ w c := by
    intro N
    induction N with
    | zero =>
      intro _ c hc
      rw [hU0]
      have h2 : timeAfter dt 0 = 0 := by simp [timeAfter]
      rw [h2]
      refine (hini c hc).trans ?_
      have := mul_nonneg hα0 (lineBarrier_le (K := ℝ) n c hc).1
      have : 0 ≤ 5 / 4 * M2 / n ^ 2 := by positivity
      show ε ≤ α * lineBarrier ℝ n c + β
      rw [hβ]
      linarith
    | succ N ih =>
      intro hN
      have hdN := (hdt N).1
      have ht0 : timeAfter dt N ∈ Set.Icc 0 T := ⟨hτ0 N, by have := hτs N; linarith⟩
      have hθ : 0 < dt N * n := by positivity
      have hθ1 : dt N * n * (4 * k * n) ≤ 1 := by
        have e1 : dt N * n * (4 * k * n) = 4 * k * n ^ 2 * dt N := by ring
        rw [e1]
        exact (mul_le_mul_of_nonneg_left (hdt N).2 (by positivity)).trans hlim
      refine explicit_follow n (lineHeat_sub k a b n) (fun x y r c => lineHeat_add k n x y r c) hθ.le (lineHeat_mono hk.le n hθ.le hθ1)
        (y := fun c => u (timeAfter dt N) (lineCentre ℝ n c)) (y' := fun c => u (timeAfter dt (N + 1)) (lineCentre ℝ n c)) (w := w)
        (ρ := fun c => lineHeat k a b n (fun c => u (timeAfter dt N) (lineCentre ℝ n c)) c
          + (u (timeAfter dt (N + 1)) (lineCentre ℝ n c) - u (timeAfter dt N) (lineCentre ℝ n c)) / (dt N * n))
        (hU2 N) (fun c hc => by field_simp; ring) (fun c hc => ?_) (ih ht0.2)
      have hbar := line_barrier_outflow n h1 k α β w (fun _ _ => rfl) c hc
      have htr := line_truncation (hu.space1 _ ht0) (hu.space2 _ ht0) (hu.space3 _ ht0) (hu.space4 _ ht0) (hM2 _ ht0) (hM4 _ ht0) n h1 k hk
        (fun c => u (timeAfter dt N) (lineCentre ℝ n c)) (fun _ _ => rfl) c hc
      rw [hu.left _ ht0, hu.right _ ht0] at htr
      have hx := lineCentre_mem n c hc
      have htime : |u (timeAfter dt (N + 1)) (lineCentre ℝ n c) - u (timeAfter dt N) (lineCentre ℝ n c) - dt N * ut (timeAfter dt N) (lineCentre ℝ n c)| ≤ Mtt / 2 * dt N ^ 2 := by
        have := first_order (hu.time1 _ hx) (hu.time2 _ hx) (fun t ht => hMt t ht _ hx) (p := timeAfter dt N) (r := 1) (y := dt N) (by norm_num) hdN.le (fun s hs => by
          have h3 := hτs N
          have h4 := hs.1
          have h5 := hs.2
          have h6 := hτ0 N
          constructor <;> linarith)
        rw [one_mul, show timeAfter dt N + dt N = timeAfter dt (N + 1) from (hτs N).symm] at this
        exact this
      have htime2 : |(u (timeAfter dt (N + 1)) (lineCentre ℝ n c) - u (timeAfter dt N) (lineCentre ℝ n c)) / (dt N * n) - 1 / n * ut (timeAfter dt N) (lineCentre ℝ n c)|
          ≤ 1 / n * (Mtt * Δ / 2) := by
        have e1 : (u (timeAfter dt (N + 1)) (lineCentre ℝ n c) - u (timeAfter dt N) (lineCentre ℝ n c)) / (dt N * n) - 1 / n * ut (timeAfter dt N) (lineCentre ℝ n c)
            = (1 / n / dt N) * (u (timeAfter dt (N + 1)) (lineCentre ℝ n c) - u (timeAfter dt N) (lineCentre ℝ n c) - dt N * ut (timeAfter dt N) (lineCentre ℝ n c)) := by
          field_simp
        rw [e1, abs_mul, abs_of_pos (show 0 < 1 / (n : ℝ) / dt N by positivity)]
        refine (mul_le_mul_of_nonneg_left htime (show 0 ≤ 1 / (n : ℝ) / dt N by positivity)).trans ?_
        have e2 : 1 / (n : ℝ) / dt N * (Mtt / 2 * dt N ^ 2) = 1 / n * (Mtt * dt N / 2) := by field_simp
        rw [e2]
        have := mul_le_mul_of_nonneg_left (hdt N).2 hMt'
        have h7 : 0 ≤ 1 / (n : ℝ) := by positivity
        exact mul_le_mul_of_nonneg_left (by linarith) h7
      rw [hu.eq _ ht0 _ hx] at htime2
      have hbar' : lineHeat k 0 0 n w c = 1 / n * (k * α) + ((if c < n - 1 then 0 else k * (2 * n)) + if 1 ≤ c then 0 else k * (2 * n)) * β := hbar
      rw [hbar']
      refine le_trans (le_of_eq (congrArg abs ?_)) ((abs_add_le _ _).trans ((add_le_add htr htime2).trans ?_))
      · unfold lineHeat
        ring
      · have h8 : (0 : ℝ) ≤ (if c < n - 1 then 0 else k * (2 * n)) + if 1 ≤ c then 0 else k * (2 * n) := by
          have : 0 ≤ k * (2 * n) := by positivity
          split <;> split <;> linarith
        have h9 : 1 / (n : ℝ) * (k * α) = k * M4 / (12 * n ^ 3) + 1 / n * (Mtt * Δ / 2) := by
          rw [hα]
          field_simp
        rw [h9, hβ, mul_add]
        have := mul_nonneg h8 hε
        linarith
  intro N hN c hc
  refine (key N hN c hc).trans ?_
  show α * lineBarrier ℝ n c + β ≤ _
  have h4 := mul_le_mul_of_nonneg_left (lineBarrier_le (K := ℝ) n c hc).2 hα0
  refine (add_le_add_left h4 _).trans (le_of_eq ?_)
  rw [hα, hβ]
  field_simp
  ring

/-- **C95, beyond the limit**: in pure transport the distance of the first cell from the inlet value is multiplied by `1 - dt n v` in every step: beyond Courant number two it
grows without limit. -/
theorem C95_limit_needed (e e' : ExecKind) (mag : Vec ℝ → ℝ) (mjunk : Nat → Nat) (n : Nat) (h2 : 2 ≤ n) (m : Mesh ℝ)
    (hm : create1DUniformMesh e' mag mjunk n (.ok m)) (tiny : ℝ) (ht : 0 ≤ tiny) (sqrt : ℝ → ℝ) (hs : IsSqrt sqrt) (gjunk : Nat → ℝ) (g : Geometry ℝ)
    (hg : geometryScheme e m tiny sqrt gjunk (.ok g)) (sp : SparsityPattern) (junk : Nat → ℝ) (flux gamma : List ℝ) (hfll : flux.length = n + 1)
    (v : ℝ) (hv : 0 < v) (hfl : ∀ f < n + 1, ix flux f = if f = n - 1 then -v else v) (eqn : Expr) (ops : OpsOf ℝ ℝ)
    (hbuild : ∀ st, (explicitDiffTree 0).build (explicitDiffOps e m sp .upwind g.weights junk flux g.nonOrthDeltaCoeffs gamma st) = .ok (eqn, ops st))
    (bcs : List (VolumeBoundary ℝ)) (hb : ∀ c ∈ bcs, c.patch.end_ ≤ 2) (a : ℝ) (hbl : Decides bcs 0 (.fixedValue a)) (kr : VolBCKind ℝ) (hbr : Decides bcs 1 kr)
    (hkr : kr.ZeroGradient) (table : SolverTable ℝ) (fvSchemes fvSolution : Dict) (hd : AsksFor fvSchemes "forwardEuler")
    (st : TimeState ℝ ℝ) (ho : st.sol.On m) (hsy : st.Synced) (hl0 : st.sol.bnd 0 = a) (hr0 : st.sol.bnd 1 = st.sol.cell (n - 1)) (hne : st.sol.cell 0 ≠ a)
    (t dt : ℝ) (hco : 2 < dt * (v * n)) :
    ∃ U : Nat → TimeState ℝ ℝ, U 0 = st ∧
      (∀ N out, timeLoop (fun d st => dslSolve e m bcs table fvSchemes fvSolution ops eqn st t d) (fun _ => dt) N st out ↔ out = .ok (U N)) ∧
      ∀ B : ℝ, ∃ N0, ∀ N, N0 ≤ N → B < |(U N).sol.cell 0 - a| := by
  obtain ⟨U, hU0, hU1, hU2⟩ := line_explicit_steps e e' mag mjunk n h2 m hm tiny ht sqrt hs gjunk g hg sp junk flux gamma hfll v 0 hv.le hfl eqn ops hbuild bcs hb a hbl kr hbr hkr
    table fvSchemes fvSolution hd st ho hsy hl0 hr0 t (fun _ => dt)
  refine ⟨U, hU0, hU1, ?_⟩
  have hform : ∀ N, (U N).sol.cell 0 - a = (1 - dt * (v * n)) ^ N * (st.sol.cell 0 - a) := by
    intro N
    induction N with
    | zero => rw [hU0]; simp
    | succ N ih =>
      rw [hU2 N 0 (by omega)]
      have hflow : lineFlow v 0 a n (U N).sol.cell 0 = v * (U N).sol.cell 0 - v * a := by
        unfold lineFlow
        rw [if_pos (show 0 < n - 1 by omega), if_neg (show ¬ 1 ≤ 0 by omega)]
        ring
      rw [hflow, pow_succ]
      linear_combination (1 - dt * (v * n)) * ih
  intro B
  have hr : 1 < |1 - dt * (v * n)| := by
    rw [lt_abs]
    right
    linarith
  have hpos : 0 < |st.sol.cell 0 - a| := abs_pos.2 (sub_ne_zero.2 hne)
  obtain ⟨N0, hN0⟩ := pow_unbounded_of_one_lt (B / |st.sol.cell 0 - a|) hr
  refine ⟨N0, fun N hN => ?_⟩
  rw [hform, abs_mul, abs_pow]
  rw [div_lt_iff₀ hpos] at hN0
  exact hN0.trans_le (mul_le_mul_of_nonneg_right (pow_le_pow_right₀ hr.le hN) hpos.le)

theorem explicitDiff_handles (a b c : OpModel ℝ ℝ) (k : ℝ) : ∃ h', (explicitDiffTree k).build [a, b, c] = .ok (⟨[9], [10, 13]⟩, h') := ⟨_, rfl⟩

theorem explicitDiff_builds (e : ExecKind) (m : Mesh ℝ) (sp : SparsityPattern) (w flux δ gamma : List ℝ) (junk : Nat → ℝ) (k : ℝ) :
    ∃ (eqn : Expr) (ops : OpsOf ℝ ℝ), ∀ st, (explicitDiffTree k).build (explicitDiffOps e m sp .upwind w junk flux δ gamma st) = .ok (eqn, ops st) := by
  have : ∀ st, ∃ o, (explicitDiffTree k).build (explicitDiffOps e m sp .upwind w junk flux δ gamma st) = .ok (⟨[9], [10, 13]⟩, o) := fun st => explicitDiff_handles _ _ _ k
  choose ops hops using this
  exact ⟨_, ops, hops⟩

/-- A mesh, geometry, flux, expression and boundary conditions as the theorems need, for every number of cells, and steps within the limit. -/
theorem line_explicit_setting (e : ExecKind) (n : Nat) (h1 : 1 ≤ n) (v k a : ℝ) (kr : VolBCKind ℝ) (hkr : kr.Writes) (l : List ℝ) (hl : l.length = n) (b : ℝ) (sp : SparsityPattern) :
    ∃ (m : Mesh ℝ) (g : Geometry ℝ) (flux : List ℝ) (st : TimeState ℝ ℝ) (eqn : Expr) (ops : OpsOf ℝ ℝ) (bcs : List (VolumeBoundary ℝ)),
    create1DUniformMesh .parallel (vmag Real.sqrt) (fun _ => 0) n (.ok m) ∧ geometryScheme e m (1 / 1000) Real.sqrt (fun _ => 0) (.ok g) ∧
    flux.length = n + 1 ∧ (∀ f < n + 1, ix flux f = if f = n - 1 then -v else v) ∧
    (∀ st, (explicitDiffTree k).build (explicitDiffOps e m sp .upwind g.weights (fun _ => 0) flux g.nonOrthDeltaCoeffs [] st) = .ok (eqn, ops st)) ∧
    (∀ c ∈ bcs, c.patch.end_ ≤ 2) ∧ Decides bcs 0 (.fixedValue a) ∧ Decides bcs 1 kr ∧
    st.sol.On m ∧ st.Synced ∧ st.sol.internal = l ∧ st.sol.bnd 0 = a ∧ st.sol.bnd 1 = b := by
  have hwf := mesh1D_wf (vmag Real.sqrt) n h1
  obtain ⟨g, hgs⟩ : ∃ g, geometryScheme e (mesh1D (vmag Real.sqrt) n) (1 / 1000) Real.sqrt (fun _ => 0) (.ok g) := ⟨_, (geometryScheme_det hwf e _ _ _ _).2 rfl⟩
  set flux : List ℝ := (List.range (n + 1)).map fun f => if f = n - 1 then -v else v with hfl
  obtain ⟨eqn, ops, hops⟩ := explicitDiff_builds e (mesh1D (vmag Real.sqrt) n) sp g.weights flux g.nonOrthDeltaCoeffs [] (fun _ => 0) k
  refine ⟨mesh1D (vmag Real.sqrt) n, g, flux, ⟨⟨l, [a, b], [a, b], [1, 1], [0, 0]⟩, some l⟩, eqn, ops, [⟨⟨0, 0, 1⟩, .fixedValue a⟩, ⟨⟨1, 1, 2⟩, kr⟩],
    (create1D_closed _ _ _ n h1 _).2 rfl, hgs, by simp [hfl], fun f hf => ?_, hops, by simp, ⟨[], _, _, rfl, rfl, trivial, ?_, ?_⟩,
    ⟨[⟨⟨0, 0, 1⟩, .fixedValue a⟩], _, [], rfl, rfl, hkr, ?_, by simp⟩, ⟨by simp [hl, mesh1D], rfl, rfl, rfl, rfl⟩, rfl, rfl, rfl, rfl⟩
  · simp only [ix, hfl]
    rw [getD_range_map _ _ _ hf]
  · simp [Patch.Has]
  · simp [Patch.Has]
  · simp [Patch.Has]

/-- The hypotheses of `C95_courant_one` can be met, for every number of cells: a sharp front. -/
example (e : ExecKind) (n : Nat) (h2 : 2 ≤ n) (v : ℝ) (hv : 0 < v) (sp : SparsityPattern) : ∃ (m : Mesh ℝ) (g : Geometry ℝ) (flux : List ℝ) (st : TimeState ℝ ℝ) (eqn : Expr)
    (ops : OpsOf ℝ ℝ) (bcs : List (VolumeBoundary ℝ)) (dt : ℝ),
    create1DUniformMesh .parallel (vmag Real.sqrt) (fun _ => 0) n (.ok m) ∧ geometryScheme e m (1 / 1000) Real.sqrt (fun _ => 0) (.ok g) ∧
    flux.length = n + 1 ∧ (∀ f < n + 1, ix flux f = if f = n - 1 then -v else v) ∧
    (∀ st, (explicitDiffTree 0).build (explicitDiffOps e m sp .upwind g.weights (fun _ => 0) flux g.nonOrthDeltaCoeffs [] st) = .ok (eqn, ops st)) ∧
    (∀ c ∈ bcs, c.patch.end_ ≤ 2) ∧ Decides bcs 0 (.fixedValue 1) ∧ Decides bcs 1 (.fixedGradient 0) ∧
    st.sol.On m ∧ st.Synced ∧ (∀ c < n, st.sol.cell c = (fun x : ℝ => if x < 1 / 4 then 1 else 0) (((c : ℝ) + 1 / 2) / n)) ∧
    st.sol.bnd 0 = 1 ∧ st.sol.bnd 1 = st.sol.cell (n - 1) ∧ v * dt = 1 / n := by
  set l : List ℝ := (List.range n).map fun c : Nat => if ((c : ℝ) + 1 / 2) / n < 1 / 4 then 1 else 0 with hl
  obtain ⟨m, g, flux, st, eqn, ops, bcs, h3, h4, h5, h6, h7, h8, h9, h10, h11, h12, h13, h14, h15⟩ :=
    line_explicit_setting e n (by omega) v 0 1 (.fixedGradient 0) trivial l (by simp [hl]) (l.getD (n - 1) 0) sp
  refine ⟨m, g, flux, st, eqn, ops, bcs, 1 / n / v, h3, h4, h5, h6, h7, h8, h9, h10, h11, h12, fun c hc => ?_, h14, ?_, by field_simp⟩
  · rw [VolField.cell, h13, hl]
    exact getD_range_map _ _ _ hc
  · rw [h15, VolField.cell, h13]

/-- The hypotheses of `C95_transport` can be met, for every number of cells: the cubic front of `cubicFront` with steps at the limit. -/
example (e : ExecKind) (n : Nat) (h2 : 2 ≤ n) (v : ℝ) (hv : 0 < v) (sp : SparsityPattern) : ∃ (m : Mesh ℝ) (g : Geometry ℝ) (flux : List ℝ) (st : TimeState ℝ ℝ) (eqn : Expr)
    (ops : OpsOf ℝ ℝ) (bcs : List (VolumeBoundary ℝ)) (Δ : ℝ),
    create1DUniformMesh .parallel (vmag Real.sqrt) (fun _ => 0) n (.ok m) ∧ geometryScheme e m (1 / 1000) Real.sqrt (fun _ => 0) (.ok g) ∧
    flux.length = n + 1 ∧ (∀ f < n + 1, ix flux f = if f = n - 1 then -v else v) ∧
    (∀ st, (explicitDiffTree 0).build (explicitDiffOps e m sp .upwind g.weights (fun _ => 0) flux g.nonOrthDeltaCoeffs [] st) = .ok (eqn, ops st)) ∧
    (∀ c ∈ bcs, c.patch.end_ ≤ 2) ∧ Decides bcs 0 (.fixedValue 0) ∧ Decides bcs 1 (.fixedGradient 0) ∧
    st.sol.On m ∧ st.Synced ∧ (∀ c < n, |st.sol.cell c - max ((((c : ℝ) + 1 / 2) / n) - v * 0) 0 ^ 3| ≤ 0) ∧
    st.sol.bnd 0 = 0 ∧ st.sol.bnd 1 = st.sol.cell (n - 1) ∧ 0 < Δ ∧ Δ * (v * n + 3 * 0 * n ^ 2) ≤ 1 := by
  have hn : (0 : ℝ) < n := by exact_mod_cast (by omega : 0 < n)
  set l : List ℝ := (List.range n).map fun c : Nat => max ((((c : ℝ) + 1 / 2) / n) - v * 0) 0 ^ 3 with hl
  obtain ⟨m, g, flux, st, eqn, ops, bcs, h3, h4, h5, h6, h7, h8, h9, h10, h11, h12, h13, h14, h15⟩ :=
    line_explicit_setting e n (by omega) v 0 0 (.fixedGradient 0) trivial l (by simp [hl]) (l.getD (n - 1) 0) sp
  refine ⟨m, g, flux, st, eqn, ops, bcs, 1 / (v * n), h3, h4, h5, h6, h7, h8, h9, h10, h11, h12, fun c hc => ?_, h14, ?_, by positivity, le_of_eq (by field_simp; ring)⟩
  · rw [VolField.cell, h13, hl, getD_range_map _ _ _ hc]
    simp
  · rw [h15, VolField.cell, h13]

/-- The hypotheses of `C95_heat` can be met, for every number of cells: `decayingSine` with steps at the limit. -/
example (e : ExecKind) (n : Nat) (h1 : 1 ≤ n) (k : ℝ) (hk : 0 < k) (sp : SparsityPattern) : ∃ (m : Mesh ℝ) (g : Geometry ℝ) (flux : List ℝ) (st : TimeState ℝ ℝ) (eqn : Expr)
    (ops : OpsOf ℝ ℝ) (bcs : List (VolumeBoundary ℝ)) (Δ : ℝ),
    create1DUniformMesh .parallel (vmag Real.sqrt) (fun _ => 0) n (.ok m) ∧ geometryScheme e m (1 / 1000) Real.sqrt (fun _ => 0) (.ok g) ∧
    flux.length = n + 1 ∧ (∀ f < n + 1, ix flux f = 0) ∧
    (∀ st, (explicitDiffTree k).build (explicitDiffOps e m sp .upwind g.weights (fun _ => 0) flux g.nonOrthDeltaCoeffs [] st) = .ok (eqn, ops st)) ∧
    (∀ c ∈ bcs, c.patch.end_ ≤ 2) ∧ Decides bcs 0 (.fixedValue 0) ∧ Decides bcs 1 (.fixedValue 0) ∧
    st.sol.On m ∧ st.Synced ∧ (∀ c < n, |st.sol.cell c - Real.exp (-(Real.pi ^ 2 * k) * 0) * Real.sin (Real.pi * (((c : ℝ) + 1 / 2) / n))| ≤ 0) ∧
    st.sol.bnd 0 = 0 ∧ st.sol.bnd 1 = 0 ∧ 0 < Δ ∧ 4 * k * n ^ 2 * Δ ≤ 1 := by
  have hn : (0 : ℝ) < n := by exact_mod_cast (by omega : 0 < n)
  set l : List ℝ := (List.range n).map fun c : Nat => Real.sin (Real.pi * (((c : ℝ) + 1 / 2) / n)) with hl
  obtain ⟨m, g, flux, st, eqn, ops, bcs, h3, h4, h5, h6, h7, h8, h9, h10, h11, h12, h13, h14, h15⟩ :=
    line_explicit_setting e n h1 0 k 0 (.fixedValue 0) trivial l (by simp [hl]) 0 sp
  refine ⟨m, g, flux, st, eqn, ops, bcs, 1 / (4 * k * n ^ 2), h3, h4, h5, fun f hf => by rw [h6 f hf]; split <;> simp, h7, h8, h9, h10, h11, h12, fun c hc => ?_, h14, h15, by positivity,
    le_of_eq (by field_simp)⟩
  rw [VolField.cell, h13, hl, getD_range_map _ _ _ hc]
  simp

end NeoFOAM
