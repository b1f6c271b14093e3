import Verif.Props.C93_HeatConvergence

/-!
# C94 – refining mesh and time step: first-order convergence of implicit upwind transport with diffusion
-/
namespace NeoFOAM
open Finset

section
variable {K : Type} [Field K] [LinearOrder K] [IsStrictOrderedRing K]

/-- What leaves cell `c` of the line by flow to the right with speed `v` and diffusion: the value `a` at the inlet on the left, zero gradient at the outlet. -/
def lineFlow (v k a : K) (n : Nat) (x : Nat → K) (c : Nat) : K :=
  (if c < n - 1 then v * x c - k * n * (x (c + 1) - x c) else v * x c)
    - (if 1 ≤ c then v * x (c - 1) - k * n * (x c - x (c - 1)) else v * a + k * (2 * n) * (a - x c))

theorem line_flow (mag : Vec K → K) (n : Nat) (h2 : 2 ≤ n) {flux δ gamma : Nat → K} {v k a : K} (hv : 0 ≤ v)
    (hfl : ∀ f < n + 1, flux f = if f = n - 1 then -v else v)
    (hδ : ∀ f < n + 1, δ f = if f < n - 1 then (n : K) else 2 * n) (hg : ∀ f < n + 1, gamma f = k) {φ : VolField K K}
    (hl : (φ.entry 0).fraction = 1 ∧ (φ.entry 0).refValue = a) (hr : (φ.entry 1).fraction = 0 ∧ (φ.entry 1).refGrad = 0) (x : Nat → K) (c : Nat) (hc : c < n) :
    (mesh1D mag n).netOutflow (φ.outFlux (mesh1D mag n) flux δ gamma x) c = lineFlow v k a n x c := by
  have hi : (mesh1D mag n).nInternalFaces = n - 1 := rfl
  have hof : ∀ f < n + 1, φ.outFlux (mesh1D mag n) flux δ gamma x f = if f < n - 1 then v * x f - k * n * (x (f + 1) - x f)
      else if f = n - 1 then -(v * a + k * (2 * n) * (a - x 0)) else v * x (n - 1) := by
    intro f hf
    unfold VolField.outFlux
    rw [hi, hδ f hf, hg f hf, hfl f hf, mesh1D_mag mag n f hf]
    by_cases ha : f < n - 1
    · rw [if_pos ha, if_pos ha, if_pos ha, if_neg (show ¬ f = n - 1 by omega), if_pos hv, mesh1D_own mag n f hf, if_pos ha, mesh1D_nbr mag n f ha]
      ring
    · rw [if_neg ha, if_neg ha, if_neg ha]
      by_cases hb : f = n - 1
      · rw [if_pos hb, if_pos hb, hb, Nat.sub_self, mesh1D_fc0]
        simp only [hl.1, hl.2]
        ring
      · have : f - (n - 1) = 1 := by omega
        rw [if_neg hb, if_neg hb, this, mesh1D_fc1]
        simp only [hr.1, hr.2]
        ring
  rw [mesh1D_netOutflow mag n _ c hc]
  unfold lineFlow
  congr 1
  · by_cases ha : c < n - 1
    · rw [if_pos ha, if_pos ha, hof c (by omega), if_pos ha]
    · rw [if_neg ha, if_neg ha, hof n (by omega), if_neg (by omega), if_neg (by omega), show n - 1 = c by omega]
  · by_cases ha : 1 ≤ c
    · rw [if_pos ha, if_pos ha, hof (c - 1) (by omega), if_pos (by omega), show c - 1 + 1 = c by omega]
    · rw [if_neg ha, if_neg ha, hof (n - 1) (by omega), if_neg (by omega), if_pos rfl, show c = 0 by omega]
      ring

/-- The flow is divergence free. -/
theorem line_flux_free (mag : Vec K → K) (n : Nat) (h1 : 1 ≤ n) {flux : Nat → K} {v : K} (hfl : ∀ f < n + 1, flux f = if f = n - 1 then -v else v) :
    (mesh1D mag n).DivergenceFree flux := by
  intro c hc
  have hc' : c < n := hc
  rw [mesh1D_netOutflow mag n _ c hc']
  have e1 : (if c < n - 1 then flux c else flux n) = v := by
    split
    · rw [hfl c (by omega), if_neg (by omega)]
    · rw [hfl n (by omega), if_neg (by omega)]
  have e2 : (if 1 ≤ c then flux (c - 1) else -flux (n - 1)) = v := by
    split
    · rw [hfl _ (by omega), if_neg (by omega)]
    · rw [hfl _ (by omega), if_pos rfl, neg_neg]
  rw [e1, e2, sub_self]

/-- The barrier for flow: a ramp plus a constant. -/
theorem flow_barrier (n : Nat) (h2 : 2 ≤ n) (v k α β : K) (hk : 0 ≤ k) (hα : 0 ≤ α) (c : Nat) (hc : c < n) :
    v * α / n + (if 1 ≤ c then 0 else (v + k * (2 * n)) * β) ≤ lineFlow v k 0 n (fun c => α * (((c : K) + 1) / n) + β) c := by
  have hn : (0 : K) < n := by exact_mod_cast (by omega : 0 < n)
  have hka := mul_nonneg hk hα
  unfold lineFlow
  beta_reduce
  by_cases ha : c < n - 1
  · by_cases hb : 1 ≤ c
    · have hkc : ((c - 1 : Nat) : K) = (c : K) - 1 := by rw [Nat.cast_sub hb]; simp
      rw [if_pos ha, if_pos hb, if_pos hb, hkc]
      refine le_of_eq ?_
      push_cast
      field_simp
      ring
    · have hc0 : c = 0 := by omega
      subst hc0
      rw [if_pos ha, if_neg hb, if_neg hb]
      have e : v * (α * (((0 : Nat) + 1 : K) / n) + β) - k * n * (α * ((((0 + 1 : Nat) : K) + 1) / n) + β - (α * (((0 : Nat) + 1 : K) / n) + β))
          - (v * 0 + k * (2 * n) * (0 - (α * (((0 : Nat) + 1 : K) / n) + β))) = v * α / n + (v + k * (2 * n)) * β + k * α := by
        push_cast
        field_simp
        ring
      rw [e]
      linarith
  · have hb : 1 ≤ c := by omega
    have hkc : ((c - 1 : Nat) : K) = (c : K) - 1 := by rw [Nat.cast_sub hb]; simp
    rw [if_neg ha, if_pos hb, if_pos hb, hkc]
    have e : v * (α * (((c : K) + 1) / n) + β) - (v * (α * (((c : K) - 1 + 1) / n) + β) - k * n * (α * (((c : K) + 1) / n) + β - (α * (((c : K) - 1 + 1) / n) + β)))
        = v * α / n + k * α := by
      field_simp
      ring
    rw [e]
    linarith

end

/-- A solution of `u_t + v u_x = k u_xx` on the unit interval up to time `T`, constant value `a` at the inlet `x = 0`; with diffusion also zero gradient at the outlet
`x = 1` and two more derivatives in space. The first argument is time. -/
structure TransportSolution (v k T a : ℝ) (u ut utt u1 u2 u3 u4 : ℝ → ℝ → ℝ) : Prop where
  eq : ∀ t ∈ Set.Icc 0 T, ∀ x ∈ Set.Icc (0 : ℝ) 1, ut t x + v * u1 t x = k * u2 t x
  time1 : ∀ x ∈ Set.Icc (0 : ℝ) 1, DerivIn (Set.Icc 0 T) (fun t => u t x) (fun t => ut t x)
  time2 : ∀ x ∈ Set.Icc (0 : ℝ) 1, DerivIn (Set.Icc 0 T) (fun t => ut t x) (fun t => utt t x)
  space1 : ∀ t ∈ Set.Icc 0 T, DerivOn (u t) (u1 t)
  space2 : ∀ t ∈ Set.Icc 0 T, DerivOn (u1 t) (u2 t)
  space3 : 0 < k → ∀ t ∈ Set.Icc 0 T, DerivOn (u2 t) (u3 t)
  space4 : 0 < k → ∀ t ∈ Set.Icc 0 T, DerivOn (u3 t) (u4 t)
  left : ∀ t ∈ Set.Icc 0 T, u t 0 = a
  right : 0 < k → ∀ t ∈ Set.Icc 0 T, u1 t 1 = 0

/-- Bounds of its derivatives. -/
structure TransportBounds (k T : ℝ) (utt u1 u2 u3 u4 : ℝ → ℝ → ℝ) (Mtt M1 M2 M3 M4 : ℝ) : Prop where
  tt : ∀ t ∈ Set.Icc 0 T, ∀ x ∈ Set.Icc (0 : ℝ) 1, |utt t x| ≤ Mtt
  b1 : ∀ t ∈ Set.Icc 0 T, ∀ x ∈ Set.Icc (0 : ℝ) 1, |u1 t x| ≤ M1
  b2 : ∀ t ∈ Set.Icc 0 T, ∀ x ∈ Set.Icc (0 : ℝ) 1, |u2 t x| ≤ M2
  b3 : 0 < k → ∀ t ∈ Set.Icc 0 T, ∀ x ∈ Set.Icc (0 : ℝ) 1, |u3 t x| ≤ M3
  b4 : 0 < k → ∀ t ∈ Set.Icc 0 T, ∀ x ∈ Set.Icc (0 : ℝ) 1, |u4 t x| ≤ M4

/-- The truncation error of the upwind part. -/
theorem upwind_truncation {u u1 u2 : ℝ → ℝ} (d1 : DerivOn u u1) (d2 : DerivOn u1 u2) {M1 M2 : ℝ}
    (hM1 : ∀ x ∈ Set.Icc (0 : ℝ) 1, |u1 x| ≤ M1) (hM2 : ∀ x ∈ Set.Icc (0 : ℝ) 1, |u2 x| ≤ M2) (n : Nat) (v : ℝ) (hv : 0 ≤ v) (y : Nat → ℝ)
    (hy : ∀ c < n, y c = u (lineCentre ℝ n c)) (c : Nat) (hc : c < n) :
    |v * y c - (if 1 ≤ c then v * y (c - 1) else v * u 0) - 1 / n * (v * u1 (lineCentre ℝ n c))|
      ≤ v * (M2 / (2 * n)) / n + if 1 ≤ c then 0 else v * (M1 / (2 * n)) := by
  have hn : (0 : ℝ) < n := by exact_mod_cast (by omega : 0 < n)
  have hM2' : 0 ≤ M2 := (abs_nonneg _).trans (hM2 0 ⟨le_rfl, zero_le_one⟩)
  obtain ⟨x0, x1⟩ := lineCentre_mem n c hc
  have hseg : ∀ r : ℝ, r ≤ lineCentre ℝ n c → ∀ s ∈ Set.Icc 0 r, lineCentre ℝ n c + -1 * s ∈ Set.Icc (0 : ℝ) 1 := by
    intro r hr s hs
    have := hs.1
    have := hs.2
    constructor <;> linarith
  by_cases hb : 1 ≤ c
  · rw [if_pos hb, if_pos hb, add_zero, hy _ hc, hy _ (by omega)]
    have hc1 : (1 : ℝ) ≤ c := by exact_mod_cast hb
    have hkc : ((c - 1 : Nat) : ℝ) = (c : ℝ) - 1 := by rw [Nat.cast_sub hb]; simp
    have e2 : lineCentre ℝ n (c - 1) = lineCentre ℝ n c + -1 * (1 / n) := by unfold lineCentre; rw [hkc]; field_simp; ring
    have hle : 1 / (n : ℝ) ≤ lineCentre ℝ n c := by
      unfold lineCentre
      apply div_le_div_of_nonneg_right _ hn.le
      linarith
    have := first_order d1 d2 hM2 (p := lineCentre ℝ n c) (r := -1) (y := 1 / n) (by norm_num) (by positivity) (hseg _ hle)
    rw [← e2] at this
    have e3 : v * u (lineCentre ℝ n c) - v * u (lineCentre ℝ n (c - 1)) - 1 / n * (v * u1 (lineCentre ℝ n c))
        = -v * (u (lineCentre ℝ n (c - 1)) - u (lineCentre ℝ n c) - -1 * (1 / n) * u1 (lineCentre ℝ n c)) := by ring
    rw [e3, abs_mul, abs_neg, abs_of_nonneg hv]
    refine (mul_le_mul_of_nonneg_left this hv).trans (le_of_eq ?_)
    field_simp
  · rw [if_neg hb, if_neg hb, hy _ hc]
    have hc0 : c = 0 := by omega
    have e0 : lineCentre ℝ n c = 1 / (2 * n) := by rw [hc0]; unfold lineCentre; push_cast; field_simp; ring
    have := first_order d1 d2 hM2 (p := lineCentre ℝ n c) (r := -1) (y := 1 / (2 * n)) (by norm_num) (by positivity) (hseg _ e0.ge)
    rw [show lineCentre ℝ n c + -1 * (1 / (2 * n)) = 0 by rw [e0]; ring] at this
    have e3 : v * u (lineCentre ℝ n c) - v * u 0 - 1 / n * (v * u1 (lineCentre ℝ n c))
        = -v * ((u 0 - u (lineCentre ℝ n c) - -1 * (1 / (2 * n)) * u1 (lineCentre ℝ n c)) + 1 / (2 * n) * u1 (lineCentre ℝ n c)) := by
      field_simp
      ring
    rw [e3, abs_mul, abs_neg, abs_of_nonneg hv]
    have h3 : |1 / (2 * n) * u1 (lineCentre ℝ n c)| ≤ 1 / (2 * n) * M1 := by
      rw [abs_mul, abs_of_pos (show 0 < 1 / (2 * (n : ℝ)) by positivity)]
      exact mul_le_mul_of_nonneg_left (hM1 _ ⟨x0, x1⟩) (by positivity)
    have h4 : M2 / 2 * (1 / (2 * n)) ^ 2 ≤ M2 / (2 * n) / n := by
      have e4 : M2 / 2 * (1 / (2 * (n : ℝ))) ^ 2 = M2 / (2 * n) / n * (1 / 4) := by field_simp; ring
      rw [e4]
      have : 0 ≤ M2 / (2 * (n : ℝ)) / n := by positivity
      linarith
    have h5 := (abs_add_le _ _).trans (add_le_add (this.trans h4) h3)
    refine (mul_le_mul_of_nonneg_left h5 hv).trans (le_of_eq ?_)
    field_simp

/-- The truncation error of the diffusive part with zero gradient at the outlet. -/
theorem outlet_truncation {u u1 u2 u3 u4 : ℝ → ℝ} (d1 : DerivOn u u1) (d2 : DerivOn u1 u2) (d3 : DerivOn u2 u3) (d4 : DerivOn u3 u4) (hout : u1 1 = 0) {M2 M3 M4 : ℝ}
    (hM2 : ∀ x ∈ Set.Icc (0 : ℝ) 1, |u2 x| ≤ M2) (hM3 : ∀ x ∈ Set.Icc (0 : ℝ) 1, |u3 x| ≤ M3) (hM4 : ∀ x ∈ Set.Icc (0 : ℝ) 1, |u4 x| ≤ M4) (n : Nat) (h2 : 2 ≤ n)
    (k : ℝ) (hk : 0 < k) (y : Nat → ℝ) (hy : ∀ c < n, y c = u (lineCentre ℝ n c)) (c : Nat) (hc : c < n) :
    |(if c < n - 1 then -(k * n * (y (c + 1) - y c)) else 0)
      - (if 1 ≤ c then -(k * n * (y c - y (c - 1))) else k * (2 * n) * (u 0 - y c)) - 1 / n * (-(k * u2 (lineCentre ℝ n c)))|
      ≤ k * (M4 / (12 * n ^ 2) + 7 * M3 / (24 * n)) / n + if 1 ≤ c then 0 else k * (2 * n) * (5 / 4 * M2 / n ^ 2) := by
  have hn : (0 : ℝ) < n := by exact_mod_cast (by omega : 0 < n)
  have hn' : (n : ℝ) ≠ 0 := hn.ne'
  have hM3' : 0 ≤ M3 := (abs_nonneg _).trans (hM3 0 ⟨le_rfl, zero_le_one⟩)
  have hM4' : 0 ≤ M4 := (abs_nonneg _).trans (hM4 0 ⟨le_rfl, zero_le_one⟩)
  by_cases ha : c < n - 1
  · have := line_truncation d1 d2 d3 d4 hM2 hM4 n (by omega) k hk y hy c hc
    rw [if_pos ha, if_pos ha, zero_add] at this
    rw [if_pos ha]
    refine this.trans ?_
    have e : k * (M4 / (12 * n ^ 2) + 7 * M3 / (24 * n)) / n = k * M4 / (12 * n ^ 3) + k * (7 * M3 / (24 * n)) / n := by field_simp
    rw [e]
    have h3 : 0 ≤ k * (7 * M3 / (24 * n)) / n := by positivity
    split
    · linarith
    · linarith
  · have hb : 1 ≤ c := by omega
    rw [if_neg ha, if_pos hb, if_pos hb, add_zero, hy _ hc, hy _ (by omega)]
    have hcn : (c : ℝ) = n - 1 := by
      have : c + 1 = n := by omega
      have : ((c + 1 : Nat) : ℝ) = n := by rw [this]
      push_cast at this
      linarith
    have hn2 : (2 : ℝ) ≤ n := by exact_mod_cast h2
    have hkc : ((c - 1 : Nat) : ℝ) = (c : ℝ) - 1 := by rw [Nat.cast_sub hb]; simp
    have e2 : lineCentre ℝ n (c - 1) = lineCentre ℝ n c + -1 * (1 / n) := by unfold lineCentre; rw [hkc]; field_simp; ring
    have e1 : (1 : ℝ) = lineCentre ℝ n c + 1 * (1 / (2 * n)) := by unfold lineCentre; rw [hcn]; field_simp; ring
    have hle : 1 / (n : ℝ) ≤ lineCentre ℝ n c := by
      unfold lineCentre
      apply div_le_div_of_nonneg_right _ hn.le
      rw [hcn]
      linarith
    obtain ⟨x0, x1⟩ := lineCentre_mem n c hc
    have t1 := second_order d1 d2 d3 hM3 (p := lineCentre ℝ n c) (r := -1) (y := 1 / n) (by norm_num) (by positivity) (fun s hs => by
      have := hs.1
      have := hs.2
      constructor <;> linarith)
    have t2 := first_order d2 d3 hM3 (p := lineCentre ℝ n c) (r := 1) (y := 1 / (2 * n)) (by norm_num) (by positivity) (fun s hs => by
      have := hs.1
      have := hs.2
      constructor <;> linarith)
    rw [← e2] at t1
    rw [← e1, hout] at t2
    have e3 : (0 : ℝ) - -(k * n * (u (lineCentre ℝ n c) - u (lineCentre ℝ n (c - 1)))) - 1 / n * (-(k * u2 (lineCentre ℝ n c)))
        = -(k * n) * (u (lineCentre ℝ n (c - 1)) - u (lineCentre ℝ n c) - -1 * (1 / n) * u1 (lineCentre ℝ n c) - (1 / n) ^ 2 / 2 * u2 (lineCentre ℝ n c)
          + 1 / n * (0 - u1 (lineCentre ℝ n c) - 1 * (1 / (2 * n)) * u2 (lineCentre ℝ n c))) := by
      field_simp
      ring
    have t3 : |1 / n * (0 - u1 (lineCentre ℝ n c) - 1 * (1 / (2 * n)) * u2 (lineCentre ℝ n c))| ≤ 1 / n * (M3 / 2 * (1 / (2 * n)) ^ 2) := by
      rw [abs_mul, abs_of_pos (show 0 < 1 / (n : ℝ) by positivity)]
      exact mul_le_mul_of_nonneg_left t2 (by positivity)
    rw [e3, abs_mul, abs_neg, abs_of_pos (mul_pos hk hn)]
    have h5 := (abs_add_le _ _).trans (add_le_add t1 t3)
    refine (mul_le_mul_of_nonneg_left h5 (mul_pos hk hn).le).trans ?_
    have e6 : k * n * (M3 / 6 * (1 / n) ^ 3 + 1 / n * (M3 / 2 * (1 / (2 * n)) ^ 2)) = k * (7 * M3 / (24 * n)) / n := by field_simp; ring
    have e7 : k * (M4 / (12 * n ^ 2) + 7 * M3 / (24 * n)) / n = k * (M4 / (12 * n ^ 2)) / n + k * (7 * M3 / (24 * n)) / n := by ring
    rw [e6, e7]
    have : 0 ≤ k * (M4 / (12 * (n : ℝ) ^ 2)) / n := by positivity
    linarith

/-- How far the exact solution's values at the centres are from balance. -/
theorem flow_truncation {v k T a : ℝ} {u ut utt u1 u2 u3 u4 : ℝ → ℝ → ℝ} (hu : TransportSolution v k T a u ut utt u1 u2 u3 u4) {Mtt M1 M2 M3 M4 : ℝ}
    (hM : TransportBounds k T utt u1 u2 u3 u4 Mtt M1 M2 M3 M4) (hv : 0 < v) (hk : 0 ≤ k) (n : Nat) (h2 : 2 ≤ n) (t : ℝ) (ht : t ∈ Set.Icc 0 T) (c : Nat) (hc : c < n) :
    |lineFlow v k a n (fun c => u t (lineCentre ℝ n c)) c + 1 / n * ut t (lineCentre ℝ n c)|
      ≤ v * (M2 / (2 * n) + k / v * (M4 / (12 * n ^ 2) + 7 * M3 / (24 * n))) / n + if 1 ≤ c then 0 else v * (M1 / (2 * n)) + k * (2 * n) * (5 / 4 * M2 / n ^ 2) := by
  have hn : (0 : ℝ) < n := by exact_mod_cast (by omega : 0 < n)
  have hup := upwind_truncation (hu.space1 t ht) (hu.space2 t ht) (hM.b1 t ht) (hM.b2 t ht) n v hv.le (fun c => u t (lineCentre ℝ n c)) (fun _ _ => rfl) c hc
  rw [hu.left t ht] at hup
  have hutv : ut t (lineCentre ℝ n c) = k * u2 t (lineCentre ℝ n c) - v * u1 t (lineCentre ℝ n c) := by
    have := hu.eq t ht _ (lineCentre_mem n c hc)
    linarith
  have hsplit : lineFlow v k a n (fun c => u t (lineCentre ℝ n c)) c + 1 / n * ut t (lineCentre ℝ n c)
      = (v * u t (lineCentre ℝ n c) - (if 1 ≤ c then v * u t (lineCentre ℝ n (c - 1)) else v * a) - 1 / n * (v * u1 t (lineCentre ℝ n c)))
        + ((if c < n - 1 then -(k * n * (u t (lineCentre ℝ n (c + 1)) - u t (lineCentre ℝ n c))) else 0)
          - (if 1 ≤ c then -(k * n * (u t (lineCentre ℝ n c) - u t (lineCentre ℝ n (c - 1)))) else k * (2 * n) * (a - u t (lineCentre ℝ n c)))
          - 1 / n * (-(k * u2 t (lineCentre ℝ n c)))) := by
    rw [hutv]
    unfold lineFlow
    split <;> split <;> ring
  rw [hsplit]
  have e8 : v * (M2 / (2 * n) + k / v * (M4 / (12 * n ^ 2) + 7 * M3 / (24 * n))) / n
      = v * (M2 / (2 * n)) / n + k * (M4 / (12 * n ^ 2) + 7 * M3 / (24 * n)) / n := by field_simp
  rw [e8]
  rcases hk.lt_or_eq with hk' | hk'
  · have hd := outlet_truncation (hu.space1 t ht) (hu.space2 t ht) (hu.space3 hk' t ht) (hu.space4 hk' t ht) (hu.right hk' t ht) (hM.b2 t ht) (hM.b3 hk' t ht) (hM.b4 hk' t ht) n h2 k hk'
      (fun c => u t (lineCentre ℝ n c)) (fun _ _ => rfl) c hc
    rw [hu.left t ht] at hd
    refine (abs_add_le _ _).trans ((add_le_add hup hd).trans (le_of_eq ?_))
    split <;> ring
  · subst hk'
    simp only [zero_mul, neg_zero, ite_self, sub_zero, mul_zero, add_zero, zero_div]
    refine le_trans (le_of_eq ?_) hup
    rfl

/-- **C94**: let `u` solve `u_t + v u_x = k u_xx` with speed `v > 0` and diffusivity `k ≥ 0` (`k = 0` is pure transport). On the mesh of `create1DUniformMesh` with two cells or
more, inlet value fixed on the left, zero gradient on the right, from values within `ε` of the initial values of `u` at the centres, every number of calls of `dsl::solve`
on `ddt(u) + div(flux, u) - laplacian(gamma, u)` with backwardEuler and any positive time steps up to `Δ` has exactly one outcome, and as long as the time is at most `T`
the value of every cell differs from `u` at its centre and the time reached by at most
`ε + (M1/2 + M2/2 + 7 k M3/(24 v))/n + (5 M2/4 + k M4/(12 v))/n^2 + Mtt Δ/(2v)`: first order in cell size and time step, not growing with time. -/
theorem C94_transport (e e' es : ExecKind) (mag : Vec ℝ → ℝ) (mjunk : Nat → Nat) (n : Nat) (h2 : 2 ≤ n) (m : Mesh ℝ)
    (hm : create1DUniformMesh e mag mjunk n (.ok m)) (tiny : ℝ) (sqrt : ℝ → ℝ) (hs : IsSqrt sqrt) (gjunk : Nat → ℝ) (g : Geometry ℝ)
    (hg : geometryScheme e' m tiny sqrt gjunk (.ok g)) {sp : SparsityPattern} (hsp : sparsityUpdate es m (.ok sp)) (sch : InterpScheme) (w : List ℝ) (junk : Nat → ℝ)
    (flux gamma : List ℝ) (hfll : flux.length = n + 1) (hgl : gamma.length = n + 1) (v k : ℝ) (hv : 0 < v) (hk : 0 ≤ k)
    (hfl : ∀ f < n + 1, ix flux f = if f = n - 1 then -v else v) (hgam : ∀ f < n + 1, ix gamma f = k)
    (eqn : Expr) (ops : OpsOf ℝ ℝ) (hbuild : ∀ st, convDiffTree.build (convDiffOps es m sp sch w junk flux g.nonOrthDeltaCoeffs gamma st) = .ok (eqn, ops st))
    (bcs : List (VolumeBoundary ℝ)) (table : SolverTable ℝ) (fvSchemes fvSolution : Dict) (hd : AsksFor fvSchemes "backwardEuler")
    (solver : LinSolver ℝ) (hso : createSolver table fvSchemes = .ok solver) (hex : SolvingOn m solver)
    (T a : ℝ) (u ut utt u1 u2 u3 u4 : ℝ → ℝ → ℝ) (hu : TransportSolution v k T a u ut utt u1 u2 u3 u4) (Mtt M1 M2 M3 M4 : ℝ)
    (hM : TransportBounds k T utt u1 u2 u3 u4 Mtt M1 M2 M3 M4) (hM3 : 0 ≤ M3) (hM4 : 0 ≤ M4)
    (st : TimeState ℝ ℝ) (ho : st.sol.On m) (hsy : st.Synced) (ε : ℝ) (hini : ∀ c < n, |st.sol.cell c - u 0 (((c : ℝ) + 1 / 2) / n)| ≤ ε)
    (hleft : Prescribes m st.sol 0 (.fixedValue a) (st.sol.entry 0)) (hright : Prescribes m st.sol 1 (.fixedGradient 0) (st.sol.entry 1))
    (t : ℝ) (dt : Nat → ℝ) (Δ : ℝ) (hdt : ∀ i, 0 < dt i ∧ dt i ≤ Δ) :
    ∃ U : Nat → TimeState ℝ ℝ, U 0 = st ∧
      (∀ N out, timeLoop (fun d st => dslSolve es m bcs table fvSchemes fvSolution ops eqn st t d) dt N st out ↔ out = .ok (U N)) ∧
      ∀ N, timeAfter dt N ≤ T → ∀ c < n, |(U N).sol.cell c - u (timeAfter dt N) (((c : ℝ) + 1 / 2) / n)|
        ≤ ε + (M1 / 2 + M2 / 2 + 7 * k * M3 / (24 * v)) / n + (5 * M2 / 4 + k * M4 / (12 * v)) / n ^ 2 + Mtt * Δ / (2 * v) := by
  have h1 : 1 ≤ n := by omega
  rw [create1D_closed e mag mjunk n h1, Res.ok.injEq] at hm
  subst hm
  have hn : (0 : ℝ) < n := by exact_mod_cast h1
  have hn' : (n : ℝ) ≠ 0 := hn.ne'
  obtain ⟨-, hdl, hnd, -, -⟩ := mesh1D_geometry mag n h1 e' tiny sqrt hs gjunk g hg
  have hwf := mesh1D_wf mag n h1
  obtain ⟨-, hlr, hlf⟩ := hleft
  obtain ⟨-, hrg, hrf⟩ := hright
  have hδp : ∀ f < n + 1, 0 < ix g.nonOrthDeltaCoeffs f := by
    intro f hf
    rw [hnd f hf]
    split <;> positivity
  have hdiff : ∀ f < n + 1, 0 ≤ ix gamma f * ix g.nonOrthDeltaCoeffs f * ix (mesh1D mag n).magFaceAreas f := by
    intro f hf
    rw [mesh1D_mag mag n f hf, hgam f hf, mul_one]
    exact mul_nonneg hk (hδp f hf).le
  have hi : (mesh1D mag n).nInternalFaces = n - 1 := rfl
  have hst : Stable (mesh1D mag n) (ix flux) (ix g.nonOrthDeltaCoeffs) (ix gamma) st.sol := by
    refine ⟨line_flux_free mag n h1 hfl, hdiff, fun i hi' => ?_⟩
    have hi' : i < 2 := hi'
    have : i = 0 ∨ i = 1 := by omega
    rcases this with rfl | rfl
    · refine .inr ⟨hlf, ?_⟩
      have := hdiff (n - 1) (by omega)
      rw [hi, Nat.add_zero, hfl _ (by omega), if_pos rfl]
      linarith
    · exact .inl ⟨hrf, hrg⟩
  have hre : (mesh1D mag n).Reproducible es := mesh1D_reproducible mag n es (.inr h2)
  have hvol : ∀ c < (mesh1D mag n).nCells, 0 < (mesh1D mag n).vol c := by
    intro c hc
    rw [mesh1D_vol mag n c hc]
    positivity
  obtain ⟨U, hU0, hU1, hU2⟩ := convDiff_steps hwf (fun c _ => by have := mesh1D_deg mag n c; omega) hvol es hre hsp sch w junk flux g.nonOrthDeltaCoeffs gamma hfll hdl hgl eqn ops hbuild
    bcs table fvSchemes fvSolution hd solver hso hex st ho hsy hst t dt (fun i => (hdt i).1)
  refine ⟨U, hU0, hU1, ?_⟩
  have hτ0 : ∀ N, 0 ≤ timeAfter dt N := fun N => Finset.sum_nonneg fun i _ => (hdt i).1.le
  have hτs : ∀ N, timeAfter dt (N + 1) = timeAfter dt N + dt N := fun N => Finset.sum_range_succ _ _
  by_cases hT : 0 ≤ T
  swap
  · intro N hN
    exact absurd ((hτ0 N).trans hN) hT
  have hz : (0 : ℝ) ∈ Set.Icc (0 : ℝ) T := ⟨le_rfl, hT⟩
  have hz1 : (0 : ℝ) ∈ Set.Icc (0 : ℝ) 1 := ⟨le_rfl, zero_le_one⟩
  have hM1' : 0 ≤ M1 := (abs_nonneg _).trans (hM.b1 0 hz 0 hz1)
  have hM2' : 0 ≤ M2 := (abs_nonneg _).trans (hM.b2 0 hz 0 hz1)
  have hMt' : 0 ≤ Mtt := (abs_nonneg _).trans (hM.tt 0 hz 0 hz1)
  have hΔ : 0 < Δ := (hdt 0).1.trans_le (hdt 0).2
  have hε : 0 ≤ ε := (abs_nonneg _).trans (hini 0 (by omega))
  set α : ℝ := M2 / (2 * n) + k / v * (M4 / (12 * n ^ 2) + 7 * M3 / (24 * n)) + Mtt * Δ / (2 * v) with hα
  set β : ℝ := M1 / (2 * n) + 5 / 4 * M2 / n ^ 2 + ε with hβ
  have hα0 : 0 ≤ α := by positivity
  have hβ0 : 0 ≤ β := by positivity
  set W : Nat → ℝ := fun c => α * (((c : ℝ) + 1) / n) + β with hWdef
  have key : ∀ N, timeAfter dt N ≤ T → ∀ c < n, |(U N).sol.cell c - u (timeAfter dt N) (lineCentre ℝ n c)| ≤ W c := by
    intro N
    induction N with
    | zero =>
      intro _ c hc
      rw [hU0]
      have h3 : timeAfter dt 0 = 0 := by simp [timeAfter]
      rw [h3]
      refine (hini c hc).trans ?_
      show ε ≤ α * (((c : ℝ) + 1) / n) + β
      have : 0 ≤ α * (((c : ℝ) + 1) / n) := by positivity
      have : 0 ≤ M1 / (2 * n) + 5 / 4 * M2 / n ^ 2 := by positivity
      rw [hβ]
      linarith
    | succ N ih =>
      intro hN
      have hdN := (hdt N).1
      have ht0 : timeAfter dt N ∈ Set.Icc 0 T := ⟨hτ0 N, by have := hτs N; linarith⟩
      have ht1 : timeAfter dt (N + 1) ∈ Set.Icc 0 T := ⟨hτ0 _, hN⟩
      obtain ⟨hstep, hent⟩ := hU2 N
      have hst' : Stable (mesh1D mag n) (ix flux) (ix g.nonOrthDeltaCoeffs) (ix gamma) (U N).sol :=
        ⟨hst.free, hst.diff, fun i hi => by rw [hent]; exact hst.bnd i hi⟩
      refine implicit_follow hwf hvol hst' hdN (y := fun c => u (timeAfter dt N) (lineCentre ℝ n c)) (y' := fun c => u (timeAfter dt (N + 1)) (lineCentre ℝ n c)) (w := W)
        hstep.cells (fun c hc => rfl) (fun c hc => ?_) (ih ht0.2)
      have hc' : c < n := hc
      have hx := lineCentre_mem n c hc'
      rw [line_flow mag n h2 hv.le hfl hnd hgam (φ := (U N).sol) (a := a) ⟨by rw [hent]; exact hlf, by rw [hent]; exact hlr⟩
          ⟨by rw [hent]; exact hrf, by rw [hent]; exact hrg⟩ _ c hc',
        line_flow mag n h2 hv.le hfl hnd hgam (φ := (U N).sol.homog) (a := 0)
          ⟨(congrArg BEntry.fraction (hent 0)).trans hlf, by simp [VolField.homog, VolField.entry]⟩
          ⟨(congrArg BEntry.fraction (hent 1)).trans hrf, by simp [VolField.homog, VolField.entry]⟩ W c hc', mesh1D_vol mag n c hc']
      have htr := flow_truncation hu hM hv hk n h2 _ ht1 c hc'
      have hbar := flow_barrier n h2 v k α β hk hα0 c hc'
      have htime : |u (timeAfter dt N) (lineCentre ℝ n c) - u (timeAfter dt (N + 1)) (lineCentre ℝ n c) + dt N * ut (timeAfter dt (N + 1)) (lineCentre ℝ n c)| ≤ Mtt / 2 * dt N ^ 2 := by
        have := first_order (hu.time1 _ hx) (hu.time2 _ hx) (fun t ht => hM.tt t ht _ hx) (p := timeAfter dt (N + 1)) (r := -1) (y := dt N) (by norm_num) hdN.le (fun s hs => by
          have h3 := hτs N
          have h4 := hs.1
          have h5 := hs.2
          have h6 := hτ0 N
          constructor <;> linarith)
        rw [show timeAfter dt (N + 1) + -1 * dt N = timeAfter dt N by rw [hτs]; ring] at this
        refine le_trans (le_of_eq ?_) this
        congr 1
        ring
      have htime2 : |1 / n * (u (timeAfter dt (N + 1)) (lineCentre ℝ n c) - u (timeAfter dt N) (lineCentre ℝ n c)) / dt N - 1 / n * ut (timeAfter dt (N + 1)) (lineCentre ℝ n c)|
          ≤ 1 / n * (Mtt * Δ / 2) := by
        have e1 : 1 / n * (u (timeAfter dt (N + 1)) (lineCentre ℝ n c) - u (timeAfter dt N) (lineCentre ℝ n c)) / dt N - 1 / n * ut (timeAfter dt (N + 1)) (lineCentre ℝ n c)
            = -(1 / n / dt N) * (u (timeAfter dt N) (lineCentre ℝ n c) - u (timeAfter dt (N + 1)) (lineCentre ℝ n c) + dt N * ut (timeAfter dt (N + 1)) (lineCentre ℝ n c)) := by
          field_simp
          ring
        rw [e1, abs_mul, abs_neg, abs_of_pos (show 0 < 1 / (n : ℝ) / dt N by positivity)]
        refine (mul_le_mul_of_nonneg_left htime (show 0 ≤ 1 / (n : ℝ) / dt N by positivity)).trans ?_
        have e2 : 1 / (n : ℝ) / dt N * (Mtt / 2 * dt N ^ 2) = 1 / n * (Mtt * dt N / 2) := by field_simp
        rw [e2]
        have := mul_le_mul_of_nonneg_left (hdt N).2 hMt'
        have h7 : 0 ≤ 1 / (n : ℝ) := by positivity
        exact mul_le_mul_of_nonneg_left (by linarith) h7
      refine le_trans (le_of_eq (congrArg abs ?_)) ((abs_add_le _ _).trans ((add_le_add htr htime2).trans (le_trans ?_ hbar)))
      · ring
      · have h9 : v * α / n = v * (M2 / (2 * n) + k / v * (M4 / (12 * n ^ 2) + 7 * M3 / (24 * n))) / n + 1 / n * (Mtt * Δ / 2) := by
          rw [hα]
          field_simp
        rw [h9]
        have h10 : (if 1 ≤ c then 0 else v * (M1 / (2 * n)) + k * (2 * n) * (5 / 4 * M2 / n ^ 2)) ≤ if 1 ≤ c then 0 else (v + k * (2 * n)) * β := by
          split
          · exact le_rfl
          · rw [hβ]
            have a1 : 0 ≤ v * (5 / 4 * M2 / n ^ 2 + ε) := by positivity
            have a2 : 0 ≤ k * (2 * n) * (M1 / (2 * n) + ε) := by positivity
            linarith
        linarith
  intro N hN c hc
  refine (key N hN c hc).trans ?_
  show α * (((c : ℝ) + 1) / n) + β ≤ _
  have h4 : α * (((c : ℝ) + 1) / n) ≤ α := by
    refine mul_le_of_le_one_right hα0 ?_
    rw [div_le_one hn]
    exact_mod_cast hc
  refine (add_le_add_left h4 _).trans (le_of_eq ?_)
  rw [hα, hβ]
  field_simp
  ring

/-- Powers of the positive part are differentiable. -/
theorem deriv_posPow (j : ℕ) (s : ℝ) : HasDerivAt (fun s : ℝ => max s 0 ^ (j + 2)) ((j + 2) * max s 0 ^ (j + 1)) s := by
  have hpow : HasDerivAt (fun s : ℝ => s ^ (j + 2)) ((j + 2) * s ^ (j + 1)) s := by
    refine (hasDerivAt_pow (j + 2) s).congr_deriv ?_
    push_cast
    rfl
  rcases lt_trichotomy s 0 with h | h | h
  · rw [max_eq_right h.le]
    have : HasDerivAt (fun _ : ℝ => (0 : ℝ)) 0 s := hasDerivAt_const _ _
    refine (this.congr_of_eventuallyEq ?_).congr_deriv (by simp)
    filter_upwards [eventually_lt_nhds h] with x hx
    rw [max_eq_right hx.le]
    simp
  · subst h
    have a : HasDerivWithinAt (fun s : ℝ => max s 0 ^ (j + 2)) ((j + 2) * max (0 : ℝ) 0 ^ (j + 1)) (Set.Ici 0) 0 := by
      refine (hpow.hasDerivWithinAt (s := Set.Ici 0)).congr_deriv (by simp) |>.congr (fun x hx => ?_) (by simp)
      rw [max_eq_left hx]
    have b : HasDerivWithinAt (fun s : ℝ => max s 0 ^ (j + 2)) ((j + 2) * max (0 : ℝ) 0 ^ (j + 1)) (Set.Iic 0) 0 := by
      refine ((hasDerivWithinAt_const (0 : ℝ) (Set.Iic 0) (0 : ℝ)).congr_deriv (by simp)).congr (fun x hx => ?_) (by simp)
      rw [max_eq_right hx]
      simp
    have := a.union b
    rw [Set.Ici_union_Iic] at this
    exact hasDerivWithinAt_univ.1 this
  · rw [max_eq_left h.le]
    refine hpow.congr_of_eventuallyEq ?_
    filter_upwards [eventually_gt_nhds h] with x hx
    rw [max_eq_left hx.le]

/-- A solution of pure transport: the cubic front `max(x - v t, 0)^3`. -/
theorem cubicFront (v T : ℝ) (hv : 0 < v) : TransportSolution v 0 T 0 (fun t x => max (x - v * t) 0 ^ 3) (fun t x => -v * (3 * max (x - v * t) 0 ^ 2))
    (fun t x => v ^ 2 * (6 * max (x - v * t) 0)) (fun t x => 3 * max (x - v * t) 0 ^ 2) (fun t x => 6 * max (x - v * t) 0) (fun _ _ => 0) (fun _ _ => 0) := by
  have hx : ∀ t x : ℝ, HasDerivAt (fun x => x - v * t) 1 x := fun t x => (hasDerivAt_id x).sub_const _
  have ht : ∀ x t : ℝ, HasDerivAt (fun t => x - v * t) (-v) t := fun x t => by
    simpa using ((hasDerivAt_id t).const_mul v).const_sub x
  refine ⟨fun t _ x _ => by ring, fun x _ t _ => ?_, fun x _ t _ => ?_, fun t _ x _ => ?_, fun t _ x _ => ?_, fun h => absurd h (lt_irrefl _), fun h => absurd h (lt_irrefl _),
    fun t ht => ?_, fun h => absurd h (lt_irrefl _)⟩
  · have := (deriv_posPow 1 (x - v * t)).comp t (ht x t)
    exact (this.congr_deriv (by norm_num; ring)).hasDerivWithinAt
  · have := (((deriv_posPow 0 (x - v * t)).comp t (ht x t)).const_mul 3).const_mul (-v)
    exact (this.congr_deriv (by norm_num; ring)).hasDerivWithinAt
  · have := (deriv_posPow 1 (x - v * t)).comp x (hx t x)
    exact (this.congr_deriv (by norm_num)).hasDerivWithinAt
  · have := ((deriv_posPow 0 (x - v * t)).comp x (hx t x)).const_mul 3
    exact (this.congr_deriv (by norm_num; ring)).hasDerivWithinAt
  · have : 0 - v * t ≤ 0 := by
      have := mul_nonneg hv.le ht.1
      linarith
    show max (0 - v * t) 0 ^ 3 = 0
    rw [max_eq_right this]
    norm_num

theorem cubicFront_bounds (v T : ℝ) (hv : 0 < v) : TransportBounds 0 T (fun t x => v ^ 2 * (6 * max (x - v * t) 0)) (fun t x => 3 * max (x - v * t) 0 ^ 2)
    (fun t x => 6 * max (x - v * t) 0) (fun _ _ => 0) (fun _ _ => 0) (6 * v ^ 2) 3 6 0 0 := by
  have key : ∀ t ∈ Set.Icc 0 T, ∀ x ∈ Set.Icc (0 : ℝ) 1, 0 ≤ max (x - v * t) 0 ∧ max (x - v * t) 0 ≤ 1 := by
    intro t ht x hx
    refine ⟨le_max_right _ _, max_le ?_ zero_le_one⟩
    have := mul_nonneg hv.le ht.1
    have := hx.2
    linarith
  refine ⟨fun t ht x hx => ?_, fun t ht x hx => ?_, fun t ht x hx => ?_, fun h => absurd h (lt_irrefl _), fun h => absurd h (lt_irrefl _)⟩ <;> obtain ⟨a, b⟩ := key t ht x hx <;>
    rw [abs_of_nonneg (by positivity)]
  · have := mul_le_mul_of_nonneg_left b (sq_nonneg v)
    linarith
  · have := pow_le_one₀ (n := 2) a b
    linarith
  · linarith

/-- The hypotheses of `C94_transport` can be met, for every number of cells from two on: pure transport of the cubic front. -/
example (es : ExecKind) (n : Nat) (h2 : 2 ≤ n) (v : ℝ) (hv : 0 < v) : ∃ (m : Mesh ℝ) (g : Geometry ℝ) (sp : SparsityPattern) (flux : List ℝ) (st : TimeState ℝ ℝ) (eqn : Expr) (ops : OpsOf ℝ ℝ),
    create1DUniformMesh .parallel (vmag Real.sqrt) (fun _ => 0) n (.ok m) ∧ geometryScheme .parallel m (1 / 1000) Real.sqrt (fun _ => 0) (.ok g) ∧
    sparsityUpdate es m (.ok sp) ∧ flux.length = n + 1 ∧ (∀ f < n + 1, ix flux f = if f = n - 1 then -v else v) ∧
    (∀ st, convDiffTree.build (convDiffOps es m sp .upwind g.weights (fun _ => 0) flux g.nonOrthDeltaCoeffs (List.replicate (n + 1) 0) st) = .ok (eqn, ops st)) ∧
    st.sol.On m ∧ st.Synced ∧ (∀ c < n, |st.sol.cell c - max ((((c : ℝ) + 1 / 2) / n) - v * 0) 0 ^ 3| ≤ 0) ∧
    Prescribes m st.sol 0 (.fixedValue 0) (st.sol.entry 0) ∧ Prescribes m st.sol 1 (.fixedGradient 0) (st.sol.entry 1) := by
  have h1 : 1 ≤ n := by omega
  have hwf := mesh1D_wf (vmag Real.sqrt) n h1
  obtain ⟨sp, hsp⟩ := C14_terminates _ hwf es
  obtain ⟨g, hgs⟩ : ∃ g, geometryScheme .parallel (mesh1D (vmag Real.sqrt) n) (1 / 1000) Real.sqrt (fun _ => 0) (.ok g) := ⟨_, (geometryScheme_det hwf .parallel _ _ _ _).2 rfl⟩
  set flux : List ℝ := (List.range (n + 1)).map fun f => if f = n - 1 then -v else v with hfl
  set l : List ℝ := (List.range n).map fun c : Nat => max ((((c : ℝ) + 1 / 2) / n) - v * 0) 0 ^ 3 with hl
  have hops : ∀ st, ∃ o, convDiffTree.build (convDiffOps es (mesh1D (vmag Real.sqrt) n) sp .upwind g.weights (fun _ => 0) flux g.nonOrthDeltaCoeffs (List.replicate (n + 1) 0) st)
      = .ok (⟨[7], [8, 11]⟩, o) := fun st => ⟨_, rfl⟩
  choose ops hops using hops
  refine ⟨mesh1D (vmag Real.sqrt) n, g, sp, flux, ⟨⟨l, [0, l.getD (n - 1) 0], [0, 0], [1, 0], [0, 0]⟩, some l⟩, ⟨[7], [8, 11]⟩, ops, (create1D_closed _ _ _ n h1 _).2 rfl, hgs, hsp,
    by simp [hfl], fun f hf => ?_, hops, ⟨by simp [hl, mesh1D], rfl, rfl, rfl, rfl⟩, rfl, fun c hc => ?_, ⟨rfl, rfl, rfl⟩, ⟨?_, rfl, rfl⟩⟩
  · simp only [ix, hfl]
    rw [getD_range_map _ _ _ hf]
  · show |l.getD c 0 - _| ≤ 0
    rw [hl, getD_range_map _ _ _ hc]
    simp
  · rw [mesh1D_fc1]
    simp [VolField.entry, VolField.cell]

end NeoFOAM
