import Verif.Props.C13_UniformMesh
import Verif.Props.C63_SteadyTransport
import Verif.Props.C25_Gradient

/-!
# Geometry of the meshes `create1DUniformMesh` makes
-/
namespace NeoFOAM
open Finset
variable {K : Type} [Field K]

/-- What leaves a cell of the uniform mesh: right face minus left face, the left boundary face counted outwards. -/
theorem mesh1D_netOutflow {V : Type} [AddCommGroup V] (mag : Vec K → K) (n : Nat) (ψ : Nat → V) (c : Nat) (hc : c < n) :
    (mesh1D mag n).netOutflow ψ c = (if c < n - 1 then ψ c else ψ n) - (if 1 ≤ c then ψ (c - 1) else -ψ (n - 1)) := by
  unfold Mesh.netOutflow
  have hi : (mesh1D mag n).nInternalFaces = n - 1 := rfl
  have hb : (mesh1D mag n).nBoundaryFaces = 2 := rfl
  rw [hi, hb]
  have e1 : (∑ f ∈ range (n - 1), if (mesh1D mag n).own f = c then ψ f else 0) = if c < n - 1 then ψ c else 0 := by
    rw [Finset.sum_congr rfl (g := fun f => if f = c then ψ f else 0)]
    · rw [Finset.sum_ite_eq']; simp
    · intro f hf
      rw [mem_range] at hf
      rw [mesh1D_own mag n f (by omega), if_pos hf]
  have e2 : (∑ f ∈ range (n - 1), if (mesh1D mag n).nbr f = c then ψ f else 0) = if 1 ≤ c then ψ (c - 1) else 0 := by
    rw [Finset.sum_congr rfl (g := fun f => if f + 1 = c then ψ f else 0)]
    · cases c with
      | zero => simp
      | succ c =>
        simp only [Nat.add_right_cancel_iff]
        rw [Finset.sum_ite_eq', if_pos (by rw [mem_range]; omega)]; simp
    · intro f hf
      rw [mem_range] at hf
      rw [mesh1D_nbr mag n f (by omega)]
  rw [e1, e2, Finset.sum_range_succ, Finset.sum_range_one, mesh1D_fc0, mesh1D_fc1]
  have h0 : n - 1 + 0 = n - 1 := rfl
  have h1 : n - 1 + 1 = n := by omega
  rw [h0, h1]
  by_cases ha : c = 0
  · subst ha
    by_cases hb : n = 1
    · subst hb; simp [add_comm]
    · have h3 : 0 < n - 1 := by omega
      have h4 : ¬ n - 1 = 0 := by omega
      simp [h3, h4]
  · by_cases hb : c = n - 1
    · subst hb
      have : 1 ≤ n - 1 := by omega
      have h4 : ¬ 0 = n - 1 := by omega
      simp [this, h4]
      abel
    · have h3 : c < n - 1 := by omega
      have h4 : ¬ 0 = c := by omega
      have h5 : ¬ n - 1 = c := by omega
      have h6 : 1 ≤ c := by omega
      simp [h3, h4, h5, h6]

theorem mesh1D_ctr (mag : Vec K → K) (n c : Nat) (h : c < n) :
    (mesh1D mag n).ctr c = (1 / 2 * ((1 - 0) / (n : K)) + (1 - 0) / (n : K) * (c : K), 0, 0) := by
  simp only [Mesh.ctr, List.getD_eq_getElem?_getD, mesh1D_centre mag n c h, Option.getD_some]

theorem mesh1D_fctr (mag : Vec K → K) (n f : Nat) (h : f < n + 1) : (mesh1D mag n).fctr f =
    if f < n - 1 then (0 + ((f + 1 : Nat) : K) * ((1 - 0) / (n : K)), 0, 0) else if f = n - 1 then (0, 0, 0) else (1, 0, 0) := by
  simp [Mesh.fctr, mesh1D, List.getD, List.getElem?_range h]

theorem mesh1D_mag (mag : Vec K → K) (n f : Nat) (h : f < n + 1) : ix (mesh1D mag n).magFaceAreas f = 1 := by
  simp [ix, mesh1D, List.getD, List.getElem?_replicate, h]

theorem mesh1D_vol (mag : Vec K → K) (n c : Nat) (h : c < n) : (mesh1D mag n).vol c = 1 / n := by
  simp [Mesh.vol, mesh1D, List.getD_eq_getElem?_getD, List.getElem?_replicate, h]

theorem mesh1D_deg (mag : Vec K → K) (n c : Nat) : (mesh1D mag n).deg c ≤ 2 := by
  have hi : (mesh1D mag n).nInternalFaces = n - 1 := rfl
  unfold Mesh.deg
  rw [hi]
  have a : ((range (n - 1)).filter ((mesh1D mag n).own · = c)).card ≤ 1 := by
    rw [Finset.card_le_one]
    intro x hx y hy
    rw [mem_filter, mem_range] at hx hy
    rw [mesh1D_own mag n x (by omega), if_pos hx.1] at hx
    rw [mesh1D_own mag n y (by omega), if_pos hy.1] at hy
    omega
  have b : ((range (n - 1)).filter ((mesh1D mag n).nbr · = c)).card ≤ 1 := by
    rw [Finset.card_le_one]
    intro x hx y hy
    rw [mem_filter, mem_range] at hx hy
    rw [mesh1D_nbr mag n x hx.1] at hx
    rw [mesh1D_nbr mag n y hy.1] at hy
    omega
  omega

variable [LinearOrder K] [IsStrictOrderedRing K]

omit [LinearOrder K] [IsStrictOrderedRing K] in
theorem mesh1D_span [CharZero K] (mag : Vec K → K) (n : Nat) (h1 : 1 ≤ n) (f : Nat) (hf : f < n + 1) : (mesh1D mag n).span f =
    if f < n - 1 then (1 / (n : K), 0, 0) else if f = n - 1 then (-(1 / (2 * n : K)), 0, 0) else (1 / (2 * n : K), 0, 0) := by
  have hn : (n : K) ≠ 0 := Nat.cast_ne_zero.2 (by omega)
  have hcast : ((n - 1 : Nat) : K) = (n : K) - 1 := by rw [Nat.cast_sub h1]; simp
  have hi : (mesh1D mag n).nInternalFaces = n - 1 := rfl
  unfold Mesh.span
  rw [hi]
  by_cases ha : f < n - 1
  · rw [if_pos ha, if_pos ha, mesh1D_nbr mag n f ha, mesh1D_own mag n f hf, if_pos ha, mesh1D_ctr mag n _ (by omega), mesh1D_ctr mag n _ (by omega)]
    ext <;> simp
    ring
  · rw [if_neg ha, if_neg ha, mesh1D_fctr mag n f hf, if_neg ha]
    by_cases hb : f = n - 1
    · rw [if_pos hb, if_pos hb, hb, Nat.sub_self, mesh1D_fc0, mesh1D_ctr mag n _ (by omega)]
      ext <;> simp
      ring
    · have : f - (n - 1) = 1 := by omega
      rw [if_neg hb, if_neg hb, this, mesh1D_fc1, mesh1D_ctr mag n _ (by omega)]
      ext <;> simp [hcast]
      field_simp
      ring

theorem vmag_x {sqrt : K → K} (hs : IsSqrt sqrt) (x : K) : vmag sqrt (x, 0, 0) = |x| := by
  obtain ⟨a, b⟩ := hs (x * x) (mul_self_nonneg x)
  have : vmag sqrt (x, 0, 0) = sqrt (x * x) := by simp [vmag]
  rw [this]
  have h2 : sqrt (x * x) * sqrt (x * x) = |x| * |x| := by rw [b, abs_mul_abs_self]
  exact (mul_self_inj a (abs_nonneg x)).1 h2

/-- Coefficients of the geometry scheme on the uniform mesh. -/
theorem mesh1D_geometry (mag : Vec K → K) (n : Nat) (h1 : 1 ≤ n) (e : ExecKind) (tiny : K) (sqrt : K → K) (hs : IsSqrt sqrt) (junk : Nat → K)
    (g : Geometry K) (hg : geometryScheme e (mesh1D mag n) tiny sqrt junk (.ok g)) :
    g.weights.length = n + 1 ∧ g.nonOrthDeltaCoeffs.length = n + 1 ∧
    (∀ f < n + 1, ix g.nonOrthDeltaCoeffs f = if f < n - 1 then (n : K) else 2 * n) ∧
    (∀ f < n + 1, ix g.deltaCoeffs f = if f < n - 1 then (n : K) else 2 * n) ∧
    ∀ f < n + 1, ix g.weights f = if f < n - 1 then 1 / 2 else 1 := by
  have hn : (0 : K) < n := by exact_mod_cast h1
  have hn' : (n : K) ≠ 0 := hn.ne'
  have hF : (mesh1D mag n).nFaces = n + 1 := rfl
  have hi : (mesh1D mag n).nInternalFaces = n - 1 := rfl
  rw [geometryScheme_det (mesh1D_wf mag n h1)] at hg
  cases hg
  refine ⟨by simp [hF], by simp [hF], fun f hf => ?_, fun f hf => ?_, fun f hf => ?_⟩
  · simp only [ix]
    rw [getD_range_map _ _ _ (by rw [hF]; exact hf)]
    have hm : (mesh1D mag n).magFaceAreas.getD f 0 = 1 := mesh1D_mag mag n f hf
    have hsf : (mesh1D mag n).sf f = if f = n - 1 then (-1, 0, 0) else (1, 0, 0) := mesh1D_area mag n f hf
    unfold Mesh.nonOrth
    rw [hm, hsf, mesh1D_span mag n h1 f hf]
    by_cases ha : f < n - 1
    · simp only [if_pos ha, if_neg (show ¬ f = n - 1 by omega), vmag_x hs]
      have : |1 / (n : K)| = 1 / n := abs_of_pos (by positivity)
      rw [this, max_eq_left]
      · simp [vdot]
      · have : vdot ((1 / 1 : K) • ((1, 0, 0) : Vec K)) (1 / (n : K), 0, 0) = 1 / n := by simp [vdot]
        rw [this]
        have : (0 : K) < 1 / n := by positivity
        linarith
    · by_cases hb : f = n - 1
      · simp only [if_neg ha, if_pos hb, vmag_x hs]
        have : |-(1 / (2 * n : K))| = 1 / (2 * n) := by rw [abs_neg]; exact abs_of_pos (by positivity)
        rw [this, max_eq_left]
        · simp [vdot]
        · have : vdot ((1 / 1 : K) • ((-1, 0, 0) : Vec K)) (-(1 / (2 * n : K)), 0, 0) = 1 / (2 * n) := by simp [vdot]
          rw [this]
          have : (0 : K) < 1 / (2 * n) := by positivity
          linarith
      · simp only [if_neg ha, if_neg hb, vmag_x hs]
        have : |1 / (2 * n : K)| = 1 / (2 * n) := abs_of_pos (by positivity)
        rw [this, max_eq_left]
        · simp [vdot]
        · have : vdot ((1 / 1 : K) • ((1, 0, 0) : Vec K)) (1 / (2 * n : K), 0, 0) = 1 / (2 * n) := by simp [vdot]
          rw [this]
          have : (0 : K) < 1 / (2 * n) := by positivity
          linarith
  · simp only [ix]
    rw [getD_range_map _ _ _ (by rw [hF]; exact hf), mesh1D_span mag n h1 f hf]
    by_cases ha : f < n - 1
    · rw [if_pos ha, if_pos ha, vmag_x hs, abs_of_pos (by positivity)]; simp
    · rw [if_neg ha, if_neg ha]
      split
      · rw [vmag_x hs, abs_neg, abs_of_pos (by positivity)]; simp
      · rw [vmag_x hs, abs_of_pos (by positivity)]; simp
  · simp only [ix]
    rw [getD_range_map _ _ _ (by rw [hF]; exact hf), hi]
    by_cases ha : f < n - 1
    · rw [if_pos ha, if_pos ha]
      unfold Mesh.wgt
      have hsf : (mesh1D mag n).sf f = if f = n - 1 then (-1, 0, 0) else (1, 0, 0) := mesh1D_area mag n f hf
      have c1 : (mesh1D mag n).fctr f - (mesh1D mag n).ctr ((mesh1D mag n).own f) = (1 / (2 * n : K), 0, 0) := by
        rw [mesh1D_own mag n f hf, if_pos ha, mesh1D_fctr mag n f hf, if_pos ha, mesh1D_ctr mag n f (by omega)]
        ext <;> simp
        field_simp
        ring
      have c2 : (mesh1D mag n).ctr ((mesh1D mag n).nbr f) - (mesh1D mag n).fctr f = (1 / (2 * n : K), 0, 0) := by
        rw [mesh1D_nbr mag n f ha, mesh1D_fctr mag n f hf, if_pos ha, mesh1D_ctr mag n _ (by omega)]
        ext <;> simp
        field_simp
        ring
      rw [c1, c2, hsf, if_neg (show ¬ f = n - 1 by omega)]
      have c3 : vdot ((1, 0, 0) : Vec K) (1 / (2 * n : K), 0, 0) = 1 / (2 * n) := by simp [vdot]
      rw [c3, abs_of_pos (show (0 : K) < 1 / (2 * n) by positivity)]
      dsimp only
      split
      · field_simp; norm_num
      · rfl
    · rw [if_neg ha, if_neg ha]

/-- The line: one pattern and one system on every executor, if it has two cells at least. -/
theorem mesh1D_reproducible (mag : Vec K → K) (n : Nat) (e : ExecKind) (he : e = .serial ∨ 2 ≤ n) : (mesh1D mag n).Reproducible e := by
  refine he.imp id fun h2 => ⟨⟨fun f hf g hg h => ?_, fun f hf g hg h => ?_⟩, fun b hb b' hb' h => ?_⟩
  · have hf : f < n - 1 := hf
    have hg : g < n - 1 := hg
    rw [mesh1D_own mag n f (by omega), mesh1D_own mag n g (by omega), if_pos hf, if_pos hg] at h
    exact h
  · have hf : f < n - 1 := hf
    have hg : g < n - 1 := hg
    rw [mesh1D_nbr mag n f hf, mesh1D_nbr mag n g hg] at h
    omega
  · have hb : b < 2 := hb
    have hb' : b' < 2 := hb'
    have h0 := mesh1D_fc0 mag n
    have h1 := mesh1D_fc1 mag n
    interval_cases b <;> interval_cases b'
    · rfl
    · rw [h0, h1] at h; omega
    · rw [h0, h1] at h; omega
    · rfl

end NeoFOAM
