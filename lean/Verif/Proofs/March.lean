import Verif.Proofs.SteadyDiff
import Mathlib.LinearAlgebra.FiniteDimensional.Lemmas

/-!
# Marching in time: comparison, a barrier and geometric decay
-/
namespace NeoFOAM
open Finset
variable {K : Type} [Field K] [LinearOrder K]

/-- The same boundary conditions with zero data. -/
def VolField.homog (φ : VolField K K) : VolField K K := { φ with bRefValue := [], bRefGrad := [] }

theorem homog_outFlux (φ : VolField K K) (m : Mesh K) (flux δ gamma : Nat → K) (x y : Nat → K) :
    φ.homog.outFlux m flux δ gamma (fun c => x c - y c) = fun f => φ.outFlux m flux δ gamma x f + (-1 : K) • φ.outFlux m flux δ gamma y f := by
  funext f
  simp only [VolField.outFlux, smul_eq_mul, VolField.homog, VolField.entry, List.getD_nil]
  split
  · split <;> ring
  · ring

theorem homog_add (φ : VolField K K) (m : Mesh K) (flux δ gamma : Nat → K) (x y : Nat → K) (c : Nat) :
    m.netOutflow (φ.homog.outFlux m flux δ gamma fun c => x c + y c) c
      = m.netOutflow (φ.homog.outFlux m flux δ gamma x) c + m.netOutflow (φ.homog.outFlux m flux δ gamma y) c := by
  rw [← netOutflow_add]
  congr 1
  funext f
  simp only [VolField.outFlux, VolField.homog, VolField.entry, List.getD_nil]
  split
  · split <;> ring
  · ring

theorem homog_smul (φ : VolField K K) (m : Mesh K) (flux δ gamma : Nat → K) (a : K) (x : Nat → K) (c : Nat) :
    m.netOutflow (φ.homog.outFlux m flux δ gamma fun c => a * x c) c = a * m.netOutflow (φ.homog.outFlux m flux δ gamma x) c := by
  have : φ.homog.outFlux m flux δ gamma (fun c => a * x c) = fun f => a • φ.homog.outFlux m flux δ gamma x f := by
    funext f
    simp only [VolField.outFlux, VolField.homog, VolField.entry, List.getD_nil, smul_eq_mul]
    split
    · split <;> ring
    · ring
  rw [this, netOutflow_smul, smul_eq_mul]

/-- `outFlux` looks at the values of the cells of the mesh only. -/
theorem outFlux_congr {m : Mesh K} (h : m.WF) (φ : VolField K K) (flux δ gamma : Nat → K) {x y : Nat → K} (hxy : ∀ c < m.nCells, x c = y c) (c : Nat) :
    m.netOutflow (φ.outFlux m flux δ gamma x) c = m.netOutflow (φ.outFlux m flux δ gamma y) c := by
  have hi : ∀ f < m.nInternalFaces, φ.outFlux m flux δ gamma x f = φ.outFlux m flux δ gamma y f := by
    intro f hf
    simp only [VolField.outFlux, if_pos hf, hxy _ (h.own_lt_int hf), hxy _ (h.nbr_lt f hf)]
  have hb : ∀ b < m.nBoundaryFaces, φ.outFlux m flux δ gamma x (m.nInternalFaces + b) = φ.outFlux m flux δ gamma y (m.nInternalFaces + b) := by
    intro b hb
    simp only [VolField.outFlux, if_neg (show ¬ m.nInternalFaces + b < m.nInternalFaces by omega), Nat.add_sub_cancel_left, hxy _ (h.fc_lt b hb)]
  unfold Mesh.netOutflow
  congr 1
  · congr 1
    · exact Finset.sum_congr rfl fun f hf => by rw [hi f (mem_range.1 hf)]
    · exact Finset.sum_congr rfl fun f hf => by rw [hi f (mem_range.1 hf)]
  · exact Finset.sum_congr rfl fun b hb' => by rw [hb b (mem_range.1 hb')]

theorem homog_stable {m : Mesh K} {flux δ gamma : Nat → K} {φ : VolField K K} (hs : Stable m flux δ gamma φ) : Stable m flux δ gamma φ.homog := by
  refine ⟨hs.free, hs.diff, fun b hb => ?_⟩
  rcases hs.bnd b hb with ⟨h1, h2⟩ | ⟨h1, h2⟩
  · exact .inl ⟨h1, by simp [VolField.homog, VolField.entry]⟩
  · exact .inr ⟨h1, h2⟩

variable [IsStrictOrderedRing K]

/-- Comparison: a step with non-negative data is not negative. -/
theorem implicit_nonneg {m : Mesh K} (h : m.WF) (hv : ∀ c < m.nCells, 0 < m.vol c) {flux δ gamma : Nat → K} {φ : VolField K K}
    (hs : Stable m flux δ gamma φ) {dt : K} (hdt : 0 < dt) (z : Nat → K)
    (hz : ∀ c < m.nCells, 0 ≤ m.vol c * z c / dt + m.netOutflow (φ.homog.outFlux m flux δ gamma z) c) : ∀ c < m.nCells, 0 ≤ z c := by
  intro c0 hc0
  obtain ⟨c, hc, hmin⟩ := Finset.exists_min_image (range m.nCells) z ⟨c0, mem_range.2 hc0⟩
  rw [mem_range] at hc
  refine le_trans ?_ (hmin c0 (mem_range.2 hc0))
  by_contra hlt
  rw [not_le] at hlt
  have h1 := outflow_at_min h (homog_stable hs) 0 (fun b _ _ => by simp [VolField.homog, VolField.entry]) z c hc (fun c' hc' => hmin c' (mem_range.2 hc')) hlt.le
  have h2 : m.vol c * z c / dt < 0 := div_neg_of_neg_of_pos (mul_neg_of_pos_of_neg (hv c hc) hlt) hdt
  have := hz c hc
  linarith

/-- The barrier: a positive field from which the volume of each cell leaves it. -/
theorem exists_barrier {m : Mesh K} (h : m.WF) (hv : ∀ c < m.nCells, 0 < m.vol c) {flux δ gamma : Nat → K} {φ : VolField K K}
    (hs : Stable m flux δ gamma φ) (hfed : ∀ c < m.nCells, Fed m flux δ gamma φ c) :
    ∃ w : Nat → K, (∀ c < m.nCells, 0 < w c) ∧ ∀ c < m.nCells, m.netOutflow (φ.homog.outFlux m flux δ gamma w) c = m.vol c := by
  set n := m.nCells with hn
  let ext : (Fin n → K) → Nat → K := fun v j => if hj : j < n then v ⟨j, hj⟩ else 0
  have ext_at : ∀ (v : Fin n → K) (i : Fin n), ext v i = v i := fun v i => by simp [ext]
  let T : (Fin n → K) →ₗ[K] (Fin n → K) :=
    { toFun := fun v i => m.netOutflow (φ.homog.outFlux m flux δ gamma (ext v)) i
      map_add' := fun v w => by
        funext i
        simp only [Pi.add_apply]
        rw [← homog_add]
        congr 2
        funext j
        simp only [ext]
        split <;> simp
      map_smul' := fun a v => by
        funext i
        simp only [RingHom.id_apply, Pi.smul_apply, smul_eq_mul]
        rw [← homog_smul]
        congr 2
        funext j
        simp only [ext]
        split <;> simp }
  have hinj : Function.Injective T := by
    intro v w hvw
    funext i
    have := steady_unique h (homog_stable hs) (fun c hc => Fed.congr (φ := φ) (ψ := φ.homog) (fun b => rfl) (hfed c hc)) (ext v) (ext w) (fun c hc => congrFun hvw ⟨c, hc⟩)
      i i.2
    rwa [ext_at, ext_at] at this
  obtain ⟨v, hv'⟩ := LinearMap.surjective_of_injective hinj fun i => m.vol i
  have heq : ∀ c < n, m.netOutflow (φ.homog.outFlux m flux δ gamma (ext v)) c = m.vol c := fun c hc => congrFun hv' ⟨c, hc⟩
  refine ⟨ext v, fun c0 hc0 => ?_, heq⟩
  obtain ⟨c, hc, hmin⟩ := Finset.exists_min_image (range n) (ext v) ⟨c0, mem_range.2 hc0⟩
  rw [mem_range] at hc
  refine lt_of_lt_of_le ?_ (hmin c0 (mem_range.2 hc0))
  by_contra hlt
  rw [not_lt] at hlt
  have h1 := outflow_at_min h (homog_stable hs) 0 (fun b _ _ => by simp [VolField.homog, VolField.entry]) (ext v) c hc (fun c' hc' => hmin c' (mem_range.2 hc')) hlt
  rw [heq c hc] at h1
  have := hv c hc
  linarith

/-- One step brings the field nearer to the balanced one. -/
theorem march_step {m : Mesh K} (h : m.WF) (hv : ∀ c < m.nCells, 0 < m.vol c) {flux δ gamma : Nat → K} {φ : VolField K K}
    (hs : Stable m flux δ gamma φ) {d dt : K} (hd : 0 < d) (hdt : d ≤ dt) {w : Nat → K} {W : K} (hw : ∀ c < m.nCells, 0 < w c ∧ w c ≤ W)
    (hbar : ∀ c < m.nCells, m.netOutflow (φ.homog.outFlux m flux δ gamma w) c = m.vol c) (x old new : Nat → K)
    (hx : ∀ c < m.nCells, m.netOutflow (φ.outFlux m flux δ gamma x) c = 0)
    (hstep : ∀ c < m.nCells, m.vol c * (new c - old c) / dt + m.netOutflow (φ.outFlux m flux δ gamma new) c = 0)
    {B : K} (hB : 0 ≤ B) (hold : ∀ c < m.nCells, |old c - x c| ≤ B * w c) :
    ∀ c < m.nCells, |new c - x c| ≤ W / (W + d) * B * w c := by
  have hdt0 : 0 < dt := lt_of_lt_of_le hd hdt
  have hL : ∀ c < m.nCells, m.netOutflow (φ.homog.outFlux m flux δ gamma fun c => new c - x c) c = - (m.vol c * (new c - old c) / dt) := by
    intro c hc
    rw [homog_outFlux, netOutflow_add, netOutflow_smul, hx c hc]
    have := hstep c hc
    simp
    linarith
  have key : ∀ s : K, (s = 1 ∨ s = -1) → ∀ c < m.nCells, 0 ≤ W / (W + d) * B * w c + s * (new c - x c) := by
    intro s hs1
    refine implicit_nonneg h hv hs hdt0 (fun c => W / (W + d) * B * w c + s * (new c - x c)) fun c hc => ?_
    rw [homog_add (x := fun c => W / (W + d) * B * w c) (y := fun c => s * (new c - x c)), homog_smul, homog_smul, hbar c hc, hL c hc]
    obtain ⟨hw1, hw2⟩ := hw c hc
    have hW : 0 < W := lt_of_lt_of_le hw1 hw2
    have ho := abs_le.1 (hold c hc)
    have hso : - (B * w c) ≤ s * (old c - x c) := by
      rcases hs1 with rfl | rfl <;> linarith [ho.1, ho.2]
    have e : m.vol c * (W / (W + d) * B * w c + s * (new c - x c)) / dt + (W / (W + d) * B * m.vol c + s * -(m.vol c * (new c - old c) / dt))
        = m.vol c / dt * (W / (W + d) * B * (w c + dt) + s * (old c - x c)) := by
      field_simp
      ring
    rw [e]
    refine mul_nonneg (div_pos (hv c hc) hdt0).le ?_
    have h2 : w c ≤ W / (W + d) * (w c + dt) := by
      rw [div_mul_eq_mul_div, le_div_iff₀ (by linarith)]
      nlinarith [mul_le_mul hw2 hdt hd.le hW.le]
    have h3 : B * w c ≤ B * (W / (W + d) * (w c + dt)) := mul_le_mul_of_nonneg_left h2 hB
    calc (0 : K) ≤ B * (W / (W + d) * (w c + dt)) - B * w c := by linarith
      _ ≤ _ := by linarith [hso, show W / (W + d) * B * (w c + dt) = B * (W / (W + d) * (w c + dt)) by ring]
  intro c hc
  have h1 := key 1 (.inl rfl) c hc
  have h2 := key (-1) (.inr rfl) c hc
  rw [abs_le]
  constructor <;> linarith

/-- Geometric decay of the distance to the balanced field. The factors do not depend on the fields. -/
theorem march_decay {m : Mesh K} (h : m.WF) (hv : ∀ c < m.nCells, 0 < m.vol c) {flux δ gamma : Nat → K} {φ : VolField K K}
    (hs : Stable m flux δ gamma φ) (hfed : ∀ c < m.nCells, Fed m flux δ gamma φ c) {d : K} (hd : 0 < d) :
    ∃ ρ A : K, 0 ≤ ρ ∧ ρ < 1 ∧ 0 ≤ A ∧ ∀ (x : Nat → K), (∀ c < m.nCells, m.netOutflow (φ.outFlux m flux δ gamma x) c = 0) →
      ∀ (u : Nat → Nat → K) (dt : Nat → K) (D : K), (∀ c < m.nCells, |u 0 c - x c| ≤ D) → (∀ k, d ≤ dt k) →
        (∀ k, ∀ c < m.nCells, m.vol c * (u (k + 1) c - u k c) / dt k + m.netOutflow (φ.outFlux m flux δ gamma (u (k + 1))) c = 0) →
        ∀ k, ∀ c < m.nCells, |u k c - x c| ≤ A * ρ ^ k * D := by
  obtain ⟨w, hw, hbar⟩ := exists_barrier h hv hs hfed
  set W : K := 1 + ∑ c ∈ range m.nCells, w c with hWdef
  have hsum : 0 ≤ ∑ c ∈ range m.nCells, w c := Finset.sum_nonneg fun c hc => (hw c (mem_range.1 hc)).le
  have hwW : ∀ c < m.nCells, 0 < w c ∧ w c ≤ W := fun c hc => ⟨hw c hc, by
    have := Finset.single_le_sum (f := w) (fun i hi => (hw i (mem_range.1 hi)).le) (mem_range.2 hc)
    linarith⟩
  have hW : 0 < W := by linarith
  have hρ : 0 ≤ W / (W + d) := div_nonneg hW.le (by linarith)
  set V : K := ∑ c ∈ range m.nCells, 1 / w c with hVdef
  have hV0 : ∀ c ∈ range m.nCells, 0 ≤ 1 / w c := fun c hc => div_nonneg zero_le_one (hw c (mem_range.1 hc)).le
  have hV : 0 ≤ V := Finset.sum_nonneg hV0
  refine ⟨W / (W + d), V * W, hρ, (div_lt_one (by linarith)).2 (by linarith), mul_nonneg hV hW.le, fun x hx u dt D hu0 hdt hstep k c0 hc0 => ?_⟩
  have hD : 0 ≤ D := le_trans (abs_nonneg _) (hu0 c0 hc0)
  have hB : 0 ≤ V * D := mul_nonneg hV hD
  have hBw : ∀ c < m.nCells, |u 0 c - x c| ≤ V * D * w c := fun c hc => by
    have h1 := Finset.single_le_sum hV0 (mem_range.2 hc)
    rw [div_le_iff₀ (hw c hc)] at h1
    have h2 := mul_le_mul_of_nonneg_right h1 hD
    linarith [hu0 c hc, show V * w c * D = V * D * w c by ring]
  have key : ∀ k, ∀ c < m.nCells, |u k c - x c| ≤ (W / (W + d)) ^ k * (V * D) * w c := by
    intro k
    induction k with
    | zero => intro c hc; rw [pow_zero, one_mul]; exact hBw c hc
    | succ k ih =>
      intro c hc
      have := march_step h hv hs hd (hdt k) hwW hbar x (u k) (u (k + 1)) hx (hstep k) (B := (W / (W + d)) ^ k * (V * D)) (mul_nonneg (pow_nonneg hρ k) hB) ih c hc
      rw [pow_succ']
      linarith [this, show W / (W + d) * ((W / (W + d)) ^ k * (V * D)) * w c = W / (W + d) * (W / (W + d)) ^ k * (V * D) * w c by ring]
  refine le_trans (key k c0 hc0) ?_
  have h1 : (W / (W + d)) ^ k * (V * D) * w c0 ≤ (W / (W + d)) ^ k * (V * D) * W := mul_le_mul_of_nonneg_left (hwW c0 hc0).2 (mul_nonneg (pow_nonneg hρ k) hB)
  linarith [h1, show (W / (W + d)) ^ k * (V * D) * W = V * W * (W / (W + d)) ^ k * D by ring]

/-- Two steps of equal size from ordered fields, with ordered boundary data, give ordered fields. -/
theorem implicit_mono {m : Mesh K} (h : m.WF) (hv : ∀ c < m.nCells, 0 < m.vol c) {flux δ gamma : Nat → K} {φ ψ : VolField K K}
    (hs : Stable m flux δ gamma φ) (hfr : ∀ b < m.nBoundaryFaces, (ψ.entry b).fraction = (φ.entry b).fraction)
    (hgr : ∀ b < m.nBoundaryFaces, (1 - (φ.entry b).fraction) * (ψ.entry b).refGrad = (1 - (φ.entry b).fraction) * (φ.entry b).refGrad)
    (hle : ∀ b < m.nBoundaryFaces, (φ.entry b).fraction = 1 → (φ.entry b).refValue ≤ (ψ.entry b).refValue)
    {dt : K} (hdt : 0 < dt) (old old' new new' : Nat → K)
    (h1 : ∀ c < m.nCells, m.vol c * (new c - old c) / dt + m.netOutflow (φ.outFlux m flux δ gamma new) c = 0)
    (h2 : ∀ c < m.nCells, m.vol c * (new' c - old' c) / dt + m.netOutflow (ψ.outFlux m flux δ gamma new') c = 0)
    (hold : ∀ c < m.nCells, old c ≤ old' c) : ∀ c < m.nCells, new c ≤ new' c := by
  have key := implicit_nonneg h hv hs hdt (fun c => new' c - new c) fun c hc => ?_
  · exact fun c hc => by linarith [key c hc]
  · -- the excess of the boundary data
    have e : m.netOutflow (φ.homog.outFlux m flux δ gamma fun c => new' c - new c) c
        = m.netOutflow (ψ.outFlux m flux δ gamma new') c - m.netOutflow (φ.outFlux m flux δ gamma new) c
          + ∑ b ∈ range m.nBoundaryFaces, if m.fc b = c then
              (gamma (m.nInternalFaces + b) * δ (m.nInternalFaces + b) * ix m.magFaceAreas (m.nInternalFaces + b) - flux (m.nInternalFaces + b))
                * ((φ.entry b).fraction * ((ψ.entry b).refValue - (φ.entry b).refValue)) else 0 := by
      rw [homog_outFlux, netOutflow_add, netOutflow_smul]
      have e2 : m.netOutflow (ψ.outFlux m flux δ gamma new') c = m.netOutflow (φ.outFlux m flux δ gamma new') c
          - ∑ b ∈ range m.nBoundaryFaces, if m.fc b = c then
              (gamma (m.nInternalFaces + b) * δ (m.nInternalFaces + b) * ix m.magFaceAreas (m.nInternalFaces + b) - flux (m.nInternalFaces + b))
                * ((φ.entry b).fraction * ((ψ.entry b).refValue - (φ.entry b).refValue)) else 0 := by
        unfold Mesh.netOutflow
        have q1 : ∀ g : Nat → Nat, (∑ f ∈ range m.nInternalFaces, if g f = c then ψ.outFlux m flux δ gamma new' f else 0)
            = ∑ f ∈ range m.nInternalFaces, if g f = c then φ.outFlux m flux δ gamma new' f else 0 := fun g => by
          refine Finset.sum_congr rfl fun f hf => ?_
          simp only [VolField.outFlux, if_pos (mem_range.1 hf)]
        rw [q1, q1, add_sub_assoc]
        congr 1
        rw [← Finset.sum_sub_distrib]
        refine Finset.sum_congr rfl fun b hb => ?_
        have hb' := mem_range.1 hb
        by_cases hcb : m.fc b = c
        · simp only [hcb, if_true, VolField.outFlux, if_neg (show ¬ m.nInternalFaces + b < m.nInternalFaces by omega), Nat.add_sub_cancel_left, hfr b hb']
          linear_combination (-gamma (m.nInternalFaces + b) * ix m.magFaceAreas (m.nInternalFaces + b)) * hgr b hb'
        · simp only [hcb, if_false, sub_zero]
      rw [e2]
      simp
      ring
    rw [e]
    have e1 : m.vol c * (new' c - new c) / dt = m.vol c * (new' c - old' c) / dt - m.vol c * (new c - old c) / dt + m.vol c * (old' c - old c) / dt := by ring
    rw [e1]
    have h3 : 0 ≤ m.vol c * (old' c - old c) / dt := div_nonneg (mul_nonneg (hv c hc).le (by linarith [hold c hc])) hdt.le
    have h4 : 0 ≤ ∑ b ∈ range m.nBoundaryFaces, if m.fc b = c then
              (gamma (m.nInternalFaces + b) * δ (m.nInternalFaces + b) * ix m.magFaceAreas (m.nInternalFaces + b) - flux (m.nInternalFaces + b))
                * ((φ.entry b).fraction * ((ψ.entry b).refValue - (φ.entry b).refValue)) else 0 := by
      refine Finset.sum_nonneg fun b hb => ?_
      have hb' := mem_range.1 hb
      split
      · rcases hs.bnd b hb' with ⟨q, -⟩ | ⟨q, q2⟩
        · rw [q]; simp
        · have := hle b hb' q
          rw [q, one_mul]
          exact mul_nonneg (by linarith) (by linarith)
      · exact le_rfl
    linarith [h1 c hc, h2 c hc]

/-- The same, with the gradients of zero-gradient boundaries taken from the conditions. -/
theorem implicit_mono_bc {m : Mesh K} (h : m.WF) (hv : ∀ c < m.nCells, 0 < m.vol c) {flux δ gamma : Nat → K} {φ ψ : VolField K K}
    (hs : Stable m flux δ gamma φ) (hs' : Stable m flux δ gamma ψ) (hfr : ∀ b < m.nBoundaryFaces, (ψ.entry b).fraction = (φ.entry b).fraction)
    (hle : ∀ b < m.nBoundaryFaces, (φ.entry b).fraction = 1 → (φ.entry b).refValue ≤ (ψ.entry b).refValue)
    {dt : K} (hdt : 0 < dt) (old old' new new' : Nat → K)
    (h1 : ∀ c < m.nCells, m.vol c * (new c - old c) / dt + m.netOutflow (φ.outFlux m flux δ gamma new) c = 0)
    (h2 : ∀ c < m.nCells, m.vol c * (new' c - old' c) / dt + m.netOutflow (ψ.outFlux m flux δ gamma new') c = 0)
    (hold : ∀ c < m.nCells, old c ≤ old' c) : ∀ c < m.nCells, new c ≤ new' c := by
  refine implicit_mono h hv hs hfr (fun b hb => ?_) hle hdt old old' new new' h1 h2 hold
  rcases hs.bnd b hb with ⟨q1, q2⟩ | ⟨q1, -⟩
  · rcases hs'.bnd b hb with ⟨-, q4⟩ | ⟨q3, -⟩
    · rw [q2, q4]
    · rw [hfr b hb, q1] at q3
      exact absurd q3 zero_ne_one
  · rw [q1, sub_self, zero_mul, zero_mul]

/-- Two steps of equal size from fields at most `D` apart, with the same boundary data, give fields at most `D` apart. -/
theorem implicit_contract {m : Mesh K} (h : m.WF) (hv : ∀ c < m.nCells, 0 < m.vol c) {flux δ gamma : Nat → K} {φ : VolField K K}
    (hs : Stable m flux δ gamma φ) {dt : K} (hdt : 0 < dt) (old old' new new' : Nat → K)
    (h1 : ∀ c < m.nCells, m.vol c * (new c - old c) / dt + m.netOutflow (φ.outFlux m flux δ gamma new) c = 0)
    (h2 : ∀ c < m.nCells, m.vol c * (new' c - old' c) / dt + m.netOutflow (φ.outFlux m flux δ gamma new') c = 0)
    {D : K} (hold : ∀ c < m.nCells, |old c - old' c| ≤ D) : ∀ c < m.nCells, |new c - new' c| ≤ D := by
  intro c0 hc0
  have hD : 0 ≤ D := le_trans (abs_nonneg _) (hold c0 hc0)
  have hb := implicit_bounds h hv (homog_stable hs) hdt (lo := -D) (hi := D) (fun b _ _ => by simp [VolField.homog, VolField.entry, hD]) (fun c => old c - old' c)
    (fun c => new c - new' c) (fun c hc => abs_le.1 (hold c hc)) fun c hc => by
      have e := congrArg (fun F => m.netOutflow F c) (homog_outFlux φ m flux δ gamma new new')
      beta_reduce at e
      rw [e, netOutflow_add, netOutflow_smul]
      have e1 : m.vol c * (new c - new' c - (old c - old' c)) / dt = m.vol c * (new c - old c) / dt - m.vol c * (new' c - old' c) / dt := by ring
      rw [e1]
      simp
      linarith [h1 c hc, h2 c hc]
  exact abs_le.2 (hb c0 hc0)

end NeoFOAM
