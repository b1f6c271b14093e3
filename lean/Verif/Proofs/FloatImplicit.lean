import Verif.Spec.FloatImplicit
import Verif.Proofs.March
import Verif.Props.C84_FloatAssembly

/-!
# Implicit transport with diffusion: steps that are solved up to a residual
-/
namespace NeoFOAM
open Finset

section exactSide
variable {K : Type} [Field K] [LinearOrder K] [IsStrictOrderedRing K]

theorem TameData.homog {m : Mesh K} {flux δ gamma : Nat → K} {M : K} {φ : VolField K K} (h : TameData m flux δ gamma M φ) : TameData m flux δ gamma 0 φ.homog where
  diff := h.diff
  bnd b hb := by
    rcases h.bnd b hb with ⟨h1, h2⟩ | ⟨h1, h2, h3⟩
    · exact .inl ⟨h1, by simp [VolField.homog, VolField.entry]⟩
    · exact .inr ⟨h1, by simp [VolField.homog, VolField.entry], h3⟩

/-- Where the values are largest, at least as much leaves as if the whole field had the largest value. -/
theorem outflow_ge {m : Mesh K} (h : m.WF) {flux δ gamma : Nat → K} {M : K} {φ : VolField K K} (hs : TameData m flux δ gamma M φ) (x : Nat → K) (c : Nat)
    (hmax : ∀ c' < m.nCells, x c' ≤ x c) (hge : M ≤ x c) : x c * m.netOutflow flux c ≤ m.netOutflow (φ.outFlux m flux δ gamma x) c := by
  have hfaces := h.faces
  have e1 : m.netOutflow (φ.outFlux m flux δ gamma x) c - x c * m.netOutflow flux c = m.netOutflow (fun f => φ.outFlux m flux δ gamma x f + (-x c) • flux f) c := by
    rw [netOutflow_add, netOutflow_smul]; simp only [smul_eq_mul]; ring
  suffices 0 ≤ m.netOutflow (fun f => φ.outFlux m flux δ gamma x f + (-x c) • flux f) c by linarith
  refine netOutflow_nonneg m _ c (fun f hf ho => ?_) (fun f hf ho => ?_) (fun b hb' ho => ?_)
  · have hd := hs.diff f (by omega)
    have hn := hmax _ (h.nbr_lt f hf)
    simp only [VolField.outFlux, if_pos hf, ho, smul_eq_mul]
    split
    · nlinarith
    · rename_i hneg
      rw [not_le] at hneg
      nlinarith
  · have hd := hs.diff f (by omega)
    have hn := hmax _ (h.own_lt f (by omega))
    simp only [VolField.outFlux, if_pos hf, ho, smul_eq_mul]
    split
    · nlinarith
    · nlinarith
  · simp only [VolField.outFlux, if_neg (show ¬ m.nInternalFaces + b < m.nInternalFaces by omega), Nat.add_sub_cancel_left, ho, smul_eq_mul]
    rcases hs.bnd b hb' with ⟨h1, h2⟩ | ⟨h1, h2, h3⟩
    · rw [h1, h2]; apply le_of_eq; ring
    · have := (abs_le.1 h2).2
      rw [h1]
      nlinarith

/-- The field with all signs changed. -/
def VolField.opp (φ : VolField K K) : VolField K K := { φ with bRefValue := φ.bRefValue.map (-·), bRefGrad := φ.bRefGrad.map (-·) }

omit [LinearOrder K] [IsStrictOrderedRing K] in
theorem getD_neg (l : List K) (i : Nat) : (l.map (-·)).getD i 0 = -l.getD i 0 := by
  simp only [List.getD_eq_getElem?_getD, List.getElem?_map]
  cases l[i]? <;> simp

omit [IsStrictOrderedRing K] in
theorem opp_outFlux (φ : VolField K K) (m : Mesh K) (flux δ gamma x : Nat → K) (c : Nat) :
    m.netOutflow (φ.opp.outFlux m flux δ gamma fun c => -x c) c = -m.netOutflow (φ.outFlux m flux δ gamma x) c := by
  have : φ.opp.outFlux m flux δ gamma (fun c => -x c) = fun f => (-1 : K) • φ.outFlux m flux δ gamma x f := by
    funext f
    simp only [VolField.outFlux, VolField.opp, VolField.entry, getD_neg, smul_eq_mul]
    split
    · split <;> ring
    · ring
  rw [this, netOutflow_smul]
  simp

omit [IsStrictOrderedRing K] in
theorem TameData.opp {m : Mesh K} {flux δ gamma : Nat → K} {M : K} {φ : VolField K K} (h : TameData m flux δ gamma M φ) : TameData m flux δ gamma M φ.opp where
  diff := h.diff
  bnd b hb := by
    have e1 : (φ.opp.entry b).refValue = -(φ.entry b).refValue := by simp only [VolField.opp, VolField.entry, getD_neg]
    have e2 : (φ.opp.entry b).refGrad = -(φ.entry b).refGrad := by simp only [VolField.opp, VolField.entry, getD_neg]
    have e3 : (φ.opp.entry b).fraction = (φ.entry b).fraction := rfl
    rw [e1, e2, e3, abs_neg, neg_eq_zero]
    exact h.bnd b hb

/-- The size of the values of a step that is solved up to a residual. -/
theorem implicit_size {m : Mesh K} (h : m.WF) (hv : ∀ c < m.nCells, 0 < m.vol c) {flux δ gamma : Nat → K} {M : K} {φ : VolField K K}
    (hs : TameData m flux δ gamma M φ) {dt η ρ P : K} (hdt : 0 < dt) (hη : 0 ≤ η) (hin : SmallInflow m flux dt η) (hρ : 0 ≤ ρ) (hP : M ≤ P)
    (old z : Nat → K) (hold : ∀ c < m.nCells, |old c| ≤ P)
    (hres : ∀ c < m.nCells, |m.vol c * (z c - old c) / dt + m.netOutflow (φ.outFlux m flux δ gamma z) c| ≤ ρ * (m.vol c / dt)) :
    ∀ c < m.nCells, (1 - η) * |z c| ≤ P + ρ := by
  intro c0 hc0
  obtain ⟨c, hc, hmax⟩ := Finset.exists_max_image (range m.nCells) (fun c => |z c|) ⟨c0, mem_range.2 hc0⟩
  rw [mem_range] at hc
  have hP0 : 0 ≤ P := (abs_nonneg _).trans (hold c hc)
  have h0 : |z c0| ≤ |z c| := hmax c0 (mem_range.2 hc0)
  have hsmall : ∀ y : K, |y| ≤ P → (1 - η) * |y| ≤ P + ρ := fun y hy => by nlinarith [abs_nonneg y]
  rcases le_total (1 - η) 0 with h1 | h1
  · nlinarith [abs_nonneg (z c0)]
  refine (mul_le_mul_of_nonneg_left h0 h1).trans ?_
  rcases le_total |z c| M with hM | hM
  · exact hsmall _ (hM.trans hP)
  have hvc := div_pos (hv c hc) hdt
  have hi := hin c hc
  have hflow : -(η * (m.vol c / dt)) ≤ m.netOutflow flux c := by
    have e : m.netOutflow flux c = dt * (m.netOutflow flux c / m.vol c) * (m.vol c / dt) := by
      have := (hv c hc).ne'
      have := hdt.ne'
      field_simp
    rw [e]
    nlinarith
  have key : ∀ (ψ : VolField K K) (w o : Nat → K), TameData m flux δ gamma M ψ → (∀ c' < m.nCells, w c' ≤ w c) → w c = |z c| → |o c| ≤ P →
      m.vol c * (w c - o c) / dt + m.netOutflow (ψ.outFlux m flux δ gamma w) c ≤ ρ * (m.vol c / dt) → (1 - η) * |z c| ≤ P + ρ := by
    intro ψ w o hψ hw hwc ho hr
    have h2 := outflow_ge h hψ w c hw (hwc ▸ hM)
    rw [hwc] at h2 hr
    have h3 : -(|z c| * (η * (m.vol c / dt))) ≤ |z c| * m.netOutflow flux c := by nlinarith [abs_nonneg (z c)]
    have h4 : m.vol c * (|z c| - o c) / dt = (m.vol c / dt) * (|z c| - o c) := by ring
    have h5 := (abs_le.1 ho).2
    have h6 : (m.vol c / dt) * ((1 - η) * |z c| - o c - ρ) ≤ 0 := by nlinarith
    have h7 : (1 - η) * |z c| - o c - ρ ≤ 0 := by
      by_contra hcon
      rw [not_le] at hcon
      exact absurd h6 (not_le.2 (mul_pos hvc hcon))
    linarith
  have hr := abs_le.1 (hres c hc)
  rcases le_total 0 (z c) with hz | hz
  · refine key φ z old hs (fun c' hc' => (le_abs_self _).trans ((hmax c' (mem_range.2 hc')).trans (abs_of_nonneg hz).le)) (abs_of_nonneg hz).symm (hold c hc) hr.2
  · refine key φ.opp (fun c => -z c) (fun c => -old c) hs.opp
      (fun c' hc' => (neg_le_abs _).trans ((hmax c' (mem_range.2 hc')).trans (abs_of_nonpos hz).le)) (abs_of_nonpos hz).symm (by rw [abs_neg]; exact hold c hc) ?_
    rw [opp_outFlux]
    have e : m.vol c * (-z c - -old c) / dt = -(m.vol c * (z c - old c) / dt) := by ring
    rw [e]
    linarith [hr.1]

/-- The distance of two steps that are solved up to a residual. -/
theorem implicit_near {m : Mesh K} (h : m.WF) (hv : ∀ c < m.nCells, 0 < m.vol c) {flux δ gamma : Nat → K} {M : K} {φ : VolField K K}
    (hs : TameData m flux δ gamma M φ) {dt η ρ D : K} (hdt : 0 < dt) (hη : 0 ≤ η) (hin : SmallInflow m flux dt η) (hρ : 0 ≤ ρ) (hD : 0 ≤ D)
    (old old' y x : Nat → K) (hold : ∀ c < m.nCells, |old c - old' c| ≤ D)
    (hy : ∀ c < m.nCells, |m.vol c * (y c - old c) / dt + m.netOutflow (φ.outFlux m flux δ gamma y) c| ≤ ρ * (m.vol c / dt))
    (hx : ∀ c < m.nCells, m.vol c * (x c - old' c) / dt + m.netOutflow (φ.outFlux m flux δ gamma x) c = 0) :
    ∀ c < m.nCells, (1 - η) * |y c - x c| ≤ D + ρ := by
  refine implicit_size h hv hs.homog hdt hη hin hρ hD (fun c => old c - old' c) (fun c => y c - x c) hold fun c hc => ?_
  rw [homog_outFlux, netOutflow_add, netOutflow_smul]
  have := hy c hc
  have hx := hx c hc
  have e : m.vol c * (y c - x c - (old c - old' c)) / dt + (m.netOutflow (φ.outFlux m flux δ gamma y) c + (-1 : K) • m.netOutflow (φ.outFlux m flux δ gamma x) c)
      = (m.vol c * (y c - old c) / dt + m.netOutflow (φ.outFlux m flux δ gamma y) c) - (m.vol c * (x c - old' c) / dt + m.netOutflow (φ.outFlux m flux δ gamma x) c) := by
    rw [smul_eq_mul]; ring
  rw [e, hx, sub_zero]
  exact this

/-- The equations of a step have a solution. -/
theorem implicit_exists {m : Mesh K} (h : m.WF) (hv : ∀ c < m.nCells, 0 < m.vol c) {flux δ gamma : Nat → K} {M : K} {φ : VolField K K}
    (hs : TameData m flux δ gamma M φ) {dt η : K} (hdt : 0 < dt) (hη : 0 ≤ η) (hη1 : η < 1) (hin : SmallInflow m flux dt η) (old : Nat → K) :
    ∃ y : List K, y.length = m.nCells ∧ ∀ c < m.nCells, m.vol c * (ix y c - old c) / dt + m.netOutflow (φ.outFlux m flux δ gamma (ix y)) c = 0 := by
  set n := m.nCells with hn
  let ext : (Fin n → K) → Nat → K := fun v j => if hj : j < n then v ⟨j, hj⟩ else 0
  have ext_at : ∀ (v : Fin n → K) (i : Fin n), ext v i = v i := fun v i => by simp [ext]
  let T : (Fin n → K) →ₗ[K] (Fin n → K) :=
    { toFun := fun v i => m.vol i * ext v i / dt + m.netOutflow (φ.homog.outFlux m flux δ gamma (ext v)) i
      map_add' := fun v w => by
        funext i
        simp only [Pi.add_apply]
        have e : ext (v + w) = fun c => ext v c + ext w c := by
          funext j
          simp only [ext]
          split <;> simp
        rw [e, homog_add]
        ring
      map_smul' := fun a v => by
        funext i
        simp only [RingHom.id_apply, Pi.smul_apply, smul_eq_mul]
        have e : ext (a • v) = fun c => a * ext v c := by
          funext j
          simp only [ext]
          split <;> simp
        rw [e, homog_smul]
        ring }
  have hinj : Function.Injective T := by
    rw [← LinearMap.ker_eq_bot, LinearMap.ker_eq_bot']
    intro v hv0
    funext i
    have := implicit_size h hv hs.homog hdt hη hin le_rfl le_rfl (fun _ => 0) (ext v) (fun c _ => by simp) (fun c hc => by
      have := congrFun hv0 ⟨c, hc⟩
      change m.vol c * ext v c / dt + _ = 0 at this
      rw [sub_zero, this, abs_zero, zero_mul]) i i.2
    rw [ext_at] at this
    have h1 : |v i| ≤ 0 := by nlinarith [abs_nonneg (v i)]
    simpa using abs_nonpos_iff.1 h1
  obtain ⟨v, hv'⟩ := LinearMap.surjective_of_injective hinj fun i => m.vol i * old i / dt - m.netOutflow (φ.outFlux m flux δ gamma fun _ => 0) i
  refine ⟨List.ofFn v, by simp, fun c hc => ?_⟩
  have e1 : ix (List.ofFn v) = ext v := by
    funext j
    simp only [ix, ext, List.getD_eq_getElem?_getD, List.getElem?_ofFn]
    split <;> simp
  rw [e1]
  have h1 : m.vol c * ext v c / dt + m.netOutflow (φ.homog.outFlux m flux δ gamma (ext v)) c
      = m.vol c * old c / dt - m.netOutflow (φ.outFlux m flux δ gamma fun _ => 0) c := congrFun hv' ⟨c, hc⟩
  have h2 := homog_outFlux φ m flux δ gamma (ext v) (fun _ => 0)
  simp only [sub_zero] at h2
  rw [h2, netOutflow_add, netOutflow_smul, smul_eq_mul] at h1
  have e : m.vol c * (ext v c - old c) / dt = m.vol c * ext v c / dt - m.vol c * old c / dt := by ring
  rw [e]
  linarith

end exactSide

section sizes
variable {K : Type} [Field K] [LinearOrder K] [IsStrictOrderedRing K]

/-- Sum of sizes over the entries of a row. -/
def rowSize {F : Type} (m : Mesh F) (S : Slot → K) (c : Nat) : K :=
  S (.diag c) + (∑ f ∈ range m.nInternalFaces, if m.own f = c then S (.upper f) else 0) + ∑ f ∈ range m.nInternalFaces, if m.nbr f = c then S (.lower f) else 0

/-- The coefficients of the system of a step, as sizes. -/
def stepSize (m : Mesh K) (flux δ gamma : Nat → K) (φ : VolField K K) (v dt : K) : Slot → K := fun s =>
  0 + divSize m flux (ix φ.bVF) (fun _ => 1) s + lapSize m δ gamma (ix φ.bVF) (fun _ => v) s + diagSize (fun c => |1| * |m.vol c| / |dt|) s
/-- The same for the right hand side. -/
def stepRhsSize (m : Mesh K) (flux δ gamma : Nat → K) (φ : VolField K K) (v dt : K) (old : Nat → K) : Nat → K := fun c =>
  0 + divRhsSize m flux (ix φ.bVF) (ix φ.bRefValue) (fun _ => 1) c + lapRhsSize m δ gamma (ix φ.bVF) (ix φ.bRefValue) (ix φ.bRefGrad) (fun _ => v) c
    + |1| * |m.vol c| / |dt| * |old c|

theorem step_sizes {m : Mesh K} {flux δ gamma : Nat → K} {M : K} {φ : VolField K K} (hs : TameData m flux δ gamma M φ) {v w dt B : K} (hv : |v| ≤ w) (hw : 1 ≤ w)
    (hB : 0 ≤ B) (hM : M ≤ B) (old : Nat → K) (c : Nat) (hold : |old c| ≤ B) :
    rowSize m (stepSize m flux δ gamma φ v dt) c * B + stepRhsSize m flux δ gamma φ v dt old c ≤ w * (B * (2 * (|m.vol c| / |dt|) + m.exchange flux δ gamma c)) := by
  have hint : (∑ f ∈ range m.nInternalFaces, ((if m.own f = c then (if 0 ≤ flux f then |flux f| else 0) else 0) + (if m.nbr f = c then (if 0 ≤ flux f then 0 else |flux f|) else 0)))
      + |v| * (∑ f ∈ range m.nInternalFaces, ((if m.own f = c then |gamma f * δ f * ix m.magFaceAreas f| * (if f < m.nInternalFaces then 1 else |ix φ.bVF (f - m.nInternalFaces)|) else 0)
        + (if m.nbr f = c then |gamma f * δ f * ix m.magFaceAreas f| * (if f < m.nInternalFaces then 1 else |ix φ.bVF (f - m.nInternalFaces)|) else 0)))
      + (∑ f ∈ range m.nInternalFaces, if m.own f = c then stepSize m flux δ gamma φ v dt (.upper f) else 0)
      + (∑ f ∈ range m.nInternalFaces, if m.nbr f = c then stepSize m flux δ gamma φ v dt (.lower f) else 0)
      ≤ w * ∑ f ∈ range m.nInternalFaces, ((if m.own f = c then |flux f| + 2 * |gamma f * δ f * ix m.magFaceAreas f| else 0)
        + (if m.nbr f = c then |flux f| + 2 * |gamma f * δ f * ix m.magFaceAreas f| else 0)) := by
    rw [Finset.mul_sum, Finset.mul_sum, ← Finset.sum_add_distrib, ← Finset.sum_add_distrib, ← Finset.sum_add_distrib]
    refine Finset.sum_le_sum fun f hf => ?_
    rw [mem_range] at hf
    simp only [stepSize, divSize, lapSize, diagSize, if_pos hf, abs_one]
    have a1 := abs_nonneg (flux f)
    have a2 := abs_nonneg (gamma f * δ f * ix m.magFaceAreas f)
    generalize |flux f| = a at *
    generalize |gamma f * δ f * ix m.magFaceAreas f| = d at *
    have b1 : a ≤ w * a := le_mul_of_one_le_left a1 hw
    have b2 : |v| * d ≤ w * d := mul_le_mul_of_nonneg_right hv a2
    by_cases c1 : m.own f = c <;> by_cases c2 : m.nbr f = c <;> by_cases c3 : 0 ≤ flux f <;> simp only [c1, c2, c3, if_true, if_false] <;> nlinarith
  have hbnd : B * ((∑ b ∈ range m.nBoundaryFaces, if m.fc b = c then |flux (m.nInternalFaces + b)| * |1 - ix φ.bVF b| else 0)
      + |v| * (∑ b ∈ range m.nBoundaryFaces, if m.fc b = c then |gamma (m.nInternalFaces + b) * δ (m.nInternalFaces + b) * ix m.magFaceAreas (m.nInternalFaces + b)| *
        (if m.nInternalFaces + b < m.nInternalFaces then 1 else |ix φ.bVF (m.nInternalFaces + b - m.nInternalFaces)|) else 0))
      + ((∑ b ∈ range m.nBoundaryFaces, if m.fc b = c then |flux (m.nInternalFaces + b)| * |ix φ.bVF b * ix φ.bRefValue b| else 0)
      + |v| * ∑ b ∈ range m.nBoundaryFaces, if m.fc b = c then |gamma (m.nInternalFaces + b) * ix m.magFaceAreas (m.nInternalFaces + b)| *
    (|ix φ.bVF b * δ (m.nInternalFaces + b) * ix φ.bRefValue b| + |(1 - ix φ.bVF b) * ix φ.bRefGrad b|) else 0)
      ≤ w * (B * ∑ b ∈ range m.nBoundaryFaces, if m.fc b = c then |flux (m.nInternalFaces + b)|
        + 2 * |gamma (m.nInternalFaces + b) * δ (m.nInternalFaces + b) * ix m.magFaceAreas (m.nInternalFaces + b)| else 0) := by
    simp only [Finset.mul_sum, ← Finset.sum_add_distrib]
    refine Finset.sum_le_sum fun b hb => ?_
    rw [mem_range] at hb
    by_cases c1 : m.fc b = c
    · simp only [c1, if_true, if_neg (show ¬ m.nInternalFaces + b < m.nInternalFaces by omega), Nat.add_sub_cancel_left]
      have a1 := abs_nonneg (flux (m.nInternalFaces + b))
      have a2 := abs_nonneg (gamma (m.nInternalFaces + b) * δ (m.nInternalFaces + b) * ix m.magFaceAreas (m.nInternalFaces + b))
      have b1 := mul_le_mul_of_nonneg_right hw (mul_nonneg hB a1)
      have b2 := mul_le_mul_of_nonneg_right hv (mul_nonneg hB a2)
      rcases hs.bnd b hb with ⟨h1, h2⟩ | ⟨h1, h2, h3⟩
      · have e1 : ix φ.bVF b = 0 := h1
        have e2 : ix φ.bRefGrad b = 0 := h2
        rw [e1, e2]
        simp only [sub_zero, abs_one, abs_zero, zero_mul, mul_zero, add_zero, mul_one]
        nlinarith [mul_nonneg hB a2]
      · have e1 : ix φ.bVF b = 1 := h1
        have e2 : |ix φ.bRefValue b| ≤ B := h2.trans hM
        rw [e1]
        simp only [sub_self, abs_one, abs_zero, zero_mul, mul_zero, add_zero, mul_one, one_mul, zero_add]
        have e3 : |gamma (m.nInternalFaces + b) * ix m.magFaceAreas (m.nInternalFaces + b)| * |δ (m.nInternalFaces + b) * ix φ.bRefValue b|
            = |gamma (m.nInternalFaces + b) * δ (m.nInternalFaces + b) * ix m.magFaceAreas (m.nInternalFaces + b)| * |ix φ.bRefValue b| := by
          rw [← abs_mul, ← abs_mul]; congr 1; ring
        rw [e3]
        have b3 := mul_le_mul_of_nonneg_left e2 a1
        have b4 := mul_le_mul_of_nonneg_left (mul_le_mul_of_nonneg_left e2 a2) (abs_nonneg v)
        nlinarith
    · simp [c1]
  have hvd : 0 ≤ |m.vol c| / |dt| := div_nonneg (abs_nonneg _) (abs_nonneg _)
  have ho := mul_le_mul_of_nonneg_left hold hvd
  have hvv : B * (2 * (|m.vol c| / |dt|)) ≤ w * (B * (2 * (|m.vol c| / |dt|))) := le_mul_of_one_le_left (by positivity) hw
  have hint' := mul_le_mul_of_nonneg_left hint hB
  have ed : stepSize m flux δ gamma φ v dt (.diag c) = 0 + divSize m flux (ix φ.bVF) (fun _ => 1) (.diag c) + lapSize m δ gamma (ix φ.bVF) (fun _ => v) (.diag c)
      + |1| * |m.vol c| / |dt| := rfl
  unfold rowSize stepRhsSize Mesh.exchange Mesh.faceSum
  rw [ed]
  simp only [divSize, lapSize, divRhsSize, lapRhsSize, Mesh.faceSum, abs_one, one_mul, zero_add]
  nlinarith

omit [IsStrictOrderedRing K] in
theorem faceSum_mono [IsStrictOrderedRing K] {m : Mesh K} {a b : Nat → K} (c : Nat) (hi : ∀ f < m.nInternalFaces, a f ≤ b f)
    (hb : ∀ i < m.nBoundaryFaces, a (m.nInternalFaces + i) ≤ b (m.nInternalFaces + i)) : m.faceSum a c ≤ m.faceSum b c := by
  unfold Mesh.faceSum
  refine add_le_add (Finset.sum_le_sum fun f hf => add_le_add ?_ ?_) (Finset.sum_le_sum fun i hi' => ?_)
  · split; exacts [hi f (mem_range.1 hf), le_rfl]
  · split; exacts [hi f (mem_range.1 hf), le_rfl]
  · split; exacts [hb i (mem_range.1 hi'), le_rfl]

theorem abs_netOutflow (m : Mesh K) (g : Nat → K) (c : Nat) : |m.netOutflow g c| ≤ m.faceSum (fun f => |g f|) c := by
  unfold Mesh.netOutflow Mesh.faceSum
  have key : ∀ (n : Nat) (cell : Nat → Nat) (g : Nat → K), |∑ f ∈ range n, if cell f = c then g f else 0| ≤ ∑ f ∈ range n, if cell f = c then |g f| else 0 := by
    intro n cell g
    refine (Finset.abs_sum_le_sum_abs _ _).trans (Finset.sum_le_sum fun f _ => ?_)
    split <;> simp
  rw [Finset.sum_add_distrib]
  refine (abs_add_le _ _).trans (add_le_add ((abs_sub _ _).trans (add_le_add (key _ _ _) (key _ _ _))) (key _ _ _))

/-- The size of the diffusive part. -/
theorem diffusion_size {m : Mesh K} (h : m.WF) {flux : Nat → K} {δ gamma : List K} {M : K} {φ : VolField K K} (hs : TameData m flux (ix δ) (ix gamma) M φ) {B : K} (hB : 0 ≤ B)
    (hM : M ≤ B) (y : Nat → K) (hy : ∀ c < m.nCells, |y c| ≤ B) (c : Nat) :
    |m.netOutflow (fun f => ix gamma f * ix m.magFaceAreas f * φ.impGrad m (ix δ) y f) c| ≤ B * m.exchange flux (ix δ) (ix gamma) c := by
  have hfa := h.faces
  refine (abs_netOutflow _ _ _).trans ?_
  have e : B * m.exchange flux (ix δ) (ix gamma) c = m.faceSum (fun f => B * (|flux f| + 2 * |ix gamma f * ix δ f * ix m.magFaceAreas f|)) c := by
    unfold Mesh.exchange Mesh.faceSum
    simp only [mul_add, Finset.mul_sum, mul_ite, mul_zero]
  rw [e]
  have key : ∀ f (p q : K), |p| ≤ B → |q| ≤ B → |ix gamma f * ix m.magFaceAreas f * (ix δ f * (p - q))| ≤ B * (|flux f| + 2 * |ix gamma f * ix δ f * ix m.magFaceAreas f|) := by
    intro f p q hp hq
    have e1 : ix gamma f * ix m.magFaceAreas f * (ix δ f * (p - q)) = ix gamma f * ix δ f * ix m.magFaceAreas f * (p - q) := by ring
    rw [e1, abs_mul]
    have h1 : |p - q| ≤ 2 * B := (abs_sub _ _).trans (by linarith)
    have h2 := mul_le_mul_of_nonneg_left h1 (abs_nonneg (ix gamma f * ix δ f * ix m.magFaceAreas f))
    have h3 := mul_nonneg hB (abs_nonneg (flux f))
    linarith
  refine faceSum_mono c (fun f hf => ?_) (fun b hb => ?_)
  · simp only [VolField.impGrad, if_pos hf]
    exact key f _ _ (hy _ (h.nbr_lt f hf)) (hy _ (h.own_lt_int hf))
  · simp only [VolField.impGrad, if_neg (show ¬ m.nInternalFaces + b < m.nInternalFaces by omega), Nat.add_sub_cancel_left]
    rcases hs.bnd b hb with ⟨h1, h2⟩ | ⟨h1, h2, -⟩
    · have e1 : ix φ.bVF b = 0 := h1
      have e2 : ix φ.bRefGrad b = 0 := h2
      simp only [VolField.entry, h1, h2, e1, e2]
      have : 0 ≤ B * (|flux (m.nInternalFaces + b)| + 2 * |ix gamma (m.nInternalFaces + b) * ix δ (m.nInternalFaces + b) * ix m.magFaceAreas (m.nInternalFaces + b)|) := by
        positivity
      simpa using this
    · have e1 : ix φ.bVF b = 1 := h1
      have := key (m.nInternalFaces + b) (ix φ.bRefValue b) (y (m.fc b)) (h2.trans hM) (hy _ (h.fc_lt b hb))
      simpa [VolField.entry, h1, e1] using this

end sizes

section floatSide
variable {F K : Type} [Add F] [Sub F] [Mul F] [Div F] [Neg F] [Zero F] [One F] [LinearOrder F] [Field K] [LinearOrder K] [IsStrictOrderedRing K]
variable {val : F → K} {u : K} {m : Mesh F} {sp : SparsityPattern}

omit [Add F] [Sub F] [Mul F] [Div F] [Neg F] [One F] [LinearOrder F] [Field K] [LinearOrder K] [IsStrictOrderedRing K] [Zero F] in
theorem exact_sysOn {ls : LinearSystem F} (ho : ls.On sp m) : (ls.exact val).On sp (m.exact val) :=
  ⟨ho.cols, ho.rowsEq, by simpa [LinearSystem.exact] using ho.vals, (List.length_map val).trans ho.rhsLen⟩

omit [Add F] [Sub F] [Mul F] [Div F] [Neg F] [One F] [LinearOrder F] in
/-- The residual of a computed system against that of the exact one. -/
theorem SysNear.residual (hz : val 0 = 0) (hu : 0 ≤ u) (h : m.WF) (hp : sp.For m) {A : LinearSystem F} {E : LinearSystem K} {n : Slot → Nat} {S : Slot → K} {k : Nat → Nat}
    {T : Nat → K} (hA : SysNear val u m sp A E n S k T) {N : Nat} (c : Nat) (hc : c < m.nCells) (hN : ∀ s : Slot, s.Valid m → s.row m = c → n s ≤ N) (hk : k c ≤ N)
    (y : Nat → K) {B : K} (hy : ∀ c < m.nCells, |y c| ≤ B) :
    |(A.exact val).residual y c - E.residual y c| ≤ ((1 + u) ^ N - 1) * (rowSize m S c * B + T c) := by
  have hE : E.On sp (m.exact val) := ⟨hA.onE.cols, hA.onE.rowsEq, hA.onE.vals, hA.onE.rhsLen⟩
  rw [residual_slots (exact_wf (val := val) h) (exact_for (val := val) hp) (exact_sysOn hA.onA) y hc, residual_slots (exact_wf (val := val) h) (exact_for (val := val) hp) hE y hc]
  have hval : ∀ p, (A.exact val).matrix.val p = val (A.matrix.val p) := fun p => ix_val hz _ _
  have hrhs : (A.exact val).rhs.getD c 0 = val (ix A.rhs c) := ix_val hz _ _
  simp only [hval, hrhs, exact_addr]
  set γ := (1 + u) ^ N - 1 with hγ
  have hmono : ∀ j ≤ N, (1 + u) ^ j - 1 ≤ γ := fun j hj => by
    have := pow_le_pow_right₀ (by linarith : (1 : K) ≤ 1 + u) hj
    linarith
  have hB : 0 ≤ B := (abs_nonneg _).trans (hy c hc)
  have hS : ∀ s : Slot, s.Valid m → 0 ≤ S s := fun s hs => (abs_nonneg _).trans (hA.size s hs)
  have hterm : ∀ s : Slot, s.Valid m → s.row m = c → ∀ j < m.nCells,
      |val (A.matrix.val (sp.addr m s)) * y j - E.matrix.val (sp.addr m s) * y j| ≤ γ * (S s * B) := by
    intro s hs hr j hj
    rw [← sub_mul, abs_mul]
    have h1 := (hA.coef s hs).trans (mul_le_mul_of_nonneg_right (hmono _ (hN s hs hr)) (hS s hs))
    calc |val (A.matrix.val (sp.addr m s)) - E.matrix.val (sp.addr m s)| * |y j| ≤ (γ * S s) * B :=
          mul_le_mul h1 (hy j hj) (abs_nonneg _) ((abs_nonneg _).trans h1)
      _ = γ * (S s * B) := by ring
  have hT : |val (ix A.rhs c) - ix E.rhs c| ≤ γ * T c :=
    (hA.rhs c hc).trans (mul_le_mul_of_nonneg_right (hmono _ hk) ((abs_nonneg _).trans (hA.rhsSize c hc)))
  have hsum : ∀ (cell : Nat → Nat) (a b : Nat → K) (s : Nat → Slot), (∀ f < m.nInternalFaces, cell f = c → |a f - b f| ≤ γ * (S (s f) * B)) →
      |(∑ f ∈ range m.nInternalFaces, if cell f = c then a f else 0) - ∑ f ∈ range m.nInternalFaces, if cell f = c then b f else 0|
        ≤ γ * ((∑ f ∈ range m.nInternalFaces, if cell f = c then S (s f) else 0) * B) := by
    intro cell a b s hab
    rw [← Finset.sum_sub_distrib, Finset.sum_mul, Finset.mul_sum]
    refine (Finset.abs_sum_le_sum_abs _ _).trans (Finset.sum_le_sum fun f hf => ?_)
    split
    · exact hab f (mem_range.1 hf) ‹_›
    · simp
  have hd := hterm (.diag c) hc rfl c hc
  have hup := hsum m.own (fun f => val (A.matrix.val (sp.addr m (.upper f))) * y (m.nbr f)) (fun f => E.matrix.val (sp.addr m (.upper f)) * y (m.nbr f)) .upper
    (fun f hf hoc => hterm (.upper f) hf hoc _ (h.nbr_lt f hf))
  have hlo := hsum m.nbr (fun f => val (A.matrix.val (sp.addr m (.lower f))) * y (m.own f)) (fun f => E.matrix.val (sp.addr m (.lower f)) * y (m.own f)) .lower
    (fun f hf hoc => hterm (.lower f) hf hoc _ (h.own_lt_int hf))
  unfold rowSize
  have e : ∀ a1 a2 a3 a4 b1 b2 b3 b4 : K, a1 + a2 + a3 - a4 - (b1 + b2 + b3 - b4) = (a1 - b1) + (a2 - b2) + (a3 - b3) + -(a4 - b4) := by intros; ring
  erw [e]
  refine (abs_add_le _ _).trans ?_
  rw [abs_neg]
  refine (add_le_add ((abs_add_le _ _).trans (add_le_add ((abs_add_le _ _).trans (add_le_add hd hup)) hlo)) hT).trans (le_of_eq ?_)
  ring

/-- The handles and operators of the composed expression. -/
theorem convDiff_heap (e : ExecKind) (m : Mesh F) (sp : SparsityPattern) (sch : InterpScheme) (w : List F) (junk : Nat → F) (flux δ gamma : List F) (st : TimeState F F) :
    ∃ o, convDiffTree.build (convDiffOps e m sp sch w junk flux δ gamma st) = .ok (⟨[7], [8, 11]⟩, o) ∧
      rd o 7 = .ok (ddtOp e m sp st.sol st.oldTime .implicit Coeff.default) ∧
      rd o 8 = .ok (divOp e m sp (some sch) w junk flux st.sol .implicit Coeff.default) ∧
      rd o 11 = .ok (laplacianOp e m sp true δ junk gamma st.sol .implicit (Coeff.default.mulScalar (-1))) := ⟨_, rfl, rfl, rfl, rfl⟩

theorem NR.bind_pure' {α : Type} (X : NR α) : (X >>= fun a => (pure a : NR α)) = X := by
  funext out
  apply propext
  refine Iff.trans (NR.bind_def _ _ _) ⟨?_, fun h => ⟨out, h, ?_⟩⟩
  · rintro ⟨r, hr, hk⟩
    cases r with
    | ok a => cases hk; exact hr
    | throw e => cases hk; exact hr
    | abort => cases hk; exact hr
    | ub => cases hk; exact hr
  · cases out <;> rfl

theorem NR.bind_eq {α β : Type} {R : NR α} {k : α → NR β} {a : α} (h : ∀ out, R out ↔ out = .ok a) : (R >>= k) = k a :=
  funext fun out => propext (NR.bind_iff h out)

theorem NR.pure_bind' {α β : Type} (a : α) (k : α → NR β) : ((pure a : NR α) >>= k) = k a := NR.bind_eq (fun _ => Iff.rfl)
theorem NR.lift_bind' {α β : Type} (a : α) (k : α → NR β) : (NR.lift (.ok a) >>= k) = k a := NR.bind_eq (fun _ => Iff.rfl)

/-- What a backwardEuler call does with the expression: it assembles divergence, Laplacian (with the factor `1 * -1`) and time derivative into an empty
system and hands it to the solver. -/
theorem convDiff_solve (e : ExecKind) {m : Mesh F} {sp : SparsityPattern} (hu : ∀ out, sparsityUpdate e m out ↔ out = .ok sp) {A0 : LinearSystem F}
    (hA0 : createEmptyLinearSystem sp = .ok A0)
    (sch : InterpScheme) (w : List F) (junk : Nat → F) (flux δ gamma : List F)
    (eqn : Expr) (ops : OpsOf F F) (hbuild : ∀ st, convDiffTree.build (convDiffOps e m sp sch w junk flux δ gamma st) = .ok (eqn, ops st))
    (bcs : List (VolumeBoundary F)) (table : SolverTable F) (fvSchemes fvSolution : Dict) (hd : AsksFor fvSchemes "backwardEuler")
    (solver : LinSolver F) (hs : createSolver table fvSchemes = .ok solver) (st : TimeState F F) (hsy : st.Synced) (t dt : F) (out) :
    dslSolve e m bcs table fvSchemes fvSolution ops eqn st t dt out ↔
      ((computeDivImp e m sp flux st.sol Coeff.default A0 >>= fun A1 =>
        computeLaplacianImpl e m sp δ gamma st.sol (Coeff.default.mulScalar (-1)) A1 >>= fun A2 =>
        ddtImplicit e m sp st.sol.internal Coeff.default dt A2 >>= fun A3 =>
        solver A3 st.sol.internal >>= fun x => pure ⟨{ st.sol with internal := x }, some x⟩) : NR (TimeState F F)) out := by
  obtain ⟨o, hb, h7, h8, h11⟩ := convDiff_heap e m sp sch w junk flux δ gamma st
  obtain ⟨o', hb', h7', h8', h11'⟩ := convDiff_heap e m sp sch w junk flux δ gamma ⟨st.sol, some st.oldTime⟩
  have he : eqn = ⟨[7], [8, 11]⟩ ∧ ops st = o := by
    have := (hbuild st).symm.trans hb
    injection this with this
    exact Prod.mk.inj this
  have he' : ops ⟨st.sol, some st.oldTime⟩ = o' := by
    have := (hbuild ⟨st.sol, some st.oldTime⟩).symm.trans hb'
    injection this with this
    exact (Prod.mk.inj this).2
  obtain ⟨rfl, ho⟩ := he
  rw [dslSolve_backward e m bcs table fvSolution hd ops (by simp)]
  unfold backwardEuler
  have d1 : HM.derefs [8, 11] o = .ok [divOp e m sp (some sch) w junk flux st.sol .implicit Coeff.default,
      laplacianOp e m sp true δ junk gamma st.sol .implicit (Coeff.default.mulScalar (-1))] := by
    simp [HM.derefs, h8, h11]
  have d2 : HM.derefs [8, 11] o' = .ok [divOp e m sp (some sch) w junk flux st.sol .implicit Coeff.default,
      laplacianOp e m sp true δ junk gamma st.sol .implicit (Coeff.default.mulScalar (-1))] := by
    simp [HM.derefs, h8', h11']
  have d3 : HM.derefs [7] o' = .ok [ddtOp e m sp st.sol st.oldTime .implicit Coeff.default] := by
    simp [HM.derefs, h7']
    rfl
  have x1 : (⟨[7], [8, 11]⟩ : Expr).explicitOperationN (ops st) st.sol.internal.length = (pure (List.replicate st.sol.internal.length 0) : NR (List F)) := by
    unfold Expr.explicitOperationN Expr.explicitOperation
    rw [ho]
    refine (NR.bind_eq (fun r => by rw [d1]; exact Iff.rfl)).trans ?_
    change ((pure _ : NR (List F)) >>= fun s => ((pure s : NR (List F)) >>= fun s => pure s)) = _
    rw [NR.pure_bind', NR.bind_pure']
  have x2 : ∀ A, (⟨[7], [8, 11]⟩ : Expr).implicitOperation o' A = (computeDivImp e m sp flux st.sol Coeff.default A >>= fun A1 =>
      computeLaplacianImpl e m sp δ gamma st.sol (Coeff.default.mulScalar (-1)) A1 : NR (LinearSystem F)) := by
    intro A
    unfold Expr.implicitOperation
    refine (NR.bind_eq (fun r => by rw [d2]; exact Iff.rfl)).trans ?_
    change (computeDivImp e m sp flux st.sol Coeff.default A >>= fun s => (computeLaplacianImpl e m sp δ gamma st.sol (Coeff.default.mulScalar (-1)) s >>= fun s => pure s)) = _
    simp only [NR.bind_pure']
  have x3 : ∀ A, (⟨[7], [8, 11]⟩ : Expr).implicitOperationT o' t dt A = ddtImplicit e m sp st.sol.internal Coeff.default dt A := by
    intro A
    unfold Expr.implicitOperationT
    refine (NR.bind_eq (fun r => by rw [d3]; exact Iff.rfl)).trans ?_
    change (ddtImplicit e m sp st.oldTime Coeff.default dt A >>= fun s => pure s) = _
    rw [NR.bind_pure', hsy]
  have x4 : eulerSystem e m o' ⟨[7], [8, 11]⟩ t dt = (computeDivImp e m sp flux st.sol Coeff.default A0 >>= fun A1 =>
      computeLaplacianImpl e m sp δ gamma st.sol (Coeff.default.mulScalar (-1)) A1 >>= fun A2 => ddtImplicit e m sp st.sol.internal Coeff.default dt A2 : NR (LinearSystem F)) := by
    unfold eulerSystem
    rw [NR.bind_eq hu, NR.bind_eq (a := A0) (fun r => by rw [hA0]; exact Iff.rfl)]
    simp only [x2, x3, NR.bind_assoc']
  rw [x1]
  simp only [NR.pure_bind', he', x4, NR.bind_assoc', hs, NR.lift_bind']

/-- The system of a step, computed in floating point, stands for one that is exact but for the factor of the Laplacian. -/
theorem convDiff_near (hF : FloatArith F val u) (h : m.WF) (hp : sp.For m) (e : ExecKind) (he : e = .serial ∨ m.BndDistinct)
    {flux δ gamma : List F} (hfl : flux.length = m.nFaces) (hδ : δ.length = m.nFaces) (hg : gamma.length = m.nFaces)
    {φ : VolField F F} (hφ : φ.On m) {dt : F} (hdt : val dt ≠ 0) {A0 : LinearSystem F} (hA0 : createEmptyLinearSystem sp = .ok A0) :
    ∃ E : LinearSystem K,
      (∀ y, ∀ c < m.nCells, E.residual y c = (m.exact val).vol c * (y c - (φ.exact val).cell c) / val dt
        + ((m.exact val).netOutflow (fun f => ix (flux.map val) f * (φ.exact val).impFace (m.exact val) (ix (flux.map val)) y f) c
        + val (1 * -1) * (m.exact val).netOutflow (fun f => ix (gamma.map val) f * ix (m.exact val).magFaceAreas f * (φ.exact val).impGrad (m.exact val) (ix (δ.map val)) y f) c)) ∧
      (computeDivImp e m sp flux φ Coeff.default A0 >>= fun A1 => computeLaplacianImpl e m sp δ gamma φ (Coeff.default.mulScalar (-1)) A1 >>= fun A2 =>
        ddtImplicit e m sp φ.internal Coeff.default dt A2 : NR (LinearSystem F)).Ok (fun A => SysNear val u m sp A E
          (fun s => 7 + m.roundings s + m.roundings s + 1) (stepSize (m.exact val) (ix (flux.map val)) (ix (δ.map val)) (ix (gamma.map val)) (φ.exact val) (val (1 * -1)) (val dt))
          (fun c => 7 + m.faceCount c + m.faceCount c + 1)
          (stepRhsSize (m.exact val) (ix (flux.map val)) (ix (δ.map val)) (ix (gamma.map val)) (φ.exact val) (val (1 * -1)) (val dt) (φ.exact val).cell)) := by
  have hw := exact_wf (val := val) h
  have hq := exact_for (val := val) hp
  obtain ⟨E0, hE0, on0, r0⟩ := empty_on (K := K) hw hq
  have n0 := C84_empty (m := m) (u := u) hF.zero hF.roundoff hp hA0 hE0 7
  have hdef : ((Coeff.default : Coeff F).exact val).On m.nCells (fun _ => (1 : K)) := fun c hc => congrArg Res.ok hF.one
  have hneg : (((Coeff.default : Coeff F).mulScalar (-1)).exact val).On m.nCells (fun _ => val (1 * -1)) := fun c hc => rfl
  obtain ⟨E1, d1, k1⟩ := C84_div hF h hp hφ hfl hdef n0 (fun _ => le_rfl) (fun _ => le_rfl) e he
  obtain ⟨E1', a1, d1'⟩ := Assembles.det hq (computeDivImp_ok hw hq (exact_on (val := val) hφ) (flux := flux.map val) ((List.length_map val).trans hfl) hdef e he E0 on0)
    (computeDivImp_runs _ _ _ _ _ _ _)
  obtain rfl : E1' = E1 := Res.ok.inj ((d1 _).1 ((d1' _).2 rfl))
  obtain ⟨E2', a2, d2'⟩ := Assembles.det hq (computeLaplacianImpl_ok hw hq (exact_on (val := val) hφ) (δ := δ.map val) (gamma := gamma.map val) ((List.length_map val).trans hδ)
    ((List.length_map val).trans hg) hneg e he E1' a1.on) (computeLaplacianImpl_runs _ _ _ _ _ _ _ _)
  obtain ⟨E3', a3, d3'⟩ := Assembles.det hq (ddtImplicit_ok hw hq (old := φ.internal.map val) ((List.length_map val).trans hφ.int) hdef (val dt) e E2' a2.on) (launchLS_runs _ _ _ _ _)
  refine ⟨E3', fun y c hc => ?_, ?_⟩
  · rw [a3.implicit hw hq a2.on y hc, a2.implicit hw hq a1.on y hc, a1.implicit hw hq on0 y hc, r0, C33_ddt]
    have e4 := divResidual (m.exact val) (φ.exact val) (flux.map val) (fun _ => 1) y c
    have e5 := lapResidual (m.exact val) (φ.exact val) (δ.map val) (gamma.map val) (fun _ => val (1 * -1)) y c
    rw [one_mul] at e4
    change implicitResidual _ _ _ _ _ = _ at e4 e5
    rw [e4, e5]
    simp only [VolField.cell, VolField.exact, ix]
    ring
  · refine k1.bind fun A1 n1 => ?_
    obtain ⟨E2, d2, k2⟩ := C84_laplacian hF h hp hφ hδ hg hneg n1 (fun _ => by omega) (fun _ => by omega) e he
    obtain rfl : E2' = E2 := Res.ok.inj ((d2 _).1 ((d2' _).2 rfl))
    refine k2.bind fun A2 n2 => ?_
    obtain ⟨E3, d3, k3⟩ := C84_ddt hF h hp hφ.int hdt hdef n2 (fun _ => by omega) (fun _ => by omega) e
    obtain rfl : E3' = E3 := Res.ok.inj ((d3 _).1 ((d3' _).2 rfl))
    refine k3.mono fun A3 n3 => ?_
    have hv : ∀ c, (m.exact val).vol c = val (m.vol c) := fun c => hF.vol m c
    have ho : ∀ c, (φ.exact val).cell c = val (ix φ.internal c) := fun c => ix_val hF.zero _ _
    unfold stepSize stepRhsSize
    simp only [hv, ho]
    exact n3

omit [Add F] [Sub F] [Mul F] [Div F] [Neg F] [Zero F] [One F] [LinearOrder F] in
theorem roundings_le {s : Slot} (hs : s.Valid m) : m.roundings s ≤ m.faceCount (s.row m) := by
  have key : ∀ f < m.nInternalFaces, ∀ c, (m.own f = c ∨ m.nbr f = c) → 1 ≤ m.faceCount c := by
    intro f hf c hc
    unfold Mesh.faceCount Mesh.faceSum
    refine le_trans ?_ (Nat.le_add_right _ _)
    refine le_trans ?_ (Finset.single_le_sum (f := fun f => (if m.own f = c then 1 else 0) + (if m.nbr f = c then 1 else 0)) (fun _ _ => Nat.zero_le _) (mem_range.2 hf))
    rcases hc with hc | hc <;> simp [hc]
  cases s with
  | diag c => exact le_rfl
  | upper f => exact key f hs _ (.inl rfl)
  | lower f => exact key f hs _ (.inr rfl)

/-- The residuals of a system of a step that was assembled in floating point are near those of the exact equations. -/
theorem convDiff_assembled (hF : FloatArith F val u) (h : m.WF) (hp : sp.For m) (e : ExecKind) (he : e = .serial ∨ m.BndDistinct)
    (hv : ∀ c < m.nCells, 0 < val (m.vol c))
    {flux δ gamma : List F} (hfl : flux.length = m.nFaces) (hδ : δ.length = m.nFaces) (hg : gamma.length = m.nFaces) {φ : VolField F F} (ho : φ.On m) {M : K}
    (hdata : TameData (m.exact val) (ix (flux.map val)) (ix (δ.map val)) (ix (gamma.map val)) M (φ.exact val)) {dt : F} (hdt : 0 < val dt)
    {N : Nat} (hN : ∀ c < m.nCells, 9 + 2 * m.faceCount c ≤ N) {κ : K}
    (hκ : ∀ c < m.nCells, ((1 + u) ^ N - 1) * (2 + val dt / (m.exact val).vol c * (m.exact val).exchange (ix (flux.map val)) (ix (δ.map val)) (ix (gamma.map val)) c) ≤ κ)
    {A0 : LinearSystem F} (hA0 : createEmptyLinearSystem sp = .ok A0) :
    (computeDivImp e m sp flux φ Coeff.default A0 >>= fun A1 => computeLaplacianImpl e m sp δ gamma φ (Coeff.default.mulScalar (-1)) A1 >>= fun A2 =>
        ddtImplicit e m sp φ.internal Coeff.default dt A2 : NR (LinearSystem F)).Ok fun A => A.On sp m ∧
      ∀ B, M ≤ B → (∀ c < m.nCells, |val (φ.cell c)| ≤ B) → ∀ y : Nat → K, (∀ c < m.nCells, |y c| ≤ B) → ∀ c < m.nCells,
        |(A.exact val).residual y c - ((m.exact val).vol c * (y c - val (φ.cell c)) / val dt
          + (m.exact val).netOutflow ((φ.exact val).outFlux (m.exact val) (ix (flux.map val)) (ix (δ.map val)) (ix (gamma.map val)) y) c)|
          ≤ κ * B * ((m.exact val).vol c / val dt) := by
  have hw := exact_wf (val := val) h
  have hz := hF.zero
  obtain ⟨E, hE, hok⟩ := convDiff_near hF h hp e he hfl hδ hg ho hdt.ne' hA0
  refine hok.mono fun A hA => ⟨hA.onA, fun B hMB hold y hnew c hc => ?_⟩
  have hcell' : ∀ c, val (φ.cell c) = (φ.exact val).cell c := fun c => (ix_val hz φ.internal c).symm
  simp only [hcell'] at hold ⊢
  have hB : 0 ≤ B := (abs_nonneg _).trans (hold c hc)
  obtain ⟨N, rfl⟩ : ∃ N', N = N' + 1 := ⟨N - 1, by have := hN c hc; omega⟩
  have hfc := hN c hc
  have r2 := hA.residual hz hF.roundoff h hp (N := N) c hc (fun s hs hr => by have := roundings_le hs; rw [hr] at this; omega) (by omega) y hnew
  have hvm : |val ((1 : F) * -1) + 1| ≤ u := by
    have := hF.mul 1 (-1)
    rw [hF.neg, hF.one, one_mul, abs_neg, abs_one, mul_one] at this
    simpa using this
  have hv1 : |val ((1 : F) * -1)| ≤ 1 + u := by
    have := abs_sub (val ((1 : F) * -1) + 1) 1
    rw [add_sub_cancel_right, abs_one] at this
    linarith
  have r3 := step_sizes hdata (v := val ((1 : F) * -1)) (w := 1 + u) (dt := val dt) (B := B) hv1 (by linarith [hF.roundoff]) hB hMB (φ.exact val).cell c (hold c hc)
  have r4 := diffusion_size hw hdata hB hMB y hnew c
  rw [hE _ c hc] at r2
  have hvc : 0 < (m.exact val).vol c := by
    have := hv c hc
    rwa [← hF.vol m c] at this
  rw [abs_of_pos hvc, abs_of_pos hdt] at r3
  have e6 : (φ.exact val).outFlux (m.exact val) (ix (flux.map val)) (ix (δ.map val)) (ix (gamma.map val)) y
      = fun f => ix (flux.map val) f * (φ.exact val).impFace (m.exact val) (ix (flux.map val)) y f
        + (-1 : K) • (ix (gamma.map val) f * ix (m.exact val).magFaceAreas f * (φ.exact val).impGrad (m.exact val) (ix (δ.map val)) y f) :=
    funext (outFlux_eq _ _ _ _ _ _)
  rw [e6, netOutflow_add, netOutflow_smul, smul_eq_mul]
  have hks := hκ c hc
  have hvd := div_pos hvc hdt
  have erow : rowSize (m.exact val) (stepSize (m.exact val) (ix (flux.map val)) (ix (δ.map val)) (ix (gamma.map val)) (φ.exact val) (val ((1 : F) * -1)) (val dt)) c
    = rowSize m (stepSize (m.exact val) (ix (flux.map val)) (ix (δ.map val)) (ix (gamma.map val)) (φ.exact val) (val ((1 : F) * -1)) (val dt)) c := rfl
  rw [erow] at r3
  generalize rowSize m _ c * B + stepRhsSize _ _ _ _ _ _ _ _ c = W at r2 r3
  generalize (A.exact val).residual y c = ra at r2
  generalize (m.exact val).netOutflow (fun f => ix (flux.map val) f * (φ.exact val).impFace (m.exact val) (ix (flux.map val)) y f) c = fd at *
  generalize (m.exact val).netOutflow (fun f => ix (gamma.map val) f * ix (m.exact val).magFaceAreas f * (φ.exact val).impGrad (m.exact val) (ix (δ.map val)) y f) c = fl at *
  generalize (m.exact val).vol c * (y c - (φ.exact val).cell c) / val dt = ft at *
  generalize (m.exact val).exchange (ix (flux.map val)) (ix (δ.map val)) (ix (gamma.map val)) c = ex at *
  generalize val ((1 : F) * -1) = v at *
  have hg : 0 ≤ (1 + u) ^ N - 1 := by
    have := one_le_pow₀ (n := N) (by linarith [hF.roundoff] : (1 : K) ≤ 1 + u)
    linarith
  have s1 : |(v + 1) * fl| ≤ u * (B * ex) := by
    rw [abs_mul]
    exact mul_le_mul hvm r4 (abs_nonneg _) hF.roundoff
  have s2 : |ra - (ft + (fd + -1 * fl))| ≤ ((1 + u) ^ N - 1) * W + u * (B * ex) := by
    have e : ra - (ft + (fd + -1 * fl)) = (ra - (ft + (fd + v * fl))) + (v + 1) * fl := by ring
    rw [e]
    refine (abs_add_le _ _).trans (add_le_add r2 s1)
  have s3 : ((1 + u) ^ N - 1) * W ≤ ((1 + u) ^ N - 1) * ((1 + u) * (B * (2 * ((m.exact val).vol c / val dt) + ex))) := mul_le_mul_of_nonneg_left r3 hg
  have s5 : ((1 + u) ^ (N + 1) - 1) * (2 * ((m.exact val).vol c / val dt) + ex) ≤ κ * ((m.exact val).vol c / val dt) := by
    have := mul_le_mul_of_nonneg_right hks hvd.le
    have e : ((1 + u) ^ (N + 1) - 1) * (2 + val dt / (m.exact val).vol c * ex) * ((m.exact val).vol c / val dt)
        = ((1 + u) ^ (N + 1) - 1) * (2 * ((m.exact val).vol c / val dt) + ex) := by field_simp
    linarith
  have s6 := mul_le_mul_of_nonneg_left s5 hB
  have s7 : 0 ≤ u * (B * (2 * ((m.exact val).vol c / val dt))) := mul_nonneg hF.roundoff (mul_nonneg hB (by linarith))
  calc |ra - (ft + (fd + -1 * fl))| ≤ ((1 + u) ^ N - 1) * W + u * (B * ex) := s2
    _ ≤ ((1 + u) ^ N - 1) * ((1 + u) * (B * (2 * ((m.exact val).vol c / val dt) + ex))) + u * (B * ex)
        + u * (B * (2 * ((m.exact val).vol c / val dt))) := by linarith
    _ = B * (((1 + u) ^ (N + 1) - 1) * (2 * ((m.exact val).vol c / val dt) + ex)) := by rw [pow_succ]; ring
    _ ≤ B * (κ * ((m.exact val).vol c / val dt)) := by linarith
    _ = κ * B * ((m.exact val).vol c / val dt) := by ring

omit [Add F] [Sub F] [Mul F] [Div F] [Neg F] [One F] [LinearOrder F] in
theorem empty_exists (hp : sp.For m) : ∃ A0 : LinearSystem F, createEmptyLinearSystem sp = .ok A0 := by
  unfold createEmptyLinearSystem LinearSystem.mk'
  rw [if_pos (by simp [CSR.nRows, hp.rows.len, hp.dlen])]
  exact ⟨_, rfl⟩

/-- A call in floating point that returns has solved the exact equations up to a residual. -/
theorem convDiff_stepF (hF : FloatArith F val u) (h : m.WF) (hp : sp.For m) (e : ExecKind) (he : e = .serial ∨ m.BndDistinct)
    (hup : ∀ out, sparsityUpdate e m out ↔ out = .ok sp) (hv : ∀ c < m.nCells, 0 < val (m.vol c))
    (sch : InterpScheme) (w : List F) (junk : Nat → F) {flux δ gamma : List F} (hfl : flux.length = m.nFaces) (hδ : δ.length = m.nFaces) (hg : gamma.length = m.nFaces)
    (eqn : Expr) (ops : OpsOf F F) (hbuild : ∀ st, convDiffTree.build (convDiffOps e m sp sch w junk flux δ gamma st) = .ok (eqn, ops st))
    (bcs : List (VolumeBoundary F)) (table : SolverTable F) (fvSchemes fvSolution : Dict) (hd : AsksFor fvSchemes "backwardEuler")
    (solver : LinSolver F) (hso : createSolver table fvSchemes = .ok solver) {τ : Nat → K} (hsol : SolvesWithin val τ m solver)
    (st : TimeState F F) (ho : st.sol.On m) (hsy : st.Synced) {M : K}
    (hdata : TameData (m.exact val) (ix (flux.map val)) (ix (δ.map val)) (ix (gamma.map val)) M (st.sol.exact val)) (t : F) {dt : F} (hdt : 0 < val dt)
    {N : Nat} (hN : ∀ c < m.nCells, 9 + 2 * m.faceCount c ≤ N) {κ ε : K}
    (hκ : ∀ c < m.nCells, ((1 + u) ^ N - 1) * (2 + val dt / (m.exact val).vol c * (m.exact val).exchange (ix (flux.map val)) (ix (δ.map val)) (ix (gamma.map val)) c) ≤ κ)
    (hε : ∀ c < m.nCells, τ c * (val dt / (m.exact val).vol c) ≤ ε)
    (st' : TimeState F F) (hrun : dslSolve e m bcs table fvSchemes fvSolution ops eqn st t dt (.ok st')) :
    st'.sol.On m ∧ st'.Synced ∧ (∀ b, st'.sol.entry b = st.sol.entry b) ∧ ∀ B, M ≤ B → (∀ c < m.nCells, |val (st.sol.cell c)| ≤ B) → (∀ c < m.nCells, |val (st'.sol.cell c)| ≤ B) →
      ∀ c < m.nCells, |(m.exact val).vol c * (val (st'.sol.cell c) - val (st.sol.cell c)) / val dt
        + (m.exact val).netOutflow ((st.sol.exact val).outFlux (m.exact val) (ix (flux.map val)) (ix (δ.map val)) (ix (gamma.map val)) fun c => val (st'.sol.cell c)) c|
        ≤ (ε + κ * B) * ((m.exact val).vol c / val dt) := by
  have hz := hF.zero
  obtain ⟨A0, hA0⟩ := empty_exists (F := F) hp
  rw [convDiff_solve e hup hA0 sch w junk flux δ gamma eqn ops hbuild bcs table fvSchemes fvSolution hd solver hso st hsy t dt] at hrun
  have hok := convDiff_assembled hF h hp e he hv hfl hδ hg ho hdata hdt hN hκ hA0
  rw [← NR.bind_assoc', ← NR.bind_assoc'] at hrun
  rw [← NR.bind_assoc'] at hok
  obtain ⟨r, hr, hrun⟩ := (NR.bind_def _ _ _).1 hrun
  obtain ⟨A, rfl, hAon, hA⟩ := hok _ hr
  obtain ⟨r, hx, hrun⟩ := (NR.bind_def _ _ _).1 hrun
  cases r with
  | throw _ => cases hrun
  | abort => cases hrun
  | ub => cases hrun
  | ok x =>
    cases hrun
    obtain ⟨hxl, hxr⟩ := hsol A _ x ⟨sp, hp, hAon⟩ ho.int hx
    refine ⟨⟨hxl, ho.val, ho.ref, ho.vf, ho.grad⟩, rfl, fun _ => rfl, fun B hMB hold hnew c hc => ?_⟩
    have hcell : ∀ c, val (({ st.sol with internal := x } : VolField F F).cell c) = ix (x.map val) c := fun c => (ix_val hz x c).symm
    simp only [hcell] at hnew ⊢
    have r1 := hxr c hc
    have r2 := hA B hMB hold (ix (x.map val)) hnew c hc
    have hvc : 0 < (m.exact val).vol c := by
      have := hv c hc
      rwa [← hF.vol m c] at this
    have hes := hε c hc
    have hvd := div_pos hvc hdt
    have s4 : τ c ≤ ε * ((m.exact val).vol c / val dt) := by
      have := mul_le_mul_of_nonneg_right hes hvd.le
      have e : τ c * (val dt / (m.exact val).vol c) * ((m.exact val).vol c / val dt) = τ c := by field_simp
      linarith
    change |(m.exact val).vol c * (ix (x.map val) c - val (st.sol.cell c)) / val dt
      + (m.exact val).netOutflow ((st.sol.exact val).outFlux (m.exact val) (ix (flux.map val)) (ix (δ.map val)) (ix (gamma.map val)) (ix (x.map val))) c| ≤ _
    generalize (A.exact val).residual (ix (x.map val)) c = ra at r1 r2
    generalize (m.exact val).vol c * (ix (x.map val) c - val (st.sol.cell c)) / val dt
      + (m.exact val).netOutflow ((st.sol.exact val).outFlux (m.exact val) (ix (flux.map val)) (ix (δ.map val)) (ix (gamma.map val)) (ix (x.map val))) c = q at r2 ⊢
    have s2 : |q| ≤ |ra| + |ra - q| := by
      have := abs_sub ra (ra - q)
      rwa [sub_sub_cancel] at this
    linarith

omit [Div F] [Neg F] [Zero F] [One F] [LinearOrder F] in
theorem launchLS_returns (e : ExecKind) (start stop : Nat) (body : Nat → Res (List (Act LSArr F))) (ls : LinearSystem F) : (launchLS e start stop body ls).Runs :=
  NR.Runs.bind (launch_runs _ _ _ _ _) (fun _ _ => NR.Runs.pure _)

theorem convDiff_runs (e : ExecKind) (m : Mesh F) (sp : SparsityPattern) (flux δ gamma : List F) (φ : VolField F F) (s s' s'' : Coeff F) (dt : F) (A0 : LinearSystem F) :
    (computeDivImp e m sp flux φ s A0 >>= fun A1 => computeLaplacianImpl e m sp δ gamma φ s' A1 >>= fun A2 => ddtImplicit e m sp φ.internal s'' dt A2 :
      NR (LinearSystem F)).Runs := by
  refine NR.Runs.bind ?_ fun _ _ => NR.Runs.bind ?_ fun _ _ => ?_
  · exact NR.Runs.bind (launchLS_returns _ _ _ _ _) (fun _ _ => launchLS_returns _ _ _ _ _)
  · exact NR.Runs.bind (launchLS_returns _ _ _ _ _) (fun _ _ => launchLS_returns _ _ _ _ _)
  · exact launchLS_returns _ _ _ _ _

/-- If a solver may return the values `y`, a call may return them. -/
theorem convDiff_mayReturn (hF : FloatArith F val u) (h : m.WF) (hp : sp.For m) (e : ExecKind) (he : e = .serial ∨ m.BndDistinct)
    (hup : ∀ out, sparsityUpdate e m out ↔ out = .ok sp) (hv : ∀ c < m.nCells, 0 < val (m.vol c))
    (sch : InterpScheme) (w : List F) (junk : Nat → F) {flux δ gamma : List F} (hfl : flux.length = m.nFaces) (hδ : δ.length = m.nFaces) (hg : gamma.length = m.nFaces)
    (eqn : Expr) (ops : OpsOf F F) (hbuild : ∀ st, convDiffTree.build (convDiffOps e m sp sch w junk flux δ gamma st) = .ok (eqn, ops st))
    (bcs : List (VolumeBoundary F)) (table : SolverTable F) (fvSchemes fvSolution : Dict) (hd : AsksFor fvSchemes "backwardEuler")
    (solver : LinSolver F) (hso : createSolver table fvSchemes = .ok solver)
    (st : TimeState F F) (ho : st.sol.On m) (hsy : st.Synced) {M : K}
    (hdata : TameData (m.exact val) (ix (flux.map val)) (ix (δ.map val)) (ix (gamma.map val)) M (st.sol.exact val)) (t : F) {dt : F} (hdt : 0 < val dt)
    {N : Nat} (hN : ∀ c < m.nCells, 9 + 2 * m.faceCount c ≤ N) {κ : K}
    (hκ : ∀ c < m.nCells, ((1 + u) ^ N - 1) * (2 + val dt / (m.exact val).vol c * (m.exact val).exchange (ix (flux.map val)) (ix (δ.map val)) (ix (gamma.map val)) c) ≤ κ)
    {B : K} (hMB : M ≤ B) (hold : ∀ c < m.nCells, |val (st.sol.cell c)| ≤ B) (y : List F) (hy : ∀ c < m.nCells, |val (ix y c)| ≤ B)
    (hmay : ∀ A : LinearSystem F, A.On sp m → (∀ c < m.nCells,
        |(A.exact val).residual (ix (y.map val)) c - ((m.exact val).vol c * (val (ix y c) - val (st.sol.cell c)) / val dt
          + (m.exact val).netOutflow ((st.sol.exact val).outFlux (m.exact val) (ix (flux.map val)) (ix (δ.map val)) (ix (gamma.map val)) (ix (y.map val))) c)|
          ≤ κ * B * ((m.exact val).vol c / val dt)) → solver A st.sol.internal (.ok y)) :
    dslSolve e m bcs table fvSchemes fvSolution ops eqn st t dt (.ok ⟨{ st.sol with internal := y }, some y⟩) := by
  have hz := hF.zero
  obtain ⟨A0, hA0⟩ := empty_exists (F := F) hp
  rw [convDiff_solve e hup hA0 sch w junk flux δ gamma eqn ops hbuild bcs table fvSchemes fvSolution hd solver hso st hsy t dt]
  have hok := convDiff_assembled hF h hp e he hv hfl hδ hg ho hdata hdt hN hκ hA0
  have hruns := convDiff_runs e m sp flux δ gamma st.sol Coeff.default (Coeff.default.mulScalar (-1)) Coeff.default dt A0
  rw [← NR.bind_assoc', ← NR.bind_assoc']
  rw [← NR.bind_assoc'] at hok hruns
  obtain ⟨r, hr⟩ := hruns
  obtain ⟨A, rfl, hAon, hA⟩ := hok _ hr
  refine (NR.bind_def _ _ _).2 ⟨_, hr, (NR.bind_def _ _ _).2 ⟨.ok y, hmay A hAon fun c hc => ?_, rfl⟩⟩
  have hcell : ∀ c, ix (y.map val) c = val (ix y c) := fun c => ix_val hz y c
  have := hA B hMB hold (ix (y.map val)) (fun c hc => by rw [hcell]; exact hy c hc) c hc
  rwa [hcell] at this

end floatSide
end NeoFOAM
