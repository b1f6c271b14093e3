import Verif.Proofs.Assembly
import Verif.Proofs.Laplace

/-! # The implicit operators (proof side) -/
namespace NeoFOAM
open Finset
variable {K : Type} [Field K] {m : Mesh K} {sp : SparsityPattern}

/-- Matrix changes of the implicit divergence. -/
def divDelta [LinearOrder K] (m : Mesh K) (flux vf : Nat → K) (s : Nat → K) : Slot → K
  | .diag c => s c * ((∑ f ∈ range m.nInternalFaces, ((if m.own f = c then (if 0 ≤ flux f then flux f else 0) else 0)
      - (if m.nbr f = c then (if 0 ≤ flux f then 0 else flux f) else 0)))
      + ∑ b ∈ range m.nBoundaryFaces, if m.fc b = c then flux (m.nInternalFaces + b) * (1 - vf b) else 0)
  | .upper f => (if 0 ≤ flux f then 0 else flux f) * s (m.own f)
  | .lower f => - (if 0 ≤ flux f then flux f else 0) * s (m.nbr f)

/-- Right hand side changes of the implicit divergence. -/
def divRhs (m : Mesh K) (flux vf ref : Nat → K) (s : Nat → K) (c : Nat) : K :=
  - (s c * ∑ b ∈ range m.nBoundaryFaces, if m.fc b = c then flux (m.nInternalFaces + b) * (vf b * ref b) else 0)

theorem rd_rowOffs (hp : sp.For m) {ls : LinearSystem K} (ho : ls.On sp m) {c : Nat} (hc : c < m.nCells) :
    rd ls.matrix.rowOffs c = .ok (sp.rowPtrs.getD c 0) := by
  rw [ho.rowsEq]; exact rd_getD 0 (by rw [hp.rows.len]; omega)

omit [Field K] in
theorem bndCell_inj (hb : m.BndDistinct) {stop : Nat} (hs : stop = m.nInternalFaces + m.nBoundaryFaces) :
    ∀ i j, m.nInternalFaces ≤ i → i < stop → m.nInternalFaces ≤ j → j < stop →
      m.fc (i - m.nInternalFaces) = m.fc (j - m.nInternalFaces) → i = j := by
  intro i j h1 h2 h3 h4 h5
  have := hb _ (by omega) _ (by omega) h5
  omega

theorem computeDivImp_ok [LinearOrder K] (h : m.WF) (hp : sp.For m) {φ : VolField K K} (hφ : φ.On m) {flux : List K}
    (hfl : flux.length = m.nFaces) {scal : Coeff K} {s : Nat → K} (hs : scal.On m.nCells s) (e : ExecKind)
    (he : e = .serial ∨ m.BndDistinct) (ls : LinearSystem K) (ho : ls.On sp m) :
    (computeDivImp e m sp flux φ scal ls).Ok (fun ls' => Assembles m sp ls ls'
      (divDelta m (ix flux) (ix φ.bVF) s) (divRhs m (ix flux) (ix φ.bVF) (ix φ.bRefValue) s)) := by
  have hfa := h.faces
  unfold computeDivImp
  refine (faceLoop_ok h hp e _
    (fun f => - (if 0 ≤ ix flux f then (1 : K) else 0) * ix flux f * s (m.nbr f))
    (fun f => ix flux f * (1 - (if 0 ≤ ix flux f then (1 : K) else 0)) * s (m.own f))
    (fun f => - (if 0 ≤ ix flux f then (1 : K) else 0) * ix flux f * s (m.own f))
    (fun f => ix flux f * (1 - (if 0 ≤ ix flux f then (1 : K) else 0)) * s (m.nbr f)) ls ho ?_).bind ?_
  · intro f hf
    have r1 : rd flux f = .ok (ix flux f) := rd_getD 0 (by omega)
    have r2 : rd sp.neighbourOffset f = .ok (sp.neighbourOffset.getD f 0) := rd_getD 0 (by rw [hp.nlen]; exact hf)
    have r3 : rd sp.ownerOffset f = .ok (sp.ownerOffset.getD f 0) := rd_getD 0 (by rw [hp.olen]; exact hf)
    have r4 : ∀ c < m.nCells, rd sp.diagOffset c = .ok (sp.diagOffset.getD c 0) :=
      fun c hc => rd_getD 0 (by rw [hp.dlen]; exact hc)
    have o1 := h.own_lt_int hf
    have o2 := h.nbr_lt f hf
    simp [divImpInternal, r1, r2, r3, r4 _ o1, r4 _ o2, h.rd_owner_int hf, h.rd_nbr hf, rd_rowOffs hp ho o1,
      rd_rowOffs hp ho o2, hs _ o1, hs _ o2, SparsityPattern.addr]
  intro ls1 a1
  refine (diagLoop_ok h hp e m.nInternalFaces flux.length (fun f => m.fc (f - m.nInternalFaces)) _
    (fun f => ix flux f * s (m.fc (f - m.nInternalFaces)) * (1 - ix φ.bVF (f - m.nInternalFaces)))
    (fun f => - (ix flux f * s (m.fc (f - m.nInternalFaces)) * (ix φ.bVF (f - m.nInternalFaces) * ix φ.bRefValue (f - m.nInternalFaces))))
    (fun f => (· + ix flux f * s (m.fc (f - m.nInternalFaces)) * (1 - ix φ.bVF (f - m.nInternalFaces))))
    (fun f => (· - ix flux f * s (m.fc (f - m.nInternalFaces)) * (ix φ.bVF (f - m.nInternalFaces) * ix φ.bRefValue (f - m.nInternalFaces))))
    ls1 a1.on (fun i h1 h2 => h.fc_lt _ (by omega)) (fun _ _ => rfl) (fun _ _ => sub_eq_add_neg _ _) ?_ ?_).mono ?_
  · intro f h1 h2
    have hb : f - m.nInternalFaces < m.nBoundaryFaces := by omega
    have r1 : rd flux f = .ok (ix flux f) := rd_getD 0 (by omega)
    have r2 : rd φ.bVF (f - m.nInternalFaces) = .ok (ix φ.bVF (f - m.nInternalFaces)) := rd_getD 0 (by rw [hφ.vf]; exact hb)
    have r3 : rd φ.bRefValue (f - m.nInternalFaces) = .ok (ix φ.bRefValue (f - m.nInternalFaces)) :=
      rd_getD 0 (by rw [hφ.ref]; exact hb)
    have o := h.fc_lt _ hb
    have r4 : rd sp.diagOffset (m.fc (f - m.nInternalFaces)) = .ok (sp.diagOffset.getD (m.fc (f - m.nInternalFaces)) 0) :=
      rd_getD 0 (by rw [hp.dlen]; exact o)
    simp [divImpBoundary, r1, r2, r3, r4, h.rd_fc hb, rd_rowOffs hp a1.on o, hs _ o, SparsityPattern.addr]
  · exact he.imp id (fun hb => bndCell_inj hb (by omega))
  · intro ls2 a2
    refine (a1.trans a2).congr ?_ ?_
    · intro sl hsl
      have hsub : flux.length - m.nInternalFaces = m.nBoundaryFaces := by omega
      cases sl with
      | diag c =>
        simp only [faceDelta, diagDelta, divDelta, hsub, Nat.add_sub_cancel_left, mul_add, Finset.mul_sum]
        congr 1
        · apply Finset.sum_congr rfl
          intro f _
          by_cases c1 : m.own f = c <;> by_cases c2 : m.nbr f = c <;> by_cases c3 : 0 ≤ ix flux f <;>
            simp [c1, c2, c3] <;> ring
        · apply Finset.sum_congr rfl
          intro b _
          by_cases c1 : m.fc b = c <;> simp [c1]
          ring
      | upper f =>
        simp only [faceDelta, diagDelta, divDelta, add_zero]
        by_cases c3 : 0 ≤ ix flux f <;> simp [c3]
      | lower f =>
        simp only [faceDelta, diagDelta, divDelta, add_zero]
        by_cases c3 : 0 ≤ ix flux f <;> simp [c3]
    · intro c _
      have hsub : flux.length - m.nInternalFaces = m.nBoundaryFaces := by omega
      simp only [divRhs, hsub, Nat.add_sub_cancel_left, zero_add, Finset.mul_sum]
      rw [← Finset.sum_neg_distrib]
      apply Finset.sum_congr rfl
      intro b _
      by_cases c1 : m.fc b = c <;> simp [c1]
      ring

/-- Face coefficient of the Laplacian. -/
def lapCoef (m : Mesh K) (δ gamma : Nat → K) (f : Nat) : K := gamma f * δ f * ix m.magFaceAreas f

/-- Matrix changes of the implicit Laplacian. -/
def lapDelta (m : Mesh K) (δ gamma vf : Nat → K) (s : Nat → K) : Slot → K
  | .diag c => - (s c * ((∑ f ∈ range m.nInternalFaces, ((if m.own f = c then lapCoef m δ gamma f else 0)
      + (if m.nbr f = c then lapCoef m δ gamma f else 0)))
      + ∑ b ∈ range m.nBoundaryFaces, if m.fc b = c then lapCoef m δ gamma (m.nInternalFaces + b) * vf b else 0))
  | .upper f => lapCoef m δ gamma f * s (m.own f)
  | .lower f => lapCoef m δ gamma f * s (m.nbr f)

/-- Right hand side changes of the implicit Laplacian. -/
def lapRhs (m : Mesh K) (δ gamma vf ref rg : Nat → K) (s : Nat → K) (c : Nat) : K :=
  - (s c * ∑ b ∈ range m.nBoundaryFaces, if m.fc b = c then gamma (m.nInternalFaces + b) * ix m.magFaceAreas (m.nInternalFaces + b)
      * (vf b * δ (m.nInternalFaces + b) * ref b + (1 - vf b) * rg b) else 0)

theorem computeLaplacianImpl_ok (h : m.WF) (hp : sp.For m) {φ : VolField K K} (hφ : φ.On m) {δ gamma : List K}
    (hδ : δ.length = m.nFaces) (hg : gamma.length = m.nFaces) {scal : Coeff K} {s : Nat → K} (hs : scal.On m.nCells s)
    (e : ExecKind) (he : e = .serial ∨ m.BndDistinct) (ls : LinearSystem K) (ho : ls.On sp m) :
    (computeLaplacianImpl e m sp δ gamma φ scal ls).Ok (fun ls' => Assembles m sp ls ls'
      (lapDelta m (ix δ) (ix gamma) (ix φ.bVF) s)
      (lapRhs m (ix δ) (ix gamma) (ix φ.bVF) (ix φ.bRefValue) (ix φ.bRefGrad) s)) := by
  have hfa := h.faces
  unfold computeLaplacianImpl
  refine (faceLoop_ok h hp e _
    (fun f => ix δ f * ix gamma f * ix m.magFaceAreas f * s (m.nbr f))
    (fun f => ix δ f * ix gamma f * ix m.magFaceAreas f * s (m.own f))
    (fun f => ix δ f * ix gamma f * ix m.magFaceAreas f * s (m.own f))
    (fun f => ix δ f * ix gamma f * ix m.magFaceAreas f * s (m.nbr f)) ls ho ?_).bind ?_
  · intro f hf
    have r1 : rd δ f = .ok (ix δ f) := rd_getD 0 (by omega)
    have r1' : rd gamma f = .ok (ix gamma f) := rd_getD 0 (by omega)
    have r1'' : rd m.magFaceAreas f = .ok (ix m.magFaceAreas f) := rd_getD 0 (by rw [h.magLen]; omega)
    have r2 : rd sp.neighbourOffset f = .ok (sp.neighbourOffset.getD f 0) := rd_getD 0 (by rw [hp.nlen]; exact hf)
    have r3 : rd sp.ownerOffset f = .ok (sp.ownerOffset.getD f 0) := rd_getD 0 (by rw [hp.olen]; exact hf)
    have r4 : ∀ c < m.nCells, rd sp.diagOffset c = .ok (sp.diagOffset.getD c 0) :=
      fun c hc => rd_getD 0 (by rw [hp.dlen]; exact hc)
    have o1 := h.own_lt_int hf
    have o2 := h.nbr_lt f hf
    simp [lapImpInternal, r1, r1', r1'', r2, r3, r4 _ o1, r4 _ o2, h.rd_owner_int hf, h.rd_nbr hf, rd_rowOffs hp ho o1,
      rd_rowOffs hp ho o2, hs _ o1, hs _ o2, SparsityPattern.addr]
  intro ls1 a1
  set n := m.nInternalFaces with hn
  refine (diagLoop_ok h hp e n gamma.length (fun f => m.fc (f - n)) _
    (fun f => - (ix gamma f * ix m.magFaceAreas f * s (m.fc (f - n)) * ix φ.bVF (f - n) * ix δ f))
    (fun f => - (ix gamma f * ix m.magFaceAreas f * s (m.fc (f - n)) * (ix φ.bVF (f - n) * ix δ f * ix φ.bRefValue (f - n)
      + (1 - ix φ.bVF (f - n)) * ix φ.bRefGrad (f - n))))
    (fun f => (· - ix gamma f * ix m.magFaceAreas f * s (m.fc (f - n)) * ix φ.bVF (f - n) * ix δ f))
    (fun f => (· - ix gamma f * ix m.magFaceAreas f * s (m.fc (f - n)) * (ix φ.bVF (f - n) * ix δ f * ix φ.bRefValue (f - n)
      + (1 - ix φ.bVF (f - n)) * ix φ.bRefGrad (f - n))))
    ls1 a1.on (fun i h1 h2 => h.fc_lt _ (by omega)) (fun _ _ => sub_eq_add_neg _ _) (fun _ _ => sub_eq_add_neg _ _) ?_ ?_).mono ?_
  · intro f h1 h2
    have hb : f - n < m.nBoundaryFaces := by omega
    have r1 : rd δ f = .ok (ix δ f) := rd_getD 0 (by omega)
    have r1' : rd gamma f = .ok (ix gamma f) := rd_getD 0 (by omega)
    have r1'' : rd m.magFaceAreas f = .ok (ix m.magFaceAreas f) := rd_getD 0 (by rw [h.magLen]; omega)
    have r2 : rd φ.bVF (f - n) = .ok (ix φ.bVF (f - n)) := rd_getD 0 (by rw [hφ.vf]; exact hb)
    have r3 : rd φ.bRefValue (f - n) = .ok (ix φ.bRefValue (f - n)) := rd_getD 0 (by rw [hφ.ref]; exact hb)
    have r5 : rd φ.bRefGrad (f - n) = .ok (ix φ.bRefGrad (f - n)) := rd_getD 0 (by rw [hφ.grad]; exact hb)
    have o := h.fc_lt _ hb
    have r4 : rd sp.diagOffset (m.fc (f - n)) = .ok (sp.diagOffset.getD (m.fc (f - n)) 0) :=
      rd_getD 0 (by rw [hp.dlen]; exact o)
    have r6 := h.rd_fc hb
    simp [lapImpBoundary, ← hn, r1, r1', r1'', r2, r3, r4, r5, r6, rd_rowOffs hp a1.on o, hs _ o, SparsityPattern.addr]
  · exact he.imp id (fun hb => bndCell_inj hb (by omega))
  · intro ls2 a2
    have hsub : gamma.length - n = m.nBoundaryFaces := by omega
    refine (a1.trans a2).congr ?_ ?_
    · intro sl hsl
      cases sl with
      | diag c =>
        simp only [faceDelta, diagDelta, lapDelta, hsub, Nat.add_sub_cancel_left, mul_add, Finset.mul_sum, neg_add, ← hn]
        rw [← Finset.sum_neg_distrib, ← Finset.sum_neg_distrib]
        congr 1
        · apply Finset.sum_congr rfl
          intro f _
          by_cases c1 : m.own f = c <;> by_cases c2 : m.nbr f = c <;> simp [c1, c2, lapCoef] <;> ring
        · apply Finset.sum_congr rfl
          intro b _
          by_cases c1 : m.fc b = c <;> simp [c1, lapCoef]
          ring
      | upper f => simp only [faceDelta, diagDelta, lapDelta, add_zero, lapCoef]; ring
      | lower f => simp only [faceDelta, diagDelta, lapDelta, add_zero, lapCoef]; ring
    · intro c _
      simp only [lapRhs, hsub, Nat.add_sub_cancel_left, zero_add, Finset.mul_sum, ← hn]
      rw [← Finset.sum_neg_distrib]
      apply Finset.sum_congr rfl
      intro b _
      by_cases c1 : m.fc b = c <;> simp [c1]
      ring

theorem ddtImplicit_ok (h : m.WF) (hp : sp.For m) {old : List K} (hold : old.length = m.nCells) {scal : Coeff K} {s : Nat → K}
    (hs : scal.On m.nCells s) (dt : K) (e : ExecKind) (ls : LinearSystem K) (ho : ls.On sp m) :
    (ddtImplicit e m sp old scal dt ls).Ok (fun ls' => Assembles m sp ls ls'
      (diagDelta fun c => s c * m.vol c / dt) (fun c => s c * m.vol c / dt * ix old c)) := by
  unfold ddtImplicit
  refine (diagLoop_ok h hp e 0 old.length (fun c => c) _ (fun c => s c * m.vol c * (1 / dt))
    (fun c => s c * m.vol c * (1 / dt) * ix old c) (fun c => (· + s c * m.vol c * (1 / dt)))
    (fun c => (· + s c * m.vol c * (1 / dt) * ix old c)) ls ho (fun i _ hi => by omega) (fun _ _ => rfl) (fun _ _ => rfl)
    ?_ (Or.inr fun i j _ _ _ _ hij => hij)).mono ?_
  · intro c _ hc
    have hc : c < m.nCells := by omega
    have r1 : rd old c = .ok (ix old c) := rd_getD 0 (by omega)
    have r2 : rd m.cellVolumes c = .ok (m.vol c) := rd_getD 0 (by rw [h.volLen]; exact hc)
    have r4 : rd sp.diagOffset c = .ok (sp.diagOffset.getD c 0) := rd_getD 0 (by rw [hp.dlen]; exact hc)
    simp [ddtImpBody, r1, r2, r4, rd_rowOffs hp ho hc, hs c hc, SparsityPattern.addr]
  · intro ls1 a1
    refine a1.congr ?_ ?_
    · intro sl hsl
      cases sl with
      | diag c =>
        have : c < m.nCells := hsl
        simp only [diagDelta, Nat.sub_zero, Nat.zero_add]
        rw [Finset.sum_ite_eq' (range old.length) c]
        simp [hold, this, div_eq_mul_inv]
      | upper f => rfl
      | lower f => rfl
    · intro c hc
      simp only [Nat.sub_zero, Nat.zero_add]
      rw [Finset.sum_ite_eq' (range old.length) c]
      simp [hold, hc, div_eq_mul_inv]

theorem sourceImplicit_ok (h : m.WF) (hp : sp.For m) {k : List K} (hk : k.length = m.nCells) {scal : Coeff K} {s : Nat → K}
    (hs : scal.On m.nCells s) (e : ExecKind) (ls : LinearSystem K) (ho : ls.On sp m) :
    (sourceImplicit e m sp k scal ls).Ok (fun ls' => Assembles m sp ls ls'
      (diagDelta fun c => s c * ix k c * m.vol c) (fun _ => 0)) := by
  unfold sourceImplicit
  rw [hk]
  refine diagOnly_ok h hp e _ (fun c => s c * ix k c * m.vol c) (fun c => (· + s c * ix k c * m.vol c)) ls ho (fun _ _ => rfl) ?_
  intro c hc
  have r1 : rd k c = .ok (ix k c) := rd_getD 0 (by omega)
  have r2 : rd m.cellVolumes c = .ok (m.vol c) := rd_getD 0 (by rw [h.volLen]; exact hc)
  have r4 : rd sp.diagOffset c = .ok (sp.diagOffset.getD c 0) := rd_getD 0 (by rw [hp.dlen]; exact hc)
  simp [sourceImpBody, r1, r2, r4, rd_rowOffs hp ho hc, hs c hc, SparsityPattern.addr]

theorem computeDivImp_runs [LinearOrder K] (e : ExecKind) (m : Mesh K) (sp : SparsityPattern) (flux : List K) (φ : VolField K K)
    (scal : Coeff K) (ls : LinearSystem K) : (computeDivImp e m sp flux φ scal ls).Runs :=
  NR.Runs.bind (launchLS_runs _ _ _ _ _) (fun _ _ => launchLS_runs _ _ _ _ _)

theorem computeLaplacianImpl_runs (e : ExecKind) (m : Mesh K) (sp : SparsityPattern) (δ gamma : List K) (φ : VolField K K)
    (scal : Coeff K) (ls : LinearSystem K) : (computeLaplacianImpl e m sp δ gamma φ scal ls).Runs :=
  NR.Runs.bind (launchLS_runs _ _ _ _ _) (fun _ _ => launchLS_runs _ _ _ _ _)

/-- A determined assembly: it has exactly one outcome. -/
theorem Assembles.det (hp : sp.For m) {ls : LinearSystem K} {dv : Slot → K} {dr : Nat → K} {R : NR (LinearSystem K)}
    (hR : R.Ok (fun ls' => Assembles m sp ls ls' dv dr)) (hr : R.Runs) :
    ∃ ls', Assembles m sp ls ls' dv dr ∧ ∀ out, R out ↔ out = .ok ls' := by
  obtain ⟨o, ho⟩ := hr
  obtain ⟨ls', rfl, ha⟩ := hR o ho
  refine ⟨ls', ha, fun out => ⟨fun h => ?_, fun h => h ▸ ho⟩⟩
  obtain ⟨l2, rfl, h2⟩ := hR out h
  rw [h2.unique hp ha]

end NeoFOAM
