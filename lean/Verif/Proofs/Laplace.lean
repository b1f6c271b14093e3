import Verif.Props.C18_Divergence

/-! # Explicit Laplacian and gradient (proof side) -/
namespace NeoFOAM
open Finset
variable {K V : Type} [Field K] [AddCommGroup V] [Module K V]

theorem fng_det {K V : Type} [Zero K] [Sub V] [Zero V] [SMul K V] {m : Mesh K} (h : m.WF) {φ : VolField K V} (hφ : φ.On m) {δ : List K} (hδ : δ.length = m.nFaces)
    (e : ExecKind) (dst : List V) (hd : dst.length = m.nFaces) (out : Res (List V)) :
    computeFaceNormalGrad e m φ δ dst out ↔ out = .ok ((List.range m.nFaces).map (m.fnGrad (ix δ) φ)) := by
  have hfa := h.faces
  have hc : ∀ c < m.nCells, rd φ.internal c = .ok (φ.cell c) := fun c hc => rd_getD 0 (by rw [hφ.int]; exact hc)
  have h1 : ∀ f, 0 ≤ f → f < m.nInternalFaces → fngInternalBody m φ δ f = .ok fun _ => m.fnGrad (ix δ) φ f := by
    intro f _ hf
    have rδ : rd δ f = .ok (ix δ f) := rd_getD 0 (by omega)
    simp [fngInternalBody, rδ, h.rd_nbr hf, h.rd_owner_int hf, hc _ (h.nbr_lt f hf), hc _ (h.own_lt_int hf),
      Mesh.fnGrad, hf]
  have h2 : ∀ f, m.nInternalFaces ≤ f → f < m.nFaces →
      fngBoundaryBody m φ δ f = .ok fun _ => m.fnGrad (ix δ) φ f := by
    intro f hf1 hf
    have rδ : rd δ f = .ok (ix δ f) := rd_getD 0 (by omega)
    have hb : f - m.nInternalFaces < m.nBoundaryFaces := by omega
    have rb : rd φ.bValue (f - m.nInternalFaces) = .ok (φ.bnd (f - m.nInternalFaces)) :=
      rd_getD 0 (by rw [hφ.val]; exact hb)
    simp [fngBoundaryBody, rδ, h.rd_fc hb, rb, hc _ (h.fc_lt _ hb), Mesh.fnGrad, Nat.not_lt.2 hf1]
  unfold computeFaceNormalGrad
  rw [NR.bind_iff (fun o => elemKernel_det e 0 m.nInternalFaces _ (fun f _ => m.fnGrad (ix δ) φ f) dst
    (by omega) h1 o)]
  rw [elemKernel_det e m.nInternalFaces _ _ (fun f _ => m.fnGrad (ix δ) φ f) _ (by simp) (by
    intro f ha hb
    exact h2 f ha (by simpa [hd] using hb))]
  have : ((dst.mapIdx fun i x => if 0 ≤ i ∧ i < m.nInternalFaces then m.fnGrad (ix δ) φ i else x).mapIdx
      fun i x => if m.nInternalFaces ≤ i ∧ i < (dst.mapIdx fun i x =>
        if 0 ≤ i ∧ i < m.nInternalFaces then m.fnGrad (ix δ) φ i else x).length then m.fnGrad (ix δ) φ i else x)
      = (List.range m.nFaces).map (m.fnGrad (ix δ) φ) := by
    apply List.ext_getElem
    · simp [hd]
    · intro i ha hb
      simp at ha
      by_cases hi : i < m.nInternalFaces
      · simp [hi, Nat.not_le.2 hi]
      · simp [Nat.le_of_not_lt hi, ha]
  rw [this]

theorem computeLaplacianExp_det {m : Mesh K} (h : m.WF) {φ : VolField K V} (hφ : φ.On m) {δ gamma : List K}
    (hδ : δ.length = m.nFaces) {s : Coeff K} {v : Nat → K} (hs : s.On m.nCells v) (e : ExecKind) (junk : Nat → V)
    (a : List V) (ha : a.length = m.nCells) (out : Res (List V)) :
    computeLaplacianExp e m δ junk gamma φ s a out ↔ out = .ok ((List.range m.nCells).map fun c =>
      (v c / m.vol c) • (a.getD c 0 + m.netOutflow (fun f => ix m.magFaceAreas f • m.fnGrad (ix δ) φ f) c)) := by
  unfold computeLaplacianExp
  rw [NR.bind_iff (fun o => fng_det h hφ hδ e _ (by simp) o)]
  refine gauss_ok h e _ _ (fun f hf => ?_) a ha _ (by simp [h.faces]) _ _ (scaleBody_ok h hs) _ rfl out
  have r1 : rd m.magFaceAreas f = .ok (ix m.magFaceAreas f) := rd_getD 0 (by rw [h.magLen]; exact hf)
  have r2 : rd ((List.range m.nFaces).map (m.fnGrad (ix δ) φ)) f = .ok (m.fnGrad (ix δ) φ f) := by
    rw [rd_getD 0 (by simpa using hf), getD_range_map _ _ _ hf]
  simp [r1, r2]

theorem computeGrad_det {m : Mesh K} (h : m.WF) {φ : VolField K K} (hφ : φ.On m) {w : List K}
    (hw : w.length = m.nFaces) (e : ExecKind) (junk : Nat → K) (a : List (Vec K)) (ha : a.length = m.nCells)
    (out : Res (List (Vec K))) :
    computeGrad e m w junk φ a out ↔ out = .ok ((List.range m.nCells).map fun c =>
      (1 / m.vol c) • (a.getD c 0 + m.netOutflow (fun f => m.linearFace (ix w) φ f • ix m.faceAreas f) c)) := by
  unfold computeGrad interpolate
  refine Iff.trans (NR.bind_iff (fun o => C26_linear h hφ hw e _ (by simp) o) out) ?_
  refine gauss_ok (K := K) h e _ _ (fun f hf => ?_) a ha _ (by simp [h.faces]) _ (fun c => 1 / m.vol c) ?_ _ rfl out
  · have r1 : rd m.faceAreas f = .ok (ix m.faceAreas f) := rd_getD 0 (by rw [h.areaLen]; exact hf)
    have r2 : rd ((List.range m.nFaces).map (m.linearFace (ix w) φ)) f = .ok (m.linearFace (ix w) φ f) := by
      rw [rd_getD 0 (by simpa using hf), getD_range_map _ _ _ hf]
    simp [r1, r2]
  · intro c hc
    have : rd m.cellVolumes c = .ok (m.vol c) := rd_getD 0 (by rw [h.volLen]; exact hc)
    simp [gradScaleBody, this]

end NeoFOAM
