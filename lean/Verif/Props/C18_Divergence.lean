import Verif.Model.Operators
import Verif.Proofs.Gauss
import Verif.Props.C26_Interpolation
import Mathlib.Algebra.Module.BigOperators

/-!
# C18 – explicit divergence and surface integral: Gauss sums, conservative
-/
namespace NeoFOAM
open Finset
variable {K V : Type} [Field K] [AddCommGroup V] [Module K V]

section proofs

theorem ix_range_map {V : Type} [Zero V] (n : Nat) (g : Nat → V) (i : Nat) (h : i < n) : ix ((List.range n).map g) i = g i :=
  getD_range_map n g i h

theorem computeDivExp_det [LinearOrder K] {m : Mesh K} (h : m.WF) {φ : VolField K V} (hφ : φ.On m) {w flux : List K}
    (hw : w.length = m.nFaces) (hfl : flux.length = m.nFaces) (sch : InterpScheme) {s : Coeff K} {v : Nat → K}
    (hs : s.On m.nCells v) (e : ExecKind) (junk : Nat → V) (a : List V) (ha : a.length = m.nCells)
    (out : Res (List V)) :
    computeDivExp e m sch w junk flux φ s a out ↔ out = .ok ((List.range m.nCells).map fun c =>
      (v c / m.vol c) •
        (a.getD c 0 + m.netOutflow (fun f => ix flux f • Mesh.schemeFace sch m (ix w) (ix flux) φ f) c)) := by
  unfold computeDivExp
  rw [NR.bind_iff (fun o => (C26_scheme h hφ hw hfl sch e _ (by simp) o).1)]
  rw [computeDiv_det h e hfl (by simp) hs a ha]
  have : ∀ c, m.netOutflow (fun f => ix flux f • ix ((List.range m.nFaces).map
      (Mesh.schemeFace sch m (ix w) (ix flux) φ)) f) c
      = m.netOutflow (fun f => ix flux f • Mesh.schemeFace sch m (ix w) (ix flux) φ f) c := by
    intro c
    apply netOutflow_congr h
    intro f hf
    rw [ix_range_map _ _ _ hf]
  simp only [this]

theorem surfaceIntegrate_det {m : Mesh K} (h : m.WF) {flux : List V} (hfl : flux.length = m.nFaces) {s : Coeff K}
    {v : Nat → K} (hs : s.On m.nCells v) (e : ExecKind) (a : List V) (ha : a.length = m.nCells)
    (out : Res (List V)) :
    surfaceIntegrate e m flux s a out ↔ out = .ok ((List.range m.nCells).map fun c =>
      (v c / m.vol c) • (a.getD c 0 + m.netOutflow (ix flux) c)) :=
  gauss_ok h e (rd flux) (ix flux) (fun f hf => rd_getD 0 (by omega)) a ha _ (by rw [h.fcLen]) _ _
    (scaleBody_ok h hs) _ h.volLen out

theorem addAssign_det {V : Type} [Add V] [Zero V] (e : ExecKind) (n : Nat) (g : Nat → V) (a : List V) (ha : a.length = n)
    (out : Res (List V)) :
    addAssign e a ((List.range n).map g) out ↔ out = .ok ((List.range n).map fun c => a.getD c 0 + g c) := by
  unfold addAssign
  rw [if_neg (by simp [ha])]
  rw [elemKernel_det e 0 a.length _ (fun i x => x + g i) a le_rfl (by
    intro i _ hi
    have : rd ((List.range n).map g) i = .ok (g i) := by
      rw [rd_getD 0 (by simp; omega), getD_range_map n g i (by omega)]
    simp [this])]
  have : (a.mapIdx fun i x => if 0 ≤ i ∧ i < a.length then x + g i else x)
      = (List.range n).map fun c => a.getD c 0 + g c := by
    apply List.ext_getElem
    · simp [ha]
    · intro i h1 h2
      simp at h1
      simp [h1, List.getD]
  rw [this]

theorem replicate_getD {V : Type} [Zero V] (n c : Nat) : (List.replicate n (0 : V)).getD c 0 = 0 := by
  simp only [List.getD, List.getElem?_replicate]
  split <;> rfl

end proofs

/-- **C18, divergence operator**: on every executor and schedule, evaluating the divergence operator adds in
each cell `scale / V` times the flux-weighted face values leaving minus entering the cell. -/
theorem C18_div [LinearOrder K] {m : Mesh K} (h : m.WF) {φ : VolField K V} (hφ : φ.On m) {w flux : List K}
    (hw : w.length = m.nFaces) (hfl : flux.length = m.nFaces) (sch : InterpScheme) {s : Coeff K} {v : Nat → K}
    (hs : s.On m.nCells v) (e : ExecKind) (junk : Nat → V) (src : List V) (ha : src.length = m.nCells)
    (out : Res (List V)) :
    divExplicit e m (some sch) w junk flux φ s src out ↔ out = .ok ((List.range m.nCells).map fun c =>
      src.getD c 0 + (v c / m.vol c) •
        m.netOutflow (fun f => ix flux f • Mesh.schemeFace sch m (ix w) (ix flux) φ f) c) := by
  refine Iff.trans (NR.bind_iff (fun o => computeDivExp_det h hφ hw hfl sch hs e junk _ (by simp [ha]) o) out) ?_
  rw [addAssign_det e m.nCells _ src ha]
  simp only [replicate_getD, zero_add]

/-- **C18, surface integral**. -/
theorem C18_surfaceIntegrate {m : Mesh K} (h : m.WF) {flux : List V} (hfl : flux.length = m.nFaces) {s : Coeff K}
    {v : Nat → K} (hs : s.On m.nCells v) (e : ExecKind) (src : List V) (ha : src.length = m.nCells)
    (out : Res (List V)) :
    surfaceIntegrateExplicit e m flux s src out ↔ out = .ok ((List.range m.nCells).map fun c =>
      src.getD c 0 + (v c / m.vol c) • m.netOutflow (ix flux) c) := by
  unfold surfaceIntegrateExplicit
  rw [NR.bind_iff (fun o => surfaceIntegrate_det h hfl hs e _ (by simp [ha]) o)]
  rw [addAssign_det e m.nCells _ src ha]
  simp only [replicate_getD, zero_add]

/-- **C18, conservation**: with unit scaling and a zero target, the volume-weighted sum of the computed
divergence is exactly the flux of the boundary values through the boundary faces. -/
theorem C18_div_conservative [LinearOrder K] {m : Mesh K} (h : m.WF) (hv : ∀ c < m.nCells, m.vol c ≠ 0)
    {φ : VolField K V} (hφ : φ.On m) {w flux : List K} (hw : w.length = m.nFaces) (hfl : flux.length = m.nFaces)
    (sch : InterpScheme) (e : ExecKind) (junk : Nat → V) (r : List V)
    (hr : divExplicit e m (some sch) w junk flux φ Coeff.default (List.replicate m.nCells 0) (.ok r)) :
    ∑ c ∈ range m.nCells, m.vol c • r.getD c 0 = ∑ b ∈ range m.nBoundaryFaces,
      ix flux (m.nInternalFaces + b) • (ix w (m.nInternalFaces + b) • φ.bnd b) := by
  rw [C18_div h hφ hw hfl sch (v := fun _ => 1) (fun c _ => rfl) e junk _ (by simp)] at hr
  cases hr
  rw [show (∑ c ∈ range m.nCells, m.vol c • ((List.range m.nCells).map fun c =>
      (List.replicate m.nCells (0 : V)).getD c 0 + ((1 : K) / m.vol c) • m.netOutflow (fun f => ix flux f •
        Mesh.schemeFace sch m (ix w) (ix flux) φ f) c).getD c 0)
      = ∑ c ∈ range m.nCells, m.netOutflow (fun f => ix flux f • Mesh.schemeFace sch m (ix w) (ix flux) φ f) c from ?_]
  · rw [sum_netOutflow h]
    exact Finset.sum_congr rfl (fun b _ => by rw [C26_boundary])
  · refine Finset.sum_congr rfl (fun c hc => ?_)
    rw [mem_range] at hc
    rw [getD_range_map _ _ _ hc, replicate_getD, zero_add, smul_smul, mul_one_div_cancel (hv c hc), one_smul]

/-- **C18, conservation of the surface integral**. -/
theorem C18_surfaceIntegrate_conservative {m : Mesh K} (h : m.WF) (hv : ∀ c < m.nCells, m.vol c ≠ 0)
    {flux : List V} (hfl : flux.length = m.nFaces) (e : ExecKind) (r : List V)
    (hr : surfaceIntegrateExplicit e m flux Coeff.default (List.replicate m.nCells 0) (.ok r)) :
    ∑ c ∈ range m.nCells, m.vol c • r.getD c 0 = ∑ b ∈ range m.nBoundaryFaces, ix flux (m.nInternalFaces + b) := by
  rw [C18_surfaceIntegrate h hfl (v := fun _ => 1) (fun c _ => rfl) e _ (by simp)] at hr
  cases hr
  rw [← sum_netOutflow h]
  refine Finset.sum_congr rfl (fun c hc => ?_)
  rw [mem_range] at hc
  rw [getD_range_map _ _ _ hc, replicate_getD, zero_add, smul_smul, mul_one_div_cancel (hv c hc), one_smul]

omit [Field K] [Module K V] in
/-- **C18, internal faces cancel in every pair**: a flux through one internal face only changes its two cells,
by opposite volume-weighted amounts. -/
theorem C18_cancellation (m : Mesh K) (f : Nat) (hf : f < m.nInternalFaces) (x : V) (c : Nat) :
    m.netOutflow (fun g => if g = f then x else 0) c
      = (if c = m.own f then x else 0) - (if c = m.nbr f then x else 0) := by
  unfold Mesh.netOutflow
  have hb : ∀ b ∈ range m.nBoundaryFaces,
      (if m.fc b = c then (if m.nInternalFaces + b = f then x else 0) else 0) = 0 := by
    intro b _
    rw [if_neg (show ¬ m.nInternalFaces + b = f by omega)]
    simp
  have hz : (∑ b ∈ range m.nBoundaryFaces, if m.fc b = c then (if m.nInternalFaces + b = f then x else 0) else 0) = 0 :=
    Finset.sum_eq_zero hb
  have hs : ∀ cell : Nat → Nat, (∑ g ∈ range m.nInternalFaces, if cell g = c then (if g = f then x else 0) else 0)
      = if c = cell f then x else 0 := by
    intro cell
    rw [Finset.sum_eq_single f]
    · simp [eq_comm]
    · intro g _ hg; simp [hg]
    · intro hn; exact absurd (mem_range.2 hf) hn
  rw [hs, hs, hz, add_zero]

/-- **C18 does not hold** for the overload of `div` that returns a field: it sums into freshly allocated memory,
so what it returns depends on what that memory contained. -/
theorem C18_returned_violation : ∃ (m : Mesh ℚ), m.WF ∧ (∀ c < m.nCells, m.vol c ≠ 0) ∧
    ∃ (φ : VolField ℚ ℚ), φ.On m ∧ ∃ (w flux : List ℚ), w.length = m.nFaces ∧ flux.length = m.nFaces ∧
    ∃ junk₁ junk₂ r₁ r₂, r₁ ≠ r₂ ∧
      divReturned .serial m .upwind w (fun _ => 0) junk₁ flux φ Coeff.default (.ok r₁) ∧
      divReturned .serial m .upwind w (fun _ => 0) junk₂ flux φ Coeff.default (.ok r₂) := by
  have hv : ∀ c < row3.nCells, row3.vol c ≠ 0 := by
    intro c hc
    have : c < 3 := hc
    interval_cases c <;> simp [Mesh.vol, row3, topoMesh]
  refine ⟨row3, row3_wf, hv, row3Field, row3Field_on, [1, 1, 1, 1], [0, 0, 0, 0], rfl, rfl,
    fun _ => 0, fun _ => 1, _, _, ?_,
    (computeDivExp_det row3_wf row3Field_on rfl rfl .upwind (v := fun _ => 1) (fun _ _ => rfl) .serial _ _
      (by simp) _).2 rfl,
    (computeDivExp_det row3_wf row3Field_on rfl rfl .upwind (v := fun _ => 1) (fun _ _ => rfl) .serial _ _
      (by simp) _).2 rfl⟩
  intro heq
  have := congrArg (fun l => l.getD 0 0) heq
  simp only [getD_range_map _ _ 0 (show 0 < row3.nCells by decide)] at this
  have h0 := hv 0 (by decide)
  rw [smul_eq_mul, smul_eq_mul] at this
  have := mul_left_cancel₀ (one_div_ne_zero h0) this
  rw [add_left_inj] at this
  norm_num at this

/-- The hypotheses can be met: a unit flux through three cells in a row. -/
example (out : Res (List ℚ)) : divExplicit .parallel row3 (some .upwind) [1, 1, 1, 1] (fun _ => 0) [1, 1, -1, 1]
    row3Field (Coeff.ofScalar 2) [100, 100, 100] out ↔ out = .ok [88, 108, 108] := by
  rw [C18_div row3_wf row3Field_on rfl rfl .upwind (v := fun _ => 2) (fun _ _ => rfl) .parallel _ _ rfl]
  have : ((List.range row3.nCells).map fun c => [(100 : ℚ), 100, 100].getD c 0 + ((2 : ℚ) / row3.vol c) •
      row3.netOutflow (fun f => ix [(1 : ℚ), 1, -1, 1] f • Mesh.schemeFace .upwind row3 (ix [1, 1, 1, 1])
        (ix [1, 1, -1, 1]) row3Field f) c) = [88, 108, 108] := by
    simp [show row3.nCells = 3 from rfl, List.range_succ, Mesh.netOutflow, Finset.sum_range_succ, Mesh.schemeFace,
      Mesh.upwindFace, ix, VolField.cell, VolField.bnd, row3Field, row3, topoMesh, Mesh.own, Mesh.nbr, Mesh.fc,
      Mesh.vol]
    norm_num
  rw [this]

end NeoFOAM
