import Verif.Proofs.Laplace

/-!
# C44 – explicit operators add to their target
-/
namespace NeoFOAM
open Finset
variable {K V : Type} [Field K] [AddCommGroup V] [Module K V]

/-- An operation on a source field of `n` cells adds the amounts `val`, whatever the source contains, and has no
other outcome. -/
def AddsTo (n : Nat) (op : List V → NR (List V)) (val : Nat → V) : Prop :=
  ∀ (src : List V), src.length = n → ∀ out, op src out ↔ out = .ok ((List.range n).map fun c => src.getD c 0 + val c)

/-- **C44, divergence**: one amount per cell serves every executor, every content of fresh memory and every
source. -/
theorem C44_div [LinearOrder K] {m : Mesh K} (h : m.WF) {φ : VolField K V} (hφ : φ.On m) {w flux : List K}
    (hw : w.length = m.nFaces) (hfl : flux.length = m.nFaces) (sch : InterpScheme) {s : Coeff K} {v : Nat → K}
    (hs : s.On m.nCells v) :
    ∃ val : Nat → V, (∀ c, val c = (v c / m.vol c) •
        m.netOutflow (fun f => ix flux f • Mesh.schemeFace sch m (ix w) (ix flux) φ f) c) ∧
      ∀ e junk, AddsTo m.nCells (divExplicit e m (some sch) w junk flux φ s) val :=
  ⟨_, fun _ => rfl, fun e junk src hsrc out => C18_div h hφ hw hfl sch hs e junk src hsrc out⟩

/-- **C44, surface integral**. -/
theorem C44_surfaceIntegrate {m : Mesh K} (h : m.WF) {flux : List V} (hfl : flux.length = m.nFaces) {s : Coeff K}
    {v : Nat → K} (hs : s.On m.nCells v) :
    ∃ val : Nat → V, (∀ c, val c = (v c / m.vol c) • m.netOutflow (ix flux) c) ∧
      ∀ e, AddsTo m.nCells (surfaceIntegrateExplicit e m flux s) val :=
  ⟨_, fun _ => rfl, fun e src hsrc out => C18_surfaceIntegrate h hfl hs e src hsrc out⟩

/-- **C44, Laplacian**. -/
theorem C44_laplacian {m : Mesh K} (h : m.WF) {φ : VolField K V} (hφ : φ.On m) {δ gamma : List K}
    (hδ : δ.length = m.nFaces) {s : Coeff K} {v : Nat → K} (hs : s.On m.nCells v) :
    ∃ val : Nat → V, (∀ c, val c = (v c / m.vol c) •
        m.netOutflow (fun f => ix m.magFaceAreas f • m.fnGrad (ix δ) φ f) c) ∧
      ∀ e junk, AddsTo m.nCells (laplacianExplicit e m true δ junk gamma φ s) val := by
  refine ⟨_, fun _ => rfl, fun e junk src hsrc out => ?_⟩
  refine Iff.trans (NR.bind_iff (fun o => computeLaplacianExp_det (gamma := gamma) h hφ hδ hs e junk _ (by simp [hsrc]) o) out) ?_
  rw [addAssign_det e m.nCells _ src hsrc]
  simp only [replicate_getD, zero_add]

/-- **C44, source term**: adds `scale · coefficient · field` in each cell. -/
theorem C44_source {m : Mesh K} {φ : VolField K V} (hφ : φ.On m) {k : List K} (hk : k.length = m.nCells) {s : Coeff K}
    {v : Nat → K} (hs : s.On m.nCells v) :
    ∃ val : Nat → V, (∀ c, val c = (v c * ix k c) • φ.cell c) ∧
      ∀ e, AddsTo m.nCells (sourceExplicit e k φ s) val := by
  refine ⟨_, fun _ => rfl, fun e src hsrc out => ?_⟩
  unfold sourceExplicit
  rw [elemKernel_det e 0 src.length _ (fun c y => y + (v c * ix k c) • φ.cell c) src le_rfl (by
    intro c _ hc
    have r1 : rd k c = .ok (ix k c) := rd_getD 0 (by omega)
    have r2 : rd φ.internal c = .ok (φ.cell c) := rd_getD 0 (by rw [hφ.int]; omega)
    simp [hs c (by omega), r1, r2])]
  have : (src.mapIdx fun i x => if 0 ≤ i ∧ i < src.length then x + (v i * ix k i) • φ.cell i else x)
      = (List.range m.nCells).map fun c => src.getD c 0 + (v c * ix k c) • φ.cell c := by
    apply List.ext_getElem
    · simp [hsrc]
    · intro i h1 h2
      simp at h1
      simp [h1, List.getD]
  rw [this]

/-- **C44, operators that have not been built** stop the program and change nothing. -/
theorem C44_not_built [LinearOrder K] (e : ExecKind) (m : Mesh K) (w δ gamma flux : List K) (junk : Nat → V)
    (φ : VolField K V) (s : Coeff K) (src : List V) (out : Res (List V)) :
    (divExplicit e m none w junk flux φ s src out ↔ out = .abort) ∧
    (laplacianExplicit e m false δ junk gamma φ s src out ↔ out = .abort) := ⟨Iff.rfl, Iff.rfl⟩

/-- **C44, twice is double**: applying an operator that `AddsTo` twice adds its amounts twice. -/
theorem C44_twice {n : Nat} {op : List V → NR (List V)} {val : Nat → V} (h : AddsTo n op val) :
    AddsTo n (fun src => do let r ← op src; op r) (fun c => val c + val c) := by
  intro src hsrc out
  refine Iff.trans (NR.bind_iff (h src hsrc) out) ?_
  rw [h _ (by simp)]
  have : ((List.range n).map fun c => ((List.range n).map fun c => src.getD c 0 + val c).getD c 0 + val c)
      = (List.range n).map fun c => src.getD c 0 + (val c + val c) := by
    apply List.map_congr_left
    intro c hc
    rw [getD_range_map _ _ _ (List.mem_range.1 hc), add_assoc]
  rw [this]

/-- The hypotheses can be met: the Laplacian of a field on three cells in a row, added to (1,2,3). -/
example : ∃ val : Nat → ℚ, val 0 = 10 ∧ val 1 = -7 ∧ val 2 = 10 ∧ ∀ e junk,
    AddsTo 3 (laplacianExplicit e row3 true [1, 1, 1, 1] junk [1, 1, 1, 1] row3Field (Coeff.ofScalar 1)) val := by
  obtain ⟨val, hval, h⟩ := C44_laplacian (gamma := [1, 1, 1, 1]) row3_wf row3Field_on
    (δ := [1, 1, 1, 1]) rfl (s := Coeff.ofScalar 1) (v := fun _ => 1) (fun _ _ => rfl)
  refine ⟨val, ?_, ?_, ?_, h⟩ <;>
  · rw [hval]
    simp [Mesh.netOutflow, Finset.sum_range_succ, Mesh.fnGrad, ix, VolField.cell, VolField.bnd, row3Field, row3,
      topoMesh, Mesh.own, Mesh.nbr, Mesh.fc, Mesh.vol]
    try norm_num

end NeoFOAM
