import Verif.Spec.Fields
import Verif.Spec.Witness
import Verif.Proofs.Elem
import Verif.Proofs.Sparsity
import Mathlib.Tactic.Linarith
import Mathlib.Algebra.Order.Module.Defs
import Mathlib.Algebra.Module.Rat

/-!
# C26 – interpolation to faces
-/
namespace NeoFOAM
variable {K V : Type}

section proofs

theorem elemKernel_list {α : Type} (e : ExecKind) (n : Nat) (body : Nat → Res (α → α)) (g : Nat → α)
    (a : List α) (hs : a.length = n) (hb : ∀ i, i < n → body i = .ok fun _ => g i) (out : Res (List α)) :
    elemKernel e 0 n body a out ↔ out = .ok ((List.range n).map g) := by
  rw [elemKernel_det e 0 n body (fun i _ => g i) a (by omega) (fun i _ hi => hb i hi)]
  have : (a.mapIdx fun i x => if 0 ≤ i ∧ i < n then g i else x) = (List.range n).map g := by
    apply List.ext_getElem
    · simp [hs]
    · intro i h1 h2
      simp at h1
      simp [show i < n by omega]
  rw [this]

variable [Sub K] [Zero K] [One K] [Add V] [Zero V] [SMul K V]

theorem linearBody_ok {m : Mesh K} (h : m.WF) {φ : VolField K V} (hφ : φ.On m) {w : List K}
    (hw : w.length = m.nFaces) (f : Nat) (hf : f < m.nFaces) :
    linearBody m φ w f = .ok fun _ => m.linearFace (ix w) φ f := by
  have hwf : rd w f = .ok (ix w f) := rd_getD 0 (by omega)
  have hfa := h.faces
  unfold linearBody Mesh.linearFace
  by_cases hi : f < m.nInternalFaces
  · have ho := h.own_lt f hf
    have hn := h.nbr_lt f hi
    have r1 : rd m.owner f = .ok (m.own f) := h.rd_owner hf
    have r2 : rd m.neighbour f = .ok (m.nbr f) := h.rd_nbr hi
    have r3 : rd φ.internal (m.own f) = .ok (φ.cell (m.own f)) := rd_getD 0 (by rw [hφ.int]; exact ho)
    have r4 : rd φ.internal (m.nbr f) = .ok (φ.cell (m.nbr f)) := rd_getD 0 (by rw [hφ.int]; exact hn)
    simp [hi, r1, r2, hwf, r3, r4]
  · have r : rd φ.bValue (f - m.nInternalFaces) = .ok (φ.bnd (f - m.nInternalFaces)) :=
      rd_getD 0 (by rw [hφ.val]; omega)
    simp [hi, hwf, r]

theorem upwindBody_ok [LinearOrder K] {m : Mesh K} (h : m.WF) {φ : VolField K V} (hφ : φ.On m) {w flux : List K}
    (hw : w.length = m.nFaces) (hfl : flux.length = m.nFaces) (f : Nat) (hf : f < m.nFaces) :
    upwindBody m φ flux w f = .ok fun _ => m.upwindFace (ix w) (ix flux) φ f := by
  have hwf : rd w f = .ok (ix w f) := rd_getD 0 (by omega)
  have hff : rd flux f = .ok (ix flux f) := rd_getD 0 (by omega)
  have hfa := h.faces
  unfold upwindBody Mesh.upwindFace
  by_cases hi : f < m.nInternalFaces
  · have ho := h.own_lt f hf
    have hn := h.nbr_lt f hi
    have r1 : rd m.owner f = .ok (m.own f) := h.rd_owner hf
    have r2 : rd m.neighbour f = .ok (m.nbr f) := h.rd_nbr hi
    have r3 : rd φ.internal (m.own f) = .ok (φ.cell (m.own f)) := rd_getD 0 (by rw [hφ.int]; exact ho)
    have r4 : rd φ.internal (m.nbr f) = .ok (φ.cell (m.nbr f)) := rd_getD 0 (by rw [hφ.int]; exact hn)
    by_cases h0 : 0 ≤ ix flux f <;> simp [hi, r1, r2, hff, h0, r3, r4]
  · have r : rd φ.bValue (f - m.nInternalFaces) = .ok (φ.bnd (f - m.nInternalFaces)) :=
      rd_getD 0 (by rw [hφ.val]; omega)
    simp [hi, hwf, r]

end proofs

section statements
variable [Sub K] [Zero K] [One K] [Add V] [Zero V] [SMul K V]

/-- **C26, linear**: on every executor and schedule the only outcome is the list of linear face values,
whatever the destination contained. -/
theorem C26_linear {m : Mesh K} (h : m.WF) {φ : VolField K V} (hφ : φ.On m) {w : List K}
    (hw : w.length = m.nFaces) (e : ExecKind) (dst : List V) (hd : dst.length = m.nFaces) (out : Res (List V)) :
    computeLinearInterpolation e m φ w dst out ↔
      out = .ok ((List.range m.nFaces).map (m.linearFace (ix w) φ)) := by
  unfold computeLinearInterpolation
  rw [hd]
  exact elemKernel_list e _ _ _ dst hd (linearBody_ok h hφ hw) out

/-- **C26, upwind**. -/
theorem C26_upwind [LinearOrder K] {m : Mesh K} (h : m.WF) {φ : VolField K V} (hφ : φ.On m) {w flux : List K}
    (hw : w.length = m.nFaces) (hfl : flux.length = m.nFaces) (e : ExecKind) (dst : List V)
    (hd : dst.length = m.nFaces) (out : Res (List V)) :
    computeUpwindInterpolation e m φ flux w dst out ↔
      out = .ok ((List.range m.nFaces).map (m.upwindFace (ix w) (ix flux) φ)) := by
  unfold computeUpwindInterpolation
  rw [hd]
  exact elemKernel_list e _ _ _ dst hd (upwindBody_ok h hφ hw hfl) out

/-- **C26, scheme selection**: with a flux each scheme gives its face values; without one upwind stops the
program and linear gives its face values. -/
theorem C26_scheme [LinearOrder K] {m : Mesh K} (h : m.WF) {φ : VolField K V} (hφ : φ.On m) {w flux : List K}
    (hw : w.length = m.nFaces) (hfl : flux.length = m.nFaces) (s : InterpScheme) (e : ExecKind) (dst : List V)
    (hd : dst.length = m.nFaces) (out : Res (List V)) :
    (interpolateFlux s e m w flux φ dst out ↔
      out = .ok ((List.range m.nFaces).map (Mesh.schemeFace s m (ix w) (ix flux) φ))) ∧
    (interpolate .linear e m w φ dst out ↔ out = .ok ((List.range m.nFaces).map (m.linearFace (ix w) φ))) ∧
    (interpolate .upwind e m w φ dst out ↔ out = .abort) := by
  refine ⟨?_, C26_linear h hφ hw e dst hd out, Iff.rfl⟩
  cases s with
  | linear => exact C26_linear h hφ hw e dst hd out
  | upwind => exact C26_upwind h hφ hw hfl e dst hd out

/-- **C26, boundary faces**: both schemes give weight times boundary value. -/
theorem C26_boundary [LinearOrder K] (s : InterpScheme) (m : Mesh K) (w flux : Nat → K) (φ : VolField K V) (b : Nat) :
    Mesh.schemeFace s m w flux φ (m.nInternalFaces + b) = w (m.nInternalFaces + b) • φ.bnd b := by
  cases s <;> simp [Mesh.schemeFace, Mesh.linearFace, Mesh.upwindFace]

/-- **C26, constants**: interpolation of a field that is constant in the two cells gives that constant,
whatever the weights (linear and upwind). -/
theorem C26_constants {K V : Type} [Field K] [AddCommGroup V] [Module K V] [LinearOrder K] (s : InterpScheme) (m : Mesh K) (w flux : Nat → K) (φ : VolField K V) (f : Nat)
    (hf : f < m.nInternalFaces) (k : V) (ho : φ.cell (m.own f) = k) (hn : φ.cell (m.nbr f) = k) :
    Mesh.schemeFace s m w flux φ f = k := by
  cases s
  · simp only [Mesh.schemeFace, Mesh.linearFace, hf, if_true, ho, hn, ← add_smul]
    simp
  · simp [Mesh.schemeFace, Mesh.upwindFace, hf, ho, hn]

end statements

/-- **C26, boundedness**: with weights in [0,1] every scheme's value at an internal face lies between the two
adjacent cell values. -/
theorem C26_bounded [Field K] [LinearOrder K] [IsStrictOrderedRing K] (s : InterpScheme) (m : Mesh K)
    (w flux : Nat → K) (φ : VolField K K) (f : Nat) (hf : f < m.nInternalFaces) (h0 : 0 ≤ w f) (h1 : w f ≤ 1) :
    min (φ.cell (m.own f)) (φ.cell (m.nbr f)) ≤ Mesh.schemeFace s m w flux φ f ∧
    Mesh.schemeFace s m w flux φ f ≤ max (φ.cell (m.own f)) (φ.cell (m.nbr f)) := by
  have h2 : 0 ≤ 1 - w f := by linarith
  cases s
  · simp only [Mesh.schemeFace, Mesh.linearFace, hf, if_true, smul_eq_mul]
    set a := φ.cell (m.own f)
    set b := φ.cell (m.nbr f)
    constructor
    · have e1 := mul_le_mul_of_nonneg_left (min_le_left a b) h0
      have e2 := mul_le_mul_of_nonneg_left (min_le_right a b) h2
      linarith
    · have e1 := mul_le_mul_of_nonneg_left (le_max_left a b) h0
      have e2 := mul_le_mul_of_nonneg_left (le_max_right a b) h2
      linarith
  · simp only [Mesh.schemeFace, Mesh.upwindFace, hf, if_true]
    split
    · exact ⟨min_le_left _ _, le_max_left _ _⟩
    · exact ⟨min_le_right _ _, le_max_right _ _⟩

/-- **C26, direction**: a non-negative flux gives the owner's value, a negative one the neighbour's. -/
theorem C26_direction [Field K] [LinearOrder K] [AddCommGroup V] [Module K V] (m : Mesh K) (w flux : Nat → K)
    (φ : VolField K V) (f : Nat) (hf : f < m.nInternalFaces) :
    (0 ≤ flux f → Mesh.schemeFace .upwind m w flux φ f = φ.cell (m.own f)) ∧
    (flux f < 0 → Mesh.schemeFace .upwind m w flux φ f = φ.cell (m.nbr f)) := by
  constructor
  · intro h; simp [Mesh.schemeFace, Mesh.upwindFace, hf, h]
  · intro h; simp [Mesh.schemeFace, Mesh.upwindFace, hf, not_le.2 h]

/-- A field on `row3` used in examples. -/
def row3Field : VolField ℚ ℚ := ⟨[1, 5, 2], [7, 9], [7, 9], [1, 1], [0, 0]⟩
theorem row3Field_on : row3Field.On row3 := ⟨rfl, rfl, rfl, rfl, rfl⟩

/-- The hypotheses can be met: three cells in a row, weights 1/4 inside and 1 on the boundary. -/
example (out : Res (List ℚ)) : computeLinearInterpolation .parallel row3 row3Field [1/4, 1/4, 1, 1] [0, 0, 0, 0] out ↔
    out = .ok [4, 11/4, 7, 9] := by
  rw [C26_linear row3_wf row3Field_on rfl .parallel _ rfl]
  have : (List.range row3.nFaces).map (row3.linearFace (ix [1/4, 1/4, 1, 1]) row3Field) = [4, 11/4, 7, 9] := by
    simp [show row3.nFaces = 4 from rfl, List.range_succ, Mesh.linearFace, ix, VolField.cell, VolField.bnd,
      row3Field, row3, topoMesh, Mesh.own, Mesh.nbr]
    norm_num
  rw [this]

end NeoFOAM
