import Verif.Props.C26_Interpolation
import Verif.Props.C27_Geometry

/-!
# C50 – the weights an interpolation reports are those it interpolates with

The upwind scheme reports none: `weight(flux, src, weight)` has its body commented out (`C50_violation`).
-/
namespace NeoFOAM
variable {K V : Type} [Field K] [AddCommGroup V] [Module K V]

theorem copyInto_det {α : Type} (e : ExecKind) (junk : Nat → α) (w dst : List α) (out : Res (List α)) :
    copyInto e junk w dst out ↔ out = .ok w := by
  have h1 := elemKernel_list (α := α) e w.length (fun i => do
    let y ← rd w i
    return fun _ => y) (fun i => w.getD i (junk i)) ((List.range w.length).map fun i => dst.getD i (junk i)) (by simp)
    (fun i hi => by rw [rd_getD (junk i) hi]; rfl) out
  refine h1.trans ?_
  have : (List.range w.length).map (fun i => w.getD i (junk i)) = w := by
    refine List.ext_getElem (by simp) fun i h1 h2 => ?_
    simp [List.getD_eq_getElem?_getD, h2]
  rw [this]

/-- Assignment of a whole surface field. -/
theorem assignTo_det (e : ExecKind) (j : FaceJunk K) (w dst : FaceField K) (out : Res (FaceField K)) :
    FaceField.assignTo e j w dst out ↔ out = .ok w := by
  unfold FaceField.assignTo
  refine Iff.trans (NR.bind_iff (copyInto_det e j.real w.internal dst.internal) out) ?_
  refine Iff.trans (NR.bind_iff (copyInto_det e j.real w.bValue dst.bValue) out) ?_
  refine Iff.trans (NR.bind_iff (copyInto_det e j.real w.bRefValue dst.bRefValue) out) ?_
  refine Iff.trans (NR.bind_iff (copyInto_det e j.real w.bVF dst.bVF) out) ?_
  refine Iff.trans (NR.bind_iff (copyInto_det e j.real w.bRefGrad dst.bRefGrad) out) ?_
  refine Iff.trans (NR.bind_iff (copyInto_det e j.type w.bTypes dst.bTypes) out) ?_
  refine Iff.trans (NR.bind_iff (copyInto_det e j.offset w.bOffset dst.bOffset) out) ?_
  exact Iff.rfl

/-- `w` are weights of a scheme for these fields: at every internal face the interpolated value is `w` times the owner's value
plus `1 - w` times the neighbour's, at every boundary face `w` times the boundary value. -/
def IsWeight (m : Mesh K) (φ : VolField K V) (face : List V) (w : List K) : Prop :=
  (∀ f < m.nInternalFaces, face.getD f 0 = ix w f • φ.cell (m.own f) + (1 - ix w f) • φ.cell (m.nbr f)) ∧
  ∀ b < m.nBoundaryFaces, face.getD (m.nInternalFaces + b) 0 = ix w (m.nInternalFaces + b) • φ.bnd b

/-- **C50 for the linear scheme**: on every executor and schedule, with the weights the geometry scheme computes, the weights reported (with
or without a flux) in the face values of the target are weights of what is interpolated, whatever the target held and whatever its size.
Missing: the upwind scheme, and the boundary field of the target (`C50_boundary_violation`). -/
theorem C50_linear_partial [LinearOrder K] {m : Mesh K} (h : m.WF) {φ : VolField K V} (hφ : φ.On m) {flux : List K} (hfl : flux.length = m.nFaces)
    (e0 e e' : ExecKind) (tiny : K) (fresh w : FaceField K) (hf : fresh.internal.length = m.nFaces) (hw : weightsField e0 m tiny fresh (.ok w))
    (j : FaceJunk K) (wdst : FaceField K) (dst : List V) (hd : dst.length = m.nFaces) (wOut wOut' : Res (FaceField K)) (face : List V)
    (h1 : weightFlux .linear e j w wdst wOut) (h2 : weightNoFlux .linear e j w wdst wOut')
    (h3 : interpolateFlux .linear e' m w.internal flux φ dst (.ok face)) :
    ∃ w', wOut = .ok w' ∧ wOut' = .ok w' ∧ w'.internal.length = m.nFaces ∧ IsWeight m φ face w'.internal := by
  have e1 := (assignTo_det e j w wdst wOut).1 h1
  have e2 := (assignTo_det e j w wdst wOut').1 h2
  have hlen : w.internal.length = m.nFaces := by
    have := (NR.bind_iff (updateWeights_det h e0 tiny fresh.internal hf) _).1 hw
    cases this
    simp
  have e3 := ((C26_scheme h hφ hlen hfl .linear e' dst hd _).1).1 h3
  cases e3
  refine ⟨w, e1, e2, hlen, fun f hf => ?_, fun b hb => ?_⟩
  · rw [getD_range_map _ _ _ (by rw [h.faces]; omega)]
    simp [Mesh.schemeFace, Mesh.linearFace, hf]
  · rw [getD_range_map _ _ _ (by rw [h.faces]; omega)]
    exact C26_boundary .linear m (ix w.internal) (ix flux) φ b

/-- **C50 fails for the boundary field of the weights**: the geometry scheme never writes the boundary field of its weights, and the linear
scheme reports it as it is: for whatever content `g` its fresh storage has, `weight` returns normally with `g` as the boundary values. The
weight with which the scheme interpolates there is 1. -/
theorem C50_boundary_violation (e0 e e' : ExecKind) (tiny : ℚ) (g : List ℚ) (j : FaceJunk ℚ) (wdst : FaceField ℚ) :
    ∃ w : FaceField ℚ, weightsField e0 row3 tiny ⟨[0, 0, 0, 0], g, [0, 0], [0, 0], [0, 0], [0], [0, 2]⟩ (.ok w) ∧
      ∃ w' face, weightFlux .linear e j w wdst (.ok w') ∧ interpolateFlux .linear e' row3 w.internal [1, 1, 1, 1] row3Field [0, 0, 0, 0] (.ok face) ∧
        w'.bValue = g ∧ ∀ b < row3.nBoundaryFaces, face.getD (row3.nInternalFaces + b) 0 = row3Field.bnd b := by
  have hw : ∀ out, weightsField e0 row3 tiny ⟨[0, 0, 0, 0], g, [0, 0], [0, 0], [0, 0], [0], [0, 2]⟩ out ↔ _ :=
    fun out => NR.bind_iff (updateWeights_det row3_wf e0 tiny [0, 0, 0, 0] rfl) out
  refine ⟨_, (hw _).2 rfl, _, _, (assignTo_det e j _ wdst _).2 rfl,
    ((C26_scheme row3_wf row3Field_on (flux := [1, 1, 1, 1]) (by simp) rfl .linear e' _ rfl _).1).2 rfl, rfl, fun b hb => ?_⟩
  have hfa := row3_wf.faces
  rw [getD_range_map _ _ _ (by rw [hfa]; omega)]
  refine (C26_boundary .linear row3 _ _ row3Field b).trans ?_
  have : ix ((List.range row3.nFaces).map fun f => if f < row3.nInternalFaces then row3.wgt tiny f else 1) (row3.nInternalFaces + b) = 1 := by
    unfold ix
    rw [getD_range_map _ _ _ (by rw [hfa]; omega)]
    simp
  rw [this, one_smul]

/-- **C50 fails for the upwind scheme**: asking for weights with a flux returns normally and leaves the target as it was, so
what it holds need not be weights of the scheme; asking without a flux stops the program. -/
theorem C50_violation : (∀ (e : ExecKind) (j : FaceJunk ℚ) (w dst : FaceField ℚ) (out : Res (FaceField ℚ)),
      (weightFlux .upwind e j w dst out ↔ out = .ok dst) ∧ (weightNoFlux .upwind e j w dst out ↔ out = .abort)) ∧
    ∃ (w flux : List ℚ) (wdst : List ℚ) (face : List ℚ),
      interpolateFlux .upwind .serial row3 w flux row3Field [0, 0, 0, 0] (.ok face) ∧
      ¬ IsWeight row3 row3Field face wdst := by
  refine ⟨fun e junk w dst out => ⟨Iff.rfl, Iff.rfl⟩, [1, 1, 1, 1], [1, 1, 1, 1], [0, 0, 1, 1], _,
    ((C26_scheme row3_wf row3Field_on (w := [1, 1, 1, 1]) (flux := [1, 1, 1, 1]) rfl rfl .upwind .serial _ rfl _).1).2 rfl, ?_⟩
  rintro ⟨h, -⟩
  have := h 0 (by decide)
  rw [getD_range_map _ _ _ (show 0 < row3.nFaces from by decide)] at this
  simp [Mesh.schemeFace, Mesh.upwindFace, ix, row3, topoMesh, row3Field, VolField.cell, Mesh.own, Mesh.nbr] at this

/-- The hypotheses can be met. -/
example (e : ExecKind) (fresh : FaceField ℚ) (hf : fresh.internal.length = 4) : row3.WF ∧ row3Field.On row3 ∧ ∃ w, weightsField e row3 0 fresh (.ok w) ∧
    ∃ face, interpolateFlux .linear e row3 w.internal [1, 1, 1, 1] row3Field [0, 0, 0, 0] (.ok face) := by
  refine ⟨row3_wf, row3Field_on, _, (NR.bind_iff (updateWeights_det row3_wf e 0 fresh.internal hf) _).2 rfl, _,
    ((C26_scheme row3_wf row3Field_on (flux := [1, 1, 1, 1]) (by simp) rfl .linear e _ rfl _).1).2 rfl⟩

end NeoFOAM
