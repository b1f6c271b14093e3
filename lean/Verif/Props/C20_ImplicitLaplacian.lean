import Verif.Props.C19_ImplicitDiv
import Verif.Props.C44_Accumulate

/-!
# C20 – implicit and explicit Laplacian agree

The implicit operator is right for every diffusivity (`C20_system_partial`); the explicit operator ignores the
diffusivity, so the two agree only for diffusivity one (`C20_agree_partial`, `C20_violation`).
-/
namespace NeoFOAM
open Finset
variable {K : Type} [Field K]

/-- Face-normal gradient of the cell values `x` as the implicit operator sees it: on boundary face `b` the value
fraction mixes the difference to the reference value and the reference gradient. -/
def VolField.impGrad (φ : VolField K K) (m : Mesh K) (δ x : Nat → K) (f : Nat) : K :=
  if f < m.nInternalFaces then δ f * (x (m.nbr f) - x (m.own f))
  else ix φ.bVF (f - m.nInternalFaces) * (δ f * (ix φ.bRefValue (f - m.nInternalFaces) - x (m.fc (f - m.nInternalFaces))))
    + (1 - ix φ.bVF (f - m.nInternalFaces)) * ix φ.bRefGrad (f - m.nInternalFaces)

/-- What the contributions add to the equation of cell `c`. -/
theorem lapResidual (m : Mesh K) (φ : VolField K K) (δ gamma : List K) (s x : Nat → K) (c : Nat) :
    lapDelta m (ix δ) (ix gamma) (ix φ.bVF) s (.diag c) * x c
      + (∑ f ∈ range m.nInternalFaces, if m.own f = c then lapDelta m (ix δ) (ix gamma) (ix φ.bVF) s (.upper f) * x (m.nbr f) else 0)
      + (∑ f ∈ range m.nInternalFaces, if m.nbr f = c then lapDelta m (ix δ) (ix gamma) (ix φ.bVF) s (.lower f) * x (m.own f) else 0)
      - lapRhs m (ix δ) (ix gamma) (ix φ.bVF) (ix φ.bRefValue) (ix φ.bRefGrad) s c
      = s c * m.netOutflow (fun f => ix gamma f * ix m.magFaceAreas f * φ.impGrad m (ix δ) x f) c := by
  simp only [lapDelta, lapRhs, Mesh.netOutflow]
  set L := lapCoef m (ix δ) (ix gamma) with hL
  have e1 : ∀ f ∈ range m.nInternalFaces, (if m.own f = c then ix gamma f * ix m.magFaceAreas f * φ.impGrad m (ix δ) x f else 0)
      = (if m.own f = c then L f * x (m.nbr f) else 0) - (if m.own f = c then L f else 0) * x c := by
    intro f hf
    rw [mem_range] at hf
    by_cases c1 : m.own f = c <;> simp [c1, VolField.impGrad, hf, hL, lapCoef]
    ring
  have e2 : ∀ f ∈ range m.nInternalFaces, (if m.nbr f = c then ix gamma f * ix m.magFaceAreas f * φ.impGrad m (ix δ) x f else 0)
      = (if m.nbr f = c then L f else 0) * x c - (if m.nbr f = c then L f * x (m.own f) else 0) := by
    intro f hf
    rw [mem_range] at hf
    by_cases c1 : m.nbr f = c <;> simp [c1, VolField.impGrad, hf, hL, lapCoef]
    ring
  have e3 : ∀ b ∈ range m.nBoundaryFaces, (if m.fc b = c then ix gamma (m.nInternalFaces + b) * ix m.magFaceAreas (m.nInternalFaces + b)
        * φ.impGrad m (ix δ) x (m.nInternalFaces + b) else 0)
      = (if m.fc b = c then ix gamma (m.nInternalFaces + b) * ix m.magFaceAreas (m.nInternalFaces + b)
          * (ix φ.bVF b * ix δ (m.nInternalFaces + b) * ix φ.bRefValue b + (1 - ix φ.bVF b) * ix φ.bRefGrad b) else 0)
        - (if m.fc b = c then L (m.nInternalFaces + b) * ix φ.bVF b else 0) * x c := by
    intro b _
    by_cases c1 : m.fc b = c <;> simp [c1, VolField.impGrad, hL, lapCoef]
    ring
  have e4 : ∀ f ∈ range m.nInternalFaces, (if m.own f = c then L f * s (m.own f) * x (m.nbr f) else 0)
      = s c * if m.own f = c then L f * x (m.nbr f) else 0 := by
    intro f _
    by_cases c1 : m.own f = c <;> simp [c1]
    ring
  have e5 : ∀ f ∈ range m.nInternalFaces, (if m.nbr f = c then L f * s (m.nbr f) * x (m.own f) else 0)
      = s c * if m.nbr f = c then L f * x (m.own f) else 0 := by
    intro f _
    by_cases c1 : m.nbr f = c <;> simp [c1]
    ring
  rw [Finset.sum_congr rfl e1, Finset.sum_congr rfl e2, Finset.sum_congr rfl e3, Finset.sum_congr rfl e4, Finset.sum_congr rfl e5]
  simp only [Finset.sum_add_distrib, Finset.sum_sub_distrib, ← Finset.sum_mul, ← Finset.mul_sum]
  ring

/-- **C20, the assembled system**: assembling the implicit Laplacian on any system adds to `(A x - b)_c`, for every
vector `x`, the scaled sum of diffusivity × area × face-normal gradient over the faces of `c`. Missing: parallel
assembly on meshes with two boundary faces in one cell (C22). -/
theorem C20_system_partial {m : Mesh K} (h : m.WF) {sp : SparsityPattern} (hp : sp.For m) {φ : VolField K K} (hφ : φ.On m)
    {δ gamma : List K} (hδ : δ.length = m.nFaces) (hg : gamma.length = m.nFaces) {scal : Coeff K} {s : Nat → K}
    (hs : scal.On m.nCells s) (e : ExecKind) (he : e = .serial ∨ m.BndDistinct) (ls : LinearSystem K) (ho : ls.On sp m)
    (out : Res (LinearSystem K)) (hout : computeLaplacianImpl e m sp δ gamma φ scal ls out) :
    ∃ ls', out = .ok ls' ∧ ls'.On sp m ∧ ∀ (x : Nat → K), ∀ c < m.nCells, ls'.residual x c = ls.residual x c
      + s c * m.netOutflow (fun f => ix gamma f * ix m.magFaceAreas f * φ.impGrad m (ix δ) x f) c := by
  obtain ⟨ls', rfl, ha⟩ := computeLaplacianImpl_ok h hp hφ hδ hg hs e he ls ho out hout
  refine ⟨ls', rfl, ha.on, fun x c hc => ?_⟩
  rw [ha.residual h hp ho x hc]
  congr 1
  exact lapResidual m φ δ gamma s x c

/-- **C20, agreement for diffusivity one**: if the boundary values realise the boundary conditions, the residual grows
by the cell volume times what the explicit Laplacian computes. Missing for the full claim: any other diffusivity
(`C20_violation`) and C22's meshes. -/
theorem C20_agree_partial {m : Mesh K} (h : m.WF) (hv : ∀ c < m.nCells, m.vol c ≠ 0) {sp : SparsityPattern}
    (hp : sp.For m) {φ : VolField K K} (hφ : φ.On m) {δ gamma : List K} (hδ : δ.length = m.nFaces) (hg : gamma.length = m.nFaces)
    (hone : ∀ f < m.nFaces, ix gamma f = 1)
    (hbc : ∀ b < m.nBoundaryFaces, ix δ (m.nInternalFaces + b) * (φ.bnd b - φ.cell (m.fc b))
      = ix φ.bVF b * (ix δ (m.nInternalFaces + b) * (ix φ.bRefValue b - φ.cell (m.fc b))) + (1 - ix φ.bVF b) * ix φ.bRefGrad b)
    {scal : Coeff K} {s : Nat → K} (hs : scal.On m.nCells s) (e e' : ExecKind) (he : e = .serial ∨ m.BndDistinct)
    (junk : Nat → K) (ls ls' : LinearSystem K) (ho : ls.On sp m) (E : List K)
    (himp : computeLaplacianImpl e m sp δ gamma φ scal ls (.ok ls'))
    (hexp : laplacianExplicit e' m true δ junk gamma φ scal (List.replicate m.nCells 0) (.ok E)) :
    ∀ c < m.nCells, ls'.residual φ.cell c = ls.residual φ.cell c + m.vol c * E.getD c 0 := by
  intro c hc
  obtain ⟨l2, h2, -, hres⟩ := C20_system_partial h hp hφ hδ hg hs e he ls ho _ himp
  cases h2
  obtain ⟨val, hval, hadd⟩ := C44_laplacian (gamma := gamma) h hφ hδ hs
  rw [hadd e' junk _ (by simp)] at hexp
  cases hexp
  rw [hres _ c hc, getD_range_map _ _ _ hc, replicate_getD, zero_add, hval]
  congr 1
  rw [smul_eq_mul, ← mul_assoc, mul_div_cancel₀ _ (hv c hc)]
  congr 1
  refine netOutflow_congr h (fun f hf => ?_) c
  rw [hone f hf, one_mul, smul_eq_mul]
  congr 1
  unfold VolField.impGrad Mesh.fnGrad
  split
  · rfl
  · have hfa := h.faces
    have := hbc (f - m.nInternalFaces) (by omega)
    rw [show m.nInternalFaces + (f - m.nInternalFaces) = f by omega] at this
    rw [smul_eq_mul, this]

/-- **C20 fails** for diffusivity two: the explicit operator computes half of what the implicit one assembles. -/
theorem C20_violation : ∃ (m : Mesh ℚ) (sp : SparsityPattern) (φ : VolField ℚ ℚ) (δ gamma : List ℚ) (ls ls' : LinearSystem ℚ)
    (E : List ℚ), m.WF ∧ sp.For m ∧ φ.On m ∧ ls.On sp m ∧ δ.length = m.nFaces ∧ gamma.length = m.nFaces ∧
    (∀ b < m.nBoundaryFaces, ix φ.bVF b = 1 ∧ φ.bnd b = ix φ.bRefValue b) ∧
    computeLaplacianImpl .serial m sp δ gamma φ Coeff.default ls (.ok ls') ∧
    laplacianExplicit .serial m true δ (fun _ => 0) gamma φ Coeff.default (List.replicate m.nCells 0) (.ok E) ∧
    ls'.residual φ.cell 0 - ls.residual φ.cell 0 = 20 ∧ m.vol 0 * E.getD 0 0 = 10 := by
  obtain ⟨sp, -, hp, ls, -, ho, -⟩ := exists_system row3 row3_wf row3_deg .serial
  obtain ⟨out, hout⟩ := computeLaplacianImpl_runs .serial row3 sp [1, 1, 1, 1] [2, 2, 2, 2] row3Field Coeff.default ls
  obtain ⟨ls', rfl, -, hres⟩ := C20_system_partial row3_wf hp row3Field_on (δ := [1, 1, 1, 1]) (gamma := [2, 2, 2, 2]) rfl rfl
    (s := fun _ => 1) (fun c _ => rfl) .serial (Or.inl rfl) ls ho _ hout
  obtain ⟨val, hval, hadd⟩ := C44_laplacian (gamma := [2, 2, 2, 2]) row3_wf row3Field_on (δ := [1, 1, 1, 1]) rfl
    (s := Coeff.default) (v := fun _ => 1) (fun _ _ => rfl)
  have hexp := (hadd .serial (fun _ => (0 : ℚ)) (List.replicate row3.nCells 0) (by simp) _).2 rfl
  refine ⟨row3, sp, row3Field, [1, 1, 1, 1], [2, 2, 2, 2], ls, ls', _, row3_wf, hp, row3Field_on, ho, rfl, rfl, ?_, hout, hexp, ?_, ?_⟩
  · intro b hb
    have hb' : b < 2 := hb
    interval_cases b <;> simp [ix, row3Field, VolField.bnd]
  · rw [hres _ 0 (show 0 < 3 by omega)]
    simp [Mesh.netOutflow, Finset.sum_range_succ, VolField.impGrad, ix, row3, topoMesh,
      row3Field, VolField.cell, Mesh.fc, Mesh.own, Mesh.nbr]
    norm_num
  · rw [getD_range_map _ _ _ (show 0 < row3.nCells from (by decide : 0 < 3)), replicate_getD, hval]
    simp [Mesh.netOutflow, Finset.sum_range_succ, Mesh.fnGrad, ix, row3, topoMesh,
      row3Field, VolField.bnd, VolField.cell, Mesh.fc, Mesh.own, Mesh.nbr, Mesh.vol]
    norm_num

/-- The hypotheses can be met, with a fixed gradient on one face and a fixed value on the other. -/
example : ∃ φ : VolField ℚ ℚ, φ.On row3 ∧ ix φ.bVF 0 = 0 ∧ ix φ.bRefGrad 0 = 3 ∧
    ∀ b < row3.nBoundaryFaces, ix [(1 : ℚ), 1, 1, 1] (row3.nInternalFaces + b) * (φ.bnd b - φ.cell (row3.fc b))
      = ix φ.bVF b * (ix [(1 : ℚ), 1, 1, 1] (row3.nInternalFaces + b) * (ix φ.bRefValue b - φ.cell (row3.fc b)))
        + (1 - ix φ.bVF b) * ix φ.bRefGrad b := by
  refine ⟨⟨[1, 5, 2], [4, 9], [0, 9], [0, 1], [3, 0]⟩, ⟨rfl, rfl, rfl, rfl, rfl⟩, rfl, rfl, ?_⟩
  intro b hb
  have hb' : b < 2 := hb
  interval_cases b <;> simp [ix, row3, topoMesh, VolField.bnd, VolField.cell, Mesh.fc]
  norm_num

end NeoFOAM
