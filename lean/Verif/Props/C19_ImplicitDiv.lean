import Verif.Proofs.Implicit
import Verif.Props.C16_Residual
import Verif.Props.C18_Divergence

/-!
# C19 – implicit and explicit upwind divergence agree

Holds when every boundary condition's gradient part vanishes: the implicit boundary treatment has no gradient term
(`C19_violation`). On parallel executors it also needs that no two boundary faces share a cell (see C22).
-/
namespace NeoFOAM
open Finset
variable {K : Type} [Field K]

/-- A mesh whose cells have at most 255 internal faces has a pattern and an empty system. -/
theorem exists_system (m : Mesh K) (h : m.WF) (h256 : ∀ c < m.nCells, 1 + m.deg c ≤ 256) (e : ExecKind) :
    ∃ sp, sparsityUpdate e m (.ok sp) ∧ sp.For m ∧ ∃ ls : LinearSystem K, createEmptyLinearSystem sp = .ok ls ∧ ls.On sp m ∧
      ∀ x i, ls.residual x i = 0 := by
  obtain ⟨sp, hsp⟩ := C14_terminates m h e
  obtain ⟨sp', he, hp⟩ := pattern_for m h h256 e _ hsp
  cases he
  obtain ⟨ls, h1, -, -, -, -, h2⟩ := C16_empty (K := K) m h e sp hsp
  refine ⟨sp, hsp, hp, ls, h1, ?_, h2⟩
  have hr : (⟨List.replicate sp.colIdxs.length (0 : K), sp.colIdxs, sp.rowPtrs⟩ : CSR K).nRows = m.nCells := by
    simp [CSR.nRows, hp.rows.len]
  simp only [createEmptyLinearSystem, LinearSystem.mk', hr, List.length_replicate, hp.dlen, if_true, Res.ok.injEq] at h1
  subst h1
  exact ⟨rfl, rfl, by simp, by simp⟩

/-- **C15, sizes**: the matrix created for a mesh has one row per cell and one non-zero per cell and two per internal face
(cells have at most 255 internal faces, C14). -/
theorem C15_sizes (m : Mesh K) (hm : m.WF) (h256 : ∀ c < m.nCells, 1 + m.deg c ≤ 256) (e : ExecKind) {sp : SparsityPattern} (hsp : sparsityUpdate e m (.ok sp)) {ls : LinearSystem K} (h : createEmptyLinearSystem sp = .ok ls) :
    ls.matrix.nRows = m.nCells ∧ ls.matrix.nNonZeros = m.nCells + 2 * m.nInternalFaces ∧ ls.rhs.length = m.nCells := by
  obtain ⟨sp', he, hp⟩ := pattern_for m hm h256 e _ hsp
  cases he
  unfold createEmptyLinearSystem LinearSystem.mk' at h
  split at h
  · cases h
    exact ⟨by simp [CSR.nRows, hp.rows.len], by simp [CSR.nNonZeros, hp.rows.nnz], by simp [hp.dlen]⟩
  · cases h

theorem deg_le (m : Mesh K) (c : Nat) : m.deg c ≤ 2 * m.nInternalFaces := by
  have h1 := Finset.card_filter_le (range m.nInternalFaces) (m.own · = c)
  have h2 := Finset.card_filter_le (range m.nInternalFaces) (m.nbr · = c)
  rw [card_range] at h1 h2
  unfold Mesh.deg; omega

theorem row3_deg : ∀ c < row3.nCells, 1 + row3.deg c ≤ 256 := by
  intro c _
  have := deg_le row3 c
  have h2 : row3.nInternalFaces = 2 := rfl
  omega

/-- Upwind face values of the cell values `x` as the implicit operator sees them: on boundary face `b` the value
fraction mixes the reference value and the cell value. -/
def VolField.impFace [LinearOrder K] (φ : VolField K K) (m : Mesh K) (flux x : Nat → K) (f : Nat) : K :=
  if f < m.nInternalFaces then (if 0 ≤ flux f then x (m.own f) else x (m.nbr f))
  else ix φ.bVF (f - m.nInternalFaces) * ix φ.bRefValue (f - m.nInternalFaces)
    + (1 - ix φ.bVF (f - m.nInternalFaces)) * x (m.fc (f - m.nInternalFaces))

/-- What the contributions add to the equation of cell `c`. -/
theorem divResidual [LinearOrder K] (m : Mesh K) (φ : VolField K K) (flux : List K) (s x : Nat → K) (c : Nat) :
    divDelta m (ix flux) (ix φ.bVF) s (.diag c) * x c
      + (∑ f ∈ range m.nInternalFaces, if m.own f = c then divDelta m (ix flux) (ix φ.bVF) s (.upper f) * x (m.nbr f) else 0)
      + (∑ f ∈ range m.nInternalFaces, if m.nbr f = c then divDelta m (ix flux) (ix φ.bVF) s (.lower f) * x (m.own f) else 0)
      - divRhs m (ix flux) (ix φ.bVF) (ix φ.bRefValue) s c
      = s c * m.netOutflow (fun f => ix flux f * φ.impFace m (ix flux) x f) c := by
  simp only [divDelta, divRhs, Mesh.netOutflow]
  have e1 : ∀ f ∈ range m.nInternalFaces, (if m.own f = c then ix flux f * φ.impFace m (ix flux) x f else 0)
      = (if m.own f = c then (if 0 ≤ ix flux f then ix flux f else 0) else 0) * x c
        + if m.own f = c then (if 0 ≤ ix flux f then 0 else ix flux f) * x (m.nbr f) else 0 := by
    intro f hf
    rw [mem_range] at hf
    by_cases c1 : m.own f = c <;> by_cases c3 : 0 ≤ ix flux f <;> simp [c1, c3, VolField.impFace, hf]
  have e2 : ∀ f ∈ range m.nInternalFaces, (if m.nbr f = c then ix flux f * φ.impFace m (ix flux) x f else 0)
      = (if m.nbr f = c then (if 0 ≤ ix flux f then 0 else ix flux f) else 0) * x c
        + if m.nbr f = c then (if 0 ≤ ix flux f then ix flux f else 0) * x (m.own f) else 0 := by
    intro f hf
    rw [mem_range] at hf
    by_cases c1 : m.nbr f = c <;> by_cases c3 : 0 ≤ ix flux f <;> simp [c1, c3, VolField.impFace, hf]
  have e3 : ∀ b ∈ range m.nBoundaryFaces, (if m.fc b = c then ix flux (m.nInternalFaces + b) * φ.impFace m (ix flux) x (m.nInternalFaces + b) else 0)
      = (if m.fc b = c then ix flux (m.nInternalFaces + b) * (1 - ix φ.bVF b) else 0) * x c
        + if m.fc b = c then ix flux (m.nInternalFaces + b) * (ix φ.bVF b * ix φ.bRefValue b) else 0 := by
    intro b _
    by_cases c1 : m.fc b = c <;> simp [c1, VolField.impFace]
    ring
  have e4 : ∀ f ∈ range m.nInternalFaces, (if m.own f = c then (if 0 ≤ ix flux f then 0 else ix flux f) * s (m.own f) * x (m.nbr f) else 0)
      = s c * if m.own f = c then (if 0 ≤ ix flux f then 0 else ix flux f) * x (m.nbr f) else 0 := by
    intro f _
    by_cases c1 : m.own f = c <;> simp [c1]
    split <;> ring
  have e5 : ∀ f ∈ range m.nInternalFaces, (if m.nbr f = c then -(if 0 ≤ ix flux f then ix flux f else 0) * s (m.nbr f) * x (m.own f) else 0)
      = -(s c * if m.nbr f = c then (if 0 ≤ ix flux f then ix flux f else 0) * x (m.own f) else 0) := by
    intro f _
    by_cases c1 : m.nbr f = c <;> simp [c1]
    split <;> ring
  rw [Finset.sum_congr rfl e1, Finset.sum_congr rfl e2, Finset.sum_congr rfl e3, Finset.sum_congr rfl e4, Finset.sum_congr rfl e5]
  simp only [Finset.sum_add_distrib, Finset.sum_sub_distrib, ← Finset.sum_mul, ← Finset.mul_sum, Finset.sum_neg_distrib]
  ring

/-- **C19, the assembled system**: assembling the implicit divergence on any system adds to `(A x - b)_c`, for every
vector `x`, the scaled flux of the upwind face values out of cell `c`. -/
theorem C19_system_partial [LinearOrder K] {m : Mesh K} (h : m.WF) {sp : SparsityPattern} (hp : sp.For m) {φ : VolField K K}
    (hφ : φ.On m) {flux : List K} (hfl : flux.length = m.nFaces) {scal : Coeff K} {s : Nat → K} (hs : scal.On m.nCells s)
    (e : ExecKind) (he : e = .serial ∨ m.BndDistinct) (ls : LinearSystem K) (ho : ls.On sp m) (out : Res (LinearSystem K))
    (hout : computeDivImp e m sp flux φ scal ls out) :
    ∃ ls', out = .ok ls' ∧ ls'.On sp m ∧ ∀ (x : Nat → K), ∀ c < m.nCells,
      ls'.residual x c = ls.residual x c + s c * m.netOutflow (fun f => ix flux f * φ.impFace m (ix flux) x f) c := by
  obtain ⟨ls', rfl, ha⟩ := computeDivImp_ok h hp hφ hfl hs e he ls ho out hout
  refine ⟨ls', rfl, ha.on, fun x c hc => ?_⟩
  rw [ha.residual h hp ho x hc]
  congr 1
  exact divResidual m φ flux s x c

/-- **C19, agreement**: for a field whose boundary values are the mix of reference value and cell value (no gradient
part), the residual grows by the cell volume times what the explicit upwind operator computes, whatever executor each
of them uses. Missing for the full claim: conditions with a gradient part (`C19_violation`), and parallel assembly on
meshes with two boundary faces in one cell (C22). -/
theorem C19_agree_partial [LinearOrder K] {m : Mesh K} (h : m.WF) (hv : ∀ c < m.nCells, m.vol c ≠ 0) {sp : SparsityPattern}
    (hp : sp.For m) {φ : VolField K K} (hφ : φ.On m) {flux w : List K} (hfl : flux.length = m.nFaces) (hw : w.length = m.nFaces)
    (hbc : ∀ b < m.nBoundaryFaces, ix w (m.nInternalFaces + b) * φ.bnd b
      = ix φ.bVF b * ix φ.bRefValue b + (1 - ix φ.bVF b) * φ.cell (m.fc b))
    {scal : Coeff K} {s : Nat → K} (hs : scal.On m.nCells s) (e e' : ExecKind) (he : e = .serial ∨ m.BndDistinct)
    (junk : Nat → K) (ls ls' : LinearSystem K) (ho : ls.On sp m) (E : List K)
    (himp : computeDivImp e m sp flux φ scal ls (.ok ls'))
    (hexp : divExplicit e' m (some .upwind) w junk flux φ scal (List.replicate m.nCells 0) (.ok E)) :
    ∀ c < m.nCells, ls'.residual φ.cell c = ls.residual φ.cell c + m.vol c * E.getD c 0 := by
  intro c hc
  obtain ⟨l2, h2, -, hres⟩ := C19_system_partial h hp hφ hfl hs e he ls ho _ himp
  cases h2
  rw [C18_div h hφ hw hfl .upwind hs e' junk _ (by simp)] at hexp
  cases hexp
  rw [hres _ c hc, getD_range_map _ _ _ hc, replicate_getD, zero_add]
  congr 1
  rw [smul_eq_mul, ← mul_assoc, mul_div_cancel₀ _ (hv c hc)]
  congr 1
  have key : ∀ f < m.nInternalFaces + m.nBoundaryFaces, ix flux f * φ.impFace m (ix flux) φ.cell f
      = ix flux f • Mesh.schemeFace .upwind m (ix w) (ix flux) φ f := by
    intro f hf
    rw [smul_eq_mul]
    congr 1
    unfold VolField.impFace Mesh.schemeFace Mesh.upwindFace
    split
    · rfl
    · rw [smul_eq_mul, ← hbc _ (by omega)]
      congr 2
      omega
  exact netOutflow_congr h (fun f hf => key f (by rw [← h.faces]; exact hf)) c

/-- A field on `row3` with the boundary data `fixedGradient` leaves (gradient 1 on the first face, delta
coefficients 1). -/
def row3Grad : VolField ℚ ℚ := ⟨[1, 5, 2], [2, 2], [0, 0], [0, 0], [1, 0]⟩
theorem row3Grad_on : row3Grad.On row3 := ⟨rfl, rfl, rfl, rfl, rfl⟩

theorem row3_bnd : row3.BndDistinct := by
  show ∀ b < 2, ∀ b' < 2, [0, 2].getD b 0 = [0, 2].getD b' 0 → b = b'
  decide

/-- **C19 fails** for a boundary condition with a gradient: the implicit operator takes the cell value, the explicit
one the boundary value the condition prescribes (cell value plus gradient over delta coefficient). -/
theorem C19_violation : ∃ (m : Mesh ℚ) (sp : SparsityPattern) (φ : VolField ℚ ℚ) (flux w : List ℚ) (ls ls' : LinearSystem ℚ)
    (E : List ℚ), m.WF ∧ sp.For m ∧ φ.On m ∧ ls.On sp m ∧
    (∀ b < m.nBoundaryFaces, ix w (m.nInternalFaces + b) = 1 ∧ φ.bnd b = ix φ.bVF b * ix φ.bRefValue b
      + (1 - ix φ.bVF b) * (φ.cell (m.fc b) + ix φ.bRefGrad b / ix m.bnd.deltaCoeffs b)) ∧
    computeDivImp .serial m sp flux φ Coeff.default ls (.ok ls') ∧
    divExplicit .serial m (some .upwind) w (fun _ => 0) flux φ Coeff.default (List.replicate m.nCells 0) (.ok E) ∧
    ls'.residual φ.cell 0 ≠ ls.residual φ.cell 0 + m.vol 0 * E.getD 0 0 := by
  obtain ⟨sp, -, hp, ls, -, ho, -⟩ := exists_system row3 row3_wf row3_deg .serial
  obtain ⟨out, hout⟩ := computeDivImp_runs .serial row3 sp [0, 0, 1, 0] row3Grad Coeff.default ls
  obtain ⟨ls', rfl, -, hres⟩ := C19_system_partial row3_wf hp row3Grad_on (flux := [0, 0, 1, 0]) rfl
    (s := fun _ => 1) (fun c _ => rfl) .serial (Or.inl rfl) ls ho _ hout
  have hexp := (C18_div row3_wf row3Grad_on (w := [1, 1, 1, 1]) (flux := [0, 0, 1, 0]) rfl rfl .upwind (s := Coeff.default) (v := fun _ => 1) (fun c _ => rfl) .serial
    (fun _ => (0 : ℚ)) (List.replicate row3.nCells 0) (by simp) _).2 rfl
  refine ⟨row3, sp, row3Grad, [0, 0, 1, 0], [1, 1, 1, 1], ls, ls', _, row3_wf, hp, row3Grad_on, ho, ?_, hout, hexp, ?_⟩
  · intro b hb
    have hb' : b < 2 := hb
    interval_cases b <;> simp [ix, row3, topoMesh, row3Grad, VolField.bnd, VolField.cell, Mesh.fc]
    norm_num
  · rw [hres _ 0 (show 0 < 3 by omega), getD_range_map _ _ _ (show 0 < row3.nCells from (by decide : 0 < 3)), replicate_getD]
    simp [Mesh.netOutflow, Finset.sum_range_succ, VolField.impFace, Mesh.schemeFace, Mesh.upwindFace, ix, row3, topoMesh,
      row3Grad, VolField.bnd, VolField.cell, Mesh.fc, Mesh.own, Mesh.nbr, Mesh.vol]

/-- The hypotheses can be met: fixed boundary values on three cells in a row, assembled in parallel. -/
example : row3.WF ∧ (∀ c < row3.nCells, row3.vol c ≠ 0) ∧ row3.BndDistinct ∧
    (∃ sp, sp.For row3 ∧ ∃ ls : LinearSystem ℚ, ls.On sp row3) ∧
    (∀ b < row3.nBoundaryFaces, ix [(1 : ℚ), 1, 1, 1] (row3.nInternalFaces + b) * row3Field.bnd b
      = ix row3Field.bVF b * ix row3Field.bRefValue b + (1 - ix row3Field.bVF b) * row3Field.cell (row3.fc b)) := by
  obtain ⟨sp, -, hp, ls, -, ho, -⟩ := exists_system row3 row3_wf row3_deg .serial
  refine ⟨row3_wf, ?_, row3_bnd, ⟨sp, hp, ls, ho⟩, ?_⟩
  · intro c hc
    have : c < 3 := hc
    interval_cases c <;> simp [Mesh.vol, row3, topoMesh]
  · intro b hb
    have hb' : b < 2 := hb
    interval_cases b <;> simp [ix, row3, topoMesh, row3Field, VolField.bnd]

end NeoFOAM
