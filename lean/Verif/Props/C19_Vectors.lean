import Verif.Props.C78_Components
import Verif.Props.C20_ImplicitLaplacian

/-!
# C19, C20 – implicit and explicit operators agree, for vector fields

The coefficients of a vector system are vectors; each component of the system is a scalar system (C78).
-/
namespace NeoFOAM
variable {K : Type} [Field K]

/-- A vector system over the sparsity pattern of the mesh. -/
structure LinearSystem.OnVec (ls : LinearSystem (Vec K)) (sp : SparsityPattern) (m : Mesh K) : Prop where
  cols : ls.matrix.colIdxs = sp.colIdxs
  rowsEq : ls.matrix.rowOffs = sp.rowPtrs
  vals : ls.matrix.values.length = sp.colIdxs.length
  rhsLen : ls.rhs.length = m.nCells

/-- Component `i` of `(A x - b)` in row `c`: the products of coefficients and values are taken per component. -/
def LinearSystem.residualAt (i : Fin 3) (ls : LinearSystem (Vec K)) (x : Nat → Vec K) (c : Nat) : K :=
  (∑ p ∈ Finset.Ico (ls.matrix.rs c) (ls.matrix.rs (c + 1)), vecComp i (ls.matrix.val p) * vecComp i (x (ls.matrix.col p))) - vecComp i (ls.rhs.getD c 0)

theorem vecComp_zero (i : Fin 3) : vecComp i (0 : Vec K) = 0 := by fin_cases i <;> rfl

theorem getD_comp (i : Fin 3) (l : List (Vec K)) (n : Nat) : (l.map (vecComp i)).getD n 0 = vecComp i (l.getD n 0) := by
  rw [← vecComp_zero i, List.getD_map]

theorem residualAt_eq (i : Fin 3) (ls : LinearSystem (Vec K)) (x : Nat → Vec K) (c : Nat) :
    ls.residualAt i x c = (ls.map (vecComp i)).residual (fun c => vecComp i (x c)) c := by
  unfold LinearSystem.residualAt LinearSystem.residual
  congr 1
  · refine Finset.sum_congr rfl fun p _ => ?_
    congr 1
    exact (getD_comp i _ _).symm
  · exact (getD_comp i _ _).symm

theorem LinearSystem.OnVec.comp {ls : LinearSystem (Vec K)} {sp : SparsityPattern} {m : Mesh K} (h : ls.OnVec sp m) (i : Fin 3) : (ls.map (vecComp i)).On sp m :=
  ⟨h.cols, h.rowsEq, (List.length_map _).trans h.vals, (List.length_map _).trans h.rhsLen⟩

theorem VolField.On.comp {φ : VolField K (Vec K)} {m : Mesh K} (h : φ.On m) (i : Fin 3) : (φ.map (vecComp i)).On m :=
  ⟨(List.length_map _).trans h.1, (List.length_map _).trans h.2, (List.length_map _).trans h.3, h.4, (List.length_map _).trans h.5⟩

theorem comp_of_seen {α β : Type} {f : α → β} {X : NR α} {Y : NR β} (h : NR.Seen f X Y) {a : α} (ha : X (.ok a)) : Y (.ok (f a)) :=
  (h _).2 ⟨_, ha, rfl⟩

theorem rd_comp (i : Fin 3) {φ : VolField K (Vec K)} (c : Nat) : (φ.map (vecComp i)).cell c = vecComp i (φ.cell c) := getD_comp i _ _
theorem bnd_comp (i : Fin 3) {φ : VolField K (Vec K)} (b : Nat) : (φ.map (vecComp i)).bnd b = vecComp i (φ.bnd b) := getD_comp i _ _

theorem map_zeros (i : Fin 3) (n : Nat) : (List.replicate n (0 : Vec K)).map (vecComp i) = List.replicate n 0 := by
  rw [List.map_replicate, vecComp_zero]

/-- **C19, vector fields**: in every component. The conditions are those of `C19_agree_partial`. -/
theorem C19_vector_partial [LinearOrder K] {m : Mesh K} (h : m.WF) (hv : ∀ c < m.nCells, m.vol c ≠ 0) {sp : SparsityPattern}
    (hp : sp.For m) {φ : VolField K (Vec K)} (hφ : φ.On m) {flux w : List K} (hfl : flux.length = m.nFaces) (hw : w.length = m.nFaces)
    (hbc : ∀ b < m.nBoundaryFaces, ix w (m.nInternalFaces + b) • φ.bnd b
      = ix φ.bVF b • φ.bRefValue.getD b 0 + (1 - ix φ.bVF b) • φ.cell (m.fc b))
    {scal : Coeff K} {s : Nat → K} (hs : scal.On m.nCells s) (e e' : ExecKind) (he : e = .serial ∨ m.BndDistinct)
    (junk : Nat → Vec K) (ls ls' : LinearSystem (Vec K)) (ho : ls.OnVec sp m) (E : List (Vec K))
    (himp : computeDivImpV vecOne e m sp flux φ scal ls (.ok ls'))
    (hexp : divExplicit e' m (some .upwind) w junk flux φ scal (List.replicate m.nCells 0) (.ok E)) :
    ∀ i, ∀ c < m.nCells, ls'.residualAt i φ.cell c = ls.residualAt i φ.cell c + m.vol c * vecComp i (E.getD c 0) := by
  intro i c hc
  have h1 := comp_of_seen (NR.Rel.seen (computeDivImpV_rel (vecCompL i) (vecOne : Vec K) e m sp flux φ scal ls)) himp
  have h2 := comp_of_seen (NR.Rel.seenList (divExplicit_rel (vecCompL i) (some .upwind) e' m w junk flux φ scal
    (img_list (vecCompL i) (List.replicate m.nCells 0)))) hexp
  rw [vecCompL_coe] at h1 h2
  rw [vecComp_one, computeDivImpV_one] at h1
  rw [map_zeros] at h2
  have := C19_agree_partial h hv hp (hφ.comp i) hfl hw (fun b hb => ?_) hs e e' he (fun j => vecComp i (junk j)) _ _ (ho.comp i) _ h1 h2 c hc
  · rw [residualAt_eq, residualAt_eq, ← getD_comp]
    rwa [show (fun c => vecComp i (φ.cell c)) = (φ.map (vecComp i)).cell from funext fun c => (rd_comp i c).symm]
  · have hx := congrArg (vecCompL i) (hbc b hb)
    rw [(vecCompL i).map_smul, (vecCompL i).map_add, (vecCompL i).map_smul, (vecCompL i).map_smul] at hx
    rw [bnd_comp, rd_comp]
    simpa only [smul_eq_mul, vecCompL_coe, ix, VolField.map, getD_comp] using hx

/-- **C20, vector fields**: in every component. The conditions are those of `C20_agree_partial`. -/
theorem C20_vector_partial [LinearOrder K] {m : Mesh K} (h : m.WF) (hv : ∀ c < m.nCells, m.vol c ≠ 0) {sp : SparsityPattern}
    (hp : sp.For m) {φ : VolField K (Vec K)} (hφ : φ.On m) {δ gamma : List K} (hδ : δ.length = m.nFaces) (hg : gamma.length = m.nFaces)
    (hone : ∀ f < m.nFaces, ix gamma f = 1)
    (hbc : ∀ b < m.nBoundaryFaces, ix δ (m.nInternalFaces + b) • (φ.bnd b - φ.cell (m.fc b))
      = ix φ.bVF b • (ix δ (m.nInternalFaces + b) • (φ.bRefValue.getD b 0 - φ.cell (m.fc b))) + (1 - ix φ.bVF b) • φ.bRefGrad.getD b 0)
    {scal : Coeff K} {s : Nat → K} (hs : scal.On m.nCells s) (e e' : ExecKind) (he : e = .serial ∨ m.BndDistinct)
    (junk : Nat → Vec K) (ls ls' : LinearSystem (Vec K)) (ho : ls.OnVec sp m) (E : List (Vec K))
    (himp : computeLaplacianImplV vecOne e m sp δ gamma φ scal ls (.ok ls'))
    (hexp : laplacianExplicit e' m true δ junk gamma φ scal (List.replicate m.nCells 0) (.ok E)) :
    ∀ i, ∀ c < m.nCells, ls'.residualAt i φ.cell c = ls.residualAt i φ.cell c + m.vol c * vecComp i (E.getD c 0) := by
  intro i c hc
  have h1 := comp_of_seen (NR.Rel.seen (computeLaplacianImplV_rel (vecCompL i) (vecOne : Vec K) e m sp δ gamma φ scal ls)) himp
  have h2 := comp_of_seen (NR.Rel.seenList (laplacianExplicit_rel (vecCompL i) e' m true δ junk gamma φ scal
    (img_list (vecCompL i) (List.replicate m.nCells 0)))) hexp
  rw [vecCompL_coe] at h1 h2
  rw [vecComp_one, computeLaplacianImplV_one] at h1
  rw [map_zeros] at h2
  have := C20_agree_partial h hv hp (hφ.comp i) hδ hg hone (fun b hb => ?_) hs e e' he (fun j => vecComp i (junk j)) _ _ (ho.comp i) _ h1 h2 c hc
  · rw [residualAt_eq, residualAt_eq, ← getD_comp]
    rwa [show (fun c => vecComp i (φ.cell c)) = (φ.map (vecComp i)).cell from funext fun c => (rd_comp i c).symm]
  · have hx := congrArg (vecCompL i) (hbc b hb)
    rw [(vecCompL i).map_smul, (vecCompL i).map_sub, (vecCompL i).map_add, (vecCompL i).map_smul, (vecCompL i).map_smul, (vecCompL i).map_smul,
      (vecCompL i).map_sub] at hx
    rw [bnd_comp, rd_comp]
    simpa only [smul_eq_mul, vecCompL_coe, ix, VolField.map, getD_comp] using hx

/-! ### A case that meets the hypotheses -/

/-- Vectors in a row of three cells, with a fixed value at one end and zero gradient at the other. -/
def row3Vec : VolField ℚ (Vec ℚ) := ⟨[(1, 2, 3), (5, 0, -1), (2, 2, 7)], [(4, 4, 4), (2, 2, 7)], [(4, 4, 4), (0, 0, 0)], [1, 0], [(0, 0, 0), (0, 0, 0)]⟩

example : row3Vec.On row3 ∧
    (∀ b < row3.nBoundaryFaces, ix ([1, 1, 1, 1] : List ℚ) (row3.nInternalFaces + b) • row3Vec.bnd b
      = ix row3Vec.bVF b • row3Vec.bRefValue.getD b 0 + (1 - ix row3Vec.bVF b) • row3Vec.cell (row3.fc b)) ∧
    (∀ b < row3.nBoundaryFaces, ix ([1, 1, 1, 1] : List ℚ) (row3.nInternalFaces + b) • (row3Vec.bnd b - row3Vec.cell (row3.fc b))
      = ix row3Vec.bVF b • (ix ([1, 1, 1, 1] : List ℚ) (row3.nInternalFaces + b) • (row3Vec.bRefValue.getD b 0 - row3Vec.cell (row3.fc b)))
        + (1 - ix row3Vec.bVF b) • row3Vec.bRefGrad.getD b 0) := by
  refine ⟨⟨rfl, rfl, rfl, rfl, rfl⟩, ?_, ?_⟩ <;>
  · intro b hb
    have hb : b < 2 := hb
    interval_cases b <;> simp [ix, row3, topoMesh, row3Vec, VolField.bnd, VolField.cell, Mesh.fc, show ((0 : ℚ), (0 : ℚ), (0 : ℚ)) = 0 from rfl]

/-- The vector operators return, so that there are systems `ls'` and results `E` to compare. -/
example (e : ExecKind) {sp : SparsityPattern} (hp : sp.For row3) (ls : LinearSystem (Vec ℚ)) (ho : ls.OnVec sp row3) :
    (∃ ls', computeDivImpV vecOne e row3 sp [1, -1, 2, 0] row3Vec (Coeff.ofScalar 2) ls (.ok ls')) ∧
    ∃ E, divExplicit e row3 (some .upwind) [1, 1, 1, 1] (fun _ => (7, 7, 7)) [1, -1, 2, 0] row3Vec (Coeff.ofScalar 2) (List.replicate 3 0) (.ok E) := by
  have hc : (Coeff.ofScalar (2 : ℚ)).On row3.nCells (fun _ => 2) := fun _ _ => rfl
  have hφ : row3Vec.On row3 := ⟨rfl, rfl, rfl, rfl, rfl⟩
  have pick : ∀ {α β : Type} {f : α → β} {X : NR α} {Y : NR β}, NR.Seen f X Y → (∃ y, Y (.ok y)) → ∃ x, X (.ok x) := by
    rintro α β f X Y h ⟨y, hy⟩
    obtain ⟨o, h1, h2⟩ := (h _).1 hy
    cases o with
    | ok x => exact ⟨x, h1⟩
    | throw _ => cases h2
    | abort => cases h2
    | ub => cases h2
  constructor
  · refine pick (NR.Rel.seen (computeDivImpV_rel (vecCompL 0) (vecOne : Vec ℚ) e row3 sp [1, -1, 2, 0] row3Vec (Coeff.ofScalar 2) ls)) ?_
    rw [vecCompL_coe, vecComp_one, computeDivImpV_one]
    obtain ⟨out, hout⟩ := computeDivImp_runs e row3 sp [1, -1, 2, 0] (row3Vec.map (vecComp 0)) (Coeff.ofScalar 2) (ls.map (vecComp 0))
    obtain ⟨l, rfl, -⟩ := computeDivImp_ok row3_wf hp (hφ.comp 0) rfl hc e (Or.inr row3_bnd) _ (ho.comp 0) _ hout
    exact ⟨l, hout⟩
  · refine pick (NR.Rel.seenList (divExplicit_rel (vecCompL 0) (some .upwind) e row3 [1, 1, 1, 1] (fun _ => (7, 7, 7)) [1, -1, 2, 0] row3Vec (Coeff.ofScalar 2)
      (img_list (vecCompL 0) (List.replicate 3 0)))) ?_
    rw [vecCompL_coe, map_zeros]
    exact ⟨_, (C18_div row3_wf (hφ.comp 0) rfl rfl .upwind hc e _ _ (by simp; rfl) _).2 rfl⟩

end NeoFOAM
