import Verif.Proofs.Races
import Verif.Props.C22_AssemblySchedules
import Verif.Props.C69_Definite

/-!
# C22 – what a racing assembly can lose, on every mesh

On every mesh, executor and interleaving, assembling a divergence or Laplacian term succeeds, its off-diagonal coefficients are those of
the serial executor, and the diagonal coefficient and the right hand side of a cell lack at most the contributions of some – never all –
of the cell's boundary faces. Symmetry and signs of a diffusion matrix survive, and definiteness does when every cell has boundary
faces of one kind only.
-/
namespace NeoFOAM
open Finset
variable {K : Type} [Field K]

section proofs
variable {m : Mesh K} {sp : SparsityPattern}

theorem computeLaplacianImpl_lost (h : m.WF) (hp : sp.For m) {φ : VolField K K} (hφ : φ.On m) {δ gamma : List K}
    (hδ : δ.length = m.nFaces) (hg : gamma.length = m.nFaces) {scal : Coeff K} {s : Nat → K} (hs : scal.On m.nCells s)
    (e : ExecKind) (ls : LinearSystem K) (ho : ls.On sp m) :
    (computeLaplacianImpl e m sp δ gamma φ scal ls).Ok (fun ls' => ∃ L L' : Finset Nat, m.Lost L ∧ m.Lost L' ∧ Assembles m sp ls ls'
      (lapDelta m (ix δ) (ix gamma) (fun b => if b ∈ L then 0 else ix φ.bVF b) s)
      (fun c => - (s c * ∑ b ∈ range m.nBoundaryFaces, if m.fc b = c then (if b ∈ L' then 0 else ix gamma (m.nInternalFaces + b) * ix m.magFaceAreas (m.nInternalFaces + b)
        * (ix φ.bVF b * ix δ (m.nInternalFaces + b) * ix φ.bRefValue b + (1 - ix φ.bVF b) * ix φ.bRefGrad b)) else 0))) := by
  have hfa := h.faces
  unfold computeLaplacianImpl
  refine (faceLoop_ok h hp e _ _ _ _ _ ls ho (fun f hf => lapImpInternal_acts h hp hδ hg hs ho.rowsEq f hf)).bind ?_
  intro ls1 a1
  refine (boundaryLoop_lost h hp e gamma.length (by omega) _
    (fun f => - (ix gamma f * ix m.magFaceAreas f * s (m.fc (f - m.nInternalFaces)) * ix φ.bVF (f - m.nInternalFaces) * ix δ f))
    (fun f => - (ix gamma f * ix m.magFaceAreas f * s (m.fc (f - m.nInternalFaces)) * (ix φ.bVF (f - m.nInternalFaces) * ix δ f * ix φ.bRefValue (f - m.nInternalFaces)
      + (1 - ix φ.bVF (f - m.nInternalFaces)) * ix φ.bRefGrad (f - m.nInternalFaces)))) _ _ ls1 a1.on
    (fun _ _ => sub_eq_add_neg _ _) (fun _ _ => sub_eq_add_neg _ _)
    (fun f h1 h2 => lapImpBoundary_acts h hp hφ hδ hg hs a1.on.rowsEq f h1 (by omega))).mono ?_
  rintro ls2 ⟨L, L', hL, hL', a2⟩
  refine ⟨L, L', hL, hL', (a1.trans a2).congr ?_ ?_⟩
  · intro sl hsl
    cases sl with
    | diag c =>
      simp only [faceDelta, diagDelta, lapDelta, Nat.add_sub_cancel_left, mul_add, Finset.mul_sum, neg_add]
      rw [← Finset.sum_neg_distrib, ← Finset.sum_neg_distrib]
      congr 1
      · apply Finset.sum_congr rfl
        intro f _
        by_cases c1 : m.own f = c <;> by_cases c2 : m.nbr f = c <;> simp [c1, c2, lapCoef] <;> ring
      · apply Finset.sum_congr rfl
        intro b _
        by_cases c1 : m.fc b = c <;> by_cases c2 : b ∈ L <;> simp [c1, c2, lapCoef]
        ring
    | upper f => simp only [faceDelta, diagDelta, lapDelta, add_zero, lapCoef]; ring
    | lower f => simp only [faceDelta, diagDelta, lapDelta, add_zero, lapCoef]; ring
  · intro c _
    simp only [Nat.add_sub_cancel_left, zero_add, Finset.mul_sum]
    rw [← Finset.sum_neg_distrib]
    apply Finset.sum_congr rfl
    intro b _
    by_cases c1 : m.fc b = c <;> by_cases c2 : b ∈ L' <;> simp [c1, c2]
    ring

theorem computeDivImp_lost [LinearOrder K] (h : m.WF) (hp : sp.For m) {φ : VolField K K} (hφ : φ.On m) {flux : List K}
    (hfl : flux.length = m.nFaces) {scal : Coeff K} {s : Nat → K} (hs : scal.On m.nCells s) (e : ExecKind) (ls : LinearSystem K) (ho : ls.On sp m) :
    (computeDivImp e m sp flux φ scal ls).Ok (fun ls' => ∃ L L' : Finset Nat, m.Lost L ∧ m.Lost L' ∧ Assembles m sp ls ls'
      (divDelta m (ix flux) (fun b => if b ∈ L then 1 else ix φ.bVF b) s)
      (divRhs m (ix flux) (fun b => if b ∈ L' then 0 else ix φ.bVF b) (ix φ.bRefValue) s)) := by
  have hfa := h.faces
  unfold computeDivImp
  refine (faceLoop_ok h hp e _ _ _ _ _ ls ho (fun f hf => divImpInternal_acts h hp hfl hs ho.rowsEq f hf)).bind ?_
  intro ls1 a1
  refine (boundaryLoop_lost h hp e flux.length (by omega) _
    (fun f => ix flux f * s (m.fc (f - m.nInternalFaces)) * (1 - ix φ.bVF (f - m.nInternalFaces)))
    (fun f => - (ix flux f * s (m.fc (f - m.nInternalFaces)) * (ix φ.bVF (f - m.nInternalFaces) * ix φ.bRefValue (f - m.nInternalFaces)))) _ _ ls1 a1.on
    (fun _ _ => rfl) (fun _ _ => sub_eq_add_neg _ _)
    (fun f h1 h2 => divImpBoundary_acts h hp hφ hfl hs a1.on.rowsEq f h1 (by omega))).mono ?_
  rintro ls2 ⟨L, L', hL, hL', a2⟩
  refine ⟨L, L', hL, hL', (a1.trans a2).congr ?_ ?_⟩
  · intro sl hsl
    cases sl with
    | diag c =>
      simp only [faceDelta, diagDelta, divDelta, Nat.add_sub_cancel_left, mul_add, Finset.mul_sum]
      congr 1
      · apply Finset.sum_congr rfl
        intro f _
        by_cases c1 : m.own f = c <;> by_cases c2 : m.nbr f = c <;> by_cases c3 : 0 ≤ ix flux f <;>
          simp [c1, c2, c3] <;> ring
      · apply Finset.sum_congr rfl
        intro b _
        by_cases c1 : m.fc b = c <;> by_cases c2 : b ∈ L <;> simp [c1, c2]
        ring
    | upper f =>
      simp only [faceDelta, diagDelta, divDelta, add_zero]
      by_cases c3 : 0 ≤ ix flux f <;> simp [c3]
    | lower f =>
      simp only [faceDelta, diagDelta, divDelta, add_zero]
      by_cases c3 : 0 ≤ ix flux f <;> simp [c3]
  · intro c _
    simp only [divRhs, Nat.add_sub_cancel_left, zero_add, Finset.mul_sum]
    rw [← Finset.sum_neg_distrib]
    apply Finset.sum_congr rfl
    intro b _
    by_cases c1 : m.fc b = c <;> by_cases c2 : b ∈ L' <;> simp [c1, c2]
    ring

/-- Masking a sum over the boundary faces. -/
theorem sum_mask (L : Finset Nat) (hL : m.Lost L) (c : Nat) (d : Nat → K) :
    (∑ b ∈ range m.nBoundaryFaces, if m.fc b = c then (if b ∈ L then 0 else d b) else 0)
      = (∑ b ∈ range m.nBoundaryFaces, if m.fc b = c then d b else 0) - m.sumAt L c d := by
  have e1 : m.sumAt L c d = ∑ b ∈ range m.nBoundaryFaces, if m.fc b = c then (if b ∈ L then d b else 0) else 0 := by
    rw [Mesh.sumAt, Finset.sum_filter]
    refine Finset.sum_subset_zero_on_sdiff (fun b hb => mem_range.2 (hL.1 b hb)) ?_ ?_
    · intro b hb
      rw [mem_sdiff] at hb
      simp [hb.2]
    · intro b hb
      simp [hb]
  rw [e1, ← Finset.sum_sub_distrib]
  apply Finset.sum_congr rfl
  intro b _
  by_cases c1 : m.fc b = c <;> by_cases c2 : b ∈ L <;> simp [c1, c2]

/-- Two outcomes whose changes differ at the diagonal only. -/
theorem Assembles.coef_diff (h : m.WF) (hp : sp.For m) {ls ls1 ls2 : LinearSystem K} (ho : ls.On sp m) {dv1 dv2 : Slot → K} {dr1 dr2 : Nat → K}
    (h1 : Assembles m sp ls ls1 dv1 dr1) (h2 : Assembles m sp ls ls2 dv2 dr2) (hu : ∀ f, dv2 (.upper f) = dv1 (.upper f)) (hl : ∀ f, dv2 (.lower f) = dv1 (.lower f))
    {i j : Nat} (hi : i < m.nCells) :
    ls2.matrix.coef i j = ls1.matrix.coef i j + if i = j then dv2 (.diag i) - dv1 (.diag i) else 0 := by
  have a1 := h1.coef_slots h hp ho hi (j := j)
  have a2 := h2.coef_slots h hp ho hi (j := j)
  simp only [hu, hl] at a2
  by_cases hij : i = j
  · simp only [hij, if_true] at a1 a2 ⊢
    linear_combination a2 - a1
  · simp only [hij, if_false] at a1 a2 ⊢
    linear_combination a2 - a1

end proofs

/-- **C22, Laplacian, every mesh**: on every executor and interleaving the assembly succeeds; with the serial result `ls₁`, the result
`ls₂` has the same off-diagonal coefficients, and at each cell the contributions of some boundary faces – never of all the
boundary faces of a cell – may be missing from the diagonal (faces `L`) and from the right hand side (faces `L'`). -/
theorem C22_laplacian_every {m : Mesh K} (h : m.WF) {sp : SparsityPattern} (hp : sp.For m) {φ : VolField K K} (hφ : φ.On m) {δ gamma : List K}
    (hδ : δ.length = m.nFaces) (hg : gamma.length = m.nFaces) {scal : Coeff K} {s : Nat → K} (hs : scal.On m.nCells s)
    (ls ls₁ : LinearSystem K) (ho : ls.On sp m) (h1 : computeLaplacianImpl .serial m sp δ gamma φ scal ls (.ok ls₁))
    (e : ExecKind) (out : Res (LinearSystem K)) (hout : computeLaplacianImpl e m sp δ gamma φ scal ls out) :
    ∃ ls₂, out = .ok ls₂ ∧ ls₂.On sp m ∧ ∃ L L' : Finset Nat, m.Lost L ∧ m.Lost L' ∧
      (∀ i < m.nCells, ∀ j, i ≠ j → ls₂.matrix.coef i j = ls₁.matrix.coef i j) ∧
      (∀ c < m.nCells, ls₂.matrix.coef c c = ls₁.matrix.coef c c + s c * m.sumAt L c fun b => m.diffCoef δ gamma (m.nInternalFaces + b) * ix φ.bVF b) ∧
      ∀ c < m.nCells, ix ls₂.rhs c = ix ls₁.rhs c + s c * m.sumAt L' c fun b => ix gamma (m.nInternalFaces + b) * ix m.magFaceAreas (m.nInternalFaces + b)
        * (ix φ.bVF b * ix δ (m.nInternalFaces + b) * ix φ.bRefValue b + (1 - ix φ.bVF b) * ix φ.bRefGrad b) := by
  obtain ⟨l1, k1, a1⟩ := computeLaplacianImpl_ok h hp hφ hδ hg hs .serial (Or.inl rfl) ls ho _ h1
  cases k1
  obtain ⟨ls₂, rfl, L, L', hL, hL', a2⟩ := computeLaplacianImpl_lost h hp hφ hδ hg hs e ls ho _ hout
  refine ⟨ls₂, rfl, a2.on, L, L', hL, hL', fun i hi j hij => ?_, fun c hc => ?_, fun c hc => ?_⟩
  · have := a1.coef_diff h hp ho a2 (fun _ => rfl) (fun _ => rfl) hi (j := j)
    rw [this, if_neg hij, add_zero]
  · have := a1.coef_diff h hp ho a2 (fun _ => rfl) (fun _ => rfl) hc (j := c)
    rw [this, if_pos rfl]
    have e1 : ∀ b, lapCoef m (ix δ) (ix gamma) (m.nInternalFaces + b) * (if b ∈ L then (0 : K) else ix φ.bVF b)
        = if b ∈ L then 0 else lapCoef m (ix δ) (ix gamma) (m.nInternalFaces + b) * ix φ.bVF b := by
      intro b; split <;> simp
    simp only [lapDelta, e1]
    rw [sum_mask L hL c (fun b => lapCoef m (ix δ) (ix gamma) (m.nInternalFaces + b) * ix φ.bVF b)]
    simp only [lapCoef, Mesh.diffCoef]
    ring
  · have := a1.rhs c hc
    have t2 := a2.rhs c hc
    simp only [lapRhs] at this
    rw [sum_mask L' hL' c (fun b => ix gamma (m.nInternalFaces + b) * ix m.magFaceAreas (m.nInternalFaces + b)
        * (ix φ.bVF b * ix δ (m.nInternalFaces + b) * ix φ.bRefValue b + (1 - ix φ.bVF b) * ix φ.bRefGrad b))] at t2
    simp only [ix] at this t2 ⊢
    rw [t2, this]
    ring

/-- **C22, divergence, every mesh**: likewise. -/
theorem C22_div_every [LinearOrder K] {m : Mesh K} (h : m.WF) {sp : SparsityPattern} (hp : sp.For m) {φ : VolField K K} (hφ : φ.On m) {flux : List K}
    (hfl : flux.length = m.nFaces) {scal : Coeff K} {s : Nat → K} (hs : scal.On m.nCells s)
    (ls ls₁ : LinearSystem K) (ho : ls.On sp m) (h1 : computeDivImp .serial m sp flux φ scal ls (.ok ls₁))
    (e : ExecKind) (out : Res (LinearSystem K)) (hout : computeDivImp e m sp flux φ scal ls out) :
    ∃ ls₂, out = .ok ls₂ ∧ ls₂.On sp m ∧ ∃ L L' : Finset Nat, m.Lost L ∧ m.Lost L' ∧
      (∀ i < m.nCells, ∀ j, i ≠ j → ls₂.matrix.coef i j = ls₁.matrix.coef i j) ∧
      (∀ c < m.nCells, ls₂.matrix.coef c c = ls₁.matrix.coef c c - s c * m.sumAt L c fun b => ix flux (m.nInternalFaces + b) * (1 - ix φ.bVF b)) ∧
      ∀ c < m.nCells, ix ls₂.rhs c = ix ls₁.rhs c + s c * m.sumAt L' c fun b => ix flux (m.nInternalFaces + b) * (ix φ.bVF b * ix φ.bRefValue b) := by
  obtain ⟨l1, k1, a1⟩ := computeDivImp_ok h hp hφ hfl hs .serial (Or.inl rfl) ls ho _ h1
  cases k1
  obtain ⟨ls₂, rfl, L, L', hL, hL', a2⟩ := computeDivImp_lost h hp hφ hfl hs e ls ho _ hout
  refine ⟨ls₂, rfl, a2.on, L, L', hL, hL', fun i hi j hij => ?_, fun c hc => ?_, fun c hc => ?_⟩
  · have := a1.coef_diff h hp ho a2 (fun _ => rfl) (fun _ => rfl) hi (j := j)
    rw [this, if_neg hij, add_zero]
  · have := a1.coef_diff h hp ho a2 (fun _ => rfl) (fun _ => rfl) hc (j := c)
    rw [this, if_pos rfl]
    have e1 : ∀ b, ix flux (m.nInternalFaces + b) * (1 - (if b ∈ L then (1 : K) else ix φ.bVF b))
        = if b ∈ L then 0 else ix flux (m.nInternalFaces + b) * (1 - ix φ.bVF b) := by
      intro b; split <;> simp
    simp only [divDelta, e1]
    rw [sum_mask L hL c (fun b => ix flux (m.nInternalFaces + b) * (1 - ix φ.bVF b))]
    ring
  · have := a1.rhs c hc
    have t2 := a2.rhs c hc
    have e1 : ∀ b, ix flux (m.nInternalFaces + b) * ((if b ∈ L' then (0 : K) else ix φ.bVF b) * ix φ.bRefValue b)
        = if b ∈ L' then 0 else ix flux (m.nInternalFaces + b) * (ix φ.bVF b * ix φ.bRefValue b) := by
      intro b; split <;> simp
    simp only [divRhs, e1] at this t2
    rw [sum_mask L' hL' c (fun b => ix flux (m.nInternalFaces + b) * (ix φ.bVF b * ix φ.bRefValue b))] at t2
    simp only [ix] at this t2 ⊢
    rw [t2, this]
    ring

/-- Nothing is lost at a cell with at most one boundary face. -/
theorem Mesh.Lost.single {m : Mesh K} {L : Finset Nat} (hL : m.Lost L) {c : Nat}
    (hc : ∀ b < m.nBoundaryFaces, ∀ b' < m.nBoundaryFaces, m.fc b = c → m.fc b' = c → b = b') (d : Nat → K) : m.sumAt L c d = 0 := by
  apply Finset.sum_eq_zero
  intro b hb
  exfalso
  obtain ⟨h1, h2⟩ := mem_filter.1 hb
  obtain ⟨b', h3, h4, h5⟩ := hL.2 b (hL.1 b h1)
  exact h5 (hc b (hL.1 b h1) b' h3 h2 (h4.trans h2) ▸ h1)

/-- **C22, rows**: on every mesh, executor and interleaving the row and right hand side of a cell with at most one boundary face are those of the
serial executor. -/
theorem C22_rows [LinearOrder K] {m : Mesh K} (h : m.WF) {sp : SparsityPattern} (hp : sp.For m) {φ : VolField K K} (hφ : φ.On m) {δ gamma flux : List K}
    (hδ : δ.length = m.nFaces) (hg : gamma.length = m.nFaces) (hfl : flux.length = m.nFaces) {scal : Coeff K} {s : Nat → K} (hs : scal.On m.nCells s)
    (ls ls₁ ls₂ : LinearSystem K) (ho : ls.On sp m) (e : ExecKind)
    (hrun : computeLaplacianImpl .serial m sp δ gamma φ scal ls (.ok ls₁) ∧ computeLaplacianImpl e m sp δ gamma φ scal ls (.ok ls₂) ∨
      computeDivImp .serial m sp flux φ scal ls (.ok ls₁) ∧ computeDivImp e m sp flux φ scal ls (.ok ls₂))
    (c : Nat) (hc : c < m.nCells) (h1 : ∀ b < m.nBoundaryFaces, ∀ b' < m.nBoundaryFaces, m.fc b = c → m.fc b' = c → b = b') :
    (∀ j, ls₂.matrix.coef c j = ls₁.matrix.coef c j) ∧ ix ls₂.rhs c = ix ls₁.rhs c := by
  rcases hrun with ⟨hr1, hr2⟩ | ⟨hr1, hr2⟩
  · obtain ⟨l2, k2, -, L, L', hL, hL', a1, a2, a3⟩ := C22_laplacian_every h hp hφ hδ hg hs ls ls₁ ho hr1 e _ hr2
    cases k2
    refine ⟨fun j => ?_, by rw [a3 c hc, hL'.single h1, mul_zero, add_zero]⟩
    by_cases hj : c = j
    · subst hj; rw [a2 c hc, hL.single h1, mul_zero, add_zero]
    · exact a1 c hc j hj
  · obtain ⟨l2, k2, -, L, L', hL, hL', a1, a2, a3⟩ := C22_div_every h hp hφ hfl hs ls ls₁ ho hr1 e _ hr2
    cases k2
    refine ⟨fun j => ?_, by rw [a3 c hc, hL'.single h1, mul_zero, add_zero]⟩
    by_cases hj : c = j
    · subst hj; rw [a2 c hc, hL.single h1, mul_zero, sub_zero]
    · exact a1 c hc j hj

section diffusion
variable [LinearOrder K] [IsStrictOrderedRing K]
variable {m : Mesh K} (h : m.WF) {sp : SparsityPattern} (hp : sp.For m) {φ : VolField K K} (hφ : φ.On m) {δ gamma : List K}
  (hδ : δ.length = m.nFaces) (hg : gamma.length = m.nFaces) (e : ExecKind)
  (ls ls' : LinearSystem K) (ho : ls.On sp m) {scal : Coeff K} {s0 : K}
  (hs : scal.On m.nCells (fun _ => s0))
  (hout : computeLaplacianImpl e m sp δ gamma φ scal ls (.ok ls'))
include h hp hφ hδ hg ho hs hout

/-- The matrix of every outcome is the one the serial executor makes when some of the boundary faces have value fraction zero. -/
theorem lap_lost_serial : ∃ (L : Finset Nat) (φ' : VolField K K) (ls₁ : LinearSystem K), m.Lost L ∧ φ'.On m ∧
    (∀ b < m.nBoundaryFaces, ix φ'.bVF b = if b ∈ L then 0 else ix φ.bVF b) ∧
    computeLaplacianImpl .serial m sp δ gamma φ' scal ls (.ok ls₁) ∧ ∀ i < m.nCells, ∀ j, ls'.matrix.coef i j = ls₁.matrix.coef i j := by
  obtain ⟨l2, k2, L, L', hL, -, a2⟩ := computeLaplacianImpl_lost h hp hφ hδ hg hs e ls ho _ hout
  cases k2
  set φ' : VolField K K := { φ with bVF := (List.range m.nBoundaryFaces).map fun b => if b ∈ L then 0 else ix φ.bVF b } with hφ'
  have hon : φ'.On m := ⟨hφ.1, hφ.2, hφ.ref, by simp [hφ'], hφ.grad⟩
  have hvf : ∀ b < m.nBoundaryFaces, ix φ'.bVF b = if b ∈ L then 0 else ix φ.bVF b := fun b hb => by
    simp [ix, hφ', List.getD_eq_getElem?_getD, hb]
  obtain ⟨out, ho1⟩ := computeLaplacianImpl_runs .serial m sp δ gamma φ' scal ls
  obtain ⟨ls₁, rfl, a1⟩ := computeLaplacianImpl_ok h hp hon hδ hg hs .serial (Or.inl rfl) ls ho _ ho1
  refine ⟨L, φ', ls₁, hL, hon, hvf, ho1, fun i hi j => ?_⟩
  rw [a1.coef_diff h hp ho a2 (fun _ => rfl) (fun _ => rfl) hi (j := j)]
  have : lapDelta m (ix δ) (ix gamma) (fun b => if b ∈ L then 0 else ix φ.bVF b) (fun _ => s0) (.diag i)
      = lapDelta m (ix δ) (ix gamma) (ix φ'.bVF) (fun _ => s0) (.diag i) := by
    simp only [lapDelta]
    congr 3
    exact Finset.sum_congr rfl (fun b hb => by rw [hvf b (mem_range.1 hb)])
  rw [this]
  simp

/-- **C22, what survives of C69**: on every mesh, executor and interleaving, the matrix of an implicit Laplacian assembled into an empty system is
symmetric and negative semidefinite. If the boundary faces of each cell either all prescribe a value or none does, it is negative
definite exactly if every cell is tied to a prescribed value – as with the serial executor. -/
theorem C22_definite (hzero : ∀ i j, ls.matrix.coef i j = 0) (hs0 : 0 < s0) (hd0 : ∀ f < m.nFaces, 0 ≤ m.diffCoef δ gamma f)
    (hv0 : ∀ b < m.nBoundaryFaces, 0 ≤ ix φ.bVF b) :
    (∀ i < m.nCells, ∀ j < m.nCells, ls'.matrix.coef i j = ls'.matrix.coef j i) ∧
    (∀ x, ls'.matrix.quad m.nCells x ≤ 0) ∧
    ((∀ b < m.nBoundaryFaces, ∀ b' < m.nBoundaryFaces, m.fc b = m.fc b' →
        0 < m.diffCoef δ gamma (m.nInternalFaces + b) * ix φ.bVF b → 0 < m.diffCoef δ gamma (m.nInternalFaces + b') * ix φ.bVF b') →
      ((∀ x, (∃ i < m.nCells, x i ≠ 0) → ls'.matrix.quad m.nCells x < 0) ↔ ∀ c < m.nCells, m.Tied (m.diffCoef δ gamma) (ix φ.bVF) c)) := by
  obtain ⟨L, φ', ls₁, hL, hon, hvf, hser, hco⟩ := lap_lost_serial h hp hφ hδ hg e ls ls' ho hs hout
  have hv' : ∀ b < m.nBoundaryFaces, 0 ≤ ix φ'.bVF b := fun b hb => by
    rw [hvf b hb]; split
    · exact le_rfl
    · exact hv0 b hb
  obtain ⟨d1, d2, d3⟩ := C69_definite h hp hon hδ hg .serial (Or.inl rfl) ls ls₁ ho hzero hs hs0 hd0 hv' hser
  have hq : ∀ x, ls'.matrix.quad m.nCells x = ls₁.matrix.quad m.nCells x := fun x =>
    Finset.sum_congr rfl fun i hi => Finset.sum_congr rfl fun j _ => by rw [hco i (mem_range.1 hi)]
  refine ⟨fun i hi j hj => by rw [hco i hi, hco j hj]; exact d1 i hi j hj, fun x => by rw [hq]; exact d2 x, fun hall => ?_⟩
  simp only [hq]
  rw [d3]
  refine forall₂_congr fun c hc => ⟨fun t => ?_, fun t => ?_⟩
  all_goals clear hc
  · induction t with
    | boundary b hb hpos =>
      refine .boundary b hb ?_
      rw [hvf b hb] at hpos
      split at hpos
      · simp at hpos
      · exact hpos
    | nbr f hf hpos _ ih => exact .nbr f hf hpos (ih)
    | own f hf hpos _ ih => exact .own f hf hpos (ih)
  · induction t with
    | boundary b hb hpos =>
      obtain ⟨b', hb', h1, h2⟩ := hL.2 b hb
      rw [← h1]
      refine .boundary b' hb' ?_
      rw [hvf b' hb', if_neg h2]
      exact hall b hb b' hb' h1.symm hpos
    | nbr f hf hpos _ ih => exact .nbr f hf hpos (ih)
    | own f hf hpos _ ih => exact .own f hf hpos (ih)

end diffusion

/-- The two boundary faces of the one cell: one prescribes the value 0, the other insulates. -/
def cell1Mixed : VolField ℚ ℚ := ⟨[1], [0, 1], [0, 0], [1, 0], [0, 0]⟩

/-- **C22 fails, with consequences**: on a valid mesh whose single cell has a face with a prescribed value and an insulated one, the serial executor
assembles the non-singular matrix (-1), and a parallel one can assemble the singular matrix (0): the contribution of the prescribed value is lost. -/
theorem C22_singular : ∃ (m : Mesh ℚ) (sp : SparsityPattern) (φ : VolField ℚ ℚ) (δ gamma : List ℚ) (ls ls₁ ls₂ : LinearSystem ℚ),
    m.WF ∧ sp.For m ∧ φ.On m ∧ δ.length = m.nFaces ∧ gamma.length = m.nFaces ∧ ls.On sp m ∧ (∀ c < m.nCells, m.Tied (m.diffCoef δ gamma) (ix φ.bVF) c) ∧
    computeLaplacianImpl .serial m sp δ gamma φ Coeff.default ls (.ok ls₁) ∧ ls₁.matrix.values = [-1] ∧
    computeLaplacianImpl .parallel m sp δ gamma φ Coeff.default ls (.ok ls₂) ∧ ls₂.matrix.values = [0] := by
  have hb : (List.range' cell1.nInternalFaces (2 - cell1.nInternalFaces)).mapM
      (lapImpBoundary cell1 cell1Pattern [0, 1] [(1 : ℚ), 1] [1, 1] cell1Mixed Coeff.default)
      = .ok [[Act.load 0 LSArr.values 0, Act.store 0 LSArr.values 0 (· - 1 * 1 * 1 * 1 * 1), Act.load 0 LSArr.rhs 0, Act.store 0 LSArr.rhs 0 (· - 1 * 1 * 1 * (1 * 1 * 0 + (1 - 1) * 0))],
        [Act.load 1 LSArr.values 0, Act.store 1 LSArr.values 0 (· - 1 * 1 * 1 * 0 * 1), Act.load 1 LSArr.rhs 0, Act.store 1 LSArr.rhs 0 (· - 1 * 1 * 1 * (0 * 1 * 0 + (1 - 0) * 0))]] := by
    have : List.range' cell1.nInternalFaces (2 - cell1.nInternalFaces) = [0, 1] := by decide
    rw [this]
    simp [lapImpBoundary, cell1, topoMesh, cell1Pattern, cell1Mixed, Coeff.default, Coeff.get, rd, Act.plain]
  have hz : ∀ (e : ExecKind), launchLS e 0 cell1.nInternalFaces
      (lapImpInternal cell1 cell1Pattern [0, 1] [(1 : ℚ), 1] [1, 1] Coeff.default) ⟨⟨[0], [0], [0, 1]⟩, [0]⟩ (.ok ⟨⟨[0], [0], [0, 1]⟩, [0]⟩) := by
    intro e
    refine (NR.bind_def _ _ _).2 ⟨.ok (fun a => match a with | .values => [0] | .rhs => [0]), ?_, rfl⟩
    refine ⟨.ok ⟨_, fun _ => none⟩, ?_, rfl⟩
    refine ⟨[], ?_, rfl⟩
    cases e with
    | serial => rfl
    | parallel => exact Interleave.done [] (by simp)
  refine ⟨cell1, cell1Pattern, cell1Mixed, [1, 1], [1, 1], ⟨⟨[0], [0], [0, 1]⟩, [0]⟩, ⟨⟨[-1], [0], [0, 1]⟩, [0]⟩,
    ⟨⟨[0], [0], [0, 1]⟩, [0]⟩, cell1_wf, cell1Pattern_for, ⟨rfl, rfl, rfl, rfl, rfl⟩, rfl, rfl, ⟨rfl, rfl, rfl, rfl⟩, ?_, ?_, rfl, ?_, rfl⟩
  · intro c hc
    have : c < 1 := hc
    have : c = 0 := by omega
    subst this
    exact Mesh.Tied.boundary (m := cell1) 0 (by decide) (by norm_num [Mesh.diffCoef, cell1, topoMesh, cell1Mixed, ix])
  · refine (NR.bind_def _ _ _).2 ⟨_, hz .serial, ?_⟩
    refine (NR.bind_def _ _ _).2 ⟨.ok (fun a => match a with | .values => [-1] | .rhs => [0]), ?_, rfl⟩
    refine ⟨.ok ⟨_, fun u => if u = 1 then some 0 else if u = 0 then some 0 else none⟩, ?_, rfl⟩
    simp only [List.length_cons, List.length_nil, Nat.zero_add, Nat.reduceAdd]
    rw [hb]
    refine ⟨_, rfl, ?_⟩
    simp [Mem.step, RunProg, Mem.setArr]
    constructor
    · funext a; cases a <;> simp
    · funext u; by_cases h1 : u = 1 <;> by_cases h0 : u = 0 <;> simp [h1, h0]
  · refine (NR.bind_def _ _ _).2 ⟨_, hz .parallel, ?_⟩
    refine (NR.bind_def _ _ _).2 ⟨.ok (fun a => match a with | .values => [0] | .rhs => [0]), ?_, rfl⟩
    refine ⟨.ok ⟨_, fun u => if u = 1 then some 0 else if u = 0 then some 0 else none⟩, ?_, rfl⟩
    simp only [List.length_cons, List.length_nil, Nat.zero_add, Nat.reduceAdd]
    rw [hb]
    refine ⟨_, racyOrder_interleave _ _ _ _ _ _ _ _, ?_⟩
    simp [Mem.step, RunProg, Mem.setArr]
    constructor
    · funext a; cases a <;> simp
    · funext u; by_cases h1 : u = 1 <;> by_cases h0 : u = 0 <;> simp [h1, h0]

/-- The hypotheses can be met by a mesh on which assembly races: the single cell with two boundary faces, each of which prescribes a value. One of them may be lost. -/
example : cell1.WF ∧ cell1Pattern.For cell1 ∧ ¬ cell1.BndDistinct ∧ cell1.Lost {1} ∧ ¬ cell1.Lost {0, 1} ∧
    ∃ ls₁ : LinearSystem ℚ, computeLaplacianImpl .serial cell1 cell1Pattern [1, 1] [1, 1] ⟨[1], [2, 3], [2, 3], [1, 1], [0, 0]⟩ Coeff.default
      ⟨⟨[0], [0], [0, 1]⟩, [0]⟩ (.ok ls₁) := by
  refine ⟨cell1_wf, cell1Pattern_for, fun hd => ?_, ⟨fun b hb => ?_, fun b hb => ⟨0, by decide, ?_, by decide⟩⟩, fun hl => ?_, ?_⟩
  · exact absurd (hd 0 (by decide) 1 (by decide) (by decide)) (by decide)
  · rw [Finset.mem_singleton] at hb; subst hb; decide
  · have hb' : b < 2 := hb
    interval_cases b <;> decide
  · obtain ⟨b', h1, -, h2⟩ := hl.2 0 (by decide)
    have hb' : b' < 2 := h1
    interval_cases b' <;> simp at h2
  · obtain ⟨out, hout⟩ := computeLaplacianImpl_runs .serial cell1 cell1Pattern [1, 1] [1, 1] ⟨[1], [2, 3], [2, 3], [1, 1], [0, 0]⟩ Coeff.default ⟨⟨[0], [0], [0, 1]⟩, [0]⟩
    obtain ⟨ls₁, rfl, -⟩ := computeLaplacianImpl_ok cell1_wf cell1Pattern_for (⟨rfl, rfl, rfl, rfl, rfl⟩ : VolField.On _ _) (δ := [1, 1]) (gamma := [1, 1]) rfl rfl
      (s := fun _ => 1) (fun c _ => rfl) .serial (Or.inl rfl) ⟨⟨[0], [0], [0, 1]⟩, [0]⟩ ⟨rfl, rfl, rfl, rfl⟩ _ hout
    exact ⟨ls₁, hout⟩

end NeoFOAM
