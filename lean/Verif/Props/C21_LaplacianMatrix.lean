import Verif.Props.C20_ImplicitLaplacian
import Mathlib.Algebra.Order.BigOperators.Group.Finset
import Mathlib.Tactic.Positivity

/-!
# C21 – the implicit Laplacian matrix: symmetry, row sums, signs, dissipation
-/
namespace NeoFOAM
open Finset
variable {K : Type} [Field K]

section proofs
variable {m : Mesh K} {sp : SparsityPattern}

/-- Coefficients of a system on a mesh, entry by entry. -/
theorem coef_slots (h : m.WF) (hp : sp.For m) {ls : LinearSystem K} (ho : ls.On sp m) {i j : Nat} (hi : i < m.nCells) :
    ls.matrix.coef i j = (if i = j then ls.matrix.val (sp.addr m (.diag i)) else 0)
      + (∑ f ∈ range m.nInternalFaces, if m.own f = i then (if m.nbr f = j then ls.matrix.val (sp.addr m (.upper f)) else 0) else 0)
      + ∑ f ∈ range m.nInternalFaces, if m.nbr f = i then (if m.own f = j then ls.matrix.val (sp.addr m (.lower f)) else 0) else 0 := by
  rw [CSR.coef, CSR.rs, CSR.rs, ho.rowsEq, row_sum h hp _ hi]
  rw [col_addr hp ho (show (Slot.diag i).Valid m from hi)]
  congr 1
  · congr 1
    apply Finset.sum_congr rfl
    intro f hf
    rw [col_addr hp ho (show (Slot.upper f).Valid m from mem_range.1 hf)]
    rfl
  · apply Finset.sum_congr rfl
    intro f hf
    rw [col_addr hp ho (show (Slot.lower f).Valid m from mem_range.1 hf)]
    rfl

/-- What assembly does to the coefficients. -/
theorem Assembles.coef_slots (h : m.WF) (hp : sp.For m) {ls ls' : LinearSystem K} (ho : ls.On sp m) {dv : Slot → K} {dr : Nat → K}
    (ha : Assembles m sp ls ls' dv dr) {i j : Nat} (hi : i < m.nCells) :
    ls'.matrix.coef i j - ls.matrix.coef i j = (if i = j then dv (.diag i) else 0)
      + (∑ f ∈ range m.nInternalFaces, if m.own f = i then (if m.nbr f = j then dv (.upper f) else 0) else 0)
      + ∑ f ∈ range m.nInternalFaces, if m.nbr f = i then (if m.own f = j then dv (.lower f) else 0) else 0 := by
  rw [NeoFOAM.coef_slots h hp ho hi, NeoFOAM.coef_slots h hp ha.on hi, ha.coef _ (show (Slot.diag i).Valid m from hi)]
  have e1 : ∀ f ∈ range m.nInternalFaces, (if m.own f = i then (if m.nbr f = j then ls'.matrix.val (sp.addr m (.upper f)) else 0) else 0)
      = (if m.own f = i then (if m.nbr f = j then ls.matrix.val (sp.addr m (.upper f)) else 0) else 0)
        + (if m.own f = i then (if m.nbr f = j then dv (.upper f) else 0) else 0) := by
    intro f hf
    rw [ha.coef _ (show (Slot.upper f).Valid m from mem_range.1 hf)]
    by_cases c1 : m.own f = i <;> by_cases c2 : m.nbr f = j <;> simp [c1, c2]
  have e2 : ∀ f ∈ range m.nInternalFaces, (if m.nbr f = i then (if m.own f = j then ls'.matrix.val (sp.addr m (.lower f)) else 0) else 0)
      = (if m.nbr f = i then (if m.own f = j then ls.matrix.val (sp.addr m (.lower f)) else 0) else 0)
        + (if m.nbr f = i then (if m.own f = j then dv (.lower f) else 0) else 0) := by
    intro f hf
    rw [ha.coef _ (show (Slot.lower f).Valid m from mem_range.1 hf)]
    by_cases c1 : m.nbr f = i <;> by_cases c2 : m.own f = j <;> simp [c1, c2]
  rw [Finset.sum_congr rfl e1, Finset.sum_congr rfl e2, Finset.sum_add_distrib, Finset.sum_add_distrib]
  by_cases hij : i = j <;> simp [hij] <;> ring

end proofs

/-- Coefficient of the Laplacian at face `f`: diffusivity × delta coefficient × area. -/
def Mesh.diffCoef (m : Mesh K) (δ gamma : List K) (f : Nat) : K := ix gamma f * ix δ f * ix m.magFaceAreas f

section
variable {m : Mesh K} (h : m.WF) {sp : SparsityPattern} (hp : sp.For m) {φ : VolField K K} (hφ : φ.On m) {δ gamma : List K}
  (hδ : δ.length = m.nFaces) (hg : gamma.length = m.nFaces) (e : ExecKind) (he : e = .serial ∨ m.BndDistinct)
  (ls ls' : LinearSystem K) (ho : ls.On sp m)
include h hp hφ hδ hg he ho

/-- **C21, symmetry**: with a uniform scaling, assembling adds the same amount at `(i,j)` and `(j,i)`; so on an empty
system the matrix is symmetric. -/
theorem C21_symmetric {scal : Coeff K} {s0 : K} (hs : scal.On m.nCells (fun _ => s0))
    (hout : computeLaplacianImpl e m sp δ gamma φ scal ls (.ok ls')) (i j : Nat) (hi : i < m.nCells) (hj : j < m.nCells) :
    ls'.matrix.coef i j - ls.matrix.coef i j = ls'.matrix.coef j i - ls.matrix.coef j i := by
  obtain ⟨l2, h2, ha⟩ := computeLaplacianImpl_ok h hp hφ hδ hg hs e he ls ho _ hout
  cases h2
  rw [ha.coef_slots h hp ho hi, ha.coef_slots h hp ho hj]
  have e1 : (if i = j then lapDelta m (ix δ) (ix gamma) (ix φ.bVF) (fun _ => s0) (.diag i) else 0)
      = (if j = i then lapDelta m (ix δ) (ix gamma) (ix φ.bVF) (fun _ => s0) (.diag j) else 0) := by
    by_cases hij : i = j
    · rw [hij]
    · rw [if_neg hij, if_neg (Ne.symm hij)]
  have sw : ∀ (a b : Nat) (p q : Nat → Nat), (∑ f ∈ range m.nInternalFaces, if p f = a then (if q f = b then lapCoef m (ix δ) (ix gamma) f * s0 else 0) else 0)
      = ∑ f ∈ range m.nInternalFaces, if q f = b then (if p f = a then lapCoef m (ix δ) (ix gamma) f * s0 else 0) else 0 := by
    intro a b p q
    apply Finset.sum_congr rfl
    intro f _
    by_cases h1 : p f = a <;> by_cases h2 : q f = b <;> simp [h1, h2]
  simp only [lapDelta] at e1 ⊢
  rw [e1, sw i j m.own m.nbr, sw i j m.nbr m.own]
  ring

/-- **C21, row sums**: the coefficients added to a row sum to minus the boundary coefficients (diffusivity × delta ×
area × value fraction) of the cell's boundary faces, so rows of cells without boundary faces sum to zero. -/
theorem C21_rowSum {scal : Coeff K} {s : Nat → K} (hs : scal.On m.nCells s)
    (hout : computeLaplacianImpl e m sp δ gamma φ scal ls (.ok ls')) (i : Nat) (hi : i < m.nCells) :
    (∑ j ∈ range m.nCells, (ls'.matrix.coef i j - ls.matrix.coef i j))
      = - (s i * ∑ b ∈ range m.nBoundaryFaces, if m.fc b = i then m.diffCoef δ gamma (m.nInternalFaces + b) * ix φ.bVF b else 0) := by
  obtain ⟨l2, h2, ha⟩ := computeLaplacianImpl_ok h hp hφ hδ hg hs e he ls ho _ hout
  cases h2
  rw [Finset.sum_congr rfl (fun j _ => ha.coef_slots h hp ho hi)]
  rw [Finset.sum_add_distrib, Finset.sum_add_distrib]
  have e0 : (∑ j ∈ range m.nCells, if i = j then lapDelta m (ix δ) (ix gamma) (ix φ.bVF) s (.diag i) else 0)
      = lapDelta m (ix δ) (ix gamma) (ix φ.bVF) s (.diag i) := by
    rw [Finset.sum_ite_eq]; simp [hi]
  have e1 : (∑ j ∈ range m.nCells, ∑ f ∈ range m.nInternalFaces, if m.own f = i then (if m.nbr f = j then lapDelta m (ix δ) (ix gamma) (ix φ.bVF) s (.upper f) else 0) else 0)
      = ∑ f ∈ range m.nInternalFaces, if m.own f = i then lapCoef m (ix δ) (ix gamma) f * s i else 0 := by
    rw [Finset.sum_comm]
    apply Finset.sum_congr rfl
    intro f hf
    have := h.nbr_lt f (mem_range.1 hf)
    by_cases c1 : m.own f = i
    · simp only [c1, if_true]
      rw [Finset.sum_ite_eq]; simp [this, lapDelta, c1]
    · simp [c1]
  have e2 : (∑ j ∈ range m.nCells, ∑ f ∈ range m.nInternalFaces, if m.nbr f = i then (if m.own f = j then lapDelta m (ix δ) (ix gamma) (ix φ.bVF) s (.lower f) else 0) else 0)
      = ∑ f ∈ range m.nInternalFaces, if m.nbr f = i then lapCoef m (ix δ) (ix gamma) f * s i else 0 := by
    rw [Finset.sum_comm]
    apply Finset.sum_congr rfl
    intro f hf
    have := h.own_lt_int (mem_range.1 hf)
    by_cases c1 : m.nbr f = i
    · simp only [c1, if_true]
      rw [Finset.sum_ite_eq]; simp [this, lapDelta, c1]
    · simp [c1]
  rw [e0, e1, e2]
  simp only [lapDelta, Mesh.diffCoef, Finset.sum_add_distrib]
  have e3 : ∀ cell : Nat → Nat, (∑ f ∈ range m.nInternalFaces, if cell f = i then lapCoef m (ix δ) (ix gamma) f * s i else 0)
      = s i * ∑ f ∈ range m.nInternalFaces, if cell f = i then lapCoef m (ix δ) (ix gamma) f else 0 := by
    intro cell
    rw [Finset.mul_sum]
    apply Finset.sum_congr rfl
    intro f _
    split <;> simp [mul_comm]
  rw [e3, e3]
  simp only [lapCoef]
  ring

/-- **C21, signs**: with non-negative diffusivity, areas, delta coefficients, value fractions and scaling, the
off-diagonal coefficients do not decrease and the diagonal ones do not increase; on an empty system this is the sign
pattern of (minus) an M-matrix. -/
theorem C21_signs [LinearOrder K] [IsStrictOrderedRing K] {scal : Coeff K} {s : Nat → K} (hs : scal.On m.nCells s)
    (hs0 : ∀ c < m.nCells, 0 ≤ s c) (hd0 : ∀ f < m.nFaces, 0 ≤ m.diffCoef δ gamma f)
    (hv0 : ∀ b < m.nBoundaryFaces, 0 ≤ ix φ.bVF b)
    (hout : computeLaplacianImpl e m sp δ gamma φ scal ls (.ok ls')) (i j : Nat) (hi : i < m.nCells) :
    (i ≠ j → ls.matrix.coef i j ≤ ls'.matrix.coef i j) ∧ ls'.matrix.coef i i ≤ ls.matrix.coef i i := by
  obtain ⟨l2, h2, ha⟩ := computeLaplacianImpl_ok h hp hφ hδ hg hs e he ls ho _ hout
  cases h2
  have hfa := h.faces
  have hL : ∀ f < m.nFaces, 0 ≤ lapCoef m (ix δ) (ix gamma) f := hd0
  constructor
  · intro hij
    have := ha.coef_slots h hp ho hi (j := j)
    rw [if_neg hij, zero_add] at this
    rw [← sub_nonneg, this]
    refine add_nonneg (Finset.sum_nonneg ?_) (Finset.sum_nonneg ?_)
    · intro f hf
      rw [mem_range] at hf
      split
      · split
        · exact mul_nonneg (hL f (by omega)) (hs0 _ (h.own_lt_int hf))
        · exact le_rfl
      · exact le_rfl
    · intro f hf
      rw [mem_range] at hf
      split
      · split
        · exact mul_nonneg (hL f (by omega)) (hs0 _ (h.nbr_lt f hf))
        · exact le_rfl
      · exact le_rfl
  · have := ha.coef_slots h hp ho hi (j := i)
    rw [if_pos rfl] at this
    have z1 : (∑ f ∈ range m.nInternalFaces, if m.own f = i then (if m.nbr f = i then lapDelta m (ix δ) (ix gamma) (ix φ.bVF) s (.upper f) else 0) else 0) = 0 := by
      apply Finset.sum_eq_zero
      intro f hf
      by_cases c1 : m.own f = i
      · have : m.nbr f ≠ i := fun hh => h.ne f (mem_range.1 hf) (c1.trans hh.symm)
        simp [this]
      · simp [c1]
    have z2 : (∑ f ∈ range m.nInternalFaces, if m.nbr f = i then (if m.own f = i then lapDelta m (ix δ) (ix gamma) (ix φ.bVF) s (.lower f) else 0) else 0) = 0 := by
      apply Finset.sum_eq_zero
      intro f hf
      by_cases c1 : m.own f = i
      · have : m.nbr f ≠ i := fun hh => h.ne f (mem_range.1 hf) (c1.trans hh.symm)
        simp [this]
      · simp [c1]
    rw [z1, z2, add_zero, add_zero] at this
    rw [← sub_nonpos, this]
    simp only [lapDelta]
    rw [neg_nonpos]
    refine mul_nonneg (hs0 i hi) (add_nonneg (Finset.sum_nonneg ?_) (Finset.sum_nonneg ?_))
    · intro f hf
      rw [mem_range] at hf
      have := hL f (by omega)
      refine add_nonneg ?_ ?_ <;> (split <;> simp [this])
    · intro b hb
      rw [mem_range] at hb
      split
      · exact mul_nonneg (hL _ (by omega)) (hv0 b hb)
      · exact le_rfl

/-- **C21, dissipation**: for every vector `x`, `x · A x` of the added matrix is minus the sum over the internal faces
of coefficient × squared difference minus the boundary coefficients times the squared cell values; with non-negative
coefficients the added matrix is negative semidefinite. -/
theorem C21_dissipation {scal : Coeff K} {s0 : K} (hs : scal.On m.nCells (fun _ => s0))
    (hout : computeLaplacianImpl e m sp δ gamma φ scal ls (.ok ls')) (x : Nat → K) :
    (∑ i ∈ range m.nCells, ∑ j ∈ range m.nCells, x i * (ls'.matrix.coef i j - ls.matrix.coef i j) * x j)
      = - (s0 * ((∑ f ∈ range m.nInternalFaces, m.diffCoef δ gamma f * (x (m.nbr f) - x (m.own f)) ^ 2)
        + ∑ b ∈ range m.nBoundaryFaces, m.diffCoef δ gamma (m.nInternalFaces + b) * ix φ.bVF b * x (m.fc b) ^ 2)) := by
  obtain ⟨l2, h2, ha⟩ := computeLaplacianImpl_ok h hp hφ hδ hg hs e he ls ho _ hout
  cases h2
  set L := lapCoef m (ix δ) (ix gamma) with hLdef
  have hrow : ∀ i ∈ range m.nCells, (∑ j ∈ range m.nCells, x i * (ls'.matrix.coef i j - ls.matrix.coef i j) * x j)
      = s0 * ((∑ f ∈ range m.nInternalFaces, (if m.own f = i then L f * (x (m.own f) * x (m.nbr f) - x (m.own f) ^ 2) else 0))
        + (∑ f ∈ range m.nInternalFaces, (if m.nbr f = i then L f * (x (m.nbr f) * x (m.own f) - x (m.nbr f) ^ 2) else 0))
        - ∑ b ∈ range m.nBoundaryFaces, (if m.fc b = i then L (m.nInternalFaces + b) * ix φ.bVF b * x (m.fc b) ^ 2 else 0)) := by
    intro i hi
    rw [mem_range] at hi
    rw [Finset.sum_congr rfl (fun j _ => by rw [ha.coef_slots h hp ho hi])]
    simp only [mul_add, add_mul]
    rw [Finset.sum_add_distrib, Finset.sum_add_distrib]
    have e0 : (∑ j ∈ range m.nCells, x i * (if i = j then lapDelta m (ix δ) (ix gamma) (ix φ.bVF) (fun _ => s0) (.diag i) else 0) * x j)
        = x i * lapDelta m (ix δ) (ix gamma) (ix φ.bVF) (fun _ => s0) (.diag i) * x i := by
      rw [Finset.sum_eq_single i]
      · simp
      · intro j _ hj; rw [if_neg (Ne.symm hj)]; simp
      · intro hh; exact absurd (mem_range.2 hi) hh
    have e1 : ∀ (p q : Nat → Nat) (hq : ∀ f < m.nInternalFaces, q f < m.nCells),
        (∑ j ∈ range m.nCells, x i * (∑ f ∈ range m.nInternalFaces, if p f = i then (if q f = j then L f * s0 else 0) else 0) * x j)
        = ∑ f ∈ range m.nInternalFaces, if p f = i then s0 * (L f * (x (p f) * x (q f))) else 0 := by
      intro p q hq
      simp only [Finset.mul_sum, Finset.sum_mul]
      rw [Finset.sum_comm]
      apply Finset.sum_congr rfl
      intro f hf
      by_cases c1 : p f = i
      · rw [Finset.sum_eq_single (q f)]
        · simp [c1]; ring
        · intro j _ hj; rw [if_pos c1, if_neg (Ne.symm hj)]; simp
        · intro hh; exact absurd (mem_range.2 (hq f (mem_range.1 hf))) hh
      · simp [c1]
    have e1u := e1 m.own m.nbr (fun f hf => h.nbr_lt f hf)
    have e1l := e1 m.nbr m.own (fun f hf => h.own_lt_int hf)
    rw [e0]
    have u : ∀ f, lapDelta m (ix δ) (ix gamma) (ix φ.bVF) (fun _ => s0) (.upper f) = L f * s0 := fun _ => rfl
    have l : ∀ f, lapDelta m (ix δ) (ix gamma) (ix φ.bVF) (fun _ => s0) (.lower f) = L f * s0 := fun _ => rfl
    simp only [u, l]
    rw [e1u, e1l]
    simp only [lapDelta, ← hLdef]
    have e2 : ∀ p q : Nat → Nat, (∑ f ∈ range m.nInternalFaces, if p f = i then L f * (x (p f) * x (q f) - x (p f) ^ 2) else 0)
        = (∑ f ∈ range m.nInternalFaces, if p f = i then L f * (x (p f) * x (q f)) else 0)
          - (∑ f ∈ range m.nInternalFaces, if p f = i then L f else 0) * x i ^ 2 := by
      intro p q
      rw [Finset.sum_mul, ← Finset.sum_sub_distrib]
      apply Finset.sum_congr rfl
      intro f _
      by_cases c1 : p f = i <;> simp [c1]; ring
    have e3 : (∑ b ∈ range m.nBoundaryFaces, if m.fc b = i then L (m.nInternalFaces + b) * ix φ.bVF b * x (m.fc b) ^ 2 else 0)
        = (∑ b ∈ range m.nBoundaryFaces, if m.fc b = i then L (m.nInternalFaces + b) * ix φ.bVF b else 0) * x i ^ 2 := by
      rw [Finset.sum_mul]
      apply Finset.sum_congr rfl
      intro b _
      by_cases c1 : m.fc b = i <;> simp [c1]
    have e4 : ∀ p q : Nat → Nat, (∑ f ∈ range m.nInternalFaces, if p f = i then s0 * (L f * (x (p f) * x (q f))) else 0)
        = s0 * ∑ f ∈ range m.nInternalFaces, if p f = i then L f * (x (p f) * x (q f)) else 0 := by
      intro p q
      rw [Finset.mul_sum]
      apply Finset.sum_congr rfl
      intro f _
      by_cases c1 : p f = i <;> simp [c1]
    rw [e4, e4, e2, e2, e3, Finset.sum_add_distrib]
    ring
  rw [Finset.sum_congr rfl hrow, ← Finset.mul_sum, Finset.sum_sub_distrib, Finset.sum_add_distrib]
  have sum1 : ∀ (N : Nat) (p : Nat → Nat) (F : Nat → K) (_ : ∀ f < N, p f < m.nCells),
      (∑ i ∈ range m.nCells, ∑ f ∈ range N, if p f = i then F f else 0) = ∑ f ∈ range N, F f := by
    intro N p F hq
    rw [Finset.sum_comm]
    apply Finset.sum_congr rfl
    intro f hf
    rw [Finset.sum_ite_eq]; simp [hq f (mem_range.1 hf)]
  rw [sum1 _ _ _ (fun f hf => h.own_lt_int hf), sum1 _ _ _ (fun f hf => h.nbr_lt f hf), sum1 _ _ _ (fun b hb => h.fc_lt b hb)]
  rw [← Finset.sum_add_distrib]
  have e5 : (∑ f ∈ range m.nInternalFaces, m.diffCoef δ gamma f * (x (m.nbr f) - x (m.own f)) ^ 2)
      = - ∑ f ∈ range m.nInternalFaces, (L f * (x (m.own f) * x (m.nbr f) - x (m.own f) ^ 2) + L f * (x (m.nbr f) * x (m.own f) - x (m.nbr f) ^ 2)) := by
    rw [← Finset.sum_neg_distrib]
    apply Finset.sum_congr rfl
    intro f _
    simp only [hLdef, lapCoef, Mesh.diffCoef]; ring
  rw [e5]
  simp only [hLdef, lapCoef, Mesh.diffCoef]
  ring

end

/-- The hypotheses can be met: unit coefficients and fixed values on three cells in a row. -/
example : ∃ sp, sp.For row3 ∧ ∃ ls ls' : LinearSystem ℚ, ls.On sp row3 ∧
    computeLaplacianImpl .parallel row3 sp [1, 1, 1, 1] [1, 2, 3, 4] row3Field Coeff.default ls (.ok ls') ∧
    (∀ f < row3.nFaces, 0 ≤ row3.diffCoef [1, 1, 1, 1] [1, 2, 3, 4] f) ∧ ∀ b < row3.nBoundaryFaces, 0 ≤ ix row3Field.bVF b := by
  obtain ⟨sp, -, hp, ls, -, ho, -⟩ := exists_system row3 row3_wf row3_deg .serial
  obtain ⟨out, hout⟩ := computeLaplacianImpl_runs .parallel row3 sp [1, 1, 1, 1] [1, 2, 3, 4] row3Field Coeff.default ls
  obtain ⟨ls', rfl, -⟩ := computeLaplacianImpl_ok row3_wf hp row3Field_on (δ := [1, 1, 1, 1]) (gamma := [1, 2, 3, 4]) rfl rfl
    (s := fun _ => 1) (fun c _ => rfl) .parallel (Or.inr row3_bnd) ls ho _ hout
  refine ⟨sp, hp, ls, ls', ho, hout, ?_, ?_⟩
  · intro f hf
    have hf' : f < 4 := hf
    interval_cases f <;> simp [ix, Mesh.diffCoef, row3, topoMesh]
  · intro b hb
    have hb' : b < 2 := hb
    interval_cases b <;> simp [ix, row3Field]

end NeoFOAM
