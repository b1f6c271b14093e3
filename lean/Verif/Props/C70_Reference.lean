import Verif.Props.C69_Definite
import Verif.Props.C35_SetReference

/-!
# C70 – a reference value makes the diffusion equation of an enclosed domain solvable
-/
namespace NeoFOAM
open Finset
variable {K : Type} [Field K]

/-- Two cells are joined through internal faces with a positive coefficient. -/
inductive Mesh.Joined [LT K] (m : Mesh K) (a : Nat → K) (r : Nat) : Nat → Prop where
  | refl : Mesh.Joined m a r r
  | nbr (f : Nat) (hf : f < m.nInternalFaces) (hpos : 0 < a f) (hc : Mesh.Joined m a r (m.own f)) : Mesh.Joined m a r (m.nbr f)
  | own (f : Nat) (hf : f < m.nInternalFaces) (hpos : 0 < a f) (hc : Mesh.Joined m a r (m.nbr f)) : Mesh.Joined m a r (m.own f)

section
variable [LinearOrder K] [IsStrictOrderedRing K]
variable {m : Mesh K} (h : m.WF) {sp : SparsityPattern} (hp : sp.For m) {φ : VolField K K} (hφ : φ.On m) {δ gamma : List K}
  (hδ : δ.length = m.nFaces) (hg : gamma.length = m.nFaces) (e : ExecKind) (he : e = .serial ∨ m.BndDistinct)
  (ls ls' : LinearSystem K) (ho : ls.On sp m) (hzero : ∀ i j, ls.matrix.coef i j = 0) {scal : Coeff K} {s0 : K}
  (hs : scal.On m.nCells (fun _ => s0)) (hs0 : 0 < s0) (hd0 : ∀ f < m.nFaces, 0 ≤ m.diffCoef δ gamma f)
  (hv0 : ∀ b < m.nBoundaryFaces, ix φ.bVF b = 0)
  (hout : computeLaplacianImpl e m sp δ gamma φ scal ls (.ok ls'))
include h hp hφ hδ hg he ho hzero hs hs0 hd0 hv0 hout

/-- **C70**: take the matrix of an implicit Laplacian without prescribed boundary values, at least two cells, all joined to the cell `r`, and
any right hand side `b`. After `setReference(r, v)` the system has exactly one solution, whatever `b` is; its value at `r` is `v` plus the
sum of `b` divided by the diagonal coefficient. The system without the reference has a solution if and only if `b` adds up to zero, and then the solution with the
reference is the one of its solutions that has the value `v` at `r`. -/
theorem C70_reference (h2 : 2 ≤ m.nCells) (r : Nat) (hr : r < m.nCells) (hj : ∀ c < m.nCells, m.Joined (m.diffCoef δ gamma) r c)
    (b : List K) (hb : b.length = m.nCells) (e' : ExecKind) (v : K) :
    ls'.matrix.coef r r < 0 ∧
    ∃ ls3 : LinearSystem K, (∀ out, setReference e' sp r v ⟨ls'.matrix, b⟩ out ↔ out = .ok ls3) ∧
      ∃ y : List K, y.length = m.nCells ∧ (∀ i < m.nCells, ls3.residual (ix y) i = 0) ∧
        (∀ z : Nat → K, (∀ i < m.nCells, ls3.residual z i = 0) → ∀ i < m.nCells, z i = ix y i) ∧
        ix y r = v + (∑ i ∈ range m.nCells, ix b i) / ls'.matrix.coef r r ∧
        ((∃ z : Nat → K, ∀ i < m.nCells, ∑ j ∈ range m.nCells, ls'.matrix.coef i j * z j = ix b i) ↔ ∑ i ∈ range m.nCells, ix b i = 0) ∧
        (∑ i ∈ range m.nCells, ix b i = 0 →
          ix y r = v ∧ ∀ i < m.nCells, ∑ j ∈ range m.nCells, ls'.matrix.coef i j * ix y j = ix b i) := by
  have hv0' : ∀ b < m.nBoundaryFaces, 0 ≤ ix φ.bVF b := fun b hb => (hv0 b hb).ge
  have hq := quad_zero_iff h hp hφ hδ hg e he ls ls' ho hzero hs hs0 hd0 hv0' hout
  have hsym := (C69_definite h hp hφ hδ hg e he ls ls' ho hzero hs hs0 hd0 hv0' hout).1
  have hrow : ∀ i < m.nCells, ∑ j ∈ range m.nCells, ls'.matrix.coef i j = 0 := by
    intro i hi
    have := C21_rowSum h hp hφ hδ hg e he ls ls' ho hs hout i hi
    simp only [hzero, sub_zero] at this
    rw [this, Finset.sum_eq_zero, mul_zero, neg_zero]
    intro b hb
    rw [hv0 b (mem_range.1 hb)]; simp
  have hconst : ∀ x, ls'.matrix.quad m.nCells x = 0 → ∀ c < m.nCells, x c = x r := by
    intro x h0 c hc
    have h1 := ((hq x).2.1 h0).1
    have key : ∀ c, m.Joined (m.diffCoef δ gamma) r c → x c = x r := by
      intro c t
      induction t with
      | refl => rfl
      | nbr f hf hpos _ ih => rw [h1 f hf hpos, ih]
      | own f hf hpos _ ih => rw [← h1 f hf hpos, ih]
    exact key c (hj c hc)
  have hd : ls'.matrix.coef r r < 0 := by
    have hqi : ls'.matrix.quad m.nCells (fun i => if i = r then 1 else 0) = ls'.matrix.coef r r := by
      unfold CSR.quad
      rw [Finset.sum_eq_single r, Finset.sum_eq_single r]
      · simp
      · intro j _ hj; simp [hj]
      · intro hh; exact absurd (mem_range.2 hr) hh
      · intro i _ hi; apply Finset.sum_eq_zero; intro j _; simp [hi]
      · intro hh; exact absurd (mem_range.2 hr) hh
    rw [← hqi]
    refine lt_of_le_of_ne (hq _).1 (fun h0 => ?_)
    obtain ⟨c, hc, hcr⟩ : ∃ c < m.nCells, c ≠ r := by
      by_cases h0 : r = 0
      · exact ⟨1, by omega, by omega⟩
      · exact ⟨0, by omega, by omega⟩
    have := hconst _ h0 c hc
    simp [hcr] at this
  refine ⟨hd, ?_⟩
  obtain ⟨l2, hl2, ha⟩ := computeLaplacianImpl_ok h hp hφ hδ hg hs e he ls ho _ hout
  cases hl2
  have hon : (⟨ls'.matrix, b⟩ : LinearSystem K).On sp m := ⟨ha.on.cols, ha.on.rowsEq, ha.on.vals, hb⟩
  obtain ⟨ls3, hdet, hon3, -, -, -, -, hrc, hrn, -⟩ := C35_setReference e' h hp ⟨ls'.matrix, b⟩ hon r hr v
  have hdiag : ls'.matrix.val (sp.addr m (.diag r)) = ls'.matrix.coef r r := by
    rw [coef_slots h hp ha.on hr, if_pos rfl, Finset.sum_eq_zero, Finset.sum_eq_zero, add_zero, add_zero]
    · intro f hf
      by_cases c1 : m.nbr f = r
      · rw [if_pos c1, if_neg]; rw [← c1]; exact h.ne f (mem_range.1 hf)
      · rw [if_neg c1]
    · intro f hf
      by_cases c1 : m.own f = r
      · rw [if_pos c1, if_neg]; rw [← c1]; exact fun hh => h.ne f (mem_range.1 hf) hh.symm
      · rw [if_neg c1]
  have hlin : ∀ x, ∀ i < m.nCells, (⟨ls'.matrix, b⟩ : LinearSystem K).residual x i = (∑ j ∈ range m.nCells, ls'.matrix.coef i j * x j) - ix b i :=
    fun x i hi => mesh_residual_coef h hp hon x hi
  have hres : ∀ x, ∀ i < m.nCells, ls3.residual x i = (∑ j ∈ range m.nCells, ls'.matrix.coef i j * x j) - ix b i
      + if i = r then ls'.matrix.coef r r * (x r - v) else 0 := by
    intro x i hi
    by_cases hir : i = r
    · subst hir
      rw [hrc x, hlin x i hi, hdiag, if_pos rfl]
    · rw [hrn x i hi hir, hlin x i hi, if_neg hir, add_zero]
  have hsum0 : ∀ x : Nat → K, ∑ i ∈ range m.nCells, ∑ j ∈ range m.nCells, ls'.matrix.coef i j * x j = 0 := by
    intro x
    rw [Finset.sum_comm]
    apply Finset.sum_eq_zero
    intro j hj
    rw [← Finset.sum_mul, Finset.sum_congr rfl (fun i hi => hsym i (mem_range.1 hi) j (mem_range.1 hj)), hrow j (mem_range.1 hj), zero_mul]
  have hinj : ∀ x y : Nat → K, (∀ i < m.nCells, ls3.residual x i = ls3.residual y i) → ∀ i < m.nCells, x i = y i := by
    intro x y hxy
    have hz : ls'.matrix.quad m.nCells (fun i => x i - y i) + ls'.matrix.coef r r * (x r - y r) ^ 2 = 0 := by
      have e1 : ∀ i ∈ range m.nCells, (∑ j ∈ range m.nCells, (x i - y i) * ls'.matrix.coef i j * (x j - y j))
          = if i = r then - (ls'.matrix.coef r r * (x r - y r) ^ 2) else 0 := by
        intro i hi
        have hh := hxy i (mem_range.1 hi)
        rw [hres x i (mem_range.1 hi), hres y i (mem_range.1 hi)] at hh
        have e2 : (∑ j ∈ range m.nCells, (x i - y i) * ls'.matrix.coef i j * (x j - y j))
            = (x i - y i) * ((∑ j ∈ range m.nCells, ls'.matrix.coef i j * x j) - ∑ j ∈ range m.nCells, ls'.matrix.coef i j * y j) := by
          rw [← Finset.sum_sub_distrib, Finset.mul_sum]
          exact Finset.sum_congr rfl (fun j _ => by ring)
        rw [e2]
        by_cases hir : i = r
        · subst hir
          simp only [if_true] at hh ⊢
          linear_combination (x i - y i) * hh
        · rw [if_neg hir, if_neg hir] at hh
          rw [if_neg hir]
          linear_combination (x i - y i) * hh
      unfold CSR.quad
      rw [Finset.sum_congr rfl e1, Finset.sum_ite_eq' (range m.nCells) r]
      simp [hr]
    have h1 := (hq (fun i => x i - y i)).1
    have h2 : ls'.matrix.coef r r * (x r - y r) ^ 2 ≤ 0 := mul_nonpos_of_nonpos_of_nonneg hd.le (sq_nonneg _)
    have z1 : ls'.matrix.quad m.nCells (fun i => x i - y i) = 0 := by linarith
    have z2 : x r - y r = 0 := by
      have : ls'.matrix.coef r r * (x r - y r) ^ 2 = 0 := by linarith
      exact pow_eq_zero_iff (two_ne_zero) |>.1 ((mul_eq_zero.1 this).resolve_left hd.ne)
    intro i hi
    have := hconst _ z1 i hi
    simp only [z2] at this
    exact sub_eq_zero.1 this
  obtain ⟨y, hy1, hy2⟩ := exists_solution ls3 (by rw [hon3.rhsLen]; exact hinj)
  rw [hon3.rhsLen] at hy1 hy2
  have hyr : ix y r = v + (∑ i ∈ range m.nCells, ix b i) / ls'.matrix.coef r r := by
    have := Finset.sum_eq_zero (s := range m.nCells) (f := fun i => ls3.residual (ix y) i) (fun i hi => hy2 i (mem_range.1 hi))
    rw [Finset.sum_congr rfl (fun i hi => hres (ix y) i (mem_range.1 hi)), Finset.sum_add_distrib, Finset.sum_sub_distrib, hsum0,
      Finset.sum_ite_eq' (range m.nCells) r, if_pos (mem_range.2 hr)] at this
    field_simp [hd.ne]
    linear_combination this
  have hsol : ∑ i ∈ range m.nCells, ix b i = 0 → ix y r = v ∧ ∀ i < m.nCells, ∑ j ∈ range m.nCells, ls'.matrix.coef i j * ix y j = ix b i := by
    intro h0
    have hv : ix y r = v := by rw [hyr, h0, zero_div, add_zero]
    refine ⟨hv, fun i hi => ?_⟩
    have := hy2 i hi
    rw [hres _ i hi, hv, sub_self, mul_zero, ite_self, add_zero] at this
    exact sub_eq_zero.1 this
  refine ⟨ls3, hdet, y, hy1, hy2, fun z hz => hinj z (ix y) (fun i hi => (hz i hi).trans (hy2 i hi).symm), hyr, ⟨?_, fun h0 => ⟨ix y, (hsol h0).2⟩⟩, hsol⟩
  rintro ⟨z, hz⟩
  rw [← hsum0 z]
  exact Finset.sum_congr rfl (fun i hi => (hz i (mem_range.1 hi)).symm)

omit [LinearOrder K] [IsStrictOrderedRing K] hs0 hd0 in
/-- **C70, what fails**: in a domain of one cell the reference value has no effect: the diagonal coefficient it is scaled with is zero, so
the equation still does not determine the value (and has no solution unless the right hand side is zero). -/
theorem C70_single_cell_violation (h1 : m.nCells = 1) (b : List K) (hb : b.length = m.nCells) (e' : ExecKind) (v : K) (ls3 : LinearSystem K)
    (href : setReference e' sp 0 v ⟨ls'.matrix, b⟩ (.ok ls3)) (z : Nat → K) : ls3.residual z 0 = - ix b 0 := by
  have h0 : 0 < m.nCells := by omega
  have hrow : ls'.matrix.coef 0 0 = 0 := by
    have := C21_rowSum h hp hφ hδ hg e he ls ls' ho hs hout 0 h0
    rw [h1] at this
    simp only [hzero, sub_zero, Finset.sum_range_one] at this
    rw [this, Finset.sum_eq_zero, mul_zero, neg_zero]
    intro b hb
    rw [hv0 b (mem_range.1 hb)]; simp
  obtain ⟨l2, hl2, ha⟩ := computeLaplacianImpl_ok h hp hφ hδ hg hs e he ls ho _ hout
  cases hl2
  have hon : (⟨ls'.matrix, b⟩ : LinearSystem K).On sp m := ⟨ha.on.cols, ha.on.rowsEq, ha.on.vals, hb⟩
  obtain ⟨l3, hdet, -, -, -, -, -, hrc, -, -⟩ := C35_setReference e' h hp ⟨ls'.matrix, b⟩ hon 0 h0 v
  have := (hdet _).1 href
  cases this
  have hdiag : ls'.matrix.val (sp.addr m (.diag 0)) = ls'.matrix.coef 0 0 := by
    rw [coef_slots h hp ha.on h0, if_pos rfl, Finset.sum_eq_zero, Finset.sum_eq_zero, add_zero, add_zero]
    · intro f hf
      by_cases c1 : m.nbr f = 0
      · rw [if_pos c1, if_neg]; rw [← c1]; exact h.ne f (mem_range.1 hf)
      · rw [if_neg c1]
    · intro f hf
      by_cases c1 : m.own f = 0
      · rw [if_pos c1, if_neg]; rw [← c1]; exact fun hh => h.ne f (mem_range.1 hf) hh.symm
      · rw [if_neg c1]
  have e1 : (⟨ls'.matrix, b⟩ : LinearSystem K).residual z 0 = _ := mesh_residual_coef h hp hon z h0
  rw [hrc z]
  show _ + ls'.matrix.val _ * _ = _
  rw [hdiag, hrow, zero_mul, add_zero, e1, h1]
  simp only [Finset.sum_range_one, hrow, zero_mul, zero_sub]
  rfl

end

/-- The hypotheses can be met: three insulated cells in a row, all joined to the middle one. -/
example : 2 ≤ row3.nCells ∧ (∀ b < row3.nBoundaryFaces, ix row3Grad.bVF b = 0) ∧
    ∀ c < row3.nCells, row3.Joined (row3.diffCoef [1, 1, 1, 1] [1, 2, 3, 4]) 1 c := by
  refine ⟨by decide, ?_, ?_⟩
  · intro b hb
    have : b < 2 := hb
    interval_cases b <;> simp [row3Grad, ix]
  · intro c hc
    have : c < 3 := hc
    interval_cases c
    · exact Mesh.Joined.own (m := row3) 0 (by decide) (by norm_num [Mesh.diffCoef, row3, topoMesh, ix]) .refl
    · exact .refl
    · exact Mesh.Joined.nbr (m := row3) 1 (by decide) (by norm_num [Mesh.diffCoef, row3, topoMesh, ix]) .refl

end NeoFOAM
