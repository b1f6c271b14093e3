import Verif.Props.C21_LaplacianMatrix
import Verif.Proofs.ConvDiff
import Verif.Props.C57_Petsc

/-!
# C69 – when a diffusion matrix is definite

A conjugate-gradient solver needs a symmetric definite matrix.
-/
namespace NeoFOAM
open Finset
variable {K : Type} [Field K]

/-- A cell is tied to a prescribed value: it has a boundary face with one, or it can be reached from such a cell through internal faces with
a positive coefficient. `a` are the coefficients at the faces, `vf` the value fractions of the boundary faces. -/
inductive Mesh.Tied [LT K] (m : Mesh K) (a vf : Nat → K) : Nat → Prop where
  | boundary (b : Nat) (hb : b < m.nBoundaryFaces) (hpos : 0 < a (m.nInternalFaces + b) * vf b) : Mesh.Tied m a vf (m.fc b)
  | nbr (f : Nat) (hf : f < m.nInternalFaces) (hpos : 0 < a f) (hc : Mesh.Tied m a vf (m.own f)) : Mesh.Tied m a vf (m.nbr f)
  | own (f : Nat) (hf : f < m.nInternalFaces) (hpos : 0 < a f) (hc : Mesh.Tied m a vf (m.nbr f)) : Mesh.Tied m a vf (m.own f)

/-- `x · A x`. -/
def CSR.quad (A : CSR K) (n : Nat) (x : Nat → K) : K := ∑ i ∈ range n, ∑ j ∈ range n, x i * A.coef i j * x j

/-- The matrix of a system times a vector, in terms of its coefficients. -/
theorem mesh_residual_coef {m : Mesh K} (h : m.WF) {sp : SparsityPattern} (hp : sp.For m) {ls : LinearSystem K} (ho : ls.On sp m) (x : Nat → K)
    {i : Nat} (hi : i < m.nCells) : ls.residual x i = (∑ j ∈ range m.nCells, ls.matrix.coef i j * x j) - ls.rhs.getD i 0 := by
  unfold LinearSystem.residual
  congr 1
  simp only [CSR.coef, Finset.sum_mul]
  rw [Finset.sum_comm]
  apply Finset.sum_congr rfl
  intro p hpI
  have hlen : p < sp.colIdxs.length := by
    rw [Finset.mem_Ico, CSR.rs, CSR.rs, ho.rowsEq] at hpI
    have hle : ∀ k, ∀ c, c + k = m.nCells → sp.rowPtrs.getD c 0 ≤ sp.colIdxs.length := by
      intro k
      induction k with
      | zero => intro c hc; rw [← hp.rows.last]; simp at hc; rw [hc]
      | succ k ih =>
        intro c hc
        have h1 := ih (c + 1) (by omega)
        have h2 := hp.rows.size c (by omega)
        omega
    have := hle (m.nCells - (i + 1)) (i + 1) (by omega)
    omega
  obtain ⟨s, hs, rfl⟩ := hp.adr.surj p hlen
  have hc : ls.matrix.col (sp.addr m s) = s.col m := col_addr hp ho hs
  have hlt : s.col m < m.nCells := by
    cases s with
    | diag c => exact hs
    | upper f => exact h.nbr_lt f hs
    | lower f => exact h.own_lt_int hs
  rw [Finset.sum_eq_single (s.col m)]
  · rw [if_pos hc, hc]
  · intro j _ hj
    rw [if_neg (by rw [hc]; exact Ne.symm hj), zero_mul]
  · intro hh; exact absurd (mem_range.2 hlt) hh

section
variable [LinearOrder K] [IsStrictOrderedRing K]
variable {m : Mesh K} (h : m.WF) {sp : SparsityPattern} (hp : sp.For m) {φ : VolField K K} (hφ : φ.On m) {δ gamma : List K}
  (hδ : δ.length = m.nFaces) (hg : gamma.length = m.nFaces) (e : ExecKind) (he : e = .serial ∨ m.BndDistinct)
  (ls ls' : LinearSystem K) (ho : ls.On sp m) (hzero : ∀ i j, ls.matrix.coef i j = 0) {scal : Coeff K} {s0 : K}
  (hs : scal.On m.nCells (fun _ => s0)) (hs0 : 0 < s0) (hd0 : ∀ f < m.nFaces, 0 ≤ m.diffCoef δ gamma f)
  (hv0 : ∀ b < m.nBoundaryFaces, 0 ≤ ix φ.bVF b)
  (hout : computeLaplacianImpl e m sp δ gamma φ scal ls (.ok ls'))
include h hp hφ hδ hg he ho hzero hs hs0 hd0 hv0 hout

theorem quad_zero_iff (x : Nat → K) : ls'.matrix.quad m.nCells x ≤ 0 ∧ (ls'.matrix.quad m.nCells x = 0 ↔
    (∀ f < m.nInternalFaces, 0 < m.diffCoef δ gamma f → x (m.nbr f) = x (m.own f)) ∧
    ∀ b < m.nBoundaryFaces, 0 < m.diffCoef δ gamma (m.nInternalFaces + b) * ix φ.bVF b → x (m.fc b) = 0) := by
  have hfa := h.faces
  have e1 : ls'.matrix.quad m.nCells x = - (s0 * ((∑ f ∈ range m.nInternalFaces, m.diffCoef δ gamma f * (x (m.nbr f) - x (m.own f)) ^ 2)
        + ∑ b ∈ range m.nBoundaryFaces, m.diffCoef δ gamma (m.nInternalFaces + b) * ix φ.bVF b * x (m.fc b) ^ 2)) := by
    rw [← C21_dissipation h hp hφ hδ hg e he ls ls' ho hs hout x]
    simp only [CSR.quad, hzero, sub_zero]
  have n1 : ∀ f ∈ range m.nInternalFaces, 0 ≤ m.diffCoef δ gamma f * (x (m.nbr f) - x (m.own f)) ^ 2 := fun f hf =>
    mul_nonneg (hd0 f (by have := mem_range.1 hf; omega)) (sq_nonneg _)
  have n2 : ∀ b ∈ range m.nBoundaryFaces, 0 ≤ m.diffCoef δ gamma (m.nInternalFaces + b) * ix φ.bVF b * x (m.fc b) ^ 2 := fun b hb =>
    mul_nonneg (mul_nonneg (hd0 _ (by have := mem_range.1 hb; omega)) (hv0 b (mem_range.1 hb))) (sq_nonneg _)
  have s1 := Finset.sum_nonneg n1
  have s2 := Finset.sum_nonneg n2
  refine ⟨by rw [e1]; have := mul_nonneg hs0.le (add_nonneg s1 s2); linarith, ?_⟩
  rw [e1, neg_eq_zero, mul_eq_zero, or_iff_right hs0.ne']
  constructor
  · intro h0
    have z1 := (Finset.sum_eq_zero_iff_of_nonneg n1).1 (by linarith)
    have z2 := (Finset.sum_eq_zero_iff_of_nonneg n2).1 (by linarith)
    refine ⟨fun f hf hpos => ?_, fun b hb hpos => ?_⟩
    · have := (mul_eq_zero.1 (z1 f (mem_range.2 hf))).resolve_left hpos.ne'
      have := pow_eq_zero_iff (two_ne_zero) |>.1 this
      linarith
    · have := (mul_eq_zero.1 (z2 b (mem_range.2 hb))).resolve_left hpos.ne'
      exact pow_eq_zero_iff (two_ne_zero) |>.1 this
  · rintro ⟨h1, h2⟩
    rw [Finset.sum_eq_zero, Finset.sum_eq_zero, add_zero]
    · intro b hb
      rcases (mul_nonneg (hd0 (m.nInternalFaces + b) (by have := mem_range.1 hb; omega)) (hv0 b (mem_range.1 hb))).eq_or_lt with hc | hc
      · rw [← hc, zero_mul]
      · rw [h2 b (mem_range.1 hb) hc]; simp
    · intro f hf
      rcases (hd0 f (by have := mem_range.1 hf; omega)).eq_or_lt with hc | hc
      · rw [← hc, zero_mul]
      · rw [h1 f (mem_range.1 hf) hc]; simp

/-- **C69, definiteness**: with non-negative coefficients and a positive scaling, the matrix of an implicit Laplacian (assembled into an
empty system) is symmetric and negative semidefinite; it is negative definite exactly if every cell is tied to a prescribed value. -/
theorem C69_definite :
    (∀ i < m.nCells, ∀ j < m.nCells, ls'.matrix.coef i j = ls'.matrix.coef j i) ∧
    (∀ x, ls'.matrix.quad m.nCells x ≤ 0) ∧
    ((∀ x, (∃ i < m.nCells, x i ≠ 0) → ls'.matrix.quad m.nCells x < 0) ↔ ∀ c < m.nCells, m.Tied (m.diffCoef δ gamma) (ix φ.bVF) c) := by
  have hq := quad_zero_iff h hp hφ hδ hg e he ls ls' ho hzero hs hs0 hd0 hv0 hout
  refine ⟨fun i hi j hj => ?_, fun x => (hq x).1, ?_, ?_⟩
  · have := C21_symmetric h hp hφ hδ hg e he ls ls' ho hs hout i j hi hj
    simpa [hzero] using this
  · intro hdef c hc
    classical
    by_contra hnt
    have hz := (hq (fun i => if m.Tied (m.diffCoef δ gamma) (ix φ.bVF) i then 0 else 1)).2.2 ⟨?_, ?_⟩
    · exact absurd hz (hdef _ ⟨c, hc, by simp [hnt]⟩).ne
    · intro f hf hpos
      have : m.Tied (m.diffCoef δ gamma) (ix φ.bVF) (m.nbr f) ↔ m.Tied (m.diffCoef δ gamma) (ix φ.bVF) (m.own f) :=
        ⟨fun t => .own f hf hpos t, fun t => .nbr f hf hpos t⟩
      simp only [this]
    · intro b hb hpos
      exact if_pos (Mesh.Tied.boundary b hb hpos)
  · rintro ht x ⟨i, hi, hx⟩
    refine lt_of_le_of_ne (hq x).1 (fun h0 => ?_)
    obtain ⟨h1, h2⟩ := (hq x).2.1 h0
    have key : ∀ c, m.Tied (m.diffCoef δ gamma) (ix φ.bVF) c → x c = 0 := by
      intro c t
      induction t with
      | boundary b hb hpos => exact h2 b hb hpos
      | nbr f hf hpos _ ih => rw [h1 f hf hpos, ih]
      | own f hf hpos _ ih => rw [← h1 f hf hpos, ih]
    exact hx (key i (ht i hi))

/-- **C69, solvability**: if every cell is tied to a prescribed value, the system has exactly one solution for every right hand side. -/
theorem C69_solvable (ht : ∀ c < m.nCells, m.Tied (m.diffCoef δ gamma) (ix φ.bVF) c) (b : List K) (hb : b.length = m.nCells) :
    ∃ y : List K, y.length = m.nCells ∧ (∀ i < m.nCells, ∑ j ∈ range m.nCells, ls'.matrix.coef i j * ix y j = ix b i) ∧
      ∀ z : Nat → K, (∀ i < m.nCells, ∑ j ∈ range m.nCells, ls'.matrix.coef i j * z j = ix b i) → ∀ i < m.nCells, z i = ix y i := by
  obtain ⟨ls2, h2, ha⟩ := computeLaplacianImpl_ok h hp hφ hδ hg hs e he ls ho _ hout
  cases h2
  have hdef := ((C69_definite h hp hφ hδ hg e he ls ls' ho hzero hs hs0 hd0 hv0 hout).2.2).2 ht
  have hon : (⟨ls'.matrix, b⟩ : LinearSystem K).On sp m := ⟨ha.on.cols, ha.on.rowsEq, ha.on.vals, hb⟩
  have hr : ∀ x, ∀ i < m.nCells, (⟨ls'.matrix, b⟩ : LinearSystem K).residual x i = (∑ j ∈ range m.nCells, ls'.matrix.coef i j * x j) - ix b i :=
    fun x i hi => mesh_residual_coef h hp hon x hi
  have hinj : ∀ x y : Nat → K, (∀ i < m.nCells, ∑ j ∈ range m.nCells, ls'.matrix.coef i j * x j = ∑ j ∈ range m.nCells, ls'.matrix.coef i j * y j) →
      ∀ i < m.nCells, x i = y i := by
    intro x y hxy i hi
    by_contra hne
    have := hdef (fun i => x i - y i) ⟨i, hi, sub_ne_zero.2 hne⟩
    refine absurd ?_ this.ne
    unfold CSR.quad
    apply Finset.sum_eq_zero
    intro k hk
    have e1 : (∑ j ∈ range m.nCells, (x k - y k) * ls'.matrix.coef k j * (x j - y j))
        = (x k - y k) * ((∑ j ∈ range m.nCells, ls'.matrix.coef k j * x j) - ∑ j ∈ range m.nCells, ls'.matrix.coef k j * y j) := by
      rw [← Finset.sum_sub_distrib, Finset.mul_sum]
      exact Finset.sum_congr rfl (fun j _ => by ring)
    rw [e1, hxy k (mem_range.1 hk), sub_self, mul_zero]
  obtain ⟨y, hy1, hy2⟩ := exists_solution (⟨ls'.matrix, b⟩ : LinearSystem K) (by
    intro x y hxy
    show ∀ i < b.length, x i = y i
    have hxy' : ∀ i < b.length, (⟨ls'.matrix, b⟩ : LinearSystem K).residual x i = (⟨ls'.matrix, b⟩ : LinearSystem K).residual y i := hxy
    rw [hb] at hxy' ⊢
    refine hinj x y (fun i hi => ?_)
    have := hxy' i hi
    rw [hr x i hi, hr y i hi] at this
    exact sub_left_inj.1 this)
  have hy2' : ∀ i < b.length, (⟨ls'.matrix, b⟩ : LinearSystem K).residual (ix y) i = 0 := hy2
  rw [hb] at hy2'
  have hs1 : ∀ i < m.nCells, ∑ j ∈ range m.nCells, ls'.matrix.coef i j * ix y j = ix b i := by
    intro i hi
    have := hy2' i hi
    rw [hr _ i hi] at this
    exact sub_eq_zero.1 this
  exact ⟨y, hy1.trans hb, hs1, fun z hz => hinj z (ix y) (fun i hi => (hz i hi).trans (hs1 i hi).symm)⟩

end

/-- The hypotheses can be met: three cells in a row, fixed values at both ends. -/
example : ∃ (sp : SparsityPattern) (ls ls' : LinearSystem ℚ), sp.For row3 ∧ ls.On sp row3 ∧ (∀ i j, ls.matrix.coef i j = 0) ∧
    computeLaplacianImpl .parallel row3 sp [1, 1, 1, 1] [1, 2, 3, 4] row3Field Coeff.default ls (.ok ls') := by
  obtain ⟨sp, -, hp, ls, h0, ho, -⟩ := exists_system row3 row3_wf row3_deg .serial
  obtain ⟨out, hout⟩ := computeLaplacianImpl_runs .parallel row3 sp [1, 1, 1, 1] [1, 2, 3, 4] row3Field Coeff.default ls
  obtain ⟨ls', rfl, -⟩ := computeLaplacianImpl_ok row3_wf hp row3Field_on (δ := [1, 1, 1, 1]) (gamma := [1, 2, 3, 4]) rfl rfl
    (s := fun _ => 1) (fun c _ => rfl) .parallel (Or.inr row3_bnd) ls ho _ hout
  exact ⟨sp, ls, ls', hp, ho, empty_coef h0, hout⟩

/-- … in which every cell is tied to a prescribed value, but not if both ends are insulated. -/
example : (∀ c < row3.nCells, row3.Tied (row3.diffCoef [1, 1, 1, 1] [1, 2, 3, 4]) (ix row3Field.bVF) c) ∧
    ¬ row3.Tied (row3.diffCoef [1, 1, 1, 1] [1, 2, 3, 4]) (fun _ => 0) 0 := by
  constructor
  · have t0 : row3.Tied (row3.diffCoef [1, 1, 1, 1] [1, 2, 3, 4]) (ix row3Field.bVF) 0 :=
      Mesh.Tied.boundary (m := row3) 0 (by decide) (by norm_num [Mesh.diffCoef, row3, topoMesh, row3Field, ix])
    have t1 : row3.Tied (row3.diffCoef [1, 1, 1, 1] [1, 2, 3, 4]) (ix row3Field.bVF) 1 :=
      Mesh.Tied.nbr (m := row3) 0 (by decide) (by norm_num [Mesh.diffCoef, row3, topoMesh, ix]) t0
    have t2 : row3.Tied (row3.diffCoef [1, 1, 1, 1] [1, 2, 3, 4]) (ix row3Field.bVF) 2 :=
      Mesh.Tied.nbr (m := row3) 1 (by decide) (by norm_num [Mesh.diffCoef, row3, topoMesh, ix]) t1
    intro c hc
    have : c < 3 := hc
    interval_cases c <;> assumption
  · have : ∀ c, ¬ row3.Tied (row3.diffCoef [1, 1, 1, 1] [1, 2, 3, 4]) (fun _ => 0) c := by
      intro c t
      induction t with
      | boundary b hb hpos => simp at hpos
      | nbr f hf hpos _ ih => exact ih
      | own f hf hpos _ ih => exact ih
    exact this 0

end NeoFOAM
