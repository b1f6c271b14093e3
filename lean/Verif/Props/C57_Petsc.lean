import Verif.Model.Petsc
import Verif.Props.C53_Convert
import Verif.Props.C21_LaplacianMatrix
import Verif.Props.C19_ImplicitDiv

/-!
# C57 – PETSc is given the system it is to solve

It is not: PETSc receives the transposed matrix, for every matrix without empty rows (`C57_transposed`). So symmetric systems are solved
(`C57_symmetric_partial`, all diffusion matrices are: `C57_laplacian_partial`), others are not (`C57_violation`); the library's own unit test
expects the solution of the transposed system (`C57_violation_example`).
-/
namespace NeoFOAM
open Finset
variable {K : Type}

/-- `x` solves the system: all residuals vanish. -/
def LinearSystem.Solves [AddCommGroup K] [Mul K] (ls : LinearSystem K) (x : List K) : Prop :=
  ∀ i < ls.rhs.length, ls.residual (fun j => x.getD j 0) i = 0

/-- A function that solves every `n × n` system that has a solution. -/
def ExactKsp [Semiring K] (ksp : Nat → (Nat → Nat → K) → List K → List K) : Prop :=
  ∀ (n : Nat) (M : Nat → Nat → K) (b y : List K), b.length = n → (∀ i < n, ∑ j ∈ range n, M i j * y.getD j 0 = b.getD i 0) →
    ∀ i < n, ∑ j ∈ range n, M i j * (ksp n M b).getD j 0 = b.getD i 0

/-- A square system with the matrix in valid compressed row storage, no row empty, sizes within `int`. -/
structure LinearSystem.Proper (ls : LinearSystem K) : Prop where
  rows : ls.matrix.rowOffs.length = ls.rhs.length + 1
  pos : 0 < ls.rhs.length
  first : ls.matrix.rs 0 = 0
  last : ls.matrix.rs ls.rhs.length = ls.matrix.values.length
  cols : ls.matrix.colIdxs.length = ls.matrix.values.length
  nonempty : ∀ i < ls.rhs.length, ls.matrix.rs i < ls.matrix.rs (i + 1)
  inRange : ∀ c ∈ ls.matrix.colIdxs, c < ls.rhs.length
  small : ls.rhs.length < 2 ^ 31

section proofs

private theorem rows_mono {A : CSR K} {n : Nat} (h : ∀ i < n, A.rs i < A.rs (i + 1)) : ∀ a b, a < b → b ≤ n → A.rs a < A.rs b := by
  intro a b hab hb
  induction b with
  | zero => omega
  | succ b ih =>
    rcases Nat.lt_or_ge a b with h1 | h1
    · exact (ih h1 (by omega)).trans (h b (by omega))
    · have : a = b := by omega
      subst this
      exact h a (by omega)

private theorem rowLoop_ok {A : CSR K} {N n : Nat} (hn : ∀ i < N, A.rs i < A.rs (i + 1)) (hl : A.rowOffs.length = N + 1) (hN : N < 2 ^ 31) :
    ∀ index rowI, rowI < N → A.rs rowI ≤ index → index ≤ A.rs (rowI + 1) → index + n = A.rs N →
    ∃ l, petscRowLoop A.rowOffs n index rowI (A.rs (rowI + 1)) = .ok l ∧ l.length = n ∧
      ∀ k < n, ∃ r < N, l[k]? = some (r : Int) ∧ A.rs r ≤ index + k ∧ index + k < A.rs (r + 1) := by
  induction n with
  | zero => exact fun index rowI _ _ _ _ => ⟨[], rfl, rfl, fun k hk => by omega⟩
  | succ n ih =>
    intro index rowI h1 h2 h3 h4
    unfold petscRowLoop
    by_cases hi : index = A.rs (rowI + 1)
    · rw [if_pos hi]
      have hr : rowI + 1 < N := by
        rcases Nat.lt_or_ge (rowI + 1) N with h | h
        · exact h
        · have : rowI + 1 = N := by omega
          rw [this] at hi; omega
      rw [rd_getD 0 (by omega)]
      have h5 := hn (rowI + 1) hr
      obtain ⟨l, g1, g2, g3⟩ := ih (index + 1) (rowI + 1) hr (by omega) (by omega) (by omega)
      refine ⟨u32ToInt (rowI + 1) :: l, ?_, by simp [g2], ?_⟩
      · have g1' : petscRowLoop A.rowOffs n (index + 1) (rowI + 1) (A.rowOffs.getD (rowI + 1 + 1) 0) = .ok l := g1
        simp only [Res.ok_bind, g1', Res.pure_eq]
      · intro k hk
        rcases k with _ | k
        · exact ⟨rowI + 1, hr, by rw [u32ToInt_small (by omega)]; rfl, by omega, by omega⟩
        · obtain ⟨r, k1, k2, k3, k4⟩ := g3 k (by omega)
          exact ⟨r, k1, by simpa using k2, by omega, by omega⟩
    · rw [if_neg hi]
      obtain ⟨l, g1, g2, g3⟩ := ih (index + 1) rowI h1 (by omega) (by omega) (by omega)
      refine ⟨u32ToInt rowI :: l, by simp only [g1, Res.ok_bind, Res.pure_eq], by simp [g2], ?_⟩
      intro k hk
      rcases k with _ | k
      · exact ⟨rowI, h1, by rw [u32ToInt_small (by omega)]; rfl, by omega, by omega⟩
      · obtain ⟨r, k1, k2, k3, k4⟩ := g3 k (by omega)
        exact ⟨r, k1, by simpa using k2, by omega, by omega⟩

private theorem setup_ok {ls : LinearSystem K} (h : ls.Proper) : ∃ l, petscSetup ls =
      .ok ⟨ls.matrix.colIdxs.map (fun c : Nat => (c : Int)), l, ls.matrix.values, ls.rhs⟩ ∧ l.length = ls.matrix.values.length ∧
      ∀ p < ls.matrix.values.length, ∃ r < ls.rhs.length, l[p]? = some (r : Int) ∧ ls.matrix.rs r ≤ p ∧ p < ls.matrix.rs (r + 1) := by
  have hp := h.pos
  have h1 := h.nonempty 0 h.pos
  rw [h.first] at h1
  obtain ⟨l, g1, g2, g3⟩ := rowLoop_ok (n := ls.matrix.values.length) h.nonempty h.rows h.small 0 0 h.pos (by rw [h.first]) (by omega)
    (by rw [h.last]; omega)
  refine ⟨l, ?_, g2, by simpa using g3⟩
  unfold petscSetup
  have e1 : (List.range ls.matrix.values.length).mapM (fun i => u32ToInt <$> rd ls.matrix.colIdxs i)
      = .ok ((List.range ls.matrix.values.length).map fun i => u32ToInt (ls.matrix.colIdxs.getD i 0)) := by
    apply mapM_ok
    intro i hi
    rw [List.mem_range] at hi
    rw [rd_getD 0 (by rw [h.cols]; exact hi)]
    rfl
  have e2 : ((List.range ls.matrix.values.length).map fun i => u32ToInt (ls.matrix.colIdxs.getD i 0))
      = ls.matrix.colIdxs.map (fun c : Nat => (c : Int)) := by
    apply List.ext_getElem
    · simp [h.cols]
    · intro i h1 h2
      simp only [List.length_map] at h2
      simp only [List.getElem_map, List.getElem_range, List.getD_eq_getElem?_getD, List.getElem?_eq_getElem h2, Option.getD_some]
      exact u32ToInt_small ((h.inRange _ (List.getElem_mem h2)).trans h.small)
  have g1' : petscRowLoop ls.matrix.rowOffs ls.matrix.values.length 0 0 (ls.matrix.rowOffs.getD 1 0) = .ok l := g1
  simp only [e1, e2, Res.ok_bind]
  rw [rd_getD 0 (by rw [h.rows]; omega)]
  simp only [Res.ok_bind, g1', Res.pure_eq]

private theorem list_sum_range [AddCommMonoid K] (F : Nat → K) (n : Nat) : ((List.range n).map F).sum = ∑ p ∈ range n, F p := by
  induction n with
  | zero => rfl
  | succ n ih => rw [List.range_succ, List.map_append, List.sum_append, ih, Finset.sum_range_succ]; simp

end proofs

/-- **C57 fails**: for every proper system the matrix PETSc gets is the transpose, and the right hand side is the system's. -/
theorem C57_transposed [AddCommMonoid K] {ls : LinearSystem K} (h : ls.Proper) :
    ∃ P, petscSetup ls = .ok P ∧ P.rhs = ls.rhs ∧ ∀ i < ls.rhs.length, ∀ j < ls.rhs.length, P.entry i j = ls.matrix.coef j i := by
  obtain ⟨l, h1, h2, h3⟩ := setup_ok h
  refine ⟨_, h1, rfl, fun i hi j hj => ?_⟩
  unfold PetscSys.entry CSR.coef
  rw [list_sum_range]
  have hsub : Ico (ls.matrix.rs j) (ls.matrix.rs (j + 1)) = (range ls.matrix.values.length).filter fun p => l[p]? = some (j : Int) := by
    ext p
    simp only [mem_Ico, mem_filter, mem_range]
    constructor
    · rintro ⟨k1, k2⟩
      have hlt : p < ls.matrix.values.length := by
        rw [← h.last]
        refine k2.trans_le ?_
        rcases Nat.lt_or_ge (j + 1) ls.rhs.length with q | q
        · exact (rows_mono h.nonempty _ _ q le_rfl).le
        · rw [show j + 1 = ls.rhs.length by omega]
      refine ⟨hlt, ?_⟩
      obtain ⟨r, r1, r2, r3, r4⟩ := h3 p hlt
      have : r = j := by
        rcases Nat.lt_trichotomy r j with q | q | q
        · have := rows_mono h.nonempty (r + 1) j
          rcases Nat.lt_or_ge (r + 1) j with q' | q'
          · have := this q' (by omega); omega
          · rw [show r + 1 = j by omega] at r4; omega
        · exact q
        · rcases Nat.lt_or_ge (j + 1) r with q' | q'
          · have := rows_mono h.nonempty (j + 1) r q' (by omega); omega
          · rw [show j + 1 = r by omega] at k2; omega
      rw [r2, this]
    · rintro ⟨hlt, k⟩
      obtain ⟨r, r1, r2, r3, r4⟩ := h3 p hlt
      rw [r2] at k
      have : r = j := by simpa using k
      subst this
      exact ⟨r3, r4⟩
  rw [hsub, Finset.sum_filter]
  apply Finset.sum_congr rfl
  intro p hp
  rw [mem_range] at hp
  have hc : (ls.matrix.colIdxs.map (fun c : Nat => (c : Int)))[p]? = some ((ls.matrix.col p : Nat) : Int) := by
    rw [List.getElem?_map, CSR.col, List.getD_eq_getElem?_getD, List.getElem?_eq_getElem (by rw [h.cols]; exact hp)]
    rfl
  simp only [hc, Option.some.injEq, Nat.cast_inj, CSR.val]
  by_cases q1 : ls.matrix.col p = i <;> by_cases q2 : l[p]? = some (j : Int) <;> simp [q1, q2]

/-- The residual, by coefficients. -/
theorem residual_coef [Ring K] {ls : LinearSystem K} (h : ls.Proper) (x : Nat → K) {i : Nat} (hi : i < ls.rhs.length) :
    ls.residual x i = ∑ j ∈ range ls.rhs.length, ls.matrix.coef i j * x j - ls.rhs.getD i 0 := by
  unfold LinearSystem.residual
  congr 1
  simp only [CSR.coef, Finset.sum_mul]
  rw [Finset.sum_comm]
  apply Finset.sum_congr rfl
  intro p hp
  rw [mem_Ico] at hp
  have hlt : p < ls.matrix.colIdxs.length := by
    rw [h.cols, ← h.last]
    refine hp.2.trans_le ?_
    rcases Nat.lt_or_ge (i + 1) ls.rhs.length with q | q
    · exact (rows_mono h.nonempty _ _ q le_rfl).le
    · rw [show i + 1 = ls.rhs.length by omega]
  have hc : ls.matrix.col p < ls.rhs.length := by
    apply h.inRange
    unfold CSR.col
    rw [List.getD_eq_getElem?_getD, List.getElem?_eq_getElem hlt]
    exact List.getElem_mem hlt
  rw [Finset.sum_eq_single (ls.matrix.col p)]
  · simp
  · intro j _ hj
    rw [if_neg (Ne.symm hj), zero_mul]
  · intro hh; exact absurd (mem_range.2 hc) hh

/-- **C57 for symmetric matrices**: with an exact solver, if the system has a solution, PETSc's answer is one. -/
theorem C57_symmetric_partial [Ring K] {ls : LinearSystem K} (h : ls.Proper)
    (hs : ∀ i < ls.rhs.length, ∀ j < ls.rhs.length, ls.matrix.coef i j = ls.matrix.coef j i)
    {ksp : Nat → (Nat → Nat → K) → List K → List K} (hk : ExactKsp ksp) {y : List K} (hy : ls.Solves y) (x : List K) :
    ∃ x', petscSolve ksp ls x = .ok x' ∧ ls.Solves x' := by
  obtain ⟨P, h1, h2, h3⟩ := C57_transposed h
  refine ⟨_, by unfold petscSolve; rw [h1]; rfl, fun i hi => ?_⟩
  have := hk ls.rhs.length P.entry P.rhs y (by rw [h2]) (fun i hi => ?_) i hi
  · rw [residual_coef h _ hi, sub_eq_zero]
    rw [h2] at this ⊢
    rw [← this]
    apply Finset.sum_congr rfl
    intro j hj
    rw [h3 i hi j (mem_range.1 hj), hs i hi j (mem_range.1 hj)]
  · have e := hy i hi
    rw [residual_coef h _ hi, sub_eq_zero] at e
    rw [h2, ← e]
    apply Finset.sum_congr rfl
    intro j hj
    rw [h3 i hi j (mem_range.1 hj), hs i hi j (mem_range.1 hj)]

/-- **What an exact PETSc solve returns**: a solution of the transposed system, whenever that has one. -/
theorem C57_solves_transposed [Ring K] {ls : LinearSystem K} (h : ls.Proper) {ksp : Nat → (Nat → Nat → K) → List K → List K} (hk : ExactKsp ksp)
    {y : List K} (hy : ∀ i < ls.rhs.length, ∑ j ∈ range ls.rhs.length, ls.matrix.coef j i * y.getD j 0 = ls.rhs.getD i 0) (x : List K) :
    ∃ x', petscSolve ksp ls x = .ok x' ∧ ∀ i < ls.rhs.length, ∑ j ∈ range ls.rhs.length, ls.matrix.coef j i * x'.getD j 0 = ls.rhs.getD i 0 := by
  obtain ⟨P, h1, h2, h3⟩ := C57_transposed h
  refine ⟨_, by unfold petscSolve; rw [h1]; rfl, fun i hi => ?_⟩
  have := hk ls.rhs.length P.entry P.rhs y (by rw [h2]) (fun i hi => ?_) i hi
  · rw [h2] at this ⊢
    rw [← this]
    apply Finset.sum_congr rfl
    intro j hj
    rw [h3 i hi j (mem_range.1 hj)]
  · rw [h2, ← hy i hi]
    apply Finset.sum_congr rfl
    intro j hj
    rw [h3 i hi j (mem_range.1 hj)]

/-- Systems on the sparsity pattern of a mesh are proper. -/
theorem C57_proper {m : Mesh K} (h : m.WF) {sp : SparsityPattern} (hp : sp.For m) {ls : LinearSystem K} (ho : ls.On sp m)
    (h0 : 0 < m.nCells) (h31 : m.nCells < 2 ^ 31) : ls.Proper := by
  have hr := ho.rhsLen
  refine ⟨by rw [ho.rowsEq, hp.rows.len, hr], by omega, by rw [CSR.rs, ho.rowsEq]; exact hp.rows.first, ?_, ?_, fun i hi => ?_, fun c hc => ?_, by omega⟩
  · rw [hr, CSR.rs, ho.rowsEq, hp.rows.last, ho.vals]
  · rw [ho.cols, ho.vals]
  · rw [CSR.rs, CSR.rs, ho.rowsEq, hp.rows.size i (by omega)]; omega
  · rw [ho.cols] at hc
    obtain ⟨p, hp', rfl⟩ := List.getElem_of_mem hc
    obtain ⟨s, hs, rfl⟩ := hp.adr.surj p hp'
    have := hp.adr.column s hs
    rw [List.getElem?_eq_getElem hp'] at this
    rw [Option.some.inj this, hr]
    cases s with
    | diag c => exact hs
    | upper f => exact h.nbr_lt f hs
    | lower f => exact h.own_lt_int hs

/-- **C57 for diffusion**: PETSc's matrix for an implicit Laplacian assembled, with a uniform coefficient, on an empty system is the assembled one. -/
theorem C57_laplacian_partial [Field K] {m : Mesh K} (h : m.WF) (h0 : 0 < m.nCells) (h31 : m.nCells < 2 ^ 31) {sp : SparsityPattern} (hp : sp.For m)
    {φ : VolField K K} (hφ : φ.On m) {δ gamma : List K} (hδ : δ.length = m.nFaces) (hg : gamma.length = m.nFaces) (e : ExecKind)
    (he : e = .serial ∨ m.BndDistinct) {scal : Coeff K} {s0 : K} (hs : scal.On m.nCells (fun _ => s0)) (ls ls' : LinearSystem K) (ho : ls.On sp m)
    (hz : ∀ i j, ls.matrix.coef i j = 0) (hout : computeLaplacianImpl e m sp δ gamma φ scal ls (.ok ls')) :
    ∃ P, petscSetup ls' = .ok P ∧ ∀ i < m.nCells, ∀ j < m.nCells, P.entry i j = ls'.matrix.coef i j := by
  obtain ⟨l2, h2, ha⟩ := computeLaplacianImpl_ok h hp hφ hδ hg hs e he ls ho _ hout
  cases h2
  have hpr := C57_proper h hp ha.on h0 h31
  obtain ⟨P, g1, g2, g3⟩ := C57_transposed hpr
  refine ⟨P, g1, fun i hi j hj => ?_⟩
  rw [g3 i (by rw [ha.on.rhsLen]; exact hi) j (by rw [ha.on.rhsLen]; exact hj)]
  have := C21_symmetric h hp hφ hδ hg e he ls ls' ho hs hout j i hj hi
  simpa [hz] using this

/-- **C57 fails** wherever the matrix is not symmetric: PETSc holds another coefficient there. -/
theorem C57_violation [AddCommMonoid K] {ls : LinearSystem K} (h : ls.Proper) {i j : Nat} (hi : i < ls.rhs.length) (hj : j < ls.rhs.length)
    (hne : ls.matrix.coef i j ≠ ls.matrix.coef j i) : ∃ P, petscSetup ls = .ok P ∧ P.entry i j ≠ ls.matrix.coef i j := by
  obtain ⟨P, h1, -, h3⟩ := C57_transposed h
  exact ⟨P, h1, by rw [h3 i hi j hj]; exact hne.symm⟩

/-- **C57 fails for every flow**: for an implicit divergence assembled, with a uniform non-zero coefficient, on an empty system, the two
coefficients of an internal face with non-zero flux, if it is the only face between its cells, are exchanged. -/
theorem C57_div_violation [Field K] [LinearOrder K] {m : Mesh K} (h : m.WF) (h31 : m.nCells < 2 ^ 31) {sp : SparsityPattern} (hp : sp.For m)
    {φ : VolField K K} (hφ : φ.On m) {flux : List K} (hfl : flux.length = m.nFaces) (e : ExecKind) (he : e = .serial ∨ m.BndDistinct)
    {scal : Coeff K} {s0 : K} (hs : scal.On m.nCells (fun _ => s0)) (hs0 : s0 ≠ 0) (ls ls' : LinearSystem K) (ho : ls.On sp m)
    (hz : ∀ i j, ls.matrix.coef i j = 0) (hout : computeDivImp e m sp flux φ scal ls (.ok ls')) {f : Nat} (hf : f < m.nInternalFaces)
    (hne : m.own f ≠ m.nbr f) (hone : ∀ g < m.nInternalFaces, (m.own g = m.own f ∧ m.nbr g = m.nbr f) ∨ (m.own g = m.nbr f ∧ m.nbr g = m.own f) → g = f)
    (hq : ix flux f ≠ 0) : ∃ P, petscSetup ls' = .ok P ∧ P.entry (m.own f) (m.nbr f) ≠ ls'.matrix.coef (m.own f) (m.nbr f) := by
  obtain ⟨l2, h2, ha⟩ := computeDivImp_ok h hp hφ hfl hs e he ls ho _ hout
  cases h2
  have o1 := h.own_lt_int hf
  have o2 := h.nbr_lt f hf
  have hpr := C57_proper h hp ha.on (by omega) h31
  refine C57_violation hpr (by rw [ha.on.rhsLen]; exact o1) (by rw [ha.on.rhsLen]; exact o2) ?_
  have e1 := ha.coef_slots h hp ho (j := m.nbr f) o1
  have e2 := ha.coef_slots h hp ho (j := m.own f) o2
  rw [hz, sub_zero, if_neg hne, zero_add] at e1
  rw [hz, sub_zero, if_neg (Ne.symm hne), zero_add] at e2
  have z : ∀ (p q : Nat → Nat) (a b : Nat) (F : Nat → K), (∀ g < m.nInternalFaces, ¬ (p g = a ∧ q g = b)) →
      (∑ g ∈ range m.nInternalFaces, if p g = a then (if q g = b then F g else 0) else 0) = 0 := by
    intro p q a b F hh
    apply Finset.sum_eq_zero
    intro g hg
    by_cases c1 : p g = a
    · rw [if_pos c1, if_neg (fun c2 => hh g (mem_range.1 hg) ⟨c1, c2⟩)]
    · rw [if_neg c1]
  have o : ∀ (p q : Nat → Nat) (F : Nat → K), (∀ g < m.nInternalFaces, p g = p f ∧ q g = q f → g = f) →
      (∑ g ∈ range m.nInternalFaces, if p g = p f then (if q g = q f then F g else 0) else 0) = F f := by
    intro p q F hh
    rw [Finset.sum_eq_single f]
    · simp
    · intro g hg hgf
      by_cases c1 : p g = p f
      · rw [if_pos c1, if_neg (fun c2 => hgf (hh g (mem_range.1 hg) ⟨c1, c2⟩))]
      · rw [if_neg c1]
    · intro hh; exact absurd (mem_range.2 hf) hh
  rw [o m.own m.nbr _ (fun g hg hh => hone g hg (.inl hh)),
    z m.nbr m.own _ _ _ (fun g hg hh => by
      have := hone g hg (.inr ⟨hh.2, hh.1⟩); subst this; exact hne hh.2)] at e1
  rw [z m.own m.nbr _ _ _ (fun g hg hh => by
      have := hone g hg (.inr hh); subst this; exact hne hh.1),
    o m.nbr m.own _ (fun g hg hh => hone g hg (.inl ⟨hh.2, hh.1⟩))] at e2
  rw [e1, e2]
  simp only [divDelta]
  by_cases c : 0 ≤ ix flux f
  · simp [c, hq, hs0]
  · simp [c, hq, hs0]

/-- An empty system has no coefficients. -/
theorem empty_coef [Field K] {sp : SparsityPattern} {ls : LinearSystem K} (h : createEmptyLinearSystem sp = .ok ls) (i j : Nat) : ls.matrix.coef i j = 0 := by
  unfold createEmptyLinearSystem LinearSystem.mk' at h
  split at h
  · cases h
    apply Finset.sum_eq_zero
    intro p _
    simp only [CSR.val, val_replicate, ite_self]
  · cases h

/-- The hypotheses can be met: flow through three cells in a row, assembled on an empty system. -/
theorem C57_div_violation_example : ∃ (sp : SparsityPattern) (ls ls' : LinearSystem ℚ), createEmptyLinearSystem sp = .ok ls ∧
    computeDivImp .parallel row3 sp [1, 1, 0, 1] row3Grad Coeff.default ls (.ok ls') ∧
    ∃ P, petscSetup ls' = .ok P ∧ P.entry 0 1 ≠ ls'.matrix.coef 0 1 := by
  obtain ⟨sp, -, hp, ls, h0, ho, -⟩ := exists_system row3 row3_wf row3_deg .parallel
  obtain ⟨out, hout⟩ := computeDivImp_runs .parallel row3 sp [1, 1, 0, 1] row3Grad Coeff.default ls
  obtain ⟨ls', rfl, -⟩ := computeDivImp_ok row3_wf hp row3Grad_on (flux := [1, 1, 0, 1]) rfl (s := fun _ => 1) (fun c _ => rfl) .parallel
    (Or.inr row3_bnd) ls ho _ hout
  refine ⟨sp, ls, ls', h0, hout, ?_⟩
  exact C57_div_violation row3_wf (by decide) hp row3Grad_on (flux := [1, 1, 0, 1]) rfl .parallel (Or.inr row3_bnd) (s0 := 1) (fun c _ => rfl)
    one_ne_zero ls ls' ho (empty_coef h0) hout (f := 0) (by decide) (by decide) (by decide) (by simp [ix])

/-- The system of the library's unit test (test/linearAlgebra/petsc.cpp:45-52). -/
def petscTest : LinearSystem ℚ := ⟨⟨[10, 4, 7, 2, 10, 8, 3, 6, 10], [0, 1, 2, 0, 1, 2, 0, 1, 2], [0, 3, 6, 9]⟩, [1, 2, 3]⟩

theorem petscTest_proper : petscTest.Proper where
  rows := rfl
  pos := by decide
  first := rfl
  last := rfl
  cols := rfl
  nonempty := by decide
  inRange := by decide
  small := by decide

/-- **C57 fails in the library's unit test**: the values the test expects (3/205, 8/205, 53/205) are what every exact PETSc solve returns; they
do not solve the system, whose first residual is 433/205 - 1. -/
theorem C57_violation_example {ksp : Nat → (Nat → Nat → ℚ) → List ℚ → List ℚ} (hk : ExactKsp ksp) (x : List ℚ) :
    ∃ x', petscSolve ksp petscTest x = .ok x' ∧ x'.getD 0 0 = 3 / 205 ∧ x'.getD 1 0 = 8 / 205 ∧ x'.getD 2 0 = 53 / 205 ∧ ¬ petscTest.Solves x' := by
  have c00 : petscTest.matrix.coef 0 0 = 10 := by simp [CSR.coef, CSR.rs, CSR.col, CSR.val, petscTest, Finset.sum_Ico_eq_sum_range, Finset.sum_range_succ]
  have c01 : petscTest.matrix.coef 0 1 = 4 := by simp [CSR.coef, CSR.rs, CSR.col, CSR.val, petscTest, Finset.sum_Ico_eq_sum_range, Finset.sum_range_succ]
  have c02 : petscTest.matrix.coef 0 2 = 7 := by simp [CSR.coef, CSR.rs, CSR.col, CSR.val, petscTest, Finset.sum_Ico_eq_sum_range, Finset.sum_range_succ]
  have c10 : petscTest.matrix.coef 1 0 = 2 := by simp [CSR.coef, CSR.rs, CSR.col, CSR.val, petscTest, Finset.sum_Ico_eq_sum_range, Finset.sum_range_succ]
  have c11 : petscTest.matrix.coef 1 1 = 10 := by simp [CSR.coef, CSR.rs, CSR.col, CSR.val, petscTest, Finset.sum_Ico_eq_sum_range, Finset.sum_range_succ]
  have c12 : petscTest.matrix.coef 1 2 = 8 := by simp [CSR.coef, CSR.rs, CSR.col, CSR.val, petscTest, Finset.sum_Ico_eq_sum_range, Finset.sum_range_succ]
  have c20 : petscTest.matrix.coef 2 0 = 3 := by simp [CSR.coef, CSR.rs, CSR.col, CSR.val, petscTest, Finset.sum_Ico_eq_sum_range, Finset.sum_range_succ]
  have c21 : petscTest.matrix.coef 2 1 = 6 := by simp [CSR.coef, CSR.rs, CSR.col, CSR.val, petscTest, Finset.sum_Ico_eq_sum_range, Finset.sum_range_succ]
  have c22 : petscTest.matrix.coef 2 2 = 10 := by simp [CSR.coef, CSR.rs, CSR.col, CSR.val, petscTest, Finset.sum_Ico_eq_sum_range, Finset.sum_range_succ]
  have r0 : petscTest.rhs.getD 0 0 = 1 := rfl
  have r1 : petscTest.rhs.getD 1 0 = 2 := rfl
  have r2 : petscTest.rhs.getD 2 0 = 3 := rfl
  have hn : petscTest.rhs.length = 3 := rfl
  obtain ⟨x', g1, g2⟩ := C57_solves_transposed petscTest_proper hk (y := [3/205, 8/205, 53/205]) (by
    intro i hi
    rw [hn] at hi ⊢
    simp only [Finset.sum_range_succ, Finset.sum_range_zero]
    match i, hi with
    | 0, _ => rw [c00, c10, c20, r0]; norm_num
    | 1, _ => rw [c01, c11, c21, r1]; norm_num
    | 2, _ => rw [c02, c12, c22, r2]; norm_num) x
  have e0 := g2 0 (by decide)
  have e1 := g2 1 (by decide)
  have e2 := g2 2 (by decide)
  rw [hn] at e0 e1 e2
  simp only [Finset.sum_range_succ, Finset.sum_range_zero, c00, c10, c20, c01, c11, c21, c02, c12, c22, r0, r1, r2] at e0 e1 e2
  have x0 : x'.getD 0 0 = 3 / 205 := by linarith
  have x1 : x'.getD 1 0 = 8 / 205 := by linarith
  have x2 : x'.getD 2 0 = 53 / 205 := by linarith
  refine ⟨x', g1, x0, x1, x2, fun hs => ?_⟩
  have := hs 0 (by decide)
  rw [residual_coef petscTest_proper _ (by decide), hn] at this
  simp only [Finset.sum_range_succ, Finset.sum_range_zero, c00, c01, c02, r0, x0, x1, x2] at this
  norm_num at this

/-- **C57 also fails for matrices with an empty row**: here row 1 is empty, and the entry of row 2, column 2 is handed over as one of row
1. -/
theorem C57_empty_row_violation : ∃ P, petscSetup (⟨⟨[5, 7], [0, 2], [0, 1, 1, 2]⟩, [1, 0, 1]⟩ : LinearSystem ℚ) = .ok P ∧ P.entry 2 1 = 7 ∧ P.entry 2 2 = 0 :=
  ⟨⟨[0, 2], [0, 1], [5, 7], [1, 0, 1]⟩, by rfl, by simp [PetscSys.entry, List.range_succ], by simp [PetscSys.entry, List.range_succ]⟩

/-- **A system without rows is undefined**: the second row pointer is read. -/
theorem C57_no_rows_undefined (A : CSR K) (h : A.rowOffs.length ≤ 1) (hc : A.values.length ≤ A.colIdxs.length) (b : List K) : petscSetup (⟨A, b⟩ : LinearSystem K) = .ub := by
  unfold petscSetup
  have e1 : (List.range A.values.length).mapM (fun i => u32ToInt <$> rd A.colIdxs i)
      = .ok ((List.range A.values.length).map fun i => u32ToInt (A.colIdxs.getD i 0)) := by
    apply mapM_ok
    intro i hi
    rw [List.mem_range] at hi
    rw [rd_getD 0 (by omega)]
    rfl
  simp only [e1, Res.ok_bind]
  rw [rd_ub (by omega)]
  rfl

end NeoFOAM
