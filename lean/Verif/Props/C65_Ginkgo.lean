import Verif.Model.GinkgoSolve
import Verif.Spec.Solvers
import Verif.Props.C57_Petsc
import Verif.Props.C64_Line

/-!
# C65 – Ginkgo is given the system it is to solve, in memory that is still valid, and the field gets its answer
-/
namespace NeoFOAM
open Finset
variable {K : Type}

section proofs

private theorem list_sum_range' [AddCommMonoid K] (F : Nat → K) (n : Nat) : ((List.range n).map F).sum = ∑ p ∈ range n, F p := by
  induction n with
  | zero => rfl
  | succ n ih => rw [List.range_succ, List.map_append, List.sum_append, ih, Finset.sum_range_succ]; simp

private theorem rows_le {A : CSR K} {n : Nat} (h : ∀ i < n, A.rs i ≤ A.rs (i + 1)) : ∀ i ≤ n, A.rs i ≤ A.rs n := by
  induction n with
  | zero =>
    intro i hi
    have : i = 0 := by omega
    rw [this]
  | succ n ih =>
    intro i hi
    rcases Nat.lt_or_ge i (n + 1) with q | q
    · exact (ih (fun j hj => h j (by omega)) i (by omega)).trans (h n (by omega))
    · have : i = n + 1 := by omega
      rw [this]

private theorem getD_map_int (l : List Nat) (i : Nat) : (l.map fun r : Nat => (r : Int)).getD i 0 = ((l.getD i 0 : Nat) : Int) := by
  simp only [List.getD_eq_getElem?_getD, List.getElem?_map]
  cases l[i]? <;> rfl

/-- The matrix Ginkgo holds has the coefficients of the system's. -/
private theorem gko_entry_eq [AddCommMonoid K] {ls : LinearSystem K} (h : ls.Valid) :
    CsrInt.entry ⟨ls.matrix.values, ls.matrix.colIdxs.map (fun c : Nat => (c : Int)), ls.matrix.rowOffs.map (fun r : Nat => (r : Int))⟩
      = ls.matrix.coef := by
  funext i j
  unfold CsrInt.entry CSR.coef
  rw [list_sum_range']
  simp only [getD_map_int, List.getElem?_map]
  have hb : ls.matrix.rs (i + 1) ≤ ls.matrix.values.length := by
    rcases Nat.lt_or_ge i ls.rhs.length with q | q
    · rw [← h.last]; exact rows_le h.ascending (i + 1) (by omega)
    · have : ls.matrix.rs (i + 1) = 0 := by
        rw [CSR.rs, List.getD_eq_getElem?_getD, List.getElem?_eq_none (by rw [h.rows]; omega)]; rfl
      omega
  have hsub : Ico (ls.matrix.rs i) (ls.matrix.rs (i + 1)) =
      (range ls.matrix.values.length).filter fun p => ls.matrix.rs i ≤ p ∧ p < ls.matrix.rs (i + 1) := by
    ext p
    simp only [mem_Ico, mem_filter, mem_range]
    constructor
    · rintro ⟨a, b⟩; exact ⟨by omega, a, b⟩
    · rintro ⟨-, a, b⟩; exact ⟨a, b⟩
  rw [hsub, Finset.sum_filter]
  apply Finset.sum_congr rfl
  intro p hp
  rw [mem_range] at hp
  have hcol : ls.matrix.colIdxs[p]? = some (ls.matrix.col p) := by
    rw [CSR.col, List.getD_eq_getElem?_getD, List.getElem?_eq_getElem (by rw [h.cols]; exact hp)]; rfl
  rw [hcol]
  simp only [Option.map_some, Option.some.injEq, Nat.cast_inj, Nat.cast_le, Nat.cast_lt, CSR.val]
  change (if ls.matrix.rs i ≤ p ∧ p < ls.matrix.rs (i + 1) ∧ ls.matrix.col p = j then ls.matrix.values.getD p 0 else 0) = _
  by_cases q1 : ls.matrix.rs i ≤ p ∧ p < ls.matrix.rs (i + 1)
  · rw [if_pos q1]
    by_cases q2 : ls.matrix.col p = j
    · rw [if_pos ⟨q1.1, q1.2, q2⟩, if_pos q2]
    · rw [if_neg (fun q => q2 q.2.2), if_neg q2]
  · rw [if_neg q1, if_neg (fun q => q1 ⟨q.1, q.2.1⟩)]

private theorem inBounds_of {ls : LinearSystem K} (h : ls.Valid) :
    CsrInt.inBounds ⟨ls.matrix.values, ls.matrix.colIdxs.map (fun c : Nat => (c : Int)), ls.matrix.rowOffs.map (fun r : Nat => (r : Int))⟩
      ls.rhs.length = true := by
  unfold CsrInt.inBounds
  rw [Bool.and_eq_true, List.all_eq_true, List.all_eq_true]
  constructor
  · intro r hr
    obtain ⟨k, hk, rfl⟩ := List.mem_map.1 hr
    obtain ⟨i, hi, rfl⟩ := List.getElem_of_mem hk
    have h1 : ls.matrix.rs i ≤ ls.matrix.values.length := by
      rw [← h.last]; exact rows_le h.ascending i (by rw [h.rows] at hi; omega)
    have h2 : ls.matrix.rs i = ls.matrix.rowOffs[i] := by
      rw [CSR.rs, List.getD_eq_getElem?_getD, List.getElem?_eq_getElem hi]; rfl
    rw [h2] at h1
    exact decide_eq_true ⟨by omega, by exact_mod_cast h1⟩
  · intro c hc
    obtain ⟨k, hk, rfl⟩ := List.mem_map.1 hc
    have := h.inRange k hk
    exact decide_eq_true ⟨by omega, by exact_mod_cast this⟩

private theorem converted {ls : LinearSystem K} (h : ls.Valid) (e : ExecKind) (gc gr : Nat → Int) (out : Res (CsrInt K)) :
    csrConvert e gc gr ls.matrix out ↔ out = .ok ⟨ls.matrix.values, ls.matrix.colIdxs.map (fun c : Nat => (c : Int)),
      ls.matrix.rowOffs.map (fun r : Nat => (r : Int))⟩ := by
  rw [C53_det]
  have e1 : ls.matrix.colIdxs.map u32ToInt = ls.matrix.colIdxs.map (fun c : Nat => (c : Int)) :=
    List.map_congr_left fun c hc => u32ToInt_small ((h.inRange c hc).trans h.small.1)
  have e2 : ls.matrix.rowOffs.map u32ToInt = ls.matrix.rowOffs.map (fun r : Nat => (r : Int)) := by
    refine List.map_congr_left fun r hr => u32ToInt_small ?_
    obtain ⟨i, hi, rfl⟩ := List.getElem_of_mem hr
    have h1 : ls.matrix.rs i ≤ ls.matrix.values.length := by
      rw [← h.last]; exact rows_le h.ascending i (by rw [h.rows] at hi; omega)
    have h2 : ls.matrix.rs i = ls.matrix.rowOffs[i] := by
      rw [CSR.rs, List.getD_eq_getElem?_getD, List.getElem?_eq_getElem hi]; rfl
    rw [h2] at h1
    exact h1.trans_lt h.small.2
  rw [e1, e2]

/-- What `createGkoMtx` returns owns its elements. -/
private theorem mtx_det {ls : LinearSystem K} (h : ls.Valid) (e : ExecKind) (gc gr : Nat → Int) (out : Res ((Arena K × Arena Int) × GkoCsr K)) :
    createGkoMtx e gc gr ls out ↔ out = .ok (([none], [none, none]), ⟨ls.rhs.length, .owned ls.matrix.values,
      .owned (ls.matrix.colIdxs.map fun c : Nat => (c : Int)), .owned (ls.matrix.rowOffs.map fun r : Nat => (r : Int))⟩) := by
  unfold createGkoMtx
  refine (NR.bind_iff (converted h e gc gr) out).trans ?_
  refine (NR.bind_iff (a := GkoArr.owned ls.matrix.values) (fun _ => Iff.rfl) out).trans ?_
  refine (NR.bind_iff (a := GkoArr.owned (ls.matrix.colIdxs.map fun c : Nat => (c : Int))) (fun _ => Iff.rfl) out).trans ?_
  refine (NR.bind_iff (a := GkoArr.owned (ls.matrix.rowOffs.map fun r : Nat => (r : Int))) (fun _ => Iff.rfl) out).trans ?_
  exact Iff.rfl

end proofs

/-- **C65**: for every square system in valid storage and every field with at least as many elements as rows, on every executor and
schedule, whatever the new index arrays held: there is exactly one outcome. Ginkgo computes with the matrix, the right hand side and, as
initial guess, the field of the call; its answer is stored in the field, elements beyond the rows keep their values, and no freed memory
is read. -/
theorem C65_given [AddCommMonoid K] {ls : LinearSystem K} (h : ls.Valid) (gko : List K → Nat → (Nat → Nat → K) → List K → List K)
    (e : ExecKind) (gc gr : Nat → Int) (x : List K) (hx : ls.rhs.length ≤ x.length) (out : Res (List K)) :
    gkoSolve gko e gc gr ls x out ↔ out = .ok ((List.range ls.rhs.length).map
      (fun i => (gko (x.take ls.rhs.length) ls.rhs.length ls.matrix.coef ls.rhs).getD i 0) ++ x.drop ls.rhs.length) := by
  unfold gkoSolve
  refine (NR.bind_iff (mtx_det h e gc gr) out).trans ?_
  have c1 : ¬ (ls.matrix.values.length ≠ (ls.matrix.colIdxs.map fun c : Nat => (c : Int)).length ∨
      (ls.matrix.rowOffs.map fun r : Nat => (r : Int)).length ≠ ls.rhs.length + 1) := by
    simp [h.cols, h.rows]
  have c2 : ¬ (x.length < ls.rhs.length ∨ CsrInt.inBounds ⟨ls.matrix.values, ls.matrix.colIdxs.map (fun c : Nat => (c : Int)),
      ls.matrix.rowOffs.map (fun r : Nat => (r : Int))⟩ ls.rhs.length = false) := by
    rw [inBounds_of h]; simp; omega
  refine (NR.bind_iff (a := ls.matrix.values) (fun _ => Iff.rfl) out).trans ?_
  refine (NR.bind_iff (a := ls.matrix.colIdxs.map fun c : Nat => (c : Int)) (fun _ => Iff.rfl) out).trans ?_
  refine (NR.bind_iff (a := ls.matrix.rowOffs.map fun r : Nat => (r : Int)) (fun _ => Iff.rfl) out).trans ?_
  simp only [if_neg c1, if_neg c2, gko_entry_eq h]
  exact Iff.rfl

/-- The residual of a valid system, by coefficients. -/
theorem residual_coef_valid [Ring K] {ls : LinearSystem K} (h : ls.Valid) (x : Nat → K) {i : Nat} (hi : i < ls.rhs.length) :
    ls.residual x i = ∑ j ∈ range ls.rhs.length, ls.matrix.coef i j * x j - ls.rhs.getD i 0 := by
  unfold LinearSystem.residual
  congr 1
  simp only [CSR.coef, Finset.sum_mul]
  rw [Finset.sum_comm]
  apply Finset.sum_congr rfl
  intro p hp
  rw [mem_Ico] at hp
  have hlt : p < ls.matrix.colIdxs.length := by
    rw [h.cols, ← h.last]
    exact hp.2.trans_le (rows_le h.ascending (i + 1) (by omega))
  have hc : ls.matrix.col p < ls.rhs.length := by
    apply h.inRange
    unfold CSR.col
    rw [List.getD_eq_getElem?_getD, List.getElem?_eq_getElem hlt]
    exact List.getElem_mem hlt
  rw [Finset.sum_eq_single (ls.matrix.col p)]
  · simp
  · intro j _ hj
    rw [if_neg (Ne.symm hj), zero_mul]
  · intro hh; exact absurd (mem_range.2 hc) hh

/-- **C65, the answer**: if Ginkgo, from every initial guess, solves the systems that have a solution, then `solve` returns a solution of
every valid system that has one; there is no other outcome. -/
theorem C65_solves [Ring K] {ls : LinearSystem K} (h : ls.Valid) {gko : List K → Nat → (Nat → Nat → K) → List K → List K}
    (hk : ∀ x0, ExactKsp (gko x0)) {y : List K} (hy : ls.Solves y) (e : ExecKind) (gc gr : Nat → Int) (x : List K)
    (hx : x.length = ls.rhs.length) :
    ∃ x', (∀ out, gkoSolve gko e gc gr ls x out ↔ out = .ok x') ∧ x'.length = ls.rhs.length ∧ ls.Solves x' := by
  refine ⟨_, C65_given h gko e gc gr x hx.ge, by simp [hx], fun i hi => ?_⟩
  have := hk (x.take ls.rhs.length) ls.rhs.length ls.matrix.coef ls.rhs y rfl (fun i hi => ?_) i hi
  · rw [residual_coef_valid h _ hi, sub_eq_zero, ← this]
    apply Finset.sum_congr rfl
    intro j hj
    rw [mem_range] at hj
    rw [List.drop_eq_nil_of_le hx.le, List.append_nil, getD_range_map _ _ _ hj]
  · have e := hy i hi
    rw [residual_coef_valid h _ hi, sub_eq_zero] at e
    exact e

/-- A field that is too short is written beyond its end: the number of elements is not checked. -/
theorem C65_short_violation [AddCommMonoid K] {ls : LinearSystem K} (h : ls.Valid) (gko : List K → Nat → (Nat → Nat → K) → List K → List K)
    (e : ExecKind) (gc gr : Nat → Int) (x : List K) (hx : x.length < ls.rhs.length) (out : Res (List K)) :
    gkoSolve gko e gc gr ls x out ↔ out = .ub := by
  unfold gkoSolve
  refine (NR.bind_iff (mtx_det h e gc gr) out).trans ?_
  have c1 : ¬ (ls.matrix.values.length ≠ (ls.matrix.colIdxs.map fun c : Nat => (c : Int)).length ∨
      (ls.matrix.rowOffs.map fun r : Nat => (r : Int)).length ≠ ls.rhs.length + 1) := by
    simp [h.cols, h.rows]
  refine (NR.bind_iff (a := ls.matrix.values) (fun _ => Iff.rfl) out).trans ?_
  refine (NR.bind_iff (a := ls.matrix.colIdxs.map fun c : Nat => (c : Int)) (fun _ => Iff.rfl) out).trans ?_
  refine (NR.bind_iff (a := ls.matrix.rowOffs.map fun r : Nat => (r : Int)) (fun _ => Iff.rfl) out).trans ?_
  simp only [if_neg c1, if_pos (Or.inl hx)]
  exact Iff.rfl

/-- The systems assembled on a mesh are valid if the number of stored coefficients fits into `int`. -/
theorem C65_valid {m : Mesh K} (h : m.WF) {ls : LinearSystem K} (hs : ls.StoredFor m)
    (h31 : m.nCells + 2 * m.nInternalFaces < 2 ^ 31) : ls.Valid := by
  obtain ⟨sp, hp, ho⟩ := hs
  have hr := ho.rhsLen
  refine ⟨by rw [ho.rowsEq, hp.rows.len, hr], ?_, by rw [ho.cols, ho.vals], fun i hi => ?_, fun c hc => ?_, by omega, ?_⟩
  · rw [hr, CSR.rs, ho.rowsEq, hp.rows.last, ho.vals]
  · rw [CSR.rs, CSR.rs, ho.rowsEq, hp.rows.size i (by omega)]; omega
  · rw [ho.cols] at hc
    obtain ⟨p, hp', rfl⟩ := List.getElem_of_mem hc
    obtain ⟨s, hs, rfl⟩ := hp.adr.surj p hp'
    have := hp.adr.column s hs
    rw [List.getElem?_eq_getElem hp'] at this
    rw [Option.some.inj this, hr]
    cases s with
    | diag c => exact hs
    | upper f => exact h.nbr_lt f hs
    | lower f => exact h.own_lt_int hs
  · rw [ho.vals, hp.rows.nnz]; exact h31

/-- **C65, on a mesh**: with such a Ginkgo, `solve` is a solver as required by the theorems on implicit transport, diffusion and conduction
(C60–C64), on every mesh whose matrix has fewer than 2^31 coefficients. -/
theorem C65_solving [Field K] [LinearOrder K] {m : Mesh K} (h : m.WF) (h31 : m.nCells + 2 * m.nInternalFaces < 2 ^ 31)
    {gko : List K → Nat → (Nat → Nat → K) → List K → List K} (hk : ∀ x0, ExactKsp (gko x0))
    (e : ExecKind) (gc gr : Nat → Int) : SolvingOn m (gkoSolve gko e gc gr) := by
  rintro ls x hst hx ⟨y, -, hy⟩
  have hl : ls.rhs.length = m.nCells := by obtain ⟨sp, -, ho⟩ := hst; exact ho.rhsLen
  obtain ⟨x', h1, h2, h3⟩ := C65_solves (C65_valid h hst h31) hk (y := y) (by intro i hi; exact hy i (by omega)) e gc gr x (by omega)
  refine ⟨⟨x', (h1 _).2 rfl⟩, fun out hout => ⟨x', (h1 _).1 hout, by omega, fun i hi => h3 i (by omega)⟩⟩

/-- **C65, end to end**: conduction along the uniform 1D mesh of `n` cells (C64) solved by Ginkgo, chosen by its name in the solution
dictionary: one outcome, the linear profile. -/
theorem C65_conduction [Field K] [LinearOrder K] [IsStrictOrderedRing K] (e e' es eg : ExecKind) (mag : Vec K → K) (mjunk : Nat → Nat) (n : Nat) (h1 : 1 ≤ n) (hes : es = .serial ∨ 2 ≤ n)
    (h31 : 3 * n < 2 ^ 31) (m : Mesh K)
    (hm : create1DUniformMesh e mag mjunk n (.ok m)) (tiny : K) (sqrt : K → K) (hs : IsSqrt sqrt) (gjunk : Nat → K) (g : Geometry K)
    (hg : geometryScheme e' m tiny sqrt gjunk (.ok g)) {sp : SparsityPattern} (hsp : sparsityUpdate es m (.ok sp))
    (junk : Nat → K) (gamma : List K) (hgl : gamma.length = n + 1) (k : K) (hk : 0 < k) (hgam : ∀ f < n + 1, ix gamma f = k)
    (eqn : Expr) (ops : OpsOf K K)
    (hbuild : ∀ st, diffusionTree.build (diffusionOps es m sp junk g.nonOrthDeltaCoeffs gamma st) = .ok (eqn, ops st))
    (bcs : List (VolumeBoundary K)) (fvSchemes fvSolution : Dict) (hd : AMap.find? fvSolution "solver" = some (.str "Ginkgo"))
    (gko : Dict → List K → Nat → (Nat → Nat → K) → List K → List K) (hgko : ∀ d x0, ExactKsp (gko d x0)) (gc gr : Nat → Int)
    (table : SolverTable K) (htab : AMap.find? table "Ginkgo" = some fun d => gkoSolve (gko d) eg gc gr)
    (a b : K) (st : TimeState K K) (ho : st.sol.On m)
    (hleft : Prescribes m st.sol 0 (.fixedValue a) (st.sol.entry 0)) (hright : Prescribes m st.sol 1 (.fixedValue b) (st.sol.entry 1)) (t dt : K) :
    ∃ x : List K, x.length = n ∧
      (∀ out, dslSolve es m bcs table fvSchemes fvSolution ops eqn st t dt out ↔ out = .ok { st with sol := { st.sol with internal := x } }) ∧
      ∀ c < n, ix x c = a + (b - a) * ((c + 1 / 2) / n) := by
  have hm' := hm
  rw [create1D_closed e mag mjunk n h1, Res.ok.injEq] at hm'
  refine C64_conduction e e' es mag mjunk n h1 hes m hm tiny sqrt hs gjunk g hg hsp junk gamma hgl k hk hgam eqn ops hbuild bcs table fvSchemes fvSolution
    (gkoSolve (gko fvSolution) eg gc gr) ?_ (C65_solving ?_ ?_ (hgko fvSolution) eg gc gr) a b st ho hleft hright t dt
  · simp only [createSolver, Dict.get, Dict.index, AMap.at?, hd, Res.ok_bind, anyCast, Any.ty, if_true, htab, Res.pure_eq]
  · rw [hm']; exact mesh1D_wf mag n h1
  · rw [hm']
    have hC : (mesh1D mag n).nCells = n := rfl
    have hi : (mesh1D mag n).nInternalFaces = n - 1 := rfl
    rw [hC, hi]; omega

open Classical in
/-- Functions that solve every system that has a solution exist. -/
theorem exactKsp_exists [Semiring K] : ∃ ksp : Nat → (Nat → Nat → K) → List K → List K, ExactKsp ksp := by
  refine ⟨fun n M b => if h : ∃ y : List K, ∀ i < n, ∑ j ∈ range n, M i j * y.getD j 0 = b.getD i 0 then h.choose else [], ?_⟩
  intro n M b y _ hy
  beta_reduce
  rw [dif_pos ⟨y, hy⟩]
  exact (⟨y, hy⟩ : ∃ y : List K, ∀ i < n, ∑ j ∈ range n, M i j * y.getD j 0 = b.getD i 0).choose_spec

/-- The hypotheses of `C65_given` and `C65_solves` can be met: the system of the library's unit test, and a system with an empty row. -/
example : petscTest.Valid ∧ (⟨⟨[5, 7], [0, 2], [0, 1, 1, 2]⟩, [1, 0, 1]⟩ : LinearSystem ℚ).Valid :=
  ⟨⟨rfl, rfl, rfl, by decide, by decide, by decide⟩, ⟨rfl, rfl, rfl, by decide, by decide, by decide⟩⟩

end NeoFOAM
