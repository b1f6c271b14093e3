import Verif.Props.C19_ImplicitDiv

/-!
# C22 – matrix assembly and the schedule

Divergence and Laplacian update the diagonal and right hand side of boundary cells without atomics. If no cell has two
boundary faces, assembly is the same on every executor and interleaving; otherwise updates can be lost
(`C22_race`).
-/
namespace NeoFOAM
open Finset
variable {K : Type} [Field K]

/-- **C22, divergence, no cell with two boundary faces**: one system is the only outcome on every executor and every
interleaving. -/
theorem C22_div_partial [LinearOrder K] {m : Mesh K} (h : m.WF) {sp : SparsityPattern} (hp : sp.For m) {φ : VolField K K}
    (hφ : φ.On m) {flux : List K} (hfl : flux.length = m.nFaces) {scal : Coeff K} {s : Nat → K} (hs : scal.On m.nCells s)
    (hb : m.BndDistinct) (ls : LinearSystem K) (ho : ls.On sp m) :
    ∃ ls', ∀ e out, computeDivImp e m sp flux φ scal ls out ↔ out = .ok ls' := by
  obtain ⟨l1, h1, hd1⟩ := Assembles.det hp (computeDivImp_ok h hp hφ hfl hs .serial (Or.inl rfl) ls ho) (computeDivImp_runs _ _ _ _ _ _ _)
  refine ⟨l1, fun e out => ?_⟩
  obtain ⟨l2, h2, hd2⟩ := Assembles.det hp (computeDivImp_ok h hp hφ hfl hs e (Or.inr hb) ls ho) (computeDivImp_runs _ _ _ _ _ _ _)
  rw [hd2, h1.unique hp h2]

/-- **C22, Laplacian, no cell with two boundary faces**. -/
theorem C22_laplacian_partial {m : Mesh K} (h : m.WF) {sp : SparsityPattern} (hp : sp.For m) {φ : VolField K K}
    (hφ : φ.On m) {δ gamma : List K} (hδ : δ.length = m.nFaces) (hg : gamma.length = m.nFaces) {scal : Coeff K} {s : Nat → K}
    (hs : scal.On m.nCells s) (hb : m.BndDistinct) (ls : LinearSystem K) (ho : ls.On sp m) :
    ∃ ls', ∀ e out, computeLaplacianImpl e m sp δ gamma φ scal ls out ↔ out = .ok ls' := by
  obtain ⟨l1, h1, hd1⟩ := Assembles.det hp (computeLaplacianImpl_ok h hp hφ hδ hg hs .serial (Or.inl rfl) ls ho) (computeLaplacianImpl_runs _ _ _ _ _ _ _ _)
  refine ⟨l1, fun e out => ?_⟩
  obtain ⟨l2, h2, hd2⟩ := Assembles.det hp (computeLaplacianImpl_ok h hp hφ hδ hg hs e (Or.inr hb) ls ho) (computeLaplacianImpl_runs _ _ _ _ _ _ _ _)
  rw [hd2, h1.unique hp h2]

/-- **C22, ddt and source terms, every mesh**. -/
theorem C22_ddt_source {m : Mesh K} (h : m.WF) {sp : SparsityPattern} (hp : sp.For m) {old k : List K} (hold : old.length = m.nCells)
    (hk : k.length = m.nCells) {scal : Coeff K} {s : Nat → K} (hs : scal.On m.nCells s) (dt : K) (ls : LinearSystem K) (ho : ls.On sp m) :
    (∃ ls', ∀ e out, ddtImplicit e m sp old scal dt ls out ↔ out = .ok ls') ∧
    (∃ ls', ∀ e out, sourceImplicit e m sp k scal ls out ↔ out = .ok ls') := by
  constructor
  · obtain ⟨l1, h1, hd1⟩ := Assembles.det hp (ddtImplicit_ok h hp hold hs dt .serial ls ho) (launchLS_runs _ _ _ _ _)
    refine ⟨l1, fun e out => ?_⟩
    obtain ⟨l2, h2, hd2⟩ := Assembles.det hp (ddtImplicit_ok h hp hold hs dt e ls ho) (launchLS_runs _ _ _ _ _)
    rw [hd2, h1.unique hp h2]
  · obtain ⟨l1, h1, hd1⟩ := Assembles.det hp (sourceImplicit_ok h hp hk hs .serial ls ho) (launchLS_runs _ _ _ _ _)
    refine ⟨l1, fun e out => ?_⟩
    obtain ⟨l2, h2, hd2⟩ := Assembles.det hp (sourceImplicit_ok h hp hk hs e ls ho) (launchLS_runs _ _ _ _ _)
    rw [hd2, h1.unique hp h2]

section race

/-- One cell with two boundary faces. -/
def cell1 : Mesh ℚ := topoMesh 1 [] [] [0, 0]
theorem cell1_wf : cell1.WF := topoMesh_wf 1 [] [] [0, 0] rfl (by decide) (by decide) (by decide) (by decide)

/-- Its pattern. -/
def cell1Pattern : SparsityPattern :=
  { rowPtrs := [0, 1], colIdxs := [0], ownerOffset := [], neighbourOffset := [], diagOffset := [0] }

theorem cell1Pattern_for : cell1Pattern.For cell1 := by
  have hv : ∀ s : Slot, s.Valid cell1 → s = .diag 0 := by
    intro s hs
    cases s with
    | diag c =>
      have : c < 1 := hs
      have : c = 0 := by omega
      rw [this]
    | upper f => exact absurd hs (Nat.not_lt_zero f)
    | lower f => exact absurd hs (Nat.not_lt_zero f)
  refine ⟨⟨rfl, rfl, rfl, rfl, ?_⟩, ⟨?_, ?_, ?_, ?_⟩, rfl, rfl, rfl⟩
  · intro c hc
    have : c < 1 := hc
    have : c = 0 := by omega
    subst this
    rfl
  · intro s hs; rw [hv s hs]; exact ⟨le_rfl, Nat.one_pos⟩
  · intro s hs; rw [hv s hs]; rfl
  · intro s t hs ht _; rw [hv s hs, hv t ht]
  · intro p hp
    have : p < 1 := hp
    have : p = 0 := by omega
    subst this
    exact ⟨.diag 0, Nat.one_pos, rfl⟩

/-- A field whose boundary conditions take the cell value (value fraction zero). -/
def cell1Field : VolField ℚ ℚ := ⟨[1], [1, 1], [0, 0], [0, 0], [0, 0]⟩

theorem inter_left {α : Type} (a : α) (t u l : List α) (h : Interleave [t, u] l) : Interleave [a :: t, u] (a :: l) :=
  Interleave.step [] a t [u] l h
theorem inter_right {α : Type} (a : α) (t u l : List α) (h : Interleave [t, u] l) : Interleave [t, a :: u] (a :: l) :=
  Interleave.step [t] a u [] l h
theorem inter_done {α : Type} : Interleave [([] : List α), []] [] := Interleave.done _ (by simp)


/-- An interleaving in which both threads load before either stores. -/
theorem racyOrder_interleave {α : Type} (a1 a2 a3 a4 b1 b2 b3 b4 : α) :
    Interleave [[a1, a2, a3, a4], [b1, b2, b3, b4]] [a1, b1, a2, b2, a3, a4, b3, b4] :=
  inter_left _ _ _ _ (inter_right _ _ _ _ (inter_left _ _ _ _ (inter_right _ _ _ _ (inter_left _ _ _ _ (inter_left _ _ _ _
    (inter_right _ _ _ _ (inter_right _ _ _ _ inter_done)))))))

/-- **C22 fails**: on a valid mesh whose single cell has two boundary faces, the serial executor gives the diagonal 2 and
a parallel one can give 1, because one of the two plain updates is lost. -/
theorem C22_race : ∃ (m : Mesh ℚ) (sp : SparsityPattern) (φ : VolField ℚ ℚ) (flux : List ℚ) (ls ls₁ ls₂ : LinearSystem ℚ),
    m.WF ∧ sp.For m ∧ φ.On m ∧ flux.length = m.nFaces ∧ ls.On sp m ∧
    computeDivImp .serial m sp flux φ Coeff.default ls (.ok ls₁) ∧ ls₁.matrix.values = [2] ∧
    computeDivImp .parallel m sp flux φ Coeff.default ls (.ok ls₂) ∧ ls₂.matrix.values = [1] := by
  have hb : (List.range' cell1.nInternalFaces (2 - cell1.nInternalFaces)).mapM
      (divImpBoundary cell1 cell1Pattern [0, 1] [(1 : ℚ), 1] cell1Field Coeff.default)
      = .ok [[Act.load 0 LSArr.values 0, Act.store 0 LSArr.values 0 (· + 1 * 1 * (1 - 0)), Act.load 0 LSArr.rhs 0, Act.store 0 LSArr.rhs 0 (· - 1 * 1 * (0 * 0))],
        [Act.load 1 LSArr.values 0, Act.store 1 LSArr.values 0 (· + 1 * 1 * (1 - 0)), Act.load 1 LSArr.rhs 0, Act.store 1 LSArr.rhs 0 (· - 1 * 1 * (0 * 0))]] := by
    have : List.range' cell1.nInternalFaces (2 - cell1.nInternalFaces) = [0, 1] := by decide
    rw [this]
    simp [divImpBoundary, cell1, topoMesh, cell1Pattern, cell1Field, Coeff.default, Coeff.get, rd, Act.plain]
  have hz : ∀ (e : ExecKind), launchLS e 0 cell1.nInternalFaces
      (divImpInternal cell1 cell1Pattern [0, 1] [(1 : ℚ), 1] Coeff.default) ⟨⟨[0], [0], [0, 1]⟩, [0]⟩ (.ok ⟨⟨[0], [0], [0, 1]⟩, [0]⟩) := by
    intro e
    refine (NR.bind_def _ _ _).2 ⟨.ok (fun a => match a with | .values => [0] | .rhs => [0]), ?_, rfl⟩
    refine ⟨.ok ⟨_, fun _ => none⟩, ?_, rfl⟩
    refine ⟨[], ?_, rfl⟩
    cases e with
    | serial => rfl
    | parallel => exact Interleave.done [] (by simp)
  refine ⟨cell1, cell1Pattern, cell1Field, [1, 1], ⟨⟨[0], [0], [0, 1]⟩, [0]⟩, ⟨⟨[2], [0], [0, 1]⟩, [0]⟩,
    ⟨⟨[1], [0], [0, 1]⟩, [0]⟩, cell1_wf, cell1Pattern_for, ⟨rfl, rfl, rfl, rfl, rfl⟩, rfl, ⟨rfl, rfl, rfl, rfl⟩, ?_, rfl, ?_, rfl⟩
  · refine (NR.bind_def _ _ _).2 ⟨_, hz .serial, ?_⟩
    refine (NR.bind_def _ _ _).2 ⟨.ok (fun a => match a with | .values => [2] | .rhs => [0]), ?_, rfl⟩
    refine ⟨.ok ⟨_, fun u => if u = 1 then some 0 else if u = 0 then some 0 else none⟩, ?_, rfl⟩
    simp only [List.length_cons, List.length_nil, Nat.zero_add, Nat.reduceAdd]
    rw [hb]
    refine ⟨_, rfl, ?_⟩
    simp [Mem.step, RunProg, Mem.setArr]
    constructor
    · funext a; cases a <;> simp <;> norm_num
    · funext u; by_cases h1 : u = 1 <;> by_cases h0 : u = 0 <;> simp [h1, h0]
  · refine (NR.bind_def _ _ _).2 ⟨_, hz .parallel, ?_⟩
    refine (NR.bind_def _ _ _).2 ⟨.ok (fun a => match a with | .values => [1] | .rhs => [0]), ?_, rfl⟩
    refine ⟨.ok ⟨_, fun u => if u = 1 then some 0 else if u = 0 then some 0 else none⟩, ?_, rfl⟩
    simp only [List.length_cons, List.length_nil, Nat.zero_add, Nat.reduceAdd]
    rw [hb]
    refine ⟨_, racyOrder_interleave _ _ _ _ _ _ _ _, ?_⟩
    simp [Mem.step, RunProg, Mem.setArr]
    constructor
    · funext a; cases a <;> simp <;> norm_num
    · funext u; by_cases h1 : u = 1 <;> by_cases h0 : u = 0 <;> simp [h1, h0]

end race

/-- The hypotheses can be met: three cells in a row have their two boundary faces in different cells. -/
example : row3.WF ∧ row3.BndDistinct ∧ row3Field.On row3 ∧ ∃ sp, sp.For row3 ∧ ∃ ls : LinearSystem ℚ, ls.On sp row3 := by
  obtain ⟨sp, -, hp, ls, -, ho, -⟩ := exists_system row3 row3_wf row3_deg .serial
  exact ⟨row3_wf, row3_bnd, row3Field_on, sp, hp, ls, ho⟩

end NeoFOAM
