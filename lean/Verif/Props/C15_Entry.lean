import Verif.Spec.Matrix
import Verif.Proofs.Elem
import Verif.Props.C14_Sparsity

/-!
# C15 – CSR entry lookup finds exactly the stored entries

Full statement: whenever row `i` stores column `j`, `entry(i, j)` refers to that coefficient, and the
program stops when it does not. The second half and soundness hold for every matrix. The first half holds
for rows with ascending columns only (`C15_finds_partial`): `C15_lookup` says exactly when an entry is
found, and `C15_stored_entry_stops_serial`, `C15_stored_entry_stops_parallel` are matrices of this library
where a stored entry is not.
-/
namespace NeoFOAM
open Finset
variable {K : Type}

section proofs

theorem entryLoop_spec (A : CSR K) (h : A.WF) (j base stop : Nat) (hst : stop ≤ A.colIdxs.length) :
    ∀ n ic, base + ic + n = stop →
    (∃ p, base + ic ≤ p ∧ p < stop ∧ A.col p = j ∧ (∀ q, base + ic ≤ q → q < p → A.col q < j) ∧
      A.entryLoop j base n ic = .ok p) ∨
    ((¬ ∃ p, base + ic ≤ p ∧ p < stop ∧ A.col p = j ∧ ∀ q, base + ic ≤ q → q < p → A.col q < j) ∧
      A.entryLoop j base n ic = .abort)
  | 0, ic, he => Or.inr ⟨by rintro ⟨p, h1, h2, -⟩; omega, rfl⟩
  | n + 1, ic, he => by
    have hlt : base + ic < A.colIdxs.length := by omega
    have hrd : rd A.colIdxs (base + ic) = .ok (A.col (base + ic)) := rd_getD 0 hlt
    rw [CSR.entryLoop, hrd]
    simp only [Res.ok_bind]
    by_cases h1 : A.col (base + ic) = j
    · left
      refine ⟨base + ic, le_rfl, by omega, h1, fun q a b => by omega, ?_⟩
      rw [if_pos h1, if_pos (by rw [h.len]; exact hlt)]
    · rw [if_neg h1]
      by_cases h2 : A.col (base + ic) > j
      · right
        refine ⟨?_, if_pos h2⟩
        rintro ⟨p, a, b, c, d⟩
        rcases Nat.eq_or_lt_of_le a with rfl | a'
        · exact h1 c
        · have := d _ le_rfl a'; omega
      · rw [if_neg h2]
        rcases entryLoop_spec A h j base stop hst n (ic + 1) (by omega) with ⟨p, a, b, c, d, e⟩ | ⟨a, e⟩
        · left
          refine ⟨p, by omega, b, c, fun q x y => ?_, e⟩
          rcases Nat.eq_or_lt_of_le x with rfl | x'
          · omega
          · exact d q (by omega) y
        · right
          refine ⟨?_, e⟩
          rintro ⟨p, x, y, z, w⟩
          apply a
          rcases Nat.eq_or_lt_of_le x with rfl | x'
          · exact absurd z h1
          · exact ⟨p, by omega, y, z, fun q x y => w q (by omega) y⟩

theorem nRows_eq {A : CSR K} (h : A.WF) : A.rowOffs.length = A.nRows + 1 := by
  have := h.pos
  simp only [CSR.nRows]
  rw [if_neg (by omega)]; omega

theorem col_eq {A : CSR K} {p j : Nat} : A.colIdxs[p]? = some j ↔ p < A.colIdxs.length ∧ A.col p = j := by
  simp only [CSR.col, List.getD]
  constructor
  · intro h
    obtain ⟨h1, h2⟩ := List.getElem?_eq_some_iff.1 h
    exact ⟨h1, by rw [h]; rfl⟩
  · rintro ⟨h1, h2⟩
    rw [List.getElem?_eq_getElem h1] at h2 ⊢
    simpa using h2

theorem entry_eq (A : CSR K) (h : A.WF) (i j : Nat) (hi : i < A.nRows) :
    A.entry i j = A.entryLoop j (A.rs i) (A.rs (i + 1) - A.rs i) 0 := by
  have hl := nRows_eq h
  have h1 : rd A.rowOffs (i + 1) = .ok (A.rs (i + 1)) := rd_getD 0 (by omega)
  have h2 : rd A.rowOffs i = .ok (A.rs i) := rd_getD 0 (by omega)
  simp only [CSR.entry, h1, h2, Res.ok_bind, u32Sub]
  rw [if_pos (h.mono i hi)]

end proofs

/-- **C15, exactly what the lookup finds**: on a valid matrix `entry(i, j)` refers to position `p` if and
only if `p` stores column `j` in row `i` and all earlier columns of the row are smaller than `j`; otherwise
the program stops. -/
theorem C15_lookup (A : CSR K) (h : A.WF) (i j : Nat) (hi : i < A.nRows) :
    (∀ p, A.entry i j = .ok p ↔ A.Stored i j p ∧ ∀ q, A.rs i ≤ q → q < p → A.col q < j) ∧
    ((∃ p, A.entry i j = .ok p) ∨ A.entry i j = .abort) := by
  have hst := h.last (i + 1) (by omega)
  have hm := h.mono i hi
  rw [entry_eq A h i j hi]
  rcases entryLoop_spec A h j (A.rs i) (A.rs (i + 1)) hst (A.rs (i + 1) - A.rs i) 0 (by omega) with
    ⟨p, a, b, c, d, e⟩ | ⟨a, e⟩
  · refine ⟨fun p' => ?_, Or.inl ⟨p, e⟩⟩
    rw [e]
    constructor
    · intro hp
      cases hp
      exact ⟨⟨by omega, b, col_eq.2 ⟨by omega, c⟩⟩, fun q x y => d q (by omega) y⟩
    · rintro ⟨⟨x, y, z⟩, w⟩
      have z' := (col_eq.1 z).2
      rcases Nat.lt_trichotomy p p' with hlt | rfl | hgt
      · have := w p (by omega) hlt; omega
      · rfl
      · have := d p' (by omega) hgt; omega
  · refine ⟨fun p' => ?_, Or.inr e⟩
    rw [e]
    constructor
    · intro hp; exact absurd hp (by simp)
    · rintro ⟨⟨x, y, z⟩, w⟩
      exact absurd ⟨p', by omega, y, (col_eq.1 z).2, fun q a b => w q (by omega) b⟩ a

/-- **C15, a lookup that returns is right**: it refers to a coefficient of row `i` and column `j`. -/
theorem C15_sound (A : CSR K) (h : A.WF) (i j p : Nat) (hi : i < A.nRows) (hp : A.entry i j = .ok p) :
    A.Stored i j p ∧ p < A.values.length := by
  have := ((C15_lookup A h i j hi).1 p).1 hp
  exact ⟨this.1, by rw [h.len]; exact (col_eq.1 this.1.2.2).1⟩

/-- **C15, absent entries stop the program**, on every valid matrix. -/
theorem C15_absent_stops (A : CSR K) (h : A.WF) (i j : Nat) (hi : i < A.nRows)
    (hn : ¬ ∃ p, A.Stored i j p) : A.entry i j = .abort := by
  rcases (C15_lookup A h i j hi).2 with ⟨p, hp⟩ | ha
  · exact absurd ⟨p, (C15_sound A h i j p hi hp).1⟩ hn
  · exact ha

/-- **C15, stored entries are found** when the columns of the row never decrease. Missing: rows in
another order, where it fails. -/
theorem C15_finds_partial (A : CSR K) (h : A.WF) (i j : Nat) (hi : i < A.nRows) (hs : A.RowSorted i)
    (hst : ∃ p, A.Stored i j p) : ∃ p, A.entry i j = .ok p ∧ A.Stored i j p := by
  classical
  let p := Nat.find hst
  have hp : A.Stored i j p := Nat.find_spec hst
  refine ⟨p, ((C15_lookup A h i j hi).1 p).2 ⟨hp, fun q h1 h2 => ?_⟩, hp⟩
  have hle := hs q p h1 (by omega) hp.2.1
  rw [(col_eq.1 hp.2.2).2] at hle
  rcases Nat.eq_or_lt_of_le hle with he | hlt
  · have hq : A.Stored i j q := ⟨h1, by have := hp.2.1; omega, col_eq.2 ⟨by
      have := (col_eq.1 hp.2.2).1; omega, he⟩⟩
    exact absurd hq (Nat.find_min hst h2)
  · exact hlt

/-- **C15, writing through the reference** changes the one coefficient it refers to, and reading it back
gives the value written. -/
theorem C15_write (A : CSR K) (h : A.WF) (i j p : Nat) (v : K) (hi : i < A.nRows)
    (hp : A.entry i j = .ok p) :
    ∃ A', A.setEntry i j v = .ok A' ∧ A'.colIdxs = A.colIdxs ∧ A'.rowOffs = A.rowOffs ∧
      A'.values.length = A.values.length ∧
      (∀ q, A'.values[q]? = if q = p then some v else A.values[q]?) ∧ A'.getEntry i j = .ok v := by
  have hlt := (C15_sound A h i j p hi hp).2
  have hst := ((C15_lookup A h i j hi).1 p).1 hp
  refine ⟨{ A with values := A.values.set p v }, ?_, rfl, rfl, by simp, ?_, ?_⟩
  · simp [CSR.setEntry, hp, wr_ok hlt]
  · intro q
    simp only [List.getElem?_set]
    by_cases hq : q = p
    · simp [hq, hlt]
    · simp [hq, Ne.symm hq]
  · have hwf : ({ A with values := A.values.set p v } : CSR K).WF :=
      ⟨h.pos, h.mono, h.last, by simpa using h.len⟩
    have he := ((C15_lookup { A with values := A.values.set p v } hwf i j hi).1 p).2 hst
    simp only [CSR.getEntry, he, Res.ok_bind]
    rw [rd_eq_ok_iff]; simp [hlt]

section violation

/-- Cell 0 with two neighbours; faces not in upper-triangular order. -/
def fanMesh (a b : Nat) : Mesh ℚ := topoMesh 3 [0, 0] [a, b] []
theorem fanMesh_wf : (fanMesh 2 1).WF ∧ (fanMesh 1 2).WF :=
  ⟨topoMesh_wf _ _ _ _ rfl (by decide) (by decide) (by decide) (by decide),
   topoMesh_wf _ _ _ _ rfl (by decide) (by decide) (by decide) (by decide)⟩

/-- The pattern built by the steps below. -/
def fanPattern (a b : Nat) : SparsityPattern := ⟨[0, 3, 5, 7], [0, 2, 1, 0, 1, 0, 2], [a, b], [0, 0], [0, 1, 1]⟩

theorem ticketRun_intro {e : ExecKind} {ts : Res (List (List TAct))} {ts' : List (List TAct)}
    {cnt col off c1 c2 c3 : List Nat} (l : List TAct) (h1 : ts = .ok ts') (h2 : Schedule e ts' l)
    (h3 : (runActs LMem.step (tMem cnt col off) l >>= fun s => .ok (s.arr .cnt, s.arr .col, s.arr .off))
      = .ok (c1, c2, c3)) : ticketRun e ts cnt col off (.ok (c1, c2, c3)) := by
  subst h1
  refine ⟨l, h2, ?_⟩
  cases h : runActs LMem.step (tMem cnt col off) l with
  | ok s => rw [h] at h3; exact h3.symm
  | throw x => rw [h] at h3; exact absurd h3 (by simp)
  | abort => rw [h] at h3; exact absurd h3 (by simp)
  | ub => rw [h] at h3; exact absurd h3 (by simp)

theorem swap2 {α : Type} (t0 t1 : List α) : Interleave [t0, t1] (t1 ++ t0) := by
  induction t1 with
  | nil =>
    have := Interleave.serial [t0, ([] : List α)]
    simpa using this
  | cons a t ih => exact .step [t0] a t [] _ ih

theorem fan_run_serial : sparsityUpdate .serial (fanMesh 2 1) (.ok (fanPattern 1 2)) := by
  unfold sparsityUpdate
  refine ⟨_, ticketRun_intro _ rfl rfl rfl, ?_⟩
  refine ⟨_, (C10_offsets _ _ rfl _).2 rfl, ?_⟩
  refine ⟨_, (parElem_det _ _ _ _ _ le_rfl _).2 rfl, ?_⟩
  refine ⟨_, ticketRun_intro _ rfl rfl rfl, ?_⟩
  refine ⟨_, ticketRun_intro _ rfl rfl rfl, ?_⟩
  refine ⟨_, ticketRun_intro _ rfl rfl rfl, ?_⟩
  rfl

theorem fan_run_parallel : sparsityUpdate .parallel (fanMesh 1 2) (.ok (fanPattern 2 1)) := by
  unfold sparsityUpdate
  refine ⟨_, ticketRun_intro _ rfl (Interleave.serial _) rfl, ?_⟩
  refine ⟨_, (C10_offsets _ _ rfl _).2 rfl, ?_⟩
  refine ⟨_, (parElem_det _ _ _ _ _ le_rfl _).2 rfl, ?_⟩
  refine ⟨_, ticketRun_intro _ rfl (Interleave.serial _) rfl, ?_⟩
  refine ⟨_, ticketRun_intro _ rfl (Interleave.serial _) rfl, ?_⟩
  refine ⟨_, ticketRun_intro _ rfl (swap2 _ _) rfl, ?_⟩
  rfl

/-- The empty system of that pattern. -/
def fanMatrix : CSR ℚ := ⟨List.replicate 7 0, [0, 2, 1, 0, 1, 0, 2], [0, 3, 5, 7]⟩

theorem fanMatrix_wf : fanMatrix.WF :=
  ⟨by decide, by decide, by decide, by decide⟩

end violation

/-- **C15 fails on the serial executor** when the faces of a mesh are not in upper-triangular order: the
entry (0,1) is stored (face 1 needs it) and asking for it stops the program. -/
theorem C15_stored_entry_stops_serial :
    ∃ (m : Mesh ℚ) (sp : SparsityPattern) (ls : LinearSystem ℚ), m.WF ∧ sparsityUpdate .serial m (.ok sp) ∧
      createEmptyLinearSystem sp = .ok ls ∧ ls.matrix.WF ∧ ls.matrix.Stored 0 1 2 ∧
      ls.matrix.entry 0 1 = .abort :=
  ⟨fanMesh 2 1, fanPattern 1 2, ⟨fanMatrix, [0, 0, 0]⟩, fanMesh_wf.1, fan_run_serial, rfl, fanMatrix_wf,
    ⟨by decide, by decide, rfl⟩, rfl⟩

/-- **C15 fails on parallel executors** even when the faces are in upper-triangular order: one schedule
stores the entries of row 0 in the order 0, 2, 1, and entry (0,1) is not found. -/
theorem C15_stored_entry_stops_parallel :
    ∃ (m : Mesh ℚ) (sp : SparsityPattern) (ls : LinearSystem ℚ), m.WF ∧
      (∀ f g, f < g → g < m.nInternalFaces → m.own f < m.own g ∨ m.own f = m.own g ∧ m.nbr f < m.nbr g) ∧
      (∀ f < m.nInternalFaces, m.own f < m.nbr f) ∧
      sparsityUpdate .parallel m (.ok sp) ∧
      createEmptyLinearSystem sp = .ok ls ∧ ls.matrix.WF ∧ ls.matrix.Stored 0 1 2 ∧
      ls.matrix.entry 0 1 = .abort := by
  refine ⟨fanMesh 1 2, fanPattern 2 1, ⟨fanMatrix, [0, 0, 0]⟩, fanMesh_wf.2, ?_, ?_, fan_run_parallel, rfl,
    fanMatrix_wf, ⟨by decide, by decide, rfl⟩, rfl⟩
  · intro f g h1 h2
    have : g < 2 := h2
    obtain ⟨rfl, rfl⟩ : f = 0 ∧ g = 1 := by omega
    decide
  · intro f hf
    have : f < 2 := hf
    interval_cases f <;> decide

/-- The hypotheses can be met: a matrix with a sorted row, a stored entry found and an absent one. -/
def tri : CSR ℚ := ⟨[2, -1, -1, 2, -1, -1, 2], [0, 1, 0, 1, 2, 1, 2], [0, 2, 5, 7]⟩
example : tri.WF ∧ tri.Stored 1 2 4 ∧ tri.entry 1 2 = .ok 4 ∧ tri.entry 0 2 = .abort :=
  ⟨⟨by decide, by decide, by decide, by decide⟩, ⟨by decide, by decide, rfl⟩, rfl, rfl⟩
example : tri.RowSorted 1 := by
  intro p q h1 h2 h3
  have h1 : 2 ≤ p := h1
  have h3 : q < 5 := h3
  interval_cases q <;> interval_cases p <;> decide

end NeoFOAM
