import Verif.Model.Copies

/-!
# C52 – copies made for an executor have the same contents and live there

For every matrix, system, boundary field and pair of executors.
-/
namespace NeoFOAM
variable {K : Type}

/-- A matrix a program can hold: its constructor accepted it. -/
def CsrOn.Built (A : CsrOn K) : Prop := CsrOn.create A.values A.colIdxs A.rowOffs = .ok A

/-- A system a program can hold. -/
def SysOn.Built (s : SysOn K) : Prop := s.matrix.Built ∧ SysOn.create s.matrix s.rhs = .ok s

/-- All three arrays of a matrix are on `e`. -/
def CsrOn.LivesOn (A : CsrOn K) (e : Exec) : Prop := A.values.exec = e ∧ A.colIdxs.exec = e ∧ A.rowOffs.exec = e

@[simp] theorem Arr.copyTo_data {α : Type u} (f : Arr α) (e : Exec) : (f.copyTo e).data = f.data := by
  unfold Arr.copyTo; split <;> rfl

@[simp] theorem Arr.copyTo_exec {α : Type u} (f : Arr α) (e : Exec) : (f.copyTo e).exec = e := by
  unfold Arr.copyTo; split
  · next h => exact h.symm
  · rfl

theorem CsrOn.built_iff (A : CsrOn K) : A.Built ↔ A.LivesOn A.exec := by
  unfold Built create LivesOn exec
  constructor
  · intro h
    split at h
    · cases h
    · next h1 =>
      split at h
      · cases h
      · next h2 => exact ⟨rfl, (Decidable.not_not.1 h1).symm, (Decidable.not_not.1 h2).symm⟩
  · rintro ⟨-, h1, h2⟩
    rw [if_neg (by rw [h1]; exact fun h => h rfl), if_neg (by rw [h2]; exact fun h => h rfl)]

/-- Arrays on different executors are not accepted: the program is stopped. -/
theorem C52_matrix_stops (values : Arr K) (colIdxs rowOffs : Arr Nat) (h : values.exec ≠ colIdxs.exec ∨ values.exec ≠ rowOffs.exec) :
    CsrOn.create values colIdxs rowOffs = .abort := by
  unfold CsrOn.create
  split
  · rfl
  · next h1 => rw [if_pos (h.resolve_left h1)]

/-- A copy always succeeds and has the same contents; asked for the host, or for the executor the matrix is on, it lives there. -/
theorem C52_matrix_partial (A : CsrOn K) (hA : A.Built) (dst : Exec) : ∃ B, A.copyToExecutor dst = .ok B ∧ B.Built ∧
    B.values.data = A.values.data ∧ B.colIdxs.data = A.colIdxs.data ∧ B.rowOffs.data = A.rowOffs.data ∧ (dst = .serial ∨ dst = A.exec → B.LivesOn dst) := by
  unfold CsrOn.copyToExecutor
  by_cases h : dst = A.exec
  · rw [if_pos h]
    exact ⟨A, rfl, hA, rfl, rfl, rfl, fun _ => h ▸ A.built_iff.1 hA⟩
  · rw [if_neg h]
    refine ⟨⟨A.values.copyToHost, A.colIdxs.copyToHost, A.rowOffs.copyToHost⟩, ?_, ?_, by simp [Arr.copyToHost], by simp [Arr.copyToHost], by simp [Arr.copyToHost], ?_⟩
    · simp [CsrOn.create, Arr.copyToHost]
    · simp [CsrOn.Built, CsrOn.create, Arr.copyToHost]
    · rintro (rfl | h')
      · simp [CsrOn.LivesOn, Arr.copyToHost]
      · exact absurd h' h

/-- A copy for another executor that is not the host is made on the host. -/
theorem C52_violation (A : CsrOn K) (dst : Exec) (h : dst ≠ .serial) (h' : dst ≠ A.exec) :
    ∃ B, A.copyToExecutor dst = .ok B ∧ B.LivesOn .serial ∧ ¬ B.LivesOn dst := by
  unfold CsrOn.copyToExecutor
  rw [if_neg h']
  refine ⟨⟨A.values.copyToHost, A.colIdxs.copyToHost, A.rowOffs.copyToHost⟩, ?_, ?_, ?_⟩
  · simp [CsrOn.create, Arr.copyToHost]
  · simp [CsrOn.LivesOn, Arr.copyToHost]
  · simp [CsrOn.LivesOn, Arr.copyToHost]; exact fun e => absurd e.symm h

/-- The constructor of a linear system accepts exactly the matrices and right hand sides on one executor with as many rows. -/
theorem C52_system_built (s : SysOn K) : s.Built ↔ s.matrix.Built ∧ s.matrix.values.exec = s.rhs.exec ∧ s.matrix.rowOffs.data.length - 1 = s.rhs.data.length := by
  have hn : s.matrix.content.nRows = s.matrix.rowOffs.data.length - 1 := by
    show (s.matrix.rowOffs.data.length - if s.matrix.rowOffs.data.length = 0 then 0 else 1) = _
    by_cases h : s.matrix.rowOffs.data.length = 0
    · rw [if_pos h]; omega
    · rw [if_neg h]
  unfold SysOn.Built SysOn.create CsrOn.exec
  rw [hn]
  constructor
  · rintro ⟨h1, h2⟩
    split at h2
    · cases h2
    · next h3 =>
      split at h2
      · cases h2
      · next h4 => exact ⟨h1, Decidable.not_not.1 h3, Decidable.not_not.1 h4⟩
  · rintro ⟨h1, h2, h3⟩
    exact ⟨h1, by rw [if_neg (fun h => h h2), if_neg (fun h => h h3)]⟩

/-- Any other matrix and right hand side: the program is stopped. -/
theorem C52_system_stops (A : CsrOn K) (b : Arr K) (h : A.values.exec ≠ b.exec ∨ A.rowOffs.data.length - 1 ≠ b.data.length) : SysOn.create A b = .abort := by
  have hn : A.content.nRows = A.rowOffs.data.length - 1 := by
    show (A.rowOffs.data.length - if A.rowOffs.data.length = 0 then 0 else 1) = _
    by_cases h : A.rowOffs.data.length = 0
    · rw [if_pos h]; omega
    · rw [if_neg h]
  unfold SysOn.create CsrOn.exec
  rw [hn]
  split
  · rfl
  · next h1 => rw [if_pos (h.resolve_left h1)]

/-- The host copy of a linear system: same matrix, same right-hand side, on the host; the checks of the constructors pass. -/
theorem C52_system (s : SysOn K) (hs : s.Built) : ∃ r, s.copyToHost = .ok r ∧ r.Built ∧ r.matrix.values.data = s.matrix.values.data ∧
    r.matrix.colIdxs.data = s.matrix.colIdxs.data ∧ r.matrix.rowOffs.data = s.matrix.rowOffs.data ∧ r.rhs.data = s.rhs.data ∧ r.matrix.LivesOn .serial ∧ r.rhs.exec = .serial := by
  obtain ⟨B, hB, hB', hc1, hc2, hc3, hl⟩ := C52_matrix_partial s.matrix hs.1 .serial
  have hc : B.content = s.matrix.content := by simp only [CsrOn.content, hc1, hc2, hc3]
  have hl := hl (.inl rfl)
  have hn : s.matrix.content.nRows = s.rhs.data.length := by
    have := hs.2
    unfold SysOn.create at this
    split at this
    · cases this
    · split at this
      · cases this
      · next h => exact Decidable.not_not.1 h
  have hcr : SysOn.create B s.rhs.copyToHost = .ok ⟨B, s.rhs.copyToHost⟩ := by
    unfold SysOn.create CsrOn.exec
    rw [if_neg (by simp [hl.1, Arr.copyToHost]), if_neg (by simp [hc, hn, Arr.copyToHost])]
  refine ⟨⟨B, s.rhs.copyToHost⟩, ?_, ⟨hB', hcr⟩, hc1, hc2, hc3, by simp [Arr.copyToHost], hl, by simp [Arr.copyToHost]⟩
  unfold SysOn.copyToHost CsrOn.copyToHost
  rw [hB]
  exact hcr

/-- A copy of boundary data for an executor has the same contents and its arrays live there. -/
theorem C52_boundary_partial {T S : Type} (e : Exec) (b : BFieldsOn T S) :
    (b.copyOn e).value.data = b.value.data ∧ (b.copyOn e).refValue.data = b.refValue.data ∧
    (b.copyOn e).valueFraction.data = b.valueFraction.data ∧ (b.copyOn e).refGrad.data = b.refGrad.data ∧
    (b.copyOn e).boundaryTypes.data = b.boundaryTypes.data ∧ (b.copyOn e).offset.data = b.offset.data ∧
    (b.copyOn e).nBoundaries = b.nBoundaries ∧ (b.copyOn e).nBoundaryFaces = b.nBoundaryFaces ∧
    (b.copyOn e).value.exec = e ∧ (b.copyOn e).refValue.exec = e ∧ (b.copyOn e).valueFraction.exec = e ∧
    (b.copyOn e).refGrad.exec = e ∧ (b.copyOn e).boundaryTypes.exec = e ∧ (b.copyOn e).offset.exec = e := by
  simp [BFieldsOn.copyOn]

/-- But the copy reports the executor of the original. -/
theorem C52_boundary_violation {T S : Type} (e : Exec) (b : BFieldsOn T S) (h : b.exec ≠ e) : (b.copyOn e).exec ≠ e := h

/-- New boundary data: one entry per boundary face and one type per patch, all on the executor; empty offsets are undefined. -/
theorem C52_boundary_new {T S : Type} (e : Exec) (offsets : List Nat) (gv gr gg : Nat → T) (gf : Nat → S) (gt : Nat → Int) :
    (offsets = [] → BFieldsOn.new e offsets gv gr gg gf gt = .ub) ∧
    ∀ l n, offsets = l ++ [n] → ∃ b, BFieldsOn.new e offsets gv gr gg gf gt = .ok b ∧ b.exec = e ∧ b.value.data.length = n ∧
      b.refValue.data.length = n ∧ b.valueFraction.data.length = n ∧ b.refGrad.data.length = n ∧ b.boundaryTypes.data.length = l.length ∧
      b.offset.data = offsets ∧ b.nBoundaries = l.length ∧ b.nBoundaryFaces = n ∧ b.value.exec = e ∧ b.refValue.exec = e ∧
      b.valueFraction.exec = e ∧ b.refGrad.exec = e ∧ b.boundaryTypes.exec = e ∧ b.offset.exec = e := by
  refine ⟨fun h => by subst h; rfl, ?_⟩
  rintro l n rfl
  unfold BFieldsOn.new
  rw [List.getLast?_concat]
  exact ⟨_, rfl, by simp⟩

/-- The hypotheses can be met: a 2x2 system on the GPU. -/
example : (SysOn.mk (CsrOn.mk ⟨.gpu, [2, 1, 3]⟩ ⟨.gpu, [0, 1, 1]⟩ ⟨.gpu, [0, 2, 3]⟩) ⟨.gpu, [5, 6]⟩ : SysOn Int).Built := ⟨rfl, rfl⟩

end NeoFOAM
