import Verif.Spec.Shuffle
import Verif.Proofs.Solve
import Verif.Proofs.Sim

/-!
# Systems with exchanged neighbours
-/
namespace NeoFOAM
open Finset
variable {K V : Type}

/-! ### Operators do not look at column indices -/

/-- The same outcomes up to the columns. -/
def ColRel (cols : List Nat) (l l' : LinearSystem V) : Prop := l' = l.columns cols

theorem colRel_iff {X Y : NR (LinearSystem V)} {cols : List Nat} :
    NR.Rel (ColRel cols) X Y ↔ ∀ out, Y out ↔ ∃ o, X o ∧ out = o.bind fun l => .ok (l.columns cols) := by
  constructor
  · rintro ⟨h1, h2⟩ out
    constructor
    · intro hy
      obtain ⟨o, ho, hr⟩ := h2 _ hy
      exact ⟨o, ho, Res.Rel.eq_map hr⟩
    · rintro ⟨o, ho, rfl⟩
      obtain ⟨o', hy, hr⟩ := h1 _ ho
      rwa [← Res.Rel.eq_map hr]
  · intro h
    refine ⟨fun o ho => ⟨_, (h _).2 ⟨o, ho, rfl⟩, ?_⟩, fun o' ho' => ?_⟩
    · cases o <;> trivial
    · obtain ⟨o, ho, rfl⟩ := (h _).1 ho'
      refine ⟨o, ho, ?_⟩
      cases o <;> trivial

theorem launchLS_cols (e : ExecKind) (a b : Nat) (body : Nat → Res (List (Act LSArr V))) (ls : LinearSystem V) (cols : List Nat) :
    NR.Rel (ColRel cols) (launchLS e a b body ls) (launchLS e a b body (ls.columns cols)) := by
  refine NR.Rel.bind (R := (· = ·)) (NR.Rel.refl (fun _ => rfl) _) ?_
  rintro f _ rfl
  exact NR.Rel.pure rfl

section ops
variable [Add K] [Sub K] [Mul K] [Div K] [Neg K] [Zero K] [One K] [LinearOrder K]

theorem divOp_ignores (e : ExecKind) (m : Mesh K) (sp : SparsityPattern) (sch : Option InterpScheme) (w : List K) (junk : Nat → K) (flux : List K)
    (φ : VolField K K) (ty : OpType) (c : Coeff K) : (divOp e m sp sch w junk flux φ ty c).IgnoresColumns := by
  intro f hf
  cases hf
  intro c t dt ls cols
  refine colRel_iff.1 ?_
  cases sch with
  | none => exact ⟨fun o ho => ⟨o, ho, by cases ho; trivial⟩, fun o ho => ⟨o, ho, by cases ho; trivial⟩⟩
  | some sch =>
    refine NR.Rel.bind (launchLS_cols e _ _ _ ls cols) ?_
    rintro l _ rfl
    exact launchLS_cols e _ _ _ l cols

theorem laplacianOp_ignores (e : ExecKind) (m : Mesh K) (sp : SparsityPattern) (built : Bool) (δ : List K) (junk : Nat → K) (gamma : List K)
    (φ : VolField K K) (ty : OpType) (c : Coeff K) : (laplacianOp e m sp built δ junk gamma φ ty c).IgnoresColumns := by
  intro f hf
  cases hf
  intro c t dt ls cols
  refine colRel_iff.1 ?_
  cases built with
  | false => exact ⟨fun o ho => ⟨o, ho, by cases ho; trivial⟩, fun o ho => ⟨o, ho, by cases ho; trivial⟩⟩
  | true =>
    refine NR.Rel.bind (launchLS_cols e _ _ _ ls cols) ?_
    rintro l _ rfl
    exact launchLS_cols e _ _ _ l cols

theorem sourceOp_ignores (e : ExecKind) (m : Mesh K) (sp : SparsityPattern) (k : List K) (φ : VolField K K) (ty : OpType) (c : Coeff K) :
    (sourceOp e m sp k φ ty c).IgnoresColumns := by
  intro f hf
  cases hf
  intro c t dt ls cols
  exact colRel_iff.1 (launchLS_cols e _ _ _ ls cols)

theorem ddtOp_ignores (e : ExecKind) (m : Mesh K) (sp : SparsityPattern) (φ : VolField K K) (old : List K) (ty : OpType) (c : Coeff K) :
    (ddtOp e m sp φ old ty c).IgnoresColumns := by
  intro f hf
  cases hf
  intro c t dt ls cols
  exact colRel_iff.1 (launchLS_cols e _ _ _ ls cols)

theorem surfaceIntegrateOp_ignores (e : ExecKind) (m : Mesh K) (flux : List K) (c : Coeff K) : (surfaceIntegrateOp e m flux c).IgnoresColumns := by
  intro f hf
  cases hf

end ops

/-- An operator that ignores the columns behaves the same up to the columns. -/
abbrev ColSim (cols : List Nat) : OpModel K V → OpModel K V → Prop :=
  OpSim (fun t dt t' dt' => t' = t ∧ dt' = dt) (· = ·) (ColRel cols)

theorem OpModel.IgnoresColumns.sim {o : OpModel K V} (h : o.IgnoresColumns) (cols : List Nat) : ColSim cols o o := by
  refine ⟨rfl, rfl, fun _ => ?_, fun _ => ?_⟩
  · cases o.expl with
    | none => exact .none
    | some f =>
      refine .some ?_
      rintro c t dt _ _ src _ ⟨rfl, rfl⟩ rfl
      exact NR.Rel.refl (fun _ => rfl) _
  · cases ho : o.impl with
    | none => exact .none
    | some f =>
      refine .some ?_
      rintro c t dt _ _ ls _ ⟨rfl, rfl⟩ rfl
      exact colRel_iff.2 (h f ho c _ _ ls cols)

theorem heap_colSim {s : OpHeap K V} (h : ∀ o ∈ s, o.IgnoresColumns) (cols : List Nat) : List.Forall₂ (ColSim cols) s s := by
  induction s with
  | nil => exact .nil
  | cons o s ih => exact .cons ((h o (by simp)).sim cols) (ih fun o ho => h o (by simp [ho]))

theorem built_colSim [Mul K] [One K] [Neg K] {s : OpHeap K V} (h : ∀ o ∈ s, o.IgnoresColumns) (tr : ExT K) {eqn : Expr} {s' : OpHeap K V}
    (hb : tr.build s = .ok (eqn, s')) (cols : List Nat) : List.Forall₂ (ColSim cols) s' s' := by
  have := ExT.build_rel (P := ColSim cols) tr s s (heap_colSim h cols)
  rw [hb] at this
  exact this.2

/-! ### Two patterns of one mesh -/

/-- Where the entries of a row are. -/
structure SparsityPattern.Sorted (sp : SparsityPattern) (m : Mesh K) : Prop where
  diagAt : ∀ c < m.nCells, sp.addr m (.diag c) = sp.rowPtrs.getD c 0 + m.loDeg c
  lowerAt : ∀ f < m.nInternalFaces, sp.addr m (.lower f) < sp.rowPtrs.getD (m.nbr f) 0 + m.loDeg (m.nbr f)
  upperAt : ∀ f < m.nInternalFaces, sp.rowPtrs.getD (m.own f) 0 + m.loDeg (m.own f) < sp.addr m (.upper f)

theorem pattern_sorted {m : Mesh K} (h : m.WF) (h256 : ∀ c < m.nCells, 1 + m.deg c ≤ 256) (e : ExecKind) (sp : SparsityPattern)
    (hsp : sparsityUpdate e m (.ok sp)) : sp.Sorted m := by
  obtain ⟨_, hee, addr, hF⟩ := sparsity_facts h e _ hsp
  cases hee
  have heq : ∀ s : Slot, s.Valid m → sp.addr m s = addr s := by
    intro s hs
    have h1 := hF.adr.inRow s hs
    have h2 := hF.rows.size _ (s.row_lt h hs)
    have h3 := h256 _ (s.row_lt h hs)
    cases s with
    | diag c =>
      simp only [SparsityPattern.addr, hF.diag c hs]
      simp only [Slot.row] at h1 h2 h3
      rw [Nat.mod_eq_of_lt (by omega)]; omega
    | upper f =>
      simp only [SparsityPattern.addr, hF.upper f hs]
      simp only [Slot.row] at h1 h2 h3
      rw [Nat.mod_eq_of_lt (by omega)]; omega
    | lower f =>
      simp only [SparsityPattern.addr, hF.lower f hs]
      simp only [Slot.row] at h1 h2 h3
      rw [Nat.mod_eq_of_lt (by omega)]; omega
  refine ⟨fun c hc => ?_, fun f hf => ?_, fun f hf => ?_⟩
  · rw [heq _ (show (Slot.diag c).Valid m from hc)]; exact hF.diagAt c hc
  · rw [heq _ (show (Slot.lower f).Valid m from hf)]; exact hF.lowerAt f hf
  · rw [heq _ (show (Slot.upper f).Valid m from hf)]; exact hF.upperAt f hf

theorem rows_eq {m : Mesh K} {r r' c c' : List Nat} (h : RowsOK m r c) (h' : RowsOK m r' c') : ∀ i ≤ m.nCells, r.getD i 0 = r'.getD i 0 := by
  intro i hi
  induction i with
  | zero => rw [h.first, h'.first]
  | succ i ih => rw [h.size i (by omega), h'.size i (by omega), ih (by omega)]

theorem rowPtrs_eq {m : Mesh K} {r r' c c' : List Nat} (h : RowsOK m r c) (h' : RowsOK m r' c') : r = r' := by
  refine List.ext_getElem (h.len.trans h'.len.symm) fun i h1 h2 => ?_
  have := rows_eq h h' i (by have := h.len; omega)
  simpa [List.getD_eq_getElem?_getD, h1, h2] using this

/-- The entries of two patterns of a mesh are in the same places up to an exchange within rows. -/
theorem exists_shuffle {m : Mesh K} (h : m.WF) {sp sp' : SparsityPattern} (hp : sp.For m) (hs : sp.Sorted m) (hp' : sp'.For m) (hs' : sp'.Sorted m) :
    ∃ π, m.Shuffles π ∧ ∀ s : Slot, s.Valid m → (π s).Valid m ∧ sp'.addr m (π s) = sp.addr m s := by
  have hr : sp.rowPtrs = sp'.rowPtrs := rowPtrs_eq hp.rows hp'.rows
  have hnn : sp.colIdxs.length = sp'.colIdxs.length := by rw [hp.rows.nnz, hp'.rows.nnz]
  have hex : ∀ s : Slot, ∃ t : Slot, s.Valid m → t.Valid m ∧ sp'.addr m t = sp.addr m s := by
    intro s
    by_cases hv : s.Valid m
    · obtain ⟨t, h1, h2⟩ := hp'.adr.surj (sp.addr m s) (hnn ▸ hp.addr_lt h hv)
      exact ⟨t, fun _ => ⟨h1, h2⟩⟩
    · exact ⟨s, fun h => absurd h hv⟩
  choose π hπ using hex
  have hrow : ∀ s : Slot, s.Valid m → (π s).row m = s.row m := by
    intro s hv
    obtain ⟨h1, h2⟩ := hπ s hv
    have a := hp.adr.inRow s hv
    have b := hp'.adr.inRow _ h1
    rw [h2, ← hr] at b
    have lt1 := s.row_lt h hv
    have lt2 := (π s).row_lt h h1
    rcases Nat.lt_trichotomy ((π s).row m) (s.row m) with hlt | heq | hgt
    · have := hp.rows.mono ((π s).row m + 1) (s.row m) (by omega) (by omega)
      omega
    · exact heq
    · have := hp.rows.mono (s.row m + 1) ((π s).row m) (by omega) (by omega)
      omega
  refine ⟨π, ⟨fun c hc => ?_, fun f hf => ?_, fun f hf => ?_, fun s t hs ht he => ?_⟩, hπ⟩
  · have hv : (Slot.diag c).Valid m := hc
    obtain ⟨h1, h2⟩ := hπ _ hv
    have h3 := hrow _ hv
    have h4 := hs.diagAt c hc
    revert h1 h2 h3
    cases π (.diag c) with
    | diag d => intro _ _ h3; exact congrArg Slot.diag h3
    | upper f =>
      intro h1 h2 h3
      have := hs'.upperAt f h1
      simp only [Slot.row] at h3
      rw [h3, ← hr] at this
      omega
    | lower f =>
      intro h1 h2 h3
      have := hs'.lowerAt f h1
      simp only [Slot.row] at h3
      rw [h3, ← hr] at this
      omega
  · have hv : (Slot.upper f).Valid m := hf
    obtain ⟨h1, h2⟩ := hπ _ hv
    have h3 := hrow _ hv
    have h4 := hs.upperAt f hf
    revert h1 h2 h3
    cases π (.upper f) with
    | diag d =>
      intro h1 h2 h3
      have := hs'.diagAt d h1
      simp only [Slot.row] at h3
      rw [h3, ← hr] at this
      subst h3
      omega
    | upper g => intro h1 _ h3; exact ⟨g, h1, rfl, h3⟩
    | lower g =>
      intro h1 h2 h3
      have := hs'.lowerAt g h1
      simp only [Slot.row] at h3
      rw [h3, ← hr] at this
      omega
  · have hv : (Slot.lower f).Valid m := hf
    obtain ⟨h1, h2⟩ := hπ _ hv
    have h3 := hrow _ hv
    have h4 := hs.lowerAt f hf
    revert h1 h2 h3
    cases π (.lower f) with
    | diag d =>
      intro h1 h2 h3
      have := hs'.diagAt d h1
      simp only [Slot.row] at h3
      subst h3
      rw [← hr] at this
      omega
    | upper g =>
      intro h1 h2 h3
      have := hs'.upperAt g h1
      simp only [Slot.row] at h3
      rw [h3, ← hr] at this
      omega
    | lower g => intro h1 _ h3; exact ⟨g, h1, rfl, h3⟩
  · obtain ⟨-, a⟩ := hπ s hs
    obtain ⟨-, b⟩ := hπ t ht
    rw [he] at a
    exact hp.adr.inj s t hs ht (a.symm.trans b)

/-! ### The residual -/

section residual
variable [Field K] {m : Mesh K}

omit [Field K] in
theorem columns_on {sp sp' : SparsityPattern} (hp : sp.For m) (hp' : sp'.For m) {ls : LinearSystem V} (ho : ls.On sp m) :
    (ls.columns sp'.colIdxs).On sp' m := by
  refine ⟨rfl, ?_, ?_, ho.rhsLen⟩
  · rw [show (ls.columns sp'.colIdxs).matrix.rowOffs = ls.matrix.rowOffs from rfl, ho.rowsEq, rowPtrs_eq hp.rows hp'.rows]
  · rw [show (ls.columns sp'.colIdxs).matrix.values = ls.matrix.values from rfl, ho.vals, hp.rows.nnz, hp'.rows.nnz]

/-- The residual of a system whose columns are those of another pattern. -/
theorem columns_residual (h : m.WF) {sp sp' : SparsityPattern} (hp : sp.For m) (hp' : sp'.For m) {π : Slot → Slot}
    (hπ : ∀ s : Slot, s.Valid m → (π s).Valid m ∧ sp'.addr m (π s) = sp.addr m s)
    {ls : LinearSystem K} (ho : ls.On sp m) {dv : Slot → K} {dr : Nat → K} (hv : ∀ s : Slot, s.Valid m → ls.matrix.val (sp.addr m s) = dv s)
    (hr : ∀ c < m.nCells, ls.rhs.getD c 0 = dr c) (x : Nat → K) {c : Nat} (hc : c < m.nCells) :
    (ls.columns sp'.colIdxs).residual x c = shuffledResidual m π dv dr x c := by
  have hcol : ∀ s : Slot, s.Valid m → (ls.columns sp'.colIdxs).matrix.col (sp.addr m s) = (π s).col m := by
    intro s hs
    obtain ⟨h1, h2⟩ := hπ s hs
    rw [← h2]
    exact col_addr hp' (columns_on hp hp' ho) h1
  have hval : ∀ p, (ls.columns sp'.colIdxs).matrix.val p = ls.matrix.val p := fun _ => rfl
  have hrow : (ls.columns sp'.colIdxs).matrix.rowOffs = sp.rowPtrs := ho.rowsEq
  rw [LinearSystem.residual, CSR.rs, CSR.rs, hrow, row_sum h hp _ hc]
  unfold shuffledResidual
  rw [show (ls.columns sp'.colIdxs).rhs.getD c 0 = dr c from hr c hc]
  congr 2
  · congr 1
    · rw [hval, hv _ (show (Slot.diag c).Valid m from hc), hcol _ (show (Slot.diag c).Valid m from hc)]
    · refine Finset.sum_congr rfl fun f hf => ?_
      rw [hval, hv _ (show (Slot.upper f).Valid m from mem_range.1 hf), hcol _ (show (Slot.upper f).Valid m from mem_range.1 hf)]
  · refine Finset.sum_congr rfl fun f hf => ?_
    rw [hval, hv _ (show (Slot.lower f).Valid m from mem_range.1 hf), hcol _ (show (Slot.lower f).Valid m from mem_range.1 hf)]

theorem shuffledResidual_add (π : Slot → Slot) (dv dv' : Slot → K) (dr dr' : Nat → K) (x : Nat → K) (c : Nat) :
    shuffledResidual m π (fun s => dv s + dv' s) (fun i => dr i + dr' i) x c = shuffledResidual m π dv dr x c + shuffledResidual m π dv' dr' x c := by
  unfold shuffledResidual
  have e1 : ∀ (P : Nat → Prop) [DecidablePred P] (a b : Nat → K) (y : Nat → K), (∑ f ∈ range m.nInternalFaces, if P f then (a f + b f) * y f else 0)
      = (∑ f ∈ range m.nInternalFaces, if P f then a f * y f else 0) + ∑ f ∈ range m.nInternalFaces, if P f then b f * y f else 0 := by
    intro P _ a b y
    rw [← Finset.sum_add_distrib]
    exact Finset.sum_congr rfl fun f _ => by split <;> ring
  rw [e1 (fun f => m.own f = c) (fun f => dv (.upper f)) (fun f => dv' (.upper f)) (fun f => x ((π (.upper f)).col m)),
    e1 (fun f => m.nbr f = c) (fun f => dv (.lower f)) (fun f => dv' (.lower f)) (fun f => x ((π (.lower f)).col m))]
  ring

/-- The entries of a system assembled from nothing. -/
theorem empty_vals (hp : (sp : SparsityPattern).For m) : ∃ ls : LinearSystem K, createEmptyLinearSystem sp = .ok ls ∧ ls.On sp m ∧
    (∀ p, ls.matrix.val p = 0) ∧ ∀ c, ls.rhs.getD c 0 = 0 := by
  have hr : (⟨List.replicate sp.colIdxs.length (0 : K), sp.colIdxs, sp.rowPtrs⟩ : CSR K).nRows = m.nCells := by
    simp [CSR.nRows, hp.rows.len]
  refine ⟨⟨⟨List.replicate sp.colIdxs.length 0, sp.colIdxs, sp.rowPtrs⟩, List.replicate sp.diagOffset.length 0⟩, ?_,
    ⟨rfl, rfl, by simp, by simp [hp.dlen]⟩, fun p => val_replicate _ p, fun c => val_replicate _ c⟩
  unfold createEmptyLinearSystem LinearSystem.mk'
  rw [if_pos (by rw [hr]; simp [hp.dlen])]

/-- The empty system of another pattern. -/
theorem empty_columns {sp sp' : SparsityPattern} (hp : sp.For m) (hp' : sp'.For m) {l l' : LinearSystem K} (h1 : createEmptyLinearSystem sp = .ok l)
    (h2 : createEmptyLinearSystem sp' = .ok l') : l' = l.columns sp'.colIdxs := by
  have key : ∀ {sp : SparsityPattern} {l : LinearSystem K}, sp.For m → createEmptyLinearSystem sp = .ok l →
      l = ⟨⟨List.replicate (m.nCells + 2 * m.nInternalFaces) 0, sp.colIdxs, sp.rowPtrs⟩, List.replicate m.nCells 0⟩ := by
    intro sp l hp h1
    have hr : (⟨List.replicate sp.colIdxs.length (0 : K), sp.colIdxs, sp.rowPtrs⟩ : CSR K).nRows = m.nCells := by
      simp [CSR.nRows, hp.rows.len]
    unfold createEmptyLinearSystem LinearSystem.mk' at h1
    rw [if_pos (by rw [hr]; simp [hp.dlen])] at h1
    injection h1 with h1
    rw [← h1, hp.rows.nnz, hp.dlen]
  rw [key hp h1, key hp' h2, rowPtrs_eq hp.rows hp'.rows]
  rfl

/-- Subtracting a source does not look at the columns. -/
theorem subtractSource_cols (e : ExecKind) (src : List K) (ls : LinearSystem K) (cols : List Nat) :
    NR.Rel (ColRel cols) (subtractSource e m src ls) (subtractSource e m src (ls.columns cols)) := by
  refine NR.Rel.bind (R := (· = ·)) (NR.Rel.refl (fun _ => rfl) _) ?_
  rintro f _ rfl
  exact NR.Rel.pure rfl

/-- Every outcome of a system built on another pattern. -/
theorem system_every (h : m.WF) (h256 : ∀ c < m.nCells, 1 + m.deg c ≤ 256) (e0 e : ExecKind) {sp : SparsityPattern} (hsp : sparsityUpdate e0 m (.ok sp))
    {F : LinearSystem K → NR (LinearSystem K)} {dv : Slot → K} {dr : Nat → K} (hF : AssemblesTo m sp F dv dr)
    (hcol : ∀ cols ls, NR.Rel (ColRel cols) (F ls) (F (ls.columns cols))) :
    (sparsityUpdate e m >>= fun sp => NR.lift (createEmptyLinearSystem sp) >>= F : NR (LinearSystem K)).Ok fun ls =>
      ∃ sp', sparsityUpdate e m (.ok sp') ∧ sp'.For m ∧ ls.On sp' m ∧ ∃ π, m.Shuffles π ∧
        ∀ x, ∀ c < m.nCells, ls.residual x c = shuffledResidual m π dv dr x c := by
  obtain ⟨_, hee, hp⟩ := pattern_for m h h256 e0 _ hsp
  cases hee
  rintro out ⟨r, hr, ho⟩
  obtain ⟨sp', rfl, hp'⟩ := pattern_for m h h256 e _ hr
  obtain ⟨π, hπ, hadr⟩ := exists_shuffle h hp (pattern_sorted h h256 e0 sp hsp) hp' (pattern_sorted h h256 e sp' hr)
  obtain ⟨l0, c0, on0, v0, r0⟩ := empty_vals (K := K) hp
  obtain ⟨l0', c0', -⟩ := empty_vals (K := K) hp'
  have e0 := empty_columns hp hp' c0 c0'
  obtain ⟨l1, a1, d1⟩ := hF l0 on0
  have ho' : F l0' out := by
    obtain ⟨r, h1, h2⟩ := (NR.bind_def _ _ _).1 ho
    rw [c0'] at h1
    cases h1
    exact h2
  rw [e0] at ho'
  obtain ⟨o, h1, rfl⟩ := (colRel_iff.1 (hcol _ l0) out).1 ho'
  cases (d1 _).1 h1
  refine ⟨_, rfl, sp', hr, hp', columns_on hp hp' a1.on, π, hπ, fun x c hc => ?_⟩
  refine columns_residual h hp hp' hadr a1.on (fun s hs => ?_) (fun c hc => ?_) x hc
  · rw [a1.coef s hs, v0, zero_add]
  · rw [a1.rhs c hc, r0, zero_add]

end residual
end NeoFOAM
