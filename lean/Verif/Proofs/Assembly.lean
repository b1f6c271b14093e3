import Verif.Model.Assembly
import Verif.Spec.Assembly
import Verif.Props.C14_Sparsity
import Mathlib.Tactic.LinearCombination

/-! # Assembly kernels (proof side) -/
namespace NeoFOAM
open Finset
variable {K : Type} [Field K]

section pattern
variable {m : Mesh K} {sp : SparsityPattern}

omit [Field K] in
theorem Slot.row_lt (h : m.WF) {s : Slot} (hs : s.Valid m) : s.row m < m.nCells := by
  cases s with
  | diag c => exact hs
  | upper f => exact h.own_lt_int hs
  | lower f => exact h.nbr_lt f hs

omit [Field K] in
theorem RowsOK.mono {rp ci : List Nat} (h : RowsOK m rp ci) : ∀ a b, a ≤ b → b ≤ m.nCells →
    rp.getD a 0 ≤ rp.getD b 0 := by
  intro a b hab hb
  obtain ⟨k, rfl⟩ := Nat.exists_eq_add_of_le hab
  induction k with
  | zero => exact le_rfl
  | succ k ih =>
    have h1 := ih (by omega) (by omega)
    have h2 := h.size (a + k) (by omega)
    have e1 : a + (k + 1) = a + k + 1 := by omega
    rw [e1]; omega

omit [Field K] in
theorem SparsityPattern.For.addr_lt (hp : sp.For m) (h : m.WF) {s : Slot} (hs : s.Valid m) :
    sp.addr m s < sp.colIdxs.length := by
  have h1 := (hp.adr.inRow s hs).2
  have h2 := hp.rows.mono (s.row m + 1) m.nCells (Slot.row_lt h hs) le_rfl
  rw [hp.rows.last] at h2
  omega

omit [Field K] in
theorem SparsityPattern.For.addr_row (hp : sp.For m) (h : m.WF) {s : Slot} (hs : s.Valid m) {c : Nat} (hc : c < m.nCells) :
    (sp.rowPtrs.getD c 0 ≤ sp.addr m s ∧ sp.addr m s < sp.rowPtrs.getD (c + 1) 0) ↔ s.row m = c := by
  constructor
  · intro hh
    have h1 := hp.adr.inRow s hs
    have h2 := Slot.row_lt h hs
    rcases Nat.lt_trichotomy (s.row m) c with hlt | heq | hgt
    · have := hp.rows.mono (s.row m + 1) c (by omega) (by omega); omega
    · exact heq
    · have := hp.rows.mono (c + 1) (s.row m) (by omega) (by omega); omega
  · rintro rfl
    exact hp.adr.inRow s hs

/-- The pattern a mesh's constructor delivers. -/
theorem pattern_for (m : Mesh K) (h : m.WF) (h256 : ∀ c < m.nCells, 1 + m.deg c ≤ 256) (e : ExecKind)
    (out : Res SparsityPattern) (hout : sparsityUpdate e m out) : ∃ sp, out = .ok sp ∧ sp.For m := by
  obtain ⟨sp, he, h1, h2, h3, h4, h5⟩ := C14_offsets_partial m h h256 e out hout
  exact ⟨sp, he, h1, h2, h3, h4, h5⟩

/-- A sum over a row is the diagonal entry plus one entry per internal face of the cell. -/
theorem row_sum {G : Type} [AddCommMonoid G] (h : m.WF) (hp : sp.For m) (F : Nat → G) {c : Nat} (hc : c < m.nCells) :
    ∑ p ∈ Ico (sp.rowPtrs.getD c 0) (sp.rowPtrs.getD (c + 1) 0), F p
      = F (sp.addr m (.diag c))
        + (∑ f ∈ range m.nInternalFaces, if m.own f = c then F (sp.addr m (.upper f)) else 0)
        + ∑ f ∈ range m.nInternalFaces, if m.nbr f = c then F (sp.addr m (.lower f)) else 0 := by
  classical
  set N := m.nCells + 2 * m.nInternalFaces with hN
  have hlen : sp.colIdxs.length = N := hp.rows.nnz
  have h1 : ∀ p ∈ Ico (sp.rowPtrs.getD c 0) (sp.rowPtrs.getD (c + 1) 0),
      F p = ∑ i ∈ range N, if sp.addr m (slotOf m i) = p then F p else 0 := by
    intro p hpm
    rw [mem_Ico] at hpm
    have hlast := hp.rows.mono (c + 1) m.nCells (by omega) le_rfl
    rw [hp.rows.last] at hlast
    have hplt : p < N := by omega
    -- the index naming p
    have : ∃ i < N, sp.addr m (slotOf m i) = p := by
      have := Finset.surj_on_of_inj_on_of_card_le (s := range N) (t := range N) (fun i _ => sp.addr m (slotOf m i))
        (fun i hi => mem_range.2 (hlen ▸ hp.addr_lt h (slotOf_valid (mem_range.1 hi))))
        (fun i j hi hj he => slotOf_inj (hp.adr.inj _ _ (slotOf_valid (mem_range.1 hi))
          (slotOf_valid (mem_range.1 hj)) he)) le_rfl p (mem_range.2 hplt)
      obtain ⟨i, hi, he⟩ := this
      exact ⟨i, mem_range.1 hi, he.symm⟩
    obtain ⟨i, hi, he⟩ := this
    rw [Finset.sum_eq_single i]
    · rw [if_pos he]
    · intro j hj hji
      rw [if_neg]
      intro hh
      exact hji (slotOf_inj (hp.adr.inj _ _ (slotOf_valid (mem_range.1 hj)) (slotOf_valid hi) (hh.trans he.symm)))
    · intro hh; exact absurd (mem_range.2 hi) hh
  rw [Finset.sum_congr rfl h1, Finset.sum_comm]
  have h2 : ∀ i ∈ range N, (∑ p ∈ Ico (sp.rowPtrs.getD c 0) (sp.rowPtrs.getD (c + 1) 0),
      if sp.addr m (slotOf m i) = p then F p else 0)
      = if (slotOf m i).row m = c then F (sp.addr m (slotOf m i)) else 0 := by
    intro i hi
    rw [Finset.sum_ite_eq]
    have := hp.addr_row h (slotOf_valid (mem_range.1 hi)) hc
    by_cases hr : (slotOf m i).row m = c
    · rw [if_pos hr, if_pos (mem_Ico.2 (this.2 hr))]
    · rw [if_neg hr, if_neg (fun hh => hr (this.1 (mem_Ico.1 hh)))]
  rw [Finset.sum_congr rfl h2, hN, Finset.sum_range_add, show 2 * m.nInternalFaces = m.nInternalFaces + m.nInternalFaces by ring,
    Finset.sum_range_add, ← add_assoc]
  congr 1
  congr 1
  · rw [Finset.sum_eq_single c]
    · simp [slotOf, hc, Slot.row]
    · intro j hj hjc
      simp [slotOf, mem_range.1 hj, Slot.row, hjc]
    · intro hh; exact absurd (mem_range.2 hc) hh
  · apply Finset.sum_congr rfl
    intro f hf
    rw [mem_range] at hf
    have : slotOf m (m.nCells + f) = .upper f := by
      unfold slotOf
      rw [if_neg (by omega), if_pos (by omega)]; congr 1; omega
    rw [this]; rfl
  · apply Finset.sum_congr rfl
    intro f hf
    rw [mem_range] at hf
    have : slotOf m (m.nCells + (m.nInternalFaces + f)) = .lower f := by
      unfold slotOf
      rw [if_neg (by omega), if_neg (by omega)]; congr 1; omega
    rw [this]; rfl

/-- Column of an addressed entry. -/
theorem col_addr (hp : sp.For m) {ls : LinearSystem K} (ho : ls.On sp m) {s : Slot} (hs : s.Valid m) :
    ls.matrix.col (sp.addr m s) = s.col m := by
  have := hp.adr.column s hs
  rw [CSR.col, ho.cols, List.getD, this]; rfl

/-- The residual of a system on a mesh, entry by entry. -/
theorem residual_slots (h : m.WF) (hp : sp.For m) {ls : LinearSystem K} (ho : ls.On sp m) (x : Nat → K) {c : Nat}
    (hc : c < m.nCells) :
    ls.residual x c = ls.matrix.val (sp.addr m (.diag c)) * x c
      + (∑ f ∈ range m.nInternalFaces, if m.own f = c then ls.matrix.val (sp.addr m (.upper f)) * x (m.nbr f) else 0)
      + (∑ f ∈ range m.nInternalFaces, if m.nbr f = c then ls.matrix.val (sp.addr m (.lower f)) * x (m.own f) else 0)
      - ls.rhs.getD c 0 := by
  rw [LinearSystem.residual, CSR.rs, CSR.rs, ho.rowsEq, row_sum h hp _ hc]
  rw [col_addr hp ho (show (Slot.diag c).Valid m from hc)]
  congr 2
  · congr 1
    apply Finset.sum_congr rfl
    intro f hf
    rw [col_addr hp ho (show (Slot.upper f).Valid m from mem_range.1 hf)]
    rfl
  · apply Finset.sum_congr rfl
    intro f hf
    rw [col_addr hp ho (show (Slot.lower f).Valid m from mem_range.1 hf)]
    rfl

/-- What assembly does to the residual. -/
theorem Assembles.residual (h : m.WF) (hp : sp.For m) {ls ls' : LinearSystem K} (ho : ls.On sp m) {dv : Slot → K} {dr : Nat → K}
    (ha : Assembles m sp ls ls' dv dr) (x : Nat → K) {c : Nat} (hc : c < m.nCells) :
    ls'.residual x c = ls.residual x c + (dv (.diag c) * x c
      + (∑ f ∈ range m.nInternalFaces, if m.own f = c then dv (.upper f) * x (m.nbr f) else 0)
      + (∑ f ∈ range m.nInternalFaces, if m.nbr f = c then dv (.lower f) * x (m.own f) else 0)
      - dr c) := by
  rw [residual_slots h hp ho x hc, residual_slots h hp ha.on x hc, ha.coef _ (show (Slot.diag c).Valid m from hc), ha.rhs c hc]
  have e1 : ∀ f ∈ range m.nInternalFaces, (if m.own f = c then ls'.matrix.val (sp.addr m (.upper f)) * x (m.nbr f) else 0)
      = (if m.own f = c then ls.matrix.val (sp.addr m (.upper f)) * x (m.nbr f) else 0)
        + (if m.own f = c then dv (.upper f) * x (m.nbr f) else 0) := by
    intro f hf
    rw [ha.coef _ (show (Slot.upper f).Valid m from mem_range.1 hf)]
    split
    · ring
    · simp
  have e2 : ∀ f ∈ range m.nInternalFaces, (if m.nbr f = c then ls'.matrix.val (sp.addr m (.lower f)) * x (m.own f) else 0)
      = (if m.nbr f = c then ls.matrix.val (sp.addr m (.lower f)) * x (m.own f) else 0)
        + (if m.nbr f = c then dv (.lower f) * x (m.own f) else 0) := by
    intro f hf
    rw [ha.coef _ (show (Slot.lower f).Valid m from mem_range.1 hf)]
    split
    · ring
    · simp
  rw [Finset.sum_congr rfl e1, Finset.sum_congr rfl e2, Finset.sum_add_distrib, Finset.sum_add_distrib]
  ring

end pattern

section generic
variable {V : Type} [AddCommGroup V] {m : Mesh K} {sp : SparsityPattern}
omit [Field K]

/-- Two systems on a pattern that agree entry by entry are equal. -/
theorem LinearSystem.On.ext' (hp : sp.For m) {a b : LinearSystem V} (ha : a.On sp m) (hb : b.On sp m)
    (h1 : ∀ s : Slot, s.Valid m → a.matrix.val (sp.addr m s) = b.matrix.val (sp.addr m s))
    (h2 : ∀ c < m.nCells, a.rhs.getD c 0 = b.rhs.getD c 0) : a = b := by
  obtain ⟨⟨va, ca, ra⟩, rha⟩ := a
  obtain ⟨⟨vb, cb, rb⟩, rhb⟩ := b
  obtain ⟨a1, a2, a3, a4⟩ := ha
  obtain ⟨b1, b2, b3, b4⟩ := hb
  simp only [CSR.val] at *
  subst a1 a2 b1 b2
  have hv : va = vb := by
    apply List.ext_getElem (by omega)
    intro i hi hi'
    obtain ⟨s, hs, he⟩ := hp.adr.surj i (by omega)
    have := h1 s hs
    rw [he] at this
    simpa [List.getD, List.getElem?_eq_getElem hi, List.getElem?_eq_getElem hi'] using this
  have hr : rha = rhb := by
    apply List.ext_getElem (by omega)
    intro i hi hi'
    have := h2 i (by omega)
    simpa [List.getD, List.getElem?_eq_getElem hi, List.getElem?_eq_getElem hi'] using this
  rw [hv, hr]

theorem Assembles.trans {ls ls1 ls2 : LinearSystem V} {dv dv' : Slot → V} {dr dr' : Nat → V}
    (h1 : Assembles m sp ls ls1 dv dr) (h2 : Assembles m sp ls1 ls2 dv' dr') :
    Assembles m sp ls ls2 (fun s => dv s + dv' s) (fun c => dr c + dr' c) := by
  refine ⟨h2.on, fun s hs => ?_, fun c hc => ?_⟩
  · rw [h2.coef s hs, h1.coef s hs, add_assoc]
  · rw [h2.rhs c hc, h1.rhs c hc, add_assoc]

theorem Assembles.congr {ls ls1 : LinearSystem V} {dv dv' : Slot → V} {dr dr' : Nat → V}
    (h1 : Assembles m sp ls ls1 dv dr) (hv : ∀ s : Slot, s.Valid m → dv s = dv' s) (hr : ∀ c < m.nCells, dr c = dr' c) :
    Assembles m sp ls ls1 dv' dr' := by
  refine ⟨h1.on, fun s hs => ?_, fun c hc => ?_⟩
  · rw [h1.coef s hs, hv s hs]
  · rw [h1.rhs c hc, hr c hc]

/-- The outcome is determined. -/
theorem Assembles.unique (hp : sp.For m) {ls a b : LinearSystem V} {dv : Slot → V} {dr : Nat → V}
    (h1 : Assembles m sp ls a dv dr) (h2 : Assembles m sp ls b dv dr) : a = b :=
  LinearSystem.On.ext' hp h1.on h2.on (fun s hs => by rw [h1.coef s hs, h2.coef s hs])
    (fun c hc => by rw [h1.rhs c hc, h2.rhs c hc])


theorem launchLS_runs (e : ExecKind) (start stop : Nat) (body : Nat → Res (List (Act LSArr V))) (ls : LinearSystem V) :
    (launchLS e start stop body ls).Runs :=
  NR.Runs.bind (launch_runs _ _ _ _ _) (fun _ _ => NR.Runs.pure _)

/-- A launch whose threads add to entries named by `δ`. -/
theorem launchLS_ok (h : m.WF) (hp : sp.For m) (e : ExecKind) (start stop : Nat) (body : Nat → Res (List (Act LSArr V)))
    (acts : Nat → List (Act LSArr V)) (δ : Nat → LSArr → Nat → V) (ls : LinearSystem V) (ho : ls.On sp m)
    (hb : ∀ i, start ≤ i → i < stop → body i = .ok (acts i))
    (hc : e = .serial ∨ ThreadsCommute Mem.step ((List.range' start (stop - start)).map acts))
    (ha : ∀ i, start ≤ i → i < stop →
      RunsAdd (fun a => match a with | .values => sp.colIdxs.length | .rhs => m.nCells) (acts i) (δ i)) :
    (launchLS e start stop body ls).Ok (fun ls' => Assembles m sp ls ls'
      (fun s => ∑ k ∈ range (stop - start), δ (start + k) .values (sp.addr m s))
      (fun c => ∑ k ∈ range (stop - start), δ (start + k) .rhs c)) := by
  have hlen : (fun a : LSArr => (match a with | .values => ls.matrix.values | .rhs => ls.rhs : List V).length)
      = (fun a : LSArr => match a with | .values => sp.colIdxs.length | .rhs => m.nCells) := by
    funext a; cases a
    · exact ho.vals
    · exact ho.rhsLen
  refine NR.Ok.bind (launch_ok e start stop body acts δ (fun a => match a with | .values => ls.matrix.values | .rhs => ls.rhs)
    hb hc (fun i h1 h2 => by rw [hlen]; exact ha i h1 h2)) ?_
  rintro f ⟨h1, h2⟩
  refine NR.Ok.pure ⟨⟨ho.cols, ho.rowsEq, (h1 .values).trans ho.vals, (h1 .rhs).trans ho.rhsLen⟩, fun s hs => ?_, fun c hc' => ?_⟩
  · exact h2 .values _ (by show _ < ls.matrix.values.length; rw [ho.vals]; exact hp.addr_lt h hs)
  · exact h2 .rhs c (by show c < ls.rhs.length; rw [ho.rhsLen]; exact hc')

/-- What a face loop adds. -/
def faceDelta (m : Mesh K) (lo up dOwn dNei : Nat → V) : Slot → V
  | .diag c => ∑ f ∈ range m.nInternalFaces, ((if m.own f = c then dOwn f else 0) + (if m.nbr f = c then dNei f else 0))
  | .upper f => up f
  | .lower f => lo f

/-- The internal-face loop of an implicit operator. -/
theorem faceLoop_ok (h : m.WF) (hp : sp.For m) (e : ExecKind) (body : Nat → Res (List (Act LSArr V)))
    (lo up sOwn sNei : Nat → V) (ls : LinearSystem V) (ho : ls.On sp m)
    (hb : ∀ f < m.nInternalFaces, body f = .ok (Act.plain f .values (sp.addr m (.lower f)) (· + lo f)
      ++ [Act.atomicSub .values (sp.addr m (.diag (m.own f))) (sOwn f)]
      ++ Act.plain f .values (sp.addr m (.upper f)) (· + up f)
      ++ [Act.atomicSub .values (sp.addr m (.diag (m.nbr f))) (sNei f)])) :
    (launchLS e 0 m.nInternalFaces body ls).Ok (fun ls' => Assembles m sp ls ls'
      (faceDelta m lo up (fun f => - sOwn f) (fun f => - sNei f)) (fun _ => 0)) := by
  classical
  refine (launchLS_ok h hp e 0 m.nInternalFaces body (fun f => Act.plain f .values (sp.addr m (.lower f)) (· + lo f)
      ++ [Act.atomicSub .values (sp.addr m (.diag (m.own f))) (sOwn f)]
      ++ Act.plain f .values (sp.addr m (.upper f)) (· + up f)
      ++ [Act.atomicSub .values (sp.addr m (.diag (m.nbr f))) (sNei f)])
    (fun f a i => single LSArr.values (sp.addr m (.lower f)) (lo f) a i + single LSArr.values (sp.addr m (.diag (m.own f))) (-sOwn f) a i
      + single LSArr.values (sp.addr m (.upper f)) (up f) a i + single LSArr.values (sp.addr m (.diag (m.nbr f))) (-sNei f) a i)
    ls ho (fun f _ hf => hb f hf) ?_ ?_).mono ?_
  · right
    apply threadsCommute_map List.nodup_range'
    intro i hi j hj hij x hx y hy
    rw [List.mem_range'_1] at hi hj
    have hi' : i < m.nInternalFaces := by omega
    have hj' : j < m.nInternalFaces := by omega
    -- every action is a diagonal subtraction or an access to the thread's own two entries
    have key : ∀ f < m.nInternalFaces, ∀ x, x ∈ (Act.plain f LSArr.values (sp.addr m (.lower f)) (· + lo f)
      ++ [Act.atomicSub .values (sp.addr m (.diag (m.own f))) (sOwn f)]
      ++ Act.plain f .values (sp.addr m (.upper f)) (· + up f)
      ++ [Act.atomicSub .values (sp.addr m (.diag (m.nbr f))) (sNei f)]) →
      (∃ c v, c < m.nCells ∧ x = Act.atomicSub LSArr.values (sp.addr m (.diag c)) v) ∨
      (x.tid = some f ∧ (x.loc = (LSArr.values, sp.addr m (.lower f)) ∨ x.loc = (LSArr.values, sp.addr m (.upper f)))) := by
      intro f hf x hx
      simp only [Act.plain, List.cons_append, List.nil_append, List.mem_cons, List.not_mem_nil, or_false] at hx
      rcases hx with rfl | rfl | rfl | rfl | rfl | rfl
      · exact Or.inr ⟨rfl, Or.inl rfl⟩
      · exact Or.inr ⟨rfl, Or.inl rfl⟩
      · exact Or.inl ⟨_, _, h.own_lt_int hf, rfl⟩
      · exact Or.inr ⟨rfl, Or.inr rfl⟩
      · exact Or.inr ⟨rfl, Or.inr rfl⟩
      · exact Or.inl ⟨_, _, h.nbr_lt f hf, rfl⟩
    have hne : ∀ {s t : Slot}, s.Valid m → t.Valid m → s ≠ t → sp.addr m s ≠ sp.addr m t :=
      fun hs ht hst he => hst (hp.adr.inj _ _ hs ht he)
    rcases key i hi' x hx with ⟨c, v, hc, rfl⟩ | ⟨tx, lx⟩ <;> rcases key j hj' y hy with ⟨c', v', hc', rfl⟩ | ⟨ty, ly⟩
    · exact comm_addSub (Act.isAddSub_sub _ _ _) (Act.isAddSub_sub _ _ _)
    · refine comm_acts _ _ (by simp [Act.atomicSub, Act.tid]) (Or.inl ?_)
      rcases ly with ly | ly <;> rw [ly] <;> simp only [Act.atomicSub, Act.loc, ne_eq, Prod.mk.injEq, true_and]
      · exact hne hc hj' (by simp)
      · exact hne hc hj' (by simp)
    · refine comm_acts _ _ (by simp [Act.atomicSub, Act.tid]) (Or.inl ?_)
      rcases lx with ly | ly <;> rw [ly] <;> simp only [Act.atomicSub, Act.loc, ne_eq, Prod.mk.injEq, true_and]
      · exact hne hi' hc' (by simp)
      · exact hne hi' hc' (by simp)
    · refine comm_acts _ _ (by rw [tx, ty]; intro t ht; simp at ht ⊢; omega) (Or.inl ?_)
      rcases lx with lx | lx <;> rcases ly with ly | ly <;> rw [lx, ly] <;> simp only [ne_eq, Prod.mk.injEq, true_and]
      · exact hne hi' hj' (by simpa using hij)
      · exact hne hi' hj' (by simp)
      · exact hne hi' hj' (by simp)
      · exact hne hi' hj' (by simpa using hij)
  · intro f _ hf
    set n : LSArr → Nat := fun a => match a with | .values => sp.colIdxs.length | .rhs => m.nCells with hn
    have hlt : ∀ {s : Slot}, s.Valid m → sp.addr m s < n .values := fun hs => hp.addr_lt h hs
    exact (((RunsAdd.plain (n := n) (v := lo f) (hlt (show (Slot.lower f).Valid m from hf)) (fun _ => rfl)).append
      (RunsAdd.atomicSub (v := sOwn f) (hlt (show (Slot.diag (m.own f)).Valid m from h.own_lt_int hf)))).append
      (RunsAdd.plain (v := up f) (hlt (show (Slot.upper f).Valid m from hf)) (fun _ => rfl))).append
      (RunsAdd.atomicSub (v := sNei f) (hlt (show (Slot.diag (m.nbr f)).Valid m from h.nbr_lt f hf)))
  · intro ls' ha
    refine ha.congr ?_ ?_
    · intro s hs
      simp only [Nat.sub_zero, Nat.zero_add, single, true_and]
      have hiff : ∀ {t : Slot}, t.Valid m → ((sp.addr m s = sp.addr m t) ↔ (s = t)) :=
        fun ht => ⟨fun he => hp.adr.inj _ _ hs ht he, fun he => by rw [he]⟩
      have : ∀ f ∈ range m.nInternalFaces,
          ((if sp.addr m s = sp.addr m (.lower f) then lo f else 0) + (if sp.addr m s = sp.addr m (.diag (m.own f)) then -sOwn f else 0)
          + (if sp.addr m s = sp.addr m (.upper f) then up f else 0)
          + (if sp.addr m s = sp.addr m (.diag (m.nbr f)) then -sNei f else 0))
        = ((if s = .lower f then lo f else 0) + (if s = .diag (m.own f) then -sOwn f else 0)
          + (if s = .upper f then up f else 0)
          + (if s = .diag (m.nbr f) then -sNei f else 0)) := by
        intro f hf
        rw [mem_range] at hf
        simp only [hiff (show (Slot.lower f).Valid m from hf), hiff (show (Slot.upper f).Valid m from hf),
          hiff (show (Slot.diag (m.own f)).Valid m from h.own_lt_int hf),
          hiff (show (Slot.diag (m.nbr f)).Valid m from h.nbr_lt f hf)]
      rw [Finset.sum_congr rfl this]
      cases s with
      | diag c => simp [faceDelta, eq_comm (a := c)]
      | upper f => simp [faceDelta, show f < m.nInternalFaces from hs]
      | lower f => simp [faceDelta, show f < m.nInternalFaces from hs]
    · intro c _
      simp [single]

/-- What a loop over cells or boundary faces adds. -/
def diagDelta (dg : Nat → V) : Slot → V
  | .diag c => dg c
  | _ => 0

/-- A loop whose thread `f` updates the diagonal and the right hand side of cell `cell f`. -/
theorem diagLoop_ok (h : m.WF) (hp : sp.For m) (e : ExecKind) (start stop : Nat) (cell : Nat → Nat) (body : Nat → Res (List (Act LSArr V)))
    (dg rh : Nat → V) (fd fr : Nat → V → V) (ls : LinearSystem V) (ho : ls.On sp m)
    (hcell : ∀ i, start ≤ i → i < stop → cell i < m.nCells)
    (hfd : ∀ i x, fd i x = x + dg i) (hfr : ∀ i x, fr i x = x + rh i)
    (hb : ∀ i, start ≤ i → i < stop → body i = .ok (Act.plain i .values (sp.addr m (.diag (cell i))) (fd i)
      ++ Act.plain i .rhs (cell i) (fr i)))
    (hc : e = .serial ∨ ∀ i j, start ≤ i → i < stop → start ≤ j → j < stop → cell i = cell j → i = j) :
    (launchLS e start stop body ls).Ok (fun ls' => Assembles m sp ls ls'
      (diagDelta fun c => ∑ k ∈ range (stop - start), if cell (start + k) = c then dg (start + k) else 0)
      (fun c => ∑ k ∈ range (stop - start), if cell (start + k) = c then rh (start + k) else 0)) := by
  classical
  refine (launchLS_ok h hp e start stop body (fun i => Act.plain i .values (sp.addr m (.diag (cell i))) (fd i)
      ++ Act.plain i .rhs (cell i) (fr i))
    (fun i a p => single LSArr.values (sp.addr m (.diag (cell i))) (dg i) a p + single LSArr.rhs (cell i) (rh i) a p)
    ls ho hb ?_ ?_).mono ?_
  · rcases hc with hc | hc
    · exact Or.inl hc
    right
    apply threadsCommute_map List.nodup_range'
    intro i hi j hj hij x hx y hy
    rw [List.mem_range'_1] at hi hj
    have hne : cell i ≠ cell j := fun he => hij (hc i j (by omega) (by omega) (by omega) (by omega) he)
    have hne' : sp.addr m (.diag (cell i)) ≠ sp.addr m (.diag (cell j)) := fun he => hne (by
      have := hp.adr.inj (.diag (cell i)) (.diag (cell j)) (hcell i (by omega) (by omega)) (hcell j (by omega) (by omega)) he
      simpa using this)
    have key : ∀ i x, x ∈ (Act.plain i LSArr.values (sp.addr m (.diag (cell i))) (fd i) ++ Act.plain i .rhs (cell i) (fr i)) →
        x.tid = some i ∧ (x.loc = (LSArr.values, sp.addr m (.diag (cell i))) ∨ x.loc = (LSArr.rhs, cell i)) := by
      intro i x hx
      simp only [Act.plain, List.cons_append, List.nil_append, List.mem_cons, List.not_mem_nil, or_false] at hx
      rcases hx with rfl | rfl | rfl | rfl
      · exact ⟨rfl, Or.inl rfl⟩
      · exact ⟨rfl, Or.inl rfl⟩
      · exact ⟨rfl, Or.inr rfl⟩
      · exact ⟨rfl, Or.inr rfl⟩
    obtain ⟨tx, lx⟩ := key i x hx
    obtain ⟨ty, ly⟩ := key j y hy
    refine comm_acts _ _ (by rw [tx, ty]; intro t ht; simp at ht ⊢; omega) (Or.inl ?_)
    rcases lx with lx | lx <;> rcases ly with ly | ly <;> rw [lx, ly] <;>
      simp only [ne_eq, Prod.mk.injEq, true_and, reduceCtorEq, false_and, not_false_iff]
    · exact hne'
    · exact hne
  · intro i h1 h2
    set n : LSArr → Nat := fun a => match a with | .values => sp.colIdxs.length | .rhs => m.nCells with hn
    exact (RunsAdd.plain (n := n) (a := .values) (hp.addr_lt h (show (Slot.diag (cell i)).Valid m from hcell i h1 h2)) (hfd i)).append
      (RunsAdd.plain (n := n) (a := .rhs) (hcell i h1 h2) (hfr i))
  · intro ls' ha
    refine ha.congr ?_ ?_
    · intro s hs
      simp only [single, true_and, reduceCtorEq, false_and, if_false, add_zero]
      have : ∀ k ∈ range (stop - start), (if sp.addr m s = sp.addr m (.diag (cell (start + k))) then dg (start + k) else 0)
          = if s = .diag (cell (start + k)) then dg (start + k) else 0 := by
        intro k hk
        rw [mem_range] at hk
        have hv : (Slot.diag (cell (start + k))).Valid m := hcell _ (by omega) (by omega)
        by_cases hh : s = .diag (cell (start + k))
        · rw [if_pos hh, if_pos (by rw [hh])]
        · rw [if_neg hh, if_neg (fun he => hh (hp.adr.inj _ _ hs hv he))]
      rw [Finset.sum_congr rfl this]
      cases s with
      | diag c => simp [diagDelta, eq_comm (a := c)]
      | upper f => simp [diagDelta]
      | lower f => simp [diagDelta]
    · intro c _
      simp [single, eq_comm (a := c)]

/-- A loop whose thread `i` updates the diagonal of cell `i`. -/
theorem diagOnly_ok (h : m.WF) (hp : sp.For m) (e : ExecKind) (body : Nat → Res (List (Act LSArr V)))
    (dg : Nat → V) (fd : Nat → V → V) (ls : LinearSystem V) (ho : ls.On sp m)
    (hfd : ∀ i x, fd i x = x + dg i)
    (hb : ∀ i < m.nCells, body i = .ok (Act.plain i .values (sp.addr m (.diag i)) (fd i))) :
    (launchLS e 0 m.nCells body ls).Ok (fun ls' => Assembles m sp ls ls' (diagDelta dg) (fun _ => 0)) := by
  classical
  refine (launchLS_ok h hp e 0 m.nCells body (fun i => Act.plain i .values (sp.addr m (.diag i)) (fd i))
    (fun i a p => single LSArr.values (sp.addr m (.diag i)) (dg i) a p)
    ls ho (fun i _ hi => hb i hi) ?_ ?_).mono ?_
  · right
    apply threadsCommute_map List.nodup_range'
    intro i hi j hj hij x hx y hy
    rw [List.mem_range'_1] at hi hj
    have hne' : sp.addr m (.diag i) ≠ sp.addr m (.diag j) := fun he => hij (by
      have := hp.adr.inj (.diag i) (.diag j) (show i < m.nCells by omega) (show j < m.nCells by omega) he
      simpa using this)
    have key : ∀ i x, x ∈ (Act.plain i LSArr.values (sp.addr m (.diag i)) (fd i)) →
        x.tid = some i ∧ x.loc = (LSArr.values, sp.addr m (.diag i)) := by
      intro i x hx
      simp only [Act.plain, List.mem_cons, List.not_mem_nil, or_false] at hx
      rcases hx with rfl | rfl
      · exact ⟨rfl, rfl⟩
      · exact ⟨rfl, rfl⟩
    obtain ⟨tx, lx⟩ := key i x hx
    obtain ⟨ty, ly⟩ := key j y hy
    refine comm_acts _ _ (by rw [tx, ty]; intro t ht; simp at ht ⊢; omega) (Or.inl ?_)
    rw [lx, ly]
    simpa using hne'
  · intro i _ h2
    exact RunsAdd.plain (n := fun a : LSArr => match a with | .values => sp.colIdxs.length | .rhs => m.nCells) (a := .values)
      (hp.addr_lt h (show (Slot.diag i).Valid m from h2)) (hfd i)
  · intro ls' ha
    refine ha.congr ?_ ?_
    · intro s hs
      simp only [single, true_and, Nat.zero_add, Nat.sub_zero]
      have : ∀ k ∈ range m.nCells, (if sp.addr m s = sp.addr m (.diag k) then dg k else 0)
          = if s = .diag k then dg k else 0 := by
        intro k hk
        rw [mem_range] at hk
        have hv : (Slot.diag k).Valid m := hk
        by_cases hh : s = .diag k
        · rw [if_pos hh, if_pos (by rw [hh])]
        · rw [if_neg hh, if_neg (fun he => hh (hp.adr.inj _ _ hs hv he))]
      rw [Finset.sum_congr rfl this]
      cases s with
      | diag c => simp [diagDelta, show c < m.nCells from hs]
      | upper f => simp [diagDelta]
      | lower f => simp [diagDelta]
    · intro c _
      simp [single]

end generic

end NeoFOAM
