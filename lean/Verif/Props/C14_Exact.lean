import Verif.Proofs.Realize
import Verif.Proofs.Shuffle
import Verif.Props.C32_Steady

/-!
# C14 – exactly which patterns the parallel executors can build
-/
namespace NeoFOAM
open Finset
variable {K : Type} [Field K] {m : Mesh K}

/-- In every row the entries of the faces the cell is neighbour of come first, then the diagonal, then those of the faces it owns. -/
structure SparsityPattern.Ordered (sp : SparsityPattern) (m : Mesh K) : Prop where
  lower : ∀ f < m.nInternalFaces, sp.addr m (.lower f) < sp.addr m (.diag (m.nbr f))
  upper : ∀ f < m.nInternalFaces, sp.addr m (.diag (m.own f)) < sp.addr m (.upper f)

theorem sorted_of_ordered (h : m.WF) {sp : SparsityPattern} (hp : sp.For m) (ho : sp.Ordered m) : sp.Sorted m := by
  have hd : ∀ c < m.nCells, sp.addr m (.diag c) = sp.rowPtrs.getD c 0 + m.loDeg c := by
    intro c hc
    have h1 := hp.adr.inRow (.diag c) hc
    simp only [Slot.row] at h1
    have hs := row_sum h hp (fun p => if p < sp.addr m (.diag c) then 1 else 0) hc
    have e1 : (∑ p ∈ Ico (sp.rowPtrs.getD c 0) (sp.rowPtrs.getD (c + 1) 0), if p < sp.addr m (.diag c) then 1 else 0) = sp.addr m (.diag c) - sp.rowPtrs.getD c 0 := by
      rw [← Finset.card_filter]
      have : (Ico (sp.rowPtrs.getD c 0) (sp.rowPtrs.getD (c + 1) 0)).filter (· < sp.addr m (.diag c)) = Ico (sp.rowPtrs.getD c 0) (sp.addr m (.diag c)) := by
        ext p
        simp only [mem_filter, Finset.mem_Ico]
        omega
      rw [this, Nat.card_Ico]
    have e2 : (∑ f ∈ range m.nInternalFaces, if m.own f = c then (if sp.addr m (.upper f) < sp.addr m (.diag c) then 1 else 0) else 0) = 0 := by
      refine Finset.sum_eq_zero fun f hf => ?_
      split
      · rename_i heq
        have := ho.upper f (mem_range.1 hf)
        rw [heq] at this
        rw [if_neg (by omega)]
      · rfl
    have e3 : (∑ f ∈ range m.nInternalFaces, if m.nbr f = c then (if sp.addr m (.lower f) < sp.addr m (.diag c) then 1 else 0) else 0) = m.loDeg c := by
      unfold Mesh.loDeg
      rw [Finset.card_filter]
      refine Finset.sum_congr rfl fun f hf => ?_
      split
      · rename_i heq
        have := ho.lower f (mem_range.1 hf)
        rw [heq] at this
        rw [if_pos this]
      · rfl
    rw [e1, e2, e3] at hs
    rw [if_neg (lt_irrefl _), zero_add, zero_add] at hs
    omega
  refine ⟨hd, fun f hf => ?_, fun f hf => ?_⟩
  · rw [← hd _ (h.nbr_lt f hf)]; exact ho.lower f hf
  · rw [← hd _ (h.own_lt_int hf)]; exact ho.upper f hf

omit [Field K] in
theorem SparsityPattern.Sorted.ordered (h : m.WF) {sp : SparsityPattern} (hs : sp.Sorted m) : sp.Ordered m := by
  refine ⟨fun f hf => ?_, fun f hf => ?_⟩
  · rw [hs.diagAt _ (h.nbr_lt f hf)]; exact hs.lowerAt f hf
  · rw [hs.diagAt _ (h.own_lt_int hf)]; exact hs.upperAt f hf

omit [Field K] in
/-- A pattern is given by the positions. -/
theorem pattern_unique {sp sp' : SparsityPattern} (h : m.WF) (hp : sp.For m) (hp' : sp'.For m) (ha : ∀ s : Slot, s.Valid m → sp'.addr m s = sp.addr m s) :
    sp' = sp := by
  have hr : sp'.rowPtrs = sp.rowPtrs := rowPtrs_eq hp'.rows hp.rows
  have key : ∀ (l l' : List Nat) (n : Nat), l.length = n → l'.length = n → (∀ i < n, l.getD i 0 = l'.getD i 0) → l = l' := by
    intro l l' n h1 h2 h3
    refine List.ext_getElem (h1.trans h2.symm) fun i a b => ?_
    have := h3 i (by omega)
    simpa [List.getD_eq_getElem?_getD, a, b] using this
  have hc : sp'.colIdxs = sp.colIdxs := by
    refine List.ext_getElem (by rw [hp.rows.nnz, hp'.rows.nnz]) fun p h1 h2 => ?_
    obtain ⟨s, hs, hsp⟩ := hp.adr.surj p h2
    have a1 := hp.adr.column s hs
    have a2 := hp'.adr.column s hs
    rw [ha s hs, hsp] at a2
    rw [hsp] at a1
    rw [List.getElem?_eq_getElem h1] at a2
    rw [List.getElem?_eq_getElem h2] at a1
    exact Option.some.inj (a2.trans a1.symm)
  have ho : sp'.ownerOffset = sp.ownerOffset := key _ _ _ hp'.olen hp.olen fun f hf => by
    have := ha (.upper f) hf
    simp only [SparsityPattern.addr, hr] at this
    omega
  have hn : sp'.neighbourOffset = sp.neighbourOffset := key _ _ _ hp'.nlen hp.nlen fun f hf => by
    have := ha (.lower f) hf
    simp only [SparsityPattern.addr, hr] at this
    omega
  have hd : sp'.diagOffset = sp.diagOffset := key _ _ _ hp'.dlen hp.dlen fun f hf => by
    have := ha (.diag f) hf
    simp only [SparsityPattern.addr, hr] at this
    omega
  cases sp; cases sp'
  simp only at hr hc ho hn hd
  subst hr hc ho hn hd
  rfl

/-- Some outcome is possible in which, if it is a value, `Q` holds. -/
def NR.Can {α : Type} (x : NR α) (Q : α → Prop) : Prop := ∃ out, x out ∧ ∀ a, out = .ok a → Q a

theorem NR.Can.bind {α β : Type} {x : NR α} {P Q : α → Prop} {f : α → NR β} {R : β → Prop} (hx : x.Can Q) (hP : x.Ok P)
    (hf : ∀ a, P a → Q a → (f a).Can R) : (x >>= f).Can R := by
  obtain ⟨out, h1, h2⟩ := hx
  obtain ⟨a, rfl, hPa⟩ := hP out h1
  obtain ⟨o, h3, h4⟩ := hf a hPa (h2 a rfl)
  exact ⟨o, (NR.bind_def _ _ _).2 ⟨.ok a, h1, h3⟩, h4⟩

theorem NR.Runs.can {α : Type} {x : NR α} (h : x.Runs) : x.Can fun _ => True := by
  obtain ⟨o, ho⟩ := h
  exact ⟨o, ho, fun _ _ => trivial⟩

omit [Field K] in
/-- Every numbering within the rows is possible. -/
theorem pattern_realize (h : m.WF) (tL tU : Nat → Nat)
    (hiL : ∀ f < m.nInternalFaces, tL f < m.loDeg (m.nbr f)) (injL : ∀ f < m.nInternalFaces, ∀ g < m.nInternalFaces, m.nbr f = m.nbr g → tL f = tL g → f = g)
    (loU : ∀ f < m.nInternalFaces, m.loDeg (m.own f) + 1 ≤ tU f) (hiU : ∀ f < m.nInternalFaces, tU f < m.loDeg (m.own f) + 1 + m.upDeg (m.own f))
    (injU : ∀ f < m.nInternalFaces, ∀ g < m.nInternalFaces, m.own f = m.own g → tU f = tU g → f = g) :
    (sparsityUpdate .parallel m).Can fun sp => ∀ f < m.nInternalFaces, sp.neighbourOffset.getD f 0 = tL f % 256 ∧ sp.ownerOffset.getD f 0 = tU f % 256 := by
  set n := m.nCells with hn
  set sz : Nat → Nat := fun c => 1 + m.deg c with hsz
  have hlast : Mesh.rp sz n n = n + 2 * m.nInternalFaces := by rw [rp_last]; exact sum_deg h
  have hlo : ∀ c, ((range m.nInternalFaces).filter (m.nbr · = c)).card = m.loDeg c := fun _ => rfl
  have hup : ∀ c, ((range m.nInternalFaces).filter (m.own · = c)).card = m.upDeg c := fun _ => rfl
  unfold sparsityUpdate
  refine NR.Can.bind (ticketRun_runs _ _ _ _ _).can (count_ok h .parallel (List.replicate m.nCells 1) (by simp)) ?_
  rintro ⟨cnt, x, y⟩ ⟨hl, hc⟩ -
  have hcnt : cnt = (List.range n).map sz := list_eq_of_getD hl (fun c hc' => by
    rw [hc c hc']; simp [List.getD, show c < m.nCells from hc', hsz])
  refine NR.Can.bind (NR.Runs.can ⟨_, (C10_offsets cnt _ (by simp [show cnt.length = m.nCells from hl]) _).2 rfl⟩) (segments_ok sz n cnt hcnt) ?_
  rintro ⟨tot, rowPtrs⟩ ⟨-, hrp⟩ -
  simp only at hrp
  refine NR.Can.bind (NR.Runs.can ⟨_, (parElem_det .parallel _ _ _ _ le_rfl _).2 rfl⟩) (fill_ok .parallel cnt n hl) ?_
  rintro cnt1 ⟨hl1, hc1⟩ -
  -- lower triangle
  have hbL : ∀ f < m.nInternalFaces, lowerBody m rowPtrs f = .ok (slotThread m.nbr (fun f => Mesh.rp sz n (m.nbr f)) m.own f) := by
    intro f hf
    simp only [lowerBody, h.rd_nbr hf, h.rd_owner_int hf, Res.ok_bind, hrp,
      rd_map_range (show m.nbr f < n + 1 by have := h.nbr_lt f hf; omega)]
    rfl
  refine NR.Can.bind (ticket_realize m.nInternalFaces m.nbr _ m.own tL (fun _ => 0) cnt1 (List.replicate (n + 2 * m.nInternalFaces) 0)
    (List.replicate m.nInternalFaces 0) (lowerBody m rowPtrs) hbL (fun f hf => hc1 _ (h.nbr_lt f hf)) (fun _ _ => Nat.zero_le _)
    (fun f hf => by rw [hlo]; simpa using hiL f hf) injL)
    (one_ok [.fetch 0, .off 0, .col 0] (by decide) m.nInternalFaces m.nbr m.own (fun _ => 0) sz n
    (List.replicate (n + 2 * m.nInternalFaces) 0) m.nInternalFaces (by decide) (Or.inl (by decide))
    (fun f hf => h.nbr_lt f hf) (fun _ _ => le_rfl)
    (fun f _ => by
      show 0 + m.loDeg (m.nbr f) ≤ 1 + m.deg (m.nbr f)
      rw [Mesh.deg_eq]; omega)
    (by rw [hlast]; simp) .parallel _ rfl cnt1
    (List.replicate m.nInternalFaces 0) (lowerBody m rowPtrs) (by
      intro f hf
      rw [hbL f hf]
      simp [slotThread, TI.act, onePar]) hl1 hc1 (by simp)) ?_
  rintro ⟨cnt2, col2, nOff⟩ ⟨tkL, F2, hnl, -⟩ hnO
  simp only at F2 hnO hnl
  -- diagonal
  have hsingle : ∀ c < n, ((range n).filter (· = c)).card = 1 := by
    intro c hc'
    rw [card_eq_one]
    exact ⟨c, by
      ext x
      simp only [mem_filter, mem_range, mem_singleton]
      exact ⟨fun h => h.2, by rintro rfl; exact ⟨hc', rfl⟩⟩⟩
  refine NR.Can.bind (ticketRun_runs _ _ _ _ _).can (one_ok [.load 0, .off 0, .col 0, .store 0] (by decide) n (fun c => c) (fun c => c) m.loDeg sz n
    col2 n (by decide) (Or.inr (fun r _ r' _ hr => hr))
    (fun f hf => hf) (fun _ _ => le_rfl) (fun c hc' => by
      rw [hsingle c hc']; simp only [hsz, Mesh.deg_eq]; omega)
    (by rw [hlast, F2.colLen]; simp) .parallel _ F2.cntLen cnt2
    (List.replicate m.nCells 0) (diagBody rowPtrs) (by
      intro f hf
      simp only [diagBody, hrp, rd_map_range (show f < n + 1 by omega)]
      simp [TI.act, onePar]) F2.cntLen
    (fun c hc' => by rw [F2.cnt c hc', hlo]; simp) (by simp [hn])) ?_
  rintro ⟨cnt3, col3, dOff⟩ ⟨tkD, F3, hdl, -⟩ -
  simp only at F3 hdl
  -- upper triangle
  have hbU : ∀ f < m.nInternalFaces, upperBody m rowPtrs f = .ok (slotThread m.own (fun f => Mesh.rp sz n (m.own f)) m.nbr f) := by
    intro f hf
    simp only [upperBody, h.rd_nbr hf, h.rd_owner_int hf, Res.ok_bind, hrp,
      rd_map_range (show m.own f < n + 1 by have := h.own_lt_int hf; omega)]
    rfl
  refine NR.Can.bind (ticket_realize m.nInternalFaces m.own _ m.nbr tU (fun c => m.loDeg c + 1) cnt3 col3
    (List.replicate m.nInternalFaces 0) (upperBody m rowPtrs) hbU (fun f hf => by rw [F3.cnt _ (h.own_lt_int hf), hsingle _ (h.own_lt_int hf)]) loU
    (fun f hf => by rw [hup]; exact hiU f hf) injU)
    (one_ok [.fetch 0, .off 0, .col 0] (by decide) m.nInternalFaces m.own m.nbr
    (fun c => m.loDeg c + 1) sz n
    col3 m.nInternalFaces (by decide) (Or.inl (by decide))
    (fun f hf => h.own_lt_int hf) (fun _ _ => le_rfl)
    (fun f _ => by
      show m.loDeg (m.own f) + 1 + m.upDeg (m.own f) ≤ 1 + m.deg (m.own f)
      rw [Mesh.deg_eq]; omega)
    (by rw [hlast, F3.colLen, F2.colLen]; simp) .parallel _ rfl cnt3
    (List.replicate m.nInternalFaces 0) (upperBody m rowPtrs) (by
      intro f hf
      rw [hbU f hf]
      simp [slotThread, TI.act, onePar]) F3.cntLen
    (fun c hc' => by rw [F3.cnt c hc', hsingle c hc']) (by simp)) ?_
  rintro ⟨cnt4, col4, oOff⟩ - hoO
  simp only at hoO
  exact ⟨_, rfl, fun sp hsp => by
    cases hsp
    exact fun f hf => ⟨hnO f hf, hoO f hf⟩⟩

/-- **C14, exactly**: on a valid mesh without rows of more than 256 entries, the parallel executors can build the pattern `sp` if and only if
it stores each entry of the mesh exactly once, at the place its offsets give, in rows in which the entries of the faces the cell is
neighbour of come first, then the diagonal, then those of the faces it owns. Every such order within a row occurs on some schedule. -/
theorem C14_exact (m : Mesh K) (h : m.WF) (h256 : ∀ c < m.nCells, 1 + m.deg c ≤ 256) (out : Res SparsityPattern) :
    sparsityUpdate .parallel m out ↔ ∃ sp, out = .ok sp ∧ sp.For m ∧ sp.Ordered m := by
  constructor
  · intro hout
    obtain ⟨sp, rfl, hp⟩ := pattern_for m h h256 .parallel out hout
    exact ⟨sp, rfl, hp, (pattern_sorted h h256 .parallel sp hout).ordered h⟩
  · rintro ⟨sp, rfl, hp, ho⟩
    have hs := sorted_of_ordered h hp ho
    have hrow : ∀ s : Slot, s.Valid m → sp.addr m s < sp.rowPtrs.getD (s.row m) 0 + (1 + m.deg (s.row m)) := fun s hv => by
      rw [← hp.rows.size _ (s.row_lt h hv)]
      exact (hp.adr.inRow s hv).2
    have aL : ∀ f < m.nInternalFaces, sp.addr m (.lower f) = sp.rowPtrs.getD (m.nbr f) 0 + sp.neighbourOffset.getD f 0 := fun _ _ => rfl
    have aU : ∀ f < m.nInternalFaces, sp.addr m (.upper f) = sp.rowPtrs.getD (m.own f) 0 + sp.ownerOffset.getD f 0 := fun _ _ => rfl
    have hiL : ∀ f < m.nInternalFaces, sp.neighbourOffset.getD f 0 < m.loDeg (m.nbr f) := fun f hf => by
      have := hs.lowerAt f hf
      rw [aL f hf] at this
      omega
    have hbU : ∀ f < m.nInternalFaces, m.loDeg (m.own f) + 1 ≤ sp.ownerOffset.getD f 0 ∧ sp.ownerOffset.getD f 0 < m.loDeg (m.own f) + 1 + m.upDeg (m.own f) :=
      fun f hf => by
        have h1 := hs.upperAt f hf
        have h2 := hrow (.upper f) hf
        simp only [Slot.row] at h2
        rw [aU f hf] at h1 h2
        rw [Mesh.deg_eq] at h2
        omega
    obtain ⟨o, h1, h2⟩ := pattern_realize h (fun f => sp.neighbourOffset.getD f 0) (fun f => sp.ownerOffset.getD f 0) hiL
      (fun f hf g hg hc he => by
        have := hp.adr.inj (.lower f) (.lower g) hf hg (by rw [aL f hf, aL g hg, hc]; exact congrArg _ he)
        injection this)
      (fun f hf => (hbU f hf).1) (fun f hf => (hbU f hf).2)
      (fun f hf g hg hc he => by
        have := hp.adr.inj (.upper f) (.upper g) hf hg (by rw [aU f hf, aU g hg, hc]; exact congrArg _ he)
        injection this)
    obtain ⟨sp', rfl, hp'⟩ := pattern_for m h h256 .parallel o h1
    have hs' := pattern_sorted h h256 .parallel sp' h1
    have hr : sp'.rowPtrs = sp.rowPtrs := rowPtrs_eq hp'.rows hp.rows
    have hlt : ∀ s : Slot, s.Valid m → sp.addr m s - sp.rowPtrs.getD (s.row m) 0 < 256 := fun s hv => by
      have := hrow s hv
      have := h256 _ (s.row_lt h hv)
      omega
    have : sp' = sp := by
      refine pattern_unique h hp hp' fun s hv => ?_
      cases s with
      | diag c => rw [hs.diagAt c hv, hs'.diagAt c hv, hr]
      | upper f =>
        have h3 := (h2 sp' rfl f hv).2
        have h4 := hlt (.upper f) hv
        simp only [Slot.row] at h4
        rw [aU f hv] at h4
        rw [Nat.mod_eq_of_lt (by omega)] at h3
        show sp'.rowPtrs.getD (m.own f) 0 + sp'.ownerOffset.getD f 0 = _
        rw [h3, hr]
        rfl
      | lower f =>
        have h3 := (h2 sp' rfl f hv).1
        have h4 := hlt (.lower f) hv
        simp only [Slot.row] at h4
        rw [aL f hv] at h4
        rw [Nat.mod_eq_of_lt (by omega)] at h3
        show sp'.rowPtrs.getD (m.nbr f) 0 + sp'.neighbourOffset.getD f 0 = _
        rw [h3, hr]
        rfl
    rw [← this]
    exact h1

/-! ### Every exchange -/

omit [Field K] in
theorem Mesh.Shuffles.valid {π : Slot → Slot} (hπ : m.Shuffles π) {s : Slot} (hs : s.Valid m) : (π s).Valid m ∧ (π s).row m = s.row m := by
  cases s with
  | diag c => rw [hπ.diag c hs]; exact ⟨hs, rfl⟩
  | upper f => obtain ⟨g, h1, h2, h3⟩ := hπ.upper f hs; rw [h2]; exact ⟨h1, h3⟩
  | lower f => obtain ⟨g, h1, h2, h3⟩ := hπ.lower f hs; rw [h2]; exact ⟨h1, h3⟩

omit [Field K] in
/-- An exchange reaches every entry. -/
theorem Mesh.Shuffles.surj (h : m.WF) {π : Slot → Slot} (hπ : m.Shuffles π) {sp : SparsityPattern} (hp : sp.For m) {t : Slot} (ht : t.Valid m) :
    ∃ s : Slot, s.Valid m ∧ π s = t := by
  obtain ⟨s, h1, h2⟩ := addr_surj (m := m) (N := sp.colIdxs.length) (addr := fun s => sp.addr m (π s)) hp.rows.nnz
    (fun s hs => hp.addr_lt h (hπ.valid hs).1)
    (fun s t hs ht he => hπ.inj s t hs ht (hp.adr.inj _ _ (hπ.valid hs).1 (hπ.valid ht).1 he)) (sp.addr m t) (hp.addr_lt h ht)
  exact ⟨s, h1, hp.adr.inj _ _ (hπ.valid h1).1 ht h2⟩

/-- **C14, every exchange occurs**: whatever pattern was built before, the parallel executors can build the one that results from it by
any exchange of entries within the rows. -/
theorem shuffle_realize (h : m.WF) (h256 : ∀ c < m.nCells, 1 + m.deg c ≤ 256) (e0 : ExecKind) {sp : SparsityPattern} (hsp : sparsityUpdate e0 m (.ok sp))
    {π : Slot → Slot} (hπ : m.Shuffles π) :
    ∃ sp', sparsityUpdate .parallel m (.ok sp') ∧ ∀ s : Slot, s.Valid m → (π s).Valid m ∧ sp'.addr m (π s) = sp.addr m s := by
  obtain ⟨_, hee, hp⟩ := pattern_for m h h256 e0 _ hsp
  cases hee
  have hs := pattern_sorted h h256 e0 sp hsp
  have hinv : ∀ t : Slot, ∃ s : Slot, t.Valid m → s.Valid m ∧ π s = t := fun t => by
    by_cases ht : t.Valid m
    · obtain ⟨s, h1, h2⟩ := hπ.surj h hp ht
      exact ⟨s, fun _ => ⟨h1, h2⟩⟩
    · exact ⟨t, fun h => absurd h ht⟩
  choose ρ hρ using hinv
  have hup : ∀ g < m.nInternalFaces, ∃ f < m.nInternalFaces, ρ (.upper g) = .upper f ∧ m.own f = m.own g := by
    intro g hg
    obtain ⟨h1, h2⟩ := hρ (.upper g) hg
    revert h1 h2
    cases ρ (.upper g) with
    | diag c => intro h1 h2; rw [hπ.diag c h1] at h2; cases h2
    | upper f => intro h1 h2; obtain ⟨g', -, h3, h4⟩ := hπ.upper f h1; rw [h3] at h2; cases h2; exact ⟨f, h1, rfl, h4.symm⟩
    | lower f => intro h1 h2; obtain ⟨g', -, h3, h4⟩ := hπ.lower f h1; rw [h3] at h2; cases h2
  have hlo : ∀ g < m.nInternalFaces, ∃ f < m.nInternalFaces, ρ (.lower g) = .lower f ∧ m.nbr f = m.nbr g := by
    intro g hg
    obtain ⟨h1, h2⟩ := hρ (.lower g) hg
    revert h1 h2
    cases ρ (.lower g) with
    | diag c => intro h1 h2; rw [hπ.diag c h1] at h2; cases h2
    | upper f => intro h1 h2; obtain ⟨g', -, h3, h4⟩ := hπ.upper f h1; rw [h3] at h2; cases h2
    | lower f => intro h1 h2; obtain ⟨g', -, h3, h4⟩ := hπ.lower f h1; rw [h3] at h2; cases h2; exact ⟨f, h1, rfl, h4.symm⟩
  have hrow : ∀ s : Slot, s.Valid m → sp.rowPtrs.getD (s.row m) 0 ≤ sp.addr m s ∧ sp.addr m s < sp.rowPtrs.getD (s.row m) 0 + (1 + m.deg (s.row m)) := fun s hv => by
    rw [← hp.rows.size _ (s.row_lt h hv)]
    exact hp.adr.inRow s hv
  have hinj : ∀ s t : Slot, s.Valid m → t.Valid m → sp.addr m (ρ s) = sp.addr m (ρ t) → s = t := by
    intro s t hs ht he
    obtain ⟨h1, h2⟩ := hρ s hs
    obtain ⟨h3, h4⟩ := hρ t ht
    rw [← h2, ← h4, hp.adr.inj _ _ h1 h3 he]
  have fL : ∀ g < m.nInternalFaces, sp.rowPtrs.getD (m.nbr g) 0 ≤ sp.addr m (ρ (.lower g)) ∧
      sp.addr m (ρ (.lower g)) < sp.rowPtrs.getD (m.nbr g) 0 + m.loDeg (m.nbr g) := by
    intro g hg
    obtain ⟨f, h1, h2, h3⟩ := hlo g hg
    rw [h2, ← h3]
    exact ⟨(hrow (.lower f) h1).1, hs.lowerAt f h1⟩
  have fU : ∀ g < m.nInternalFaces, sp.rowPtrs.getD (m.own g) 0 + m.loDeg (m.own g) < sp.addr m (ρ (.upper g)) ∧
      sp.addr m (ρ (.upper g)) < sp.rowPtrs.getD (m.own g) 0 + (1 + m.deg (m.own g)) := by
    intro g hg
    obtain ⟨f, h1, h2, h3⟩ := hup g hg
    rw [h2, ← h3]
    exact ⟨hs.upperAt f h1, (hrow (.upper f) h1).2⟩
  obtain ⟨o, h1, h2⟩ := pattern_realize h (fun g => sp.addr m (ρ (.lower g)) - sp.rowPtrs.getD (m.nbr g) 0)
    (fun g => sp.addr m (ρ (.upper g)) - sp.rowPtrs.getD (m.own g) 0)
    (fun g hg => by have := fL g hg; omega)
    (fun f hf g hg hc he => by
      have a := fL f hf
      have b := fL g hg
      simp only [hc] at he a
      have := hinj (.lower f) (.lower g) hf hg (by omega)
      injection this)
    (fun g hg => by have := fU g hg; omega)
    (fun g hg => by have := fU g hg; rw [Mesh.deg_eq] at this; omega)
    (fun f hf g hg hc he => by
      have a := fU f hf
      have b := fU g hg
      simp only [hc] at he a
      have := hinj (.upper f) (.upper g) hf hg (by omega)
      injection this)
  obtain ⟨sp', rfl, hp'⟩ := pattern_for m h h256 .parallel o h1
  have hs' := pattern_sorted h h256 .parallel sp' h1
  have hr : sp'.rowPtrs = sp.rowPtrs := rowPtrs_eq hp'.rows hp.rows
  have key : ∀ t : Slot, t.Valid m → sp'.addr m t = sp.addr m (ρ t) := by
    intro t ht
    cases t with
    | diag c =>
      obtain ⟨h3, h4⟩ := hρ (.diag c) ht
      have : ρ (.diag c) = .diag c := hπ.inj _ _ h3 ht (h4.trans (hπ.diag c ht).symm)
      rw [this, hs.diagAt c ht, hs'.diagAt c ht, hr]
    | upper g =>
      have h3 := (h2 sp' rfl g ht).2
      have h4 := fU g ht
      have h5 := h256 _ (h.own_lt_int ht)
      rw [Nat.mod_eq_of_lt (by omega)] at h3
      show sp'.rowPtrs.getD (m.own g) 0 + sp'.ownerOffset.getD g 0 = _
      rw [h3, hr]
      omega
    | lower g =>
      have h3 := (h2 sp' rfl g ht).1
      have h4 := fL g ht
      have h5 := h256 _ (h.nbr_lt g ht)
      rw [Mesh.deg_eq] at h5
      rw [Nat.mod_eq_of_lt (by omega)] at h3
      show sp'.rowPtrs.getD (m.nbr g) 0 + sp'.neighbourOffset.getD g 0 = _
      rw [h3, hr]
      omega
  refine ⟨sp', h1, fun s hv => ⟨(hπ.valid hv).1, ?_⟩⟩
  rw [key _ (hπ.valid hv).1]
  obtain ⟨h3, h4⟩ := hρ _ (hπ.valid hv).1
  rw [hπ.inj _ _ h3 hv h4]

omit [Field K] in
/-- An exchange determines the pattern. -/
theorem shuffle_unique (h : m.WF) {sp sp1 sp2 : SparsityPattern} (hp : sp.For m) (hp1 : sp1.For m) (hp2 : sp2.For m) {π : Slot → Slot} (hπ : m.Shuffles π)
    (h1 : ∀ s : Slot, s.Valid m → (π s).Valid m ∧ sp1.addr m (π s) = sp.addr m s) (h2 : ∀ s : Slot, s.Valid m → (π s).Valid m ∧ sp2.addr m (π s) = sp.addr m s) :
    sp2 = sp1 := by
  refine pattern_unique h hp1 hp2 fun t ht => ?_
  obtain ⟨s, hs, rfl⟩ := hπ.surj h hp ht
  rw [(h1 s hs).2, (h2 s hs).2]

/-- The system built on the parallel executors: exactly one possible outcome for each exchange. -/
theorem system_exact (h : m.WF) (h256 : ∀ c < m.nCells, 1 + m.deg c ≤ 256) (e0 : ExecKind) {sp : SparsityPattern} (hsp : sparsityUpdate e0 m (.ok sp))
    {F : LinearSystem K → NR (LinearSystem K)} {dv : Slot → K} {dr : Nat → K} (hF : AssemblesTo m sp F dv dr)
    (hcol : ∀ cols ls, NR.Rel (ColRel cols) (F ls) (F (ls.columns cols))) :
    ∃ sys : (Slot → Slot) → LinearSystem K,
      (∀ π, m.Shuffles π → (sys π).StoredFor m ∧ ∀ x, ∀ c < m.nCells, (sys π).residual x c = shuffledResidual m π dv dr x c) ∧
      ∀ out, (sparsityUpdate .parallel m >>= fun sp => NR.lift (createEmptyLinearSystem sp) >>= F : NR (LinearSystem K)) out ↔
        ∃ π, m.Shuffles π ∧ out = .ok (sys π) := by
  obtain ⟨_, hee, hp⟩ := pattern_for m h h256 e0 _ hsp
  cases hee
  obtain ⟨l0, c0, on0, v0, r0⟩ := empty_vals (K := K) hp
  obtain ⟨l1, a1, d1⟩ := hF l0 on0
  have hex : ∀ π : Slot → Slot, ∃ sp' : SparsityPattern, m.Shuffles π → sparsityUpdate .parallel m (.ok sp') ∧
      ∀ s : Slot, s.Valid m → (π s).Valid m ∧ sp'.addr m (π s) = sp.addr m s := fun π => by
    by_cases hπ : m.Shuffles π
    · obtain ⟨sp', h1, h2⟩ := shuffle_realize h h256 e0 hsp hπ
      exact ⟨sp', fun _ => ⟨h1, h2⟩⟩
    · exact ⟨sp, fun h => absurd h hπ⟩
  choose pat hpat using hex
  have hfor : ∀ {sp'}, sparsityUpdate .parallel m (.ok sp') → sp'.For m := fun {sp'} hu => by
    obtain ⟨_, hee, hp'⟩ := pattern_for m h h256 .parallel _ hu
    cases hee
    exact hp'
  have hrun : ∀ {sp'}, sparsityUpdate .parallel m (.ok sp') → ∀ out, (NR.lift (createEmptyLinearSystem sp') >>= F : NR (LinearSystem K)) out ↔
      out = .ok (l1.columns sp'.colIdxs) := by
    intro sp' hu out
    obtain ⟨l0', c0', -⟩ := empty_vals (K := K) (hfor hu)
    have e0 := empty_columns hp (hfor hu) c0 c0'
    refine Iff.trans (NR.bind_iff (a := l0') (fun o => by rw [c0']; exact Iff.rfl) out) ?_
    rw [e0, colRel_iff.1 (hcol _ l0) out]
    constructor
    · rintro ⟨o, h1, rfl⟩
      cases (d1 _).1 h1
      rfl
    · rintro rfl
      exact ⟨_, (d1 _).2 rfl, rfl⟩
  refine ⟨fun π => l1.columns (pat π).colIdxs, fun π hπ => ?_, fun out => ?_⟩
  · obtain ⟨h1, h2⟩ := hpat π hπ
    refine ⟨⟨_, hfor h1, columns_on hp (hfor h1) a1.on⟩, fun x c hc => ?_⟩
    refine columns_residual h hp (hfor h1) h2 a1.on (fun s hs => ?_) (fun c hc => ?_) x hc
    · rw [a1.coef s hs, v0, zero_add]
    · rw [a1.rhs c hc, r0, zero_add]
  · constructor
    · intro hout
      obtain ⟨r, hr, ho⟩ := (NR.bind_def _ _ _).1 hout
      obtain ⟨sp', rfl, hp'⟩ := pattern_for m h h256 .parallel _ hr
      obtain ⟨π, hπ, hadr⟩ := exists_shuffle h hp (pattern_sorted h h256 e0 sp hsp) hp' (pattern_sorted h h256 .parallel sp' hr)
      obtain ⟨h1, h2⟩ := hpat π hπ
      refine ⟨π, hπ, ?_⟩
      show out = .ok (l1.columns (pat π).colIdxs)
      rw [← shuffle_unique h hp (hfor h1) hp' hπ h2 hadr]
      exact (hrun hr out).1 ho
    · rintro ⟨π, hπ, rfl⟩
      obtain ⟨h1, h2⟩ := hpat π hπ
      exact (NR.bind_def _ _ _).2 ⟨_, h1, (hrun h1 _).2 rfl⟩

/-- The patterns of the fan in both orders are among those of `C14_exact`. -/
example : (∃ sp : SparsityPattern, sp.For (fanMesh 1 2) ∧ sp.Ordered (fanMesh 1 2) ∧ sp.addr (fanMesh 1 2) (.upper 0) = 1) ∧
    ∃ sp : SparsityPattern, sp.For (fanMesh 1 2) ∧ sp.Ordered (fanMesh 1 2) ∧ sp.addr (fanMesh 1 2) (.upper 0) = 2 := by
  have h256 : ∀ c < (fanMesh 1 2).nCells, 1 + (fanMesh 1 2).deg c ≤ 256 := by
    intro c hc
    have hc : c < 3 := hc
    interval_cases c <;> decide
  constructor
  · obtain ⟨_, he, h1, h2⟩ := (C14_exact _ fanMesh_wf.2 h256 _).1 fan_run_ordered
    cases he
    exact ⟨_, h1, h2, rfl⟩
  · obtain ⟨_, he, h1, h2⟩ := (C14_exact _ fanMesh_wf.2 h256 _).1 fan_run_parallel
    cases he
    exact ⟨_, h1, h2, rfl⟩

end NeoFOAM
