import Verif.Proofs.Sparsity
import Verif.Spec.Witness

/-!
# C14 – the sparsity pattern stores each matrix entry of a mesh exactly once, on every schedule

The rows and columns are right on every mesh and every interleaving. The 8-bit offsets name the right
entries exactly when no row has more than 256 entries (`C14_offsets_partial`, `C14_offsets_alias`).
-/
namespace NeoFOAM
open Finset
variable {K : Type}

section proofs
variable {m : Mesh K}

/-- Everything known about the outcome (proof side). -/
structure PatternFacts (m : Mesh K) (sp : SparsityPattern) (addr : Slot → Nat) : Prop where
  rows : RowsOK m sp.rowPtrs sp.colIdxs
  adr : Addresses m sp.rowPtrs sp.colIdxs addr
  olen : sp.ownerOffset.length = m.nInternalFaces
  nlen : sp.neighbourOffset.length = m.nInternalFaces
  dlen : sp.diagOffset.length = m.nCells
  diag : ∀ c < m.nCells, sp.diagOffset.getD c 0 = (addr (.diag c) - sp.rowPtrs.getD c 0) % 256
  upper : ∀ f < m.nInternalFaces, sp.ownerOffset.getD f 0 =
    (addr (.upper f) - sp.rowPtrs.getD (m.own f) 0) % 256
  lower : ∀ f < m.nInternalFaces, sp.neighbourOffset.getD f 0 =
    (addr (.lower f) - sp.rowPtrs.getD (m.nbr f) 0) % 256
  diagAt : ∀ c < m.nCells, addr (.diag c) = sp.rowPtrs.getD c 0 + m.loDeg c
  lowerAt : ∀ f < m.nInternalFaces, addr (.lower f) < sp.rowPtrs.getD (m.nbr f) 0 + m.loDeg (m.nbr f)
  upperAt : ∀ f < m.nInternalFaces, sp.rowPtrs.getD (m.own f) 0 + m.loDeg (m.own f) < addr (.upper f)

/-- Enumeration of the entries a mesh needs (proof side). -/
def slotOf (m : Mesh K) (i : Nat) : Slot :=
  if i < m.nCells then .diag i
  else if i < m.nCells + m.nInternalFaces then .upper (i - m.nCells)
  else .lower (i - m.nCells - m.nInternalFaces)

theorem slotOf_valid {i : Nat} (h : i < m.nCells + 2 * m.nInternalFaces) : (slotOf m i).Valid m := by
  unfold slotOf
  split
  · simpa [Slot.Valid]
  · split <;> simp only [Slot.Valid] <;> omega

theorem slotOf_inj {i j : Nat} (h : slotOf m i = slotOf m j) : i = j := by
  unfold slotOf at h
  split at h <;> split at h
  all_goals (try split at h)
  all_goals (try split at h)
  all_goals (simp only [Slot.diag.injEq, Slot.upper.injEq, Slot.lower.injEq, reduceCtorEq] at h)
  all_goals omega

/-- An injective assignment of positions to the needed entries uses every position. -/
theorem addr_surj {N : Nat} {addr : Slot → Nat} (hN : N = m.nCells + 2 * m.nInternalFaces)
    (hlt : ∀ s, s.Valid m → addr s < N) (hinj : ∀ s t, s.Valid m → t.Valid m → addr s = addr t → s = t) :
    ∀ p < N, ∃ s, s.Valid m ∧ addr s = p := by
  intro p hp
  have := Finset.surj_on_of_inj_on_of_card_le (s := range N) (t := range N) (fun i _ => addr (slotOf m i))
    (fun i hi => mem_range.2 (hlt _ (slotOf_valid (hN ▸ mem_range.1 hi))))
    (fun i j hi hj h => slotOf_inj (hinj _ _ (slotOf_valid (hN ▸ mem_range.1 hi))
      (slotOf_valid (hN ▸ mem_range.1 hj)) h)) le_rfl p (mem_range.2 hp)
  obtain ⟨i, hi, h⟩ := this
  exact ⟨_, slotOf_valid (hN ▸ mem_range.1 hi), h.symm⟩

theorem getElem?_of_getD {l : List Nat} {i x : Nat} (h : i < l.length) (hx : l.getD i 0 = x) :
    l[i]? = some x := by
  rw [List.getD, List.getElem?_eq_getElem h] at hx
  rw [List.getElem?_eq_getElem h]
  simpa using hx

theorem sum_deg (h : m.WF) :
    ∑ c ∈ range m.nCells, (1 + m.deg c) = m.nCells + 2 * m.nInternalFaces := by
  simp only [Finset.sum_add_distrib, Mesh.deg_eq]
  have e1 : ∑ c ∈ range m.nCells, m.upDeg c = m.nInternalFaces :=
    sum_fiber m.own _ _ (fun f hf => h.own_lt_int hf)
  have e2 : ∑ c ∈ range m.nCells, m.loDeg c = m.nInternalFaces :=
    sum_fiber m.nbr _ _ (fun f hf => h.nbr_lt f hf)
  rw [e1, e2]; simp; ring

theorem sparsity_facts (h : m.WF) (e : ExecKind) :
    (sparsityUpdate e m).Ok fun sp => ∃ addr, PatternFacts m sp addr := by
  set n := m.nCells with hn
  set sz : Nat → Nat := fun c => 1 + m.deg c with hsz
  have hlast : Mesh.rp sz n n = n + 2 * m.nInternalFaces := by rw [rp_last]; exact sum_deg h
  unfold sparsityUpdate
  refine (count_ok h e (List.replicate m.nCells 1) (by simp)).bind ?_
  rintro ⟨cnt, x, y⟩ ⟨hl, hc⟩
  have hcnt : cnt = (List.range n).map sz := list_eq_of_getD hl (fun c hc' => by
    rw [hc c hc']; simp [List.getD, show c < m.nCells from hc', hsz])
  refine (segments_ok sz n cnt hcnt).bind ?_
  rintro ⟨tot, rowPtrs⟩ ⟨-, hrp⟩
  simp only at hrp
  refine (fill_ok e cnt n hl).bind ?_
  rintro cnt1 ⟨hl1, hc1⟩
  -- lower triangle
  refine (one_ok [.fetch 0, .off 0, .col 0] (by decide) m.nInternalFaces m.nbr m.own (fun _ => 0) sz n
    (List.replicate (n + 2 * m.nInternalFaces) 0) m.nInternalFaces (by decide) (Or.inl (by decide))
    (fun f hf => h.nbr_lt f hf) (fun _ _ => le_rfl)
    (fun f _ => by
      show 0 + m.loDeg (m.nbr f) ≤ 1 + m.deg (m.nbr f)
      rw [Mesh.deg_eq]; omega)
    (by rw [hlast]; simp) e _ rfl cnt1
    (List.replicate m.nInternalFaces 0) (lowerBody m rowPtrs) (by
      intro f hf
      simp only [lowerBody, h.rd_nbr hf, h.rd_owner_int hf, Res.ok_bind, hrp,
        rd_map_range (show m.nbr f < n + 1 by have := h.nbr_lt f hf; omega)]
      simp [TI.act, onePar]) hl1 hc1 (by simp)).bind ?_
  rintro ⟨cnt2, col2, nOff⟩ ⟨tkL, F2, hnl, hno⟩
  have hno := hno (by decide)
  simp only at F2 hno hnl
  -- diagonal
  have hlo : ∀ c, ((range m.nInternalFaces).filter (m.nbr · = c)).card = m.loDeg c := fun _ => rfl
  have hup : ∀ c, ((range m.nInternalFaces).filter (m.own · = c)).card = m.upDeg c := fun _ => rfl
  have hsingle : ∀ c < n, ((range n).filter (· = c)).card = 1 := by
    intro c hc'
    rw [card_eq_one]
    exact ⟨c, by
      ext x
      simp only [mem_filter, mem_range, mem_singleton]
      exact ⟨fun h => h.2, by rintro rfl; exact ⟨hc', rfl⟩⟩⟩
  refine (one_ok [.load 0, .off 0, .col 0, .store 0] (by decide) n (fun c => c) (fun c => c) m.loDeg sz n
    col2 n (by decide) (Or.inr (fun r _ r' _ hr => hr))
    (fun f hf => hf) (fun _ _ => le_rfl) (fun c hc' => by
      rw [hsingle c hc']; simp only [hsz, Mesh.deg_eq]; omega)
    (by rw [hlast, F2.colLen]; simp) e _ F2.cntLen cnt2
    (List.replicate m.nCells 0) (diagBody rowPtrs) (by
      intro f hf
      simp only [diagBody, hrp, rd_map_range (show f < n + 1 by omega)]
      simp [TI.act, onePar]) F2.cntLen
    (fun c hc' => by rw [F2.cnt c hc', hlo]; simp) (by simp [hn])).bind ?_
  rintro ⟨cnt3, col3, dOff⟩ ⟨tkD, F3, hdl, hdo⟩
  have hdo := hdo (by decide)
  simp only at F3 hdo hdl
  have htkD : ∀ c < n, tkD c = m.loDeg c := by
    intro c hc'
    have h1 := F3.lo c hc'
    have h2 := F3.hi c hc'
    rw [hsingle c hc'] at h2
    omega
  -- upper triangle
  refine (one_ok [.fetch 0, .off 0, .col 0] (by decide) m.nInternalFaces m.own m.nbr
    (fun c => m.loDeg c + 1) sz n
    col3 m.nInternalFaces (by decide) (Or.inl (by decide))
    (fun f hf => h.own_lt_int hf) (fun _ _ => le_rfl)
    (fun f _ => by
      show m.loDeg (m.own f) + 1 + m.upDeg (m.own f) ≤ 1 + m.deg (m.own f)
      rw [Mesh.deg_eq]; omega)
    (by rw [hlast, F3.colLen, F2.colLen]; simp) e _ rfl cnt3
    (List.replicate m.nInternalFaces 0) (upperBody m rowPtrs) (by
      intro f hf
      simp only [upperBody, h.rd_nbr hf, h.rd_owner_int hf, Res.ok_bind, hrp,
        rd_map_range (show m.own f < n + 1 by have := h.own_lt_int hf; omega)]
      simp [TI.act, onePar]) F3.cntLen
    (fun c hc' => by rw [F3.cnt c hc', hsingle c hc']) (by simp)).bind ?_
  rintro ⟨cnt4, col4, oOff⟩ ⟨tkU, F4, hol, hoo⟩
  have hoo := hoo (by decide)
  simp only at F4 hoo hol
  have hclen : col4.length = n + 2 * m.nInternalFaces := by
    rw [F4.colLen, F3.colLen, F2.colLen]; simp
  refine NR.Ok.pure ?_
  -- the positions
  let off : Slot → Nat := fun s => match s with
    | .diag c => m.loDeg c
    | .upper f => tkU f
    | .lower f => tkL f
  let addr : Slot → Nat := fun s => Mesh.rp sz n (s.row m) + off s
  have hrow : ∀ s : Slot, s.Valid m → s.row m < n := by
    intro s hs
    cases s with
    | diag c => exact hs
    | upper f => exact h.own_lt_int hs
    | lower f => exact h.nbr_lt f hs
  have hL : ∀ f < m.nInternalFaces, tkL f < m.loDeg (m.nbr f) := by
    intro f hf
    have := F2.hi f hf
    rw [hlo] at this; simpa using this
  have hU : ∀ f < m.nInternalFaces, m.loDeg (m.own f) + 1 ≤ tkU f ∧ tkU f < sz (m.own f) := by
    intro f hf
    have h1 := F4.hi f hf
    rw [hup] at h1
    refine ⟨F4.lo f hf, ?_⟩
    simp only [hsz, Mesh.deg_eq]; omega
  have hoff : ∀ s : Slot, s.Valid m → off s < sz (s.row m) := by
    intro s hs
    cases s with
    | diag c =>
      show m.loDeg c < 1 + m.deg c
      rw [Mesh.deg_eq]; omega
    | upper f => exact (hU f hs).2
    | lower f =>
      have := hL f hs
      show tkL f < 1 + m.deg (m.nbr f)
      rw [Mesh.deg_eq]; omega
  have hinj : ∀ s t : Slot, s.Valid m → t.Valid m → addr s = addr t → s = t := by
    intro s t hs ht hst
    obtain ⟨e1, e2⟩ := rp_disj sz n (hrow s hs) (hrow t ht) (hoff s hs) (hoff t ht) hst
    cases s with
    | diag c =>
      cases t with
      | diag c' => simp only [Slot.row] at e1; rw [e1]
      | upper f => have := hU f ht; simp only [Slot.row, off] at e1 e2; rw [← e1] at this; omega
      | lower f => have := hL f ht; simp only [Slot.row, off] at e1 e2; rw [← e1] at this; omega
    | upper f =>
      cases t with
      | diag c => have := hU f hs; simp only [Slot.row, off] at e1 e2; rw [e1] at this; omega
      | upper f' => rw [F4.inj f hs f' ht e1 e2]
      | lower f' =>
        have h1 := hU f hs; have h2 := hL f' ht
        simp only [Slot.row, off] at e1 e2; rw [e1] at h1; omega
    | lower f =>
      cases t with
      | diag c => have := hL f hs; simp only [Slot.row, off] at e1 e2; rw [e1] at this; omega
      | upper f' =>
        have h1 := hU f' ht; have h2 := hL f hs
        simp only [Slot.row, off] at e1 e2; rw [← e1] at h1; omega
      | lower f' => rw [F2.inj f hs f' ht e1 e2]
  have hlt : ∀ s : Slot, s.Valid m → addr s < n + 2 * m.nInternalFaces := by
    intro s hs
    rw [← hlast]
    exact rp_lt_last sz n (hrow s hs) (hoff s hs)
  have hval : ∀ s : Slot, s.Valid m → col4.getD (addr s) 0 = s.col m := by
    intro s hs
    cases s with
    | upper f => exact F4.colW f hs
    | diag c =>
      rw [F4.colE _ (fun f hf heq => by
        have := hinj (.diag c) (.upper f) hs hf heq; simp at this)]
      have := F3.colW c hs
      rwa [htkD c hs] at this
    | lower f =>
      rw [F4.colE _ (fun f' hf' heq => by
        have := hinj (.lower f) (.upper f') hs hf' heq; simp at this),
        F3.colE _ (fun c hc' heq => by
        have := hinj (.lower f) (.diag c) hs hc' (by rw [heq, htkD c hc']; rfl); simp at this)]
      exact F2.colW f hs
  have hrpg : ∀ i < n + 1, rowPtrs.getD i 0 = Mesh.rp sz n i := by
    intro i hi
    rw [hrp]; simp [List.getD, List.getElem?_range hi]
  refine ⟨addr, ⟨?_, ?_, ?_, ?_, ?_⟩, ⟨?_, ?_, hinj, ?_⟩, hol, hnl, hdl, ?_, ?_, ?_, ?_, ?_, ?_⟩
  · rw [hrp]; simp [hn]
  · exact hclen
  · rw [hrpg 0 (by omega), rp_zero]
  · rw [hrpg _ (by omega), hclen, ← hlast]
  · intro c hc'
    rw [hrpg _ (by omega), hrpg _ (by omega), rp_succ sz n hc']
  · intro s hs
    have h1 := hrow s hs
    rw [hrpg _ (by omega), hrpg _ (by omega), rp_succ sz n h1]
    have := hoff s hs
    simp only [addr]
    omega
  · intro s hs
    exact getElem?_of_getD (by rw [hclen]; exact hlt s hs) (hval s hs)
  · exact addr_surj hclen (by simpa only [hclen] using hlt) hinj
  · intro c hc'
    rw [hdo c hc', htkD c hc', hrpg c (by omega)]
    simp [addr, off, Slot.row]
  · intro f hf
    have := h.own_lt_int hf
    rw [hoo f hf, hrpg _ (by omega)]
    simp [addr, off, Slot.row]
  · intro f hf
    have := h.nbr_lt f hf
    rw [hno f hf, hrpg _ (by omega)]
    simp [addr, off, Slot.row]
  · intro c hc'
    rw [hrpg c (by omega)]
    rfl
  · intro f hf
    have h1 := h.nbr_lt f hf
    have h2 := hL f hf
    rw [hrpg _ (by omega)]
    simp only [addr, off, Slot.row]
    omega
  · intro f hf
    have h1 := h.own_lt_int hf
    have h2 := (hU f hf).1
    rw [hrpg _ (by omega)]
    simp only [addr, off, Slot.row]
    omega

end proofs

/-- **C14, the pattern**: on every valid mesh, every executor and every interleaving, the constructor
ends normally, the rows have one entry per cell plus one per internal face of the cell, and every entry
the mesh needs is stored exactly once, in its row, and nothing else is stored. -/
theorem C14_rows (m : Mesh K) (h : m.WF) (e : ExecKind) (out : Res SparsityPattern)
    (hout : sparsityUpdate e m out) :
    ∃ sp, out = .ok sp ∧ RowsOK m sp.rowPtrs sp.colIdxs ∧
      ∃ addr, Addresses m sp.rowPtrs sp.colIdxs addr := by
  obtain ⟨sp, he, addr, hF⟩ := sparsity_facts h e out hout
  exact ⟨sp, he, hF.rows, addr, hF.adr⟩

/-- **C14, the order in a row**: on every executor and interleaving a row has the entries of the faces the cell is neighbour of first, then the diagonal, then those of the faces it owns. -/
theorem C14_order (m : Mesh K) (h : m.WF) (e : ExecKind) (out : Res SparsityPattern) (hout : sparsityUpdate e m out) :
    ∃ sp addr, out = .ok sp ∧ Addresses m sp.rowPtrs sp.colIdxs addr ∧
      (∀ f < m.nInternalFaces, addr (.lower f) < addr (.diag (m.nbr f))) ∧ ∀ f < m.nInternalFaces, addr (.diag (m.own f)) < addr (.upper f) := by
  obtain ⟨sp, he, addr, hF⟩ := sparsity_facts h e out hout
  refine ⟨sp, addr, he, hF.adr, fun f hf => ?_, fun f hf => ?_⟩
  · rw [hF.diagAt _ (h.nbr_lt f hf)]; exact hF.lowerAt f hf
  · rw [hF.diagAt _ (h.own_lt_int hf)]; exact hF.upperAt f hf

/-- The positions are fixed if a cell owns at most one internal face and is neighbour of at most one. -/
theorem PatternFacts.unique {m : Mesh K} (h : m.WF) (hch : m.Chain) {sp sp' : SparsityPattern} {addr addr' : Slot → Nat} (F : PatternFacts m sp addr)
    (F' : PatternFacts m sp' addr') : sp' = sp := by
  have hlo : ∀ c, m.loDeg c ≤ 1 := fun c => card_le_one.2 fun f hf g hg => by
    simp only [mem_filter, mem_range] at hf hg
    exact hch.2 f hf.1 g hg.1 (hf.2.trans hg.2.symm)
  have hup : ∀ c, m.upDeg c ≤ 1 := fun c => card_le_one.2 fun f hf g hg => by
    simp only [mem_filter, mem_range] at hf hg
    exact hch.1 f hf.1 g hg.1 (hf.2.trans hg.2.symm)
  have hrp : ∀ c ≤ m.nCells, sp'.rowPtrs.getD c 0 = sp.rowPtrs.getD c 0 := by
    intro c
    induction c with
    | zero => intro _; rw [F.rows.first, F'.rows.first]
    | succ c ih => intro hc; rw [F.rows.size c (by omega), F'.rows.size c (by omega), ih (by omega)]
  have hrows : sp'.rowPtrs = sp.rowPtrs := by
    refine List.ext_getElem (by rw [F.rows.len, F'.rows.len]) fun i h1 h2 => ?_
    have := hrp i (by rw [F'.rows.len] at h1; omega)
    simpa [List.getD, h1, h2] using this
  have haddr : ∀ s : Slot, s.Valid m → addr' s = addr s := by
    intro s hs
    have i1 := F.adr.inRow s hs
    have i2 := F'.adr.inRow s hs
    rw [hrows] at i2
    cases s with
    | diag c => rw [F.diagAt c hs, F'.diagAt c hs, hrows]
    | lower f =>
      have a := F.lowerAt f hs
      have b := F'.lowerAt f hs
      rw [hrows] at b
      have := hlo (m.nbr f)
      simp only [Slot.row] at i1 i2
      omega
    | upper f =>
      have a := F.upperAt f hs
      have b := F'.upperAt f hs
      rw [hrows] at b
      have := hup (m.own f)
      have hsz := F.rows.size _ (h.own_lt_int hs)
      rw [Mesh.deg_eq] at hsz
      simp only [Slot.row] at i1 i2
      omega
  have hcols : sp'.colIdxs = sp.colIdxs := by
    refine List.ext_getElem? fun i => ?_
    by_cases hi : i < sp.colIdxs.length
    · obtain ⟨s, hs, rfl⟩ := F.adr.surj i hi
      rw [F.adr.column s hs, ← haddr s hs, F'.adr.column s hs]
    · have : sp'.colIdxs.length = sp.colIdxs.length := by rw [F.rows.nnz, F'.rows.nnz]
      rw [List.getElem?_eq_none (by omega), List.getElem?_eq_none (by omega)]
  have hlist : ∀ {n : Nat} {l l' : List Nat}, l.length = n → l'.length = n → (∀ i < n, l'.getD i 0 = l.getD i 0) → l' = l := by
    intro n l l' h1 h2 hi
    refine List.ext_getElem (by rw [h1, h2]) fun i h3 h4 => ?_
    have := hi i (by omega)
    simpa [List.getD, h3, h4] using this
  have ho := hlist F.olen F'.olen fun f hf => by rw [F.upper f hf, F'.upper f hf, hrows, haddr (.upper f) hf]
  have hn := hlist F.nlen F'.nlen fun f hf => by rw [F.lower f hf, F'.lower f hf, hrows, haddr (.lower f) hf]
  have hd := hlist F.dlen F'.dlen fun c hc => by rw [F.diag c hc, F'.diag c hc, hrows, haddr (.diag c) hc]
  cases sp
  cases sp'
  simp_all

/-- **C14, one pattern for all schedules**: if every cell owns at most one internal face and is neighbour of at most one, then all runs on all executors
produce the same pattern. -/
theorem C14_chain (m : Mesh K) (h : m.WF) (hch : m.Chain) (e e' : ExecKind) (out out' : Res SparsityPattern) (hout : sparsityUpdate e m out)
    (hout' : sparsityUpdate e' m out') : out' = out := by
  obtain ⟨sp, rfl, addr, F⟩ := sparsity_facts h e out hout
  obtain ⟨sp', rfl, addr', F'⟩ := sparsity_facts h e' out' hout'
  rw [F.unique h hch F']

/-- **C14, the offsets**: if no row has more than 256 entries, the diagonal, owner and neighbour offsets
name these positions. Missing for the full claim: cells with more than 255 internal faces, where it is
false (`C14_offsets_alias`). -/
theorem C14_offsets_partial (m : Mesh K) (h : m.WF) (h256 : ∀ c < m.nCells, 1 + m.deg c ≤ 256)
    (e : ExecKind) (out : Res SparsityPattern) (hout : sparsityUpdate e m out) :
    ∃ sp, out = .ok sp ∧ RowsOK m sp.rowPtrs sp.colIdxs ∧
      Addresses m sp.rowPtrs sp.colIdxs (sp.addr m) ∧ sp.ownerOffset.length = m.nInternalFaces ∧
      sp.neighbourOffset.length = m.nInternalFaces ∧ sp.diagOffset.length = m.nCells := by
  obtain ⟨sp, he, addr, hF⟩ := sparsity_facts h e out hout
  refine ⟨sp, he, hF.rows, ?_, hF.olen, hF.nlen, hF.dlen⟩
  have hrow : ∀ s : Slot, s.Valid m → s.row m < m.nCells := by
    intro s hs
    cases s with
    | diag c => exact hs
    | upper f => exact h.own_lt_int hs
    | lower f => exact h.nbr_lt f hs
  have heq : ∀ s : Slot, s.Valid m → sp.addr m s = addr s := by
    intro s hs
    have h1 := hF.adr.inRow s hs
    have h2 := hF.rows.size _ (hrow s hs)
    have h3 := h256 _ (hrow s hs)
    cases s with
    | diag c =>
      simp only [SparsityPattern.addr, hF.diag c hs]
      simp only [Slot.row] at h1 h2 h3
      rw [Nat.mod_eq_of_lt (by omega)]; omega
    | upper f =>
      simp only [SparsityPattern.addr, hF.upper f hs]
      simp only [Slot.row] at h1 h2 h3
      rw [Nat.mod_eq_of_lt (by omega)]; omega
    | lower f =>
      simp only [SparsityPattern.addr, hF.lower f hs]
      simp only [Slot.row] at h1 h2 h3
      rw [Nat.mod_eq_of_lt (by omega)]; omega
  constructor
  · intro s hs; rw [heq s hs]; exact hF.adr.inRow s hs
  · intro s hs; rw [heq s hs]; exact hF.adr.column s hs
  · intro s t hs ht; rw [heq s hs, heq t ht]; exact hF.adr.inj s t hs ht
  · intro p hp
    obtain ⟨s, hs, hp'⟩ := hF.adr.surj p hp
    exact ⟨s, hs, by rw [heq s hs]; exact hp'⟩

/-- **C14 fails for large cells**: if a cell has more than 255 internal faces, then on every schedule
two different entries of its row get the same address from the 8-bit offsets. -/
theorem C14_offsets_alias (m : Mesh K) (h : m.WF) (c : Nat) (hc : c < m.nCells) (hbig : 256 < 1 + m.deg c)
    (e : ExecKind) (sp : SparsityPattern) (hout : sparsityUpdate e m (.ok sp)) :
    ∃ s t : Slot, s.Valid m ∧ t.Valid m ∧ s.row m = c ∧ t.row m = c ∧ s ≠ t ∧ sp.addr m s = sp.addr m t := by
  obtain ⟨sp', he, addr, hF⟩ := sparsity_facts h e _ hout
  cases he
  -- the slots of row `c`
  set r0 := sp.rowPtrs.getD c 0 with hr0
  have hsize := hF.rows.size c hc
  rw [← hr0] at hsize
  have hlast : r0 + (1 + m.deg c) ≤ sp.colIdxs.length := by
    rw [← hsize, ← hF.rows.last]
    have : ∀ k, c + 1 + k ≤ m.nCells → sp.rowPtrs.getD (c + 1) 0 ≤ sp.rowPtrs.getD (c + 1 + k) 0 := by
      intro k
      induction k with
      | zero => intro _; exact le_rfl
      | succ k ih =>
        intro hk
        have h1 := ih (by omega)
        have h2 := hF.rows.size (c + 1 + k) (by omega)
        have e1 : c + 1 + (k + 1) = c + 1 + k + 1 := by omega
        rw [e1]; omega
    have := this (m.nCells - (c + 1)) (by omega)
    have e2 : c + 1 + (m.nCells - (c + 1)) = m.nCells := by omega
    rwa [e2] at this
  have hrowsMono : ∀ a b, a ≤ b → b ≤ m.nCells → sp.rowPtrs.getD a 0 ≤ sp.rowPtrs.getD b 0 := by
    intro a b hab hb
    obtain ⟨k, rfl⟩ := Nat.exists_eq_add_of_le hab
    induction k with
    | zero => exact le_rfl
    | succ k ih =>
      have h1 := ih (by omega) (by omega)
      have h2 := hF.rows.size (a + k) (by omega)
      have e1 : a + (k + 1) = a + k + 1 := by omega
      rw [e1]; omega
  have hrow : ∀ s : Slot, s.Valid m → s.row m < m.nCells := by
    intro s hs
    cases s with
    | diag c => exact hs
    | upper f => exact h.own_lt_int hs
    | lower f => exact h.nbr_lt f hs
  have hslot : ∀ i : Fin 257, ∃ s : Slot, s.Valid m ∧ addr s = r0 + i.1 := by
    intro i
    exact hF.adr.surj _ (by omega)
  choose S hS1 hS2 using hslot
  have hSrow : ∀ i, (S i).row m = c := by
    intro i
    have h1 := hF.adr.inRow _ (hS1 i)
    rw [hS2 i] at h1
    have h2 := hrow _ (hS1 i)
    rcases Nat.lt_trichotomy ((S i).row m) c with hlt | heq | hgt
    · have := hrowsMono ((S i).row m + 1) c (by omega) (by omega); omega
    · exact heq
    · have := hrowsMono (c + 1) ((S i).row m) (by omega) (by omega); omega
  have haddr : ∀ s : Slot, s.Valid m → s.row m = c → sp.addr m s = r0 + (addr s - r0) % 256 := by
    intro s hs hsc
    cases s with
    | diag c' =>
      simp only [Slot.row] at hsc; subst hsc
      simp only [SparsityPattern.addr, hF.diag _ hs]; rfl
    | upper f =>
      simp only [Slot.row] at hsc
      simp only [SparsityPattern.addr, hF.upper _ hs, hsc]; rfl
    | lower f =>
      simp only [Slot.row] at hsc
      simp only [SparsityPattern.addr, hF.lower _ hs, hsc]; rfl
  refine ⟨S ⟨0, by omega⟩, S ⟨256, by omega⟩, hS1 _, hS1 _, hSrow _, hSrow _, ?_, ?_⟩
  · intro heq
    have h1 := hS2 ⟨0, by omega⟩
    have h2 := hS2 ⟨256, by omega⟩
    rw [heq] at h1
    simp only at h1 h2
    omega
  · rw [haddr _ (hS1 _) (hSrow _), haddr _ (hS1 _) (hSrow _), hS2, hS2]
    simp only [Nat.add_sub_cancel_left]

/-- **C14, some outcome exists** on every mesh and executor. -/
theorem C14_terminates (m : Mesh K) (h : m.WF) (e : ExecKind) : ∃ sp, sparsityUpdate e m (.ok sp) := by
  have hrun : (sparsityUpdate e m).Runs := by
    unfold sparsityUpdate
    refine (ticketRun_runs _ _ _ _ _).bind ?_
    rintro ⟨cnt, x, y⟩ hr
    obtain ⟨_, he, hl, -⟩ := count_ok h e _ (by simp) _ hr
    cases he
    simp only at hl
    refine NR.Runs.bind ⟨_, (C10_offsets cnt _ (by simp [hl]) _).2 rfl⟩ ?_
    rintro ⟨tot, rowPtrs⟩ -
    refine NR.Runs.bind ⟨_, (parElem_det e _ _ _ _ le_rfl _).2 rfl⟩ ?_
    rintro cnt1 -
    refine (ticketRun_runs _ _ _ _ _).bind ?_
    rintro ⟨cnt2, x, y⟩ -
    refine (ticketRun_runs _ _ _ _ _).bind ?_
    rintro ⟨cnt3, x, y⟩ -
    refine (ticketRun_runs _ _ _ _ _).bind ?_
    rintro ⟨cnt4, x, y⟩ -
    exact ⟨_, rfl⟩
  obtain ⟨out, hout⟩ := hrun
  obtain ⟨sp, rfl, -⟩ := sparsity_facts h e out hout
  exact ⟨sp, hout⟩

/-- The hypotheses can be met: three cells in a row have rows of two and three entries. -/
example : row3.WF ∧ ∀ c < row3.nCells, 1 + row3.deg c ≤ 256 := by
  refine ⟨row3_wf, ?_⟩
  intro c hc
  have hc' : c < 3 := hc
  have hb : row3.deg c ≤ 2 + 2 := Nat.add_le_add (Finset.card_filter_le _ _) (Finset.card_filter_le _ _)
  omega
/-- A cell with 256 neighbours is a valid mesh, so the aliasing does happen. -/
example : (star 256).WF ∧ 0 < (star 256).nCells ∧ 256 < 1 + (star 256).deg 0 :=
  ⟨star_wf 256, Nat.succ_pos _, by rw [star_deg]; omega⟩

end NeoFOAM
