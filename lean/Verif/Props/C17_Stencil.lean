import Verif.Props.C14_Sparsity

/-!
# C17 – the cell-to-face stencil lists every face of a cell exactly once, on every schedule
-/
namespace NeoFOAM
open Finset
variable {K : Type}

section proofs
variable {m : Mesh K}

/-- Boundary faces at a cell (proof side). -/
def Mesh.bDeg (m : Mesh K) (c : Nat) : Nat := ((range m.nBoundaryFaces).filter (m.fc · = c)).card

theorem countBnd_ok (h : m.WF) (e : ExecKind) (cnt : List Nat) (hl : cnt.length = m.nCells) :
    (ticketRun e ((List.range m.bnd.faceCells.length).mapM (stencilCountBnd m)) cnt [] []).Ok fun r =>
      r.1.length = m.nCells ∧ ∀ c < m.nCells, r.1.getD c 0 = cnt.getD c 0 + m.bDeg c := by
  refine ticketRun_ok (onePar m.nBoundaryFaces m.fc (fun _ => 0) (fun _ => 0)) [.fetch 0]
    (by show ShapeOK 1 _; decide) (cnt.getD · 0) m.nCells [] 0
    (Or.inl (by show ∀ j < 1, _; decide)) ?_ (by simp) (by simp) e _ h.fcLen cnt [] _ ?_ hl
    (fun _ _ => rfl) rfl _ ?_
  · intro r hr
    simp only [onePar, one_mul] at hr
    exact h.fc_lt r hr
  · intro b hb
    have hb' : b < m.nBoundaryFaces := hb
    simp [stencilCountBnd, h.rd_fc hb', TI.act, onePar]
  · intro s tk I
    refine ⟨I.cntLen, fun c hc => ?_⟩
    have := I.cnt c hc
    rw [TPar.upTo_full _ _ _ (by show ∀ j < 1, _; decide)] at this
    rw [this]
    congr 1
    simp [onePar, TPar.cnt, Mesh.bDeg]

/-- Cell of request `i`: two per internal face, one per boundary face (proof side). -/
def reqCell (m : Mesh K) (i : Nat) : Nat :=
  if i < 2 * m.nInternalFaces then (if i % 2 = 0 then m.own (i / 2) else m.nbr (i / 2))
  else m.fc (i - 2 * m.nInternalFaces)
/-- Face of request `i` (proof side). -/
def reqFace (m : Mesh K) (i : Nat) : Nat :=
  if i < 2 * m.nInternalFaces then i / 2 else m.nInternalFaces + (i - 2 * m.nInternalFaces)

/-- What is known about the outcome (proof side). -/
structure StencilFacts (m : Mesh K) (values segment : List Nat) (adr : Nat → Nat) : Prop where
  segLen : segment.length = m.nCells + 1
  first : segment.getD 0 0 = 0
  last : segment.getD m.nCells 0 = values.length
  mono : ∀ c < m.nCells, segment.getD c 0 ≤ segment.getD (c + 1) 0
  len : values.length = 2 * m.nInternalFaces + m.nBoundaryFaces
  inRow : ∀ i < 2 * m.nInternalFaces + m.nBoundaryFaces,
    segment.getD (reqCell m i) 0 ≤ adr i ∧ adr i < segment.getD (reqCell m i + 1) 0
  val : ∀ i < 2 * m.nInternalFaces + m.nBoundaryFaces, values.getD (adr i) 0 = reqFace m i
  inj : ∀ i < 2 * m.nInternalFaces + m.nBoundaryFaces, ∀ j < 2 * m.nInternalFaces + m.nBoundaryFaces,
    adr i = adr j → i = j

theorem reqCell_lt (h : m.WF) {i : Nat} (hi : i < 2 * m.nInternalFaces + m.nBoundaryFaces) :
    reqCell m i < m.nCells := by
  unfold reqCell
  split
  · split
    · exact h.own_lt_int (by omega)
    · exact h.nbr_lt _ (by omega)
  · exact h.fc_lt _ (by omega)

theorem stencil_facts (h : m.WF) (e : ExecKind) (junk : Nat → Nat) :
    (computeStencil e m junk).Ok fun r => ∃ adr, StencilFacts m r.1 r.2 adr := by
  set n := m.nCells with hn
  set sz : Nat → Nat := fun c => m.deg c + m.bDeg c with hsz
  have hlast : Mesh.rp sz n n = 2 * m.nInternalFaces + m.nBoundaryFaces := by
    rw [rp_last]
    simp only [hsz, Finset.sum_add_distrib, Mesh.deg_eq]
    have e1 : ∑ c ∈ range m.nCells, m.upDeg c = m.nInternalFaces :=
      sum_fiber m.own _ _ (fun f hf => h.own_lt_int hf)
    have e2 : ∑ c ∈ range m.nCells, m.loDeg c = m.nInternalFaces :=
      sum_fiber m.nbr _ _ (fun f hf => h.nbr_lt f hf)
    have e3 : ∑ c ∈ range m.nCells, m.bDeg c = m.nBoundaryFaces :=
      sum_fiber m.fc _ _ (fun f hf => h.fc_lt f hf)
    rw [e1, e2, e3]; omega
  unfold computeStencil
  refine (count_ok h e (List.replicate m.nCells 0) (by simp)).bind ?_
  rintro ⟨cnt, x, y⟩ ⟨hl, hc⟩
  refine (countBnd_ok h e cnt hl).bind ?_
  rintro ⟨cnt', x, y⟩ ⟨hl', hc'⟩
  simp only at hl hc hl' hc'
  have hcnt : cnt' = (List.range n).map sz := list_eq_of_getD hl' (fun c hcn => by
    rw [hc' c hcn, hc c hcn]; simp [hsz, List.getD, show c < m.nCells from hcn])
  have hseg : NR.Ok (segmentedField cnt' : NR (Nat × List Nat)) fun r =>
      r.1 = Mesh.rp sz n n ∧ r.2 = (List.range (n + 1)).map (Mesh.rp sz n) := by
    unfold segmentedField
    have e1 : cnt'.length + 1 = n + 1 := by rw [hl']
    rw [e1]
    exact segments_ok sz n cnt' hcnt
  refine hseg.bind ?_
  rintro ⟨tot, segment⟩ ⟨htot, hsg⟩
  simp only at htot hsg
  refine (fill_ok e cnt' n hl').bind ?_
  rintro cnt1 ⟨hl1, hc1⟩
  have hrs : ∀ c < n, rd segment c = .ok (Mesh.rp sz n c) := by
    intro c hc; rw [hsg]; exact rd_map_range (by omega)
  -- internal faces
  have hint : (ticketRun e ((List.range m.nInternalFaces).mapM (stencilInternal m segment)) cnt1
      ((List.range tot).map junk) []).Ok fun r => ∃ tk : Nat → Nat,
      r.1.length = n ∧ (∀ c < n, r.1.getD c 0 = m.deg c) ∧
      (∀ i < 2 * m.nInternalFaces, tk i < m.deg (reqCell m i)) ∧
      (∀ i < 2 * m.nInternalFaces, ∀ j < 2 * m.nInternalFaces, reqCell m i = reqCell m j → tk i = tk j → i = j) ∧
      r.2.1.length = tot ∧
      (∀ i < 2 * m.nInternalFaces, r.2.1.getD (Mesh.rp sz n (reqCell m i) + tk i) 0 = i / 2) := by
    have hrc : ∀ i < 2 * m.nInternalFaces, (facePar m (Mesh.rp sz n)).cell i = reqCell m i := by
      intro i hi
      simp only [facePar, reqCell, if_pos hi]
    have hqm : (facePar m (Mesh.rp sz n)).q * (facePar m (Mesh.rp sz n)).m = 2 * m.nInternalFaces := rfl
    have hle : ∀ c, 0 + (facePar m (Mesh.rp sz n)).cnt (range (2 * m.nInternalFaces)) c ≤ sz c := by
      intro c; rw [facePar_cnt]; simp only [hsz]; omega
    refine ticketRun_ok (facePar m (Mesh.rp sz n)) [.fetch 0, .fetch 1, .col 0, .col 1]
      (by show ShapeOK 2 _; decide) (fun _ => 0) n ((List.range tot).map junk) 0
      (Or.inl (by show ∀ j < 2, _; decide)) (fun r hr => facePar_cell_lt h _ hr) (by simp) ?_ e _ rfl cnt1 [] _ ?_
      hl1 hc1 rfl _ ?_
    · intro j hj r hr i hi
      rw [hqm] at hr hi
      have hi' := lt_of_lt_of_le hi (hle _)
      have hcl := facePar_cell_lt h (Mesh.rp sz n) hr
      refine ⟨?_, ?_⟩
      · simp only [List.length_map, List.length_range, htot]
        exact rp_lt_last sz n hcl hi'
      · intro r' hr' i' hi'' heq
        rw [hqm] at hr' hi''
        exact rp_disj sz n hcl (facePar_cell_lt h (Mesh.rp sz n) hr') hi' (lt_of_lt_of_le hi'' (hle _)) heq
    · intro f hf
      have hf' : f < m.nInternalFaces := hf
      obtain ⟨a, b, c, d⟩ := even_odd f
      have a' : (2 * f) % 2 = 0 ∧ (2 * f) / 2 = f := by omega
      simp [stencilInternal, h.rd_owner_int hf', h.rd_nbr hf', hrs _ (h.own_lt_int hf'),
        hrs _ (h.nbr_lt f hf'), TI.act, facePar, a', c, d]
    · intro s tk I
      rw [TPar.upTo_full _ (posF _) _ (by show ∀ j < 2, _; decide),
        TPar.upTo_full _ (posC _) _ (by show ∀ j < 2, _; decide),
        TPar.upTo_full _ (posW _) _ (by show ∀ j < 2, _; decide), hqm] at I
      refine ⟨tk, I.cntLen, ?_, ?_, ?_, ?_, ?_⟩
      · intro c hc
        rw [I.cnt c hc, facePar_cnt]; simp
      · intro i hi
        have := I.hi i (mem_range.2 hi)
        rw [facePar_cnt, hrc i hi] at this
        simpa using this
      · intro i hi j hj h1 h2
        exact I.inj i (mem_range.2 hi) j (mem_range.2 hj) (by rw [hrc i hi, hrc j hj]; exact h1) h2
      · rw [I.colLen]; simp
      · intro i hi
        have := I.colW i (mem_range.2 hi)
        rw [← hrc i hi]
        exact this
  refine hint.bind ?_
  rintro ⟨cnt2, val2, z⟩ ⟨tkI, hl2, hc2, hhi, hinj, hvl, hval⟩
  simp only at hl2 hc2 hvl hval
  -- boundary faces
  refine (one_ok [.fetch 0, .col 0] (by decide) m.nBoundaryFaces m.fc (fun b => m.nInternalFaces + b) m.deg sz n
    val2 0 (by decide) (Or.inl (by decide)) (fun b hb => h.fc_lt b hb) (by simp) (fun b _ => le_rfl)
    (by rw [hvl, htot]) e _ h.fcLen cnt2 [] (stencilBoundary m segment) (by
      intro b hb
      simp [stencilBoundary, h.rd_fc hb, hrs _ (h.fc_lt b hb), TI.act, onePar]) hl2 hc2 rfl).bind ?_
  rintro ⟨cnt3, val3, z⟩ ⟨tkB, F, -, -⟩
  simp only at F
  refine NR.Ok.pure ?_
  have hrpg : ∀ i < n + 1, segment.getD i 0 = Mesh.rp sz n i := by
    intro i hi
    rw [hsg]; simp [List.getD, List.getElem?_range hi]
  let tk : Nat → Nat := fun i => if i < 2 * m.nInternalFaces then tkI i else tkB (i - 2 * m.nInternalFaces)
  let adr : Nat → Nat := fun i => Mesh.rp sz n (reqCell m i) + tk i
  have htk : ∀ i < 2 * m.nInternalFaces + m.nBoundaryFaces, tk i < sz (reqCell m i) := by
    intro i hi
    by_cases hlt : i < 2 * m.nInternalFaces
    · have := hhi i hlt
      simp only [tk, if_pos hlt, hsz]; omega
    · have := F.hi (i - 2 * m.nInternalFaces) (by omega)
      simp only [tk, if_neg hlt, hsz, reqCell]
      exact this
  have hB : ∀ i < 2 * m.nInternalFaces + m.nBoundaryFaces, ¬ i < 2 * m.nInternalFaces →
      m.deg (reqCell m i) ≤ tk i := by
    intro i hi hlt
    have := F.lo (i - 2 * m.nInternalFaces) (by omega)
    simp only [tk, if_neg hlt, reqCell]
    exact this
  have hadj : ∀ i < 2 * m.nInternalFaces + m.nBoundaryFaces, ∀ j < 2 * m.nInternalFaces + m.nBoundaryFaces,
      adr i = adr j → i = j := by
    intro i hi j hj hij
    obtain ⟨e1, e2⟩ := rp_disj sz n (reqCell_lt h hi) (reqCell_lt h hj) (htk i hi) (htk j hj) hij
    by_cases h1 : i < 2 * m.nInternalFaces <;> by_cases h2 : j < 2 * m.nInternalFaces
    · exact hinj i h1 j h2 e1 (by simpa [tk, h1, h2] using e2)
    · have a := hhi i h1; have b := hB j hj h2
      simp only [tk, if_pos h1] at e2
      simp only [tk] at b
      rw [← e2, ← e1] at b; omega
    · have a := hhi j h2; have b := hB i hi h1
      have e3 : tk j = tkI j := by simp only [tk, if_pos h2]
      rw [e2, e3, e1] at b; omega
    · have := F.inj (i - 2 * m.nInternalFaces) (by omega) (j - 2 * m.nInternalFaces) (by omega)
        (by simpa [reqCell, h1, h2] using e1) (by simpa [tk, h1, h2] using e2)
      omega
  refine ⟨adr, ?_, ?_, ?_, ?_, ?_, ?_, ?_, hadj⟩
  · rw [hsg]; simp [hn]
  · rw [hrpg 0 (by omega), rp_zero]
  · rw [hrpg _ (by omega), F.colLen, hvl, htot]
  · intro c hc
    rw [hrpg _ (by omega), hrpg _ (by omega)]
    exact rp_mono sz n (by omega)
  · rw [F.colLen, hvl, htot, hlast]
  · intro i hi
    have h1 := reqCell_lt h hi
    rw [hrpg _ (by omega), hrpg _ (by omega), rp_succ sz n h1]
    have := htk i hi
    simp only [adr]
    omega
  · intro i hi
    by_cases hlt : i < 2 * m.nInternalFaces
    · have hne : ∀ b < m.nBoundaryFaces, adr i ≠ Mesh.rp sz n (m.fc b) + tkB b := by
        intro b hb heq
        have hb' : 2 * m.nInternalFaces + b < 2 * m.nInternalFaces + m.nBoundaryFaces := by omega
        have hnb : ¬ 2 * m.nInternalFaces + b < 2 * m.nInternalFaces := by omega
        have : adr i = adr (2 * m.nInternalFaces + b) := by
          rw [heq]
          simp only [adr, tk, reqCell, if_neg hnb, Nat.add_sub_cancel_left]
        have := hadj i hi _ hb' this
        omega
      rw [F.colE _ hne]
      have := hval i hlt
      simp only [adr, tk, if_pos hlt, reqFace]
      exact this
    · have := F.colW (i - 2 * m.nInternalFaces) (by omega)
      simp only [adr, tk, if_neg hlt, reqFace, reqCell]
      exact this

end proofs

/-- The faces listed for cell `c`. -/
def stencilOf (values segment : List Nat) (c : Nat) : List Nat :=
  (values.drop (segment.getD c 0)).take (segment.getD (c + 1) 0 - segment.getD c 0)

theorem mem_stencilOf {values segment : List Nat} {c f : Nat} (hle : segment.getD (c + 1) 0 ≤ values.length) :
    f ∈ stencilOf values segment c ↔
      ∃ p, segment.getD c 0 ≤ p ∧ p < segment.getD (c + 1) 0 ∧ values.getD p 0 = f := by
  unfold stencilOf
  rw [List.mem_iff_getElem]
  constructor
  · rintro ⟨i, hi, h⟩
    simp only [List.length_take, List.length_drop] at hi
    refine ⟨segment.getD c 0 + i, by omega, by omega, ?_⟩
    rw [List.getElem_take, List.getElem_drop] at h
    simp only [List.getD]
    simp only [List.getD] at h hi
    rw [List.getElem?_eq_getElem (by omega)]
    simpa using h
  · rintro ⟨p, h1, h2, h3⟩
    refine ⟨p - segment.getD c 0, ?_, ?_⟩
    · simp only [List.length_take, List.length_drop]; omega
    · rw [List.getElem_take, List.getElem_drop]
      simp only [List.getD] at h3 h1 h2 hle ⊢
      rw [List.getElem?_eq_getElem (by omega)] at h3
      simp only [Option.getD_some] at h3
      simp only [← h3]
      congr 1; omega

theorem nodup_stencilOf {values segment : List Nat} {c : Nat}
    (hle : segment.getD (c + 1) 0 ≤ values.length)
    (h : ∀ p q, segment.getD c 0 ≤ p → p < segment.getD (c + 1) 0 → segment.getD c 0 ≤ q →
      q < segment.getD (c + 1) 0 → values.getD p 0 = values.getD q 0 → p = q) :
    (stencilOf values segment c).Nodup := by
  unfold stencilOf
  rw [List.nodup_iff_injective_getElem]
  intro i j hij
  have hi := i.2
  have hj := j.2
  simp only [List.length_take, List.length_drop] at hi hj
  simp only [List.getElem_take, List.getElem_drop] at hij
  have e : ∀ k, k < values.length → ∀ (hk : k < values.length), values[k] = values.getD k 0 := by
    intro k _ hk; simp [List.getD, List.getElem?_eq_getElem hk]
  have := h (segment.getD c 0 + i) (segment.getD c 0 + j) (by omega) (by omega) (by omega) (by omega) (by
    rw [← e _ (by omega) (by omega), ← e _ (by omega) (by omega)]; exact hij)
  apply Fin.ext; omega

/-- **C17**: on every valid mesh, every executor and every interleaving (and whatever the fresh memory
contained) the stencil is built; the segments start at 0, end at the number of values and never decrease;
and the segment of each cell lists the faces of that cell — internal faces it owns or neighbours and its
boundary faces — each exactly once, and nothing else. -/
theorem C17_stencil (m : Mesh K) (h : m.WF) (e : ExecKind) (junk : Nat → Nat)
    (out : Res (List Nat × List Nat)) (hout : computeStencil e m junk out) :
    ∃ values segment, out = .ok (values, segment) ∧ segment.length = m.nCells + 1 ∧
      segment.getD 0 0 = 0 ∧ segment.getD m.nCells 0 = values.length ∧
      (∀ c < m.nCells, segment.getD c 0 ≤ segment.getD (c + 1) 0) ∧
      ∀ c < m.nCells, (stencilOf values segment c).Nodup ∧
        ∀ f, f ∈ stencilOf values segment c ↔ m.IsFaceOf c f := by
  obtain ⟨⟨values, segment⟩, he, adr, S⟩ := stencil_facts h e junk out hout
  simp only at S
  refine ⟨values, segment, he, S.segLen, S.first, S.last, S.mono, ?_⟩
  set N := 2 * m.nInternalFaces + m.nBoundaryFaces with hN
  have hmono : ∀ a b, a ≤ b → b ≤ m.nCells → segment.getD a 0 ≤ segment.getD b 0 := by
    intro a b hab hb
    obtain ⟨k, rfl⟩ := Nat.exists_eq_add_of_le hab
    induction k with
    | zero => exact le_rfl
    | succ k ih => exact (ih (by omega) (by omega)).trans (S.mono (a + k) (by omega))
  have hlt : ∀ i < N, adr i < N := by
    intro i hi
    have h1 := (S.inRow i hi).2
    have h2 := hmono (reqCell m i + 1) m.nCells (reqCell_lt h hi) le_rfl
    rw [S.last, S.len] at h2
    omega
  have hsurj : ∀ p < N, ∃ i, i < N ∧ adr i = p := by
    intro p hp
    obtain ⟨i, hi, h⟩ := Finset.surj_on_of_inj_on_of_card_le (s := range N) (t := range N) (fun i _ => adr i)
      (fun i hi => mem_range.2 (hlt i (mem_range.1 hi)))
      (fun i j hi hj h => S.inj i (mem_range.1 hi) j (mem_range.1 hj) h) le_rfl p (mem_range.2 hp)
    exact ⟨i, mem_range.1 hi, h.symm⟩
  have hrow : ∀ c < m.nCells, ∀ i < N, segment.getD c 0 ≤ adr i → adr i < segment.getD (c + 1) 0 →
      reqCell m i = c := by
    intro c hc i hi h1 h2
    have h3 := S.inRow i hi
    have h4 := reqCell_lt h hi
    rcases Nat.lt_trichotomy (reqCell m i) c with hl | he | hg
    · have := hmono (reqCell m i + 1) c (by omega) (by omega); omega
    · exact he
    · have := hmono (c + 1) (reqCell m i) (by omega) (by omega); omega
  intro c hc
  have hle : segment.getD (c + 1) 0 ≤ values.length := by
    rw [← S.last]; exact hmono _ _ (by omega) le_rfl
  refine ⟨nodup_stencilOf hle ?_, fun f => ?_⟩
  · intro p q p1 p2 q1 q2 hpq
    obtain ⟨i, hi, rfl⟩ := hsurj p (by rw [S.len] at hle; omega)
    obtain ⟨j, hj, rfl⟩ := hsurj q (by rw [S.len] at hle; omega)
    rw [S.val i hi, S.val j hj] at hpq
    have ci := hrow c hc i hi p1 p2
    have cj := hrow c hc j hj q1 q2
    have : i = j := by
      by_contra hne
      simp only [reqFace] at hpq
      simp only [reqCell] at ci cj
      by_cases h1 : i < 2 * m.nInternalFaces <;> by_cases h2 : j < 2 * m.nInternalFaces
      · rw [if_pos h1, if_pos h2] at hpq
        rw [if_pos h1] at ci
        rw [if_pos h2, ← hpq] at cj
        have hm := h.ne (i / 2) (by omega)
        by_cases h3 : i % 2 = 0 <;> by_cases h4 : j % 2 = 0
        · omega
        · rw [if_pos h3] at ci; rw [if_neg h4] at cj; exact hm (ci.trans cj.symm)
        · rw [if_neg h3] at ci; rw [if_pos h4] at cj; exact hm (cj.trans ci.symm)
        · omega
      · rw [if_pos h1, if_neg h2] at hpq; omega
      · rw [if_neg h1, if_pos h2] at hpq; omega
      · rw [if_neg h1, if_neg h2] at hpq; omega
    rw [this]
  · rw [mem_stencilOf hle]
    constructor
    · rintro ⟨p, p1, p2, hp⟩
      obtain ⟨i, hi, rfl⟩ := hsurj p (by rw [S.len] at hle; omega)
      rw [S.val i hi] at hp
      have ci := hrow c hc i hi p1 p2
      simp only [reqFace] at hp
      simp only [reqCell] at ci
      by_cases h1 : i < 2 * m.nInternalFaces
      · rw [if_pos h1] at hp ci
        subst hp
        left
        refine ⟨by omega, ?_⟩
        by_cases h3 : i % 2 = 0
        · rw [if_pos h3] at ci; exact Or.inl ci
        · rw [if_neg h3] at ci; exact Or.inr ci
      · rw [if_neg h1] at hp ci
        right
        exact ⟨i - 2 * m.nInternalFaces, by omega, hp.symm, ci⟩
    · have fin : ∀ i < N, reqCell m i = c → reqFace m i = f → ∃ p, segment.getD c 0 ≤ p ∧
          p < segment.getD (c + 1) 0 ∧ values.getD p 0 = f := by
        intro i hi h1 h2
        have := S.inRow i hi
        rw [h1] at this
        exact ⟨adr i, this.1, this.2, by rw [S.val i hi, h2]⟩
      rintro (⟨hf, ho | hn⟩ | ⟨b, hb, rfl, hfc⟩)
      · have a' : (2 * f) % 2 = 0 ∧ (2 * f) / 2 = f := by omega
        have hl : 2 * f < 2 * m.nInternalFaces := by omega
        refine fin (2 * f) (by omega) ?_ ?_
        · simp only [reqCell, if_pos hl, a'.1, a'.2, if_true]; exact ho
        · simp only [reqFace, if_pos hl, a'.2]
      · have a' : ¬ (2 * f + 1) % 2 = 0 ∧ (2 * f + 1) / 2 = f := by omega
        have hl : 2 * f + 1 < 2 * m.nInternalFaces := by omega
        refine fin (2 * f + 1) (by omega) ?_ ?_
        · simp only [reqCell, if_pos hl, if_neg a'.1, a'.2]; exact hn
        · simp only [reqFace, if_pos hl, a'.2]
      · have hl : ¬ 2 * m.nInternalFaces + b < 2 * m.nInternalFaces := by omega
        refine fin (2 * m.nInternalFaces + b) (by omega) ?_ ?_
        · simp only [reqCell, if_neg hl, Nat.add_sub_cancel_left]; exact hfc
        · simp only [reqFace, if_neg hl, Nat.add_sub_cancel_left]

/-- **C17, some outcome exists** on every mesh and executor. -/
theorem C17_terminates (m : Mesh K) (h : m.WF) (e : ExecKind) (junk : Nat → Nat) :
    ∃ r, computeStencil e m junk (.ok r) := by
  have hrun : (computeStencil e m junk).Runs := by
    unfold computeStencil
    refine (ticketRun_runs _ _ _ _ _).bind ?_
    rintro ⟨cnt, x, y⟩ hr
    refine (ticketRun_runs _ _ _ _ _).bind ?_
    rintro ⟨cnt, x, y⟩ hr
    refine NR.Runs.bind ⟨_, (C10_segmentedField cnt _).2 rfl⟩ ?_
    rintro ⟨tot, segment⟩ -
    refine NR.Runs.bind ⟨_, (parElem_det e _ _ _ _ le_rfl _).2 rfl⟩ ?_
    rintro cnt1 -
    refine (ticketRun_runs _ _ _ _ _).bind ?_
    rintro ⟨cnt2, x, y⟩ -
    refine (ticketRun_runs _ _ _ _ _).bind ?_
    rintro ⟨cnt3, x, y⟩ -
    exact ⟨_, rfl⟩
  obtain ⟨out, hout⟩ := hrun
  obtain ⟨r, rfl, -⟩ := stencil_facts h e junk out hout
  exact ⟨r, hout⟩

/-- The hypotheses can be met: in the row of three cells, cell 0 has face 0 and boundary face 2. -/
example : row3.WF ∧ row3.IsFaceOf 0 0 ∧ row3.IsFaceOf 0 2 ∧ ¬ row3.IsFaceOf 0 1 :=
  ⟨row3_wf, Or.inl ⟨by decide, Or.inl rfl⟩, Or.inr ⟨0, by decide, rfl, rfl⟩, by
    rintro (⟨_, h | h⟩ | ⟨b, hb, h, -⟩)
    · exact absurd h (by decide)
    · exact absurd h (by decide)
    · have : 1 = 2 + b := h; omega⟩

end NeoFOAM
