import Verif.Spec.Sparsity
import Verif.Proofs.ParElem
import Verif.Props.C10_Segments
import Mathlib.Tactic.IntervalCases

/-!
# Proofs about the sparsity pattern and the stencil
-/
namespace NeoFOAM
open Finset

theorem TPar.upTo_full (P : TPar) (pos : Nat → Nat) (N : Nat) (h : ∀ j < P.q, pos j < N) :
    P.upTo pos (fun _ => N) = range (P.q * P.m) := by
  ext r
  rw [P.upTo_mem, mem_range]
  constructor
  · exact fun h => h.1
  · intro hr
    refine ⟨hr, h _ (Nat.mod_lt _ ?_)⟩
    rcases Nat.eq_zero_or_pos P.q with h0 | h0
    · rw [h0] at hr; simp at hr
    · exact h0

theorem TPar.upTo_empty (P : TPar) (pos : Nat → Nat) (N : Nat) (h : ∀ j < P.q, N ≤ pos j) :
    P.upTo pos (fun _ => N) = ∅ := by
  ext r
  rw [P.upTo_mem]
  constructor
  · rintro ⟨hr, h'⟩
    have : 0 < P.q := by
      rcases Nat.eq_zero_or_pos P.q with h0 | h0
      · rw [h0] at hr; simp at hr
      · exact h0
    have := h _ (Nat.mod_lt r this)
    omega
  · simp

theorem ticketRun_ok (P : TPar) (shape : List TI) (hs : ShapeOK P.q shape) (c0 : Nat → Nat) (n : Nat)
    (col0 : List Nat) (nOff : Nat)
    (hmode : (∀ j < P.q, posF shape j = posC shape j) ∨
      ∀ r < P.q * P.m, ∀ r' < P.q * P.m, P.cell r = P.cell r' → r = r')
    (hcell : ∀ r < P.q * P.m, P.cell r < n)
    (hoff : ∀ j, TI.off j ∈ shape → P.q * P.m ≤ nOff)
    (hcol : ∀ j, TI.col j ∈ shape → ∀ r < P.q * P.m,
      ∀ i < c0 (P.cell r) + P.cnt (range (P.q * P.m)) (P.cell r), P.base r + i < col0.length ∧
        ∀ r' < P.q * P.m, ∀ i' < c0 (P.cell r') + P.cnt (range (P.q * P.m)) (P.cell r'),
          P.base r + i = P.base r' + i' → P.cell r = P.cell r' ∧ i = i')
    (e : ExecKind) (m : Nat) (hm : m = P.m) (cnt off : List Nat) (body : Nat → Res (List TAct))
    (hb : ∀ k < P.m, body k = .ok (shape.map (TI.act P k)))
    (hcl : cnt.length = n) (hc : ∀ c < n, cnt.getD c 0 = c0 c) (hol : off.length = nOff)
    (Q : List Nat × List Nat × List Nat → Prop)
    (hQ : ∀ (s : TMem) tk, TInv P c0 n col0 nOff tk (P.upTo (posF shape) fun _ => shape.length)
        (P.upTo (posC shape) fun _ => shape.length) (P.upTo (posW shape) fun _ => shape.length)
        (P.upTo (posO shape) fun _ => shape.length) s → Q (s.arr .cnt, s.arr .col, s.arr .off)) :
    (ticketRun e ((List.range m).mapM body) cnt col0 off).Ok Q := by
  subst hm
  intro out hout
  rw [mapM_ok body (fun k => shape.map (TI.act P k)) _ (fun k hk => hb k (by simpa using hk))] at hout
  obtain ⟨l, hl, hout⟩ := hout
  obtain ⟨s', tk, hr, hI⟩ := ticket_kernel P shape hs c0 n col0 nOff hmode hcell hoff hcol
    (tMem cnt col0 off) hcl hc rfl hol
    hl.interleave
  rw [hr] at hout
  exact ⟨_, hout, hQ s' tk hI⟩

theorem ticketRun_runs (e : ExecKind) (ts : Res (List (List TAct))) (cnt col off : List Nat) :
    (ticketRun e ts cnt col off).Runs := by
  cases ts with
  | ok ts =>
    obtain ⟨l, hl⟩ := Schedule.exists e ts
    cases h : runActs LMem.step (tMem cnt col off) l with
    | ok s => exact ⟨.ok _, l, hl, by rw [h]⟩
    | throw x => exact ⟨.throw x, l, hl, by rw [h]⟩
    | abort => exact ⟨.abort, l, hl, by rw [h]⟩
    | ub => exact ⟨.ub, l, hl, by rw [h]⟩
  | throw x => exact ⟨.throw x, rfl⟩
  | abort => exact ⟨.abort, rfl⟩
  | ub => exact ⟨.ub, rfl⟩

variable {K : Type}

/-- Internal faces that have `c` as neighbour (proof side). -/
def Mesh.loDeg (m : Mesh K) (c : Nat) : Nat := ((range m.nInternalFaces).filter (m.nbr · = c)).card
/-- Internal faces that have `c` as owner (proof side). -/
def Mesh.upDeg (m : Mesh K) (c : Nat) : Nat := ((range m.nInternalFaces).filter (m.own · = c)).card

theorem Mesh.deg_eq (m : Mesh K) (c : Nat) : m.deg c = m.upDeg c + m.loDeg c := rfl

theorem Mesh.WF.own_lt_int {m : Mesh K} (h : m.WF) {f : Nat} (hf : f < m.nInternalFaces) :
    m.own f < m.nCells := h.own_lt f (by rw [h.faces]; omega)

theorem Mesh.WF.rd_owner {m : Mesh K} (h : m.WF) {f : Nat} (hf : f < m.nFaces) :
    rd m.owner f = .ok (m.own f) := rd_getD 0 (by rw [h.ownLen]; exact hf)

theorem Mesh.WF.rd_owner_int {m : Mesh K} (h : m.WF) {f : Nat} (hf : f < m.nInternalFaces) :
    rd m.owner f = .ok (m.own f) := h.rd_owner (by rw [h.faces]; omega)

theorem Mesh.WF.rd_nbr {m : Mesh K} (h : m.WF) {f : Nat} (hf : f < m.nInternalFaces) :
    rd m.neighbour f = .ok (m.nbr f) := rd_getD 0 (by rw [h.nbrLen]; exact hf)

theorem Mesh.WF.rd_fc {m : Mesh K} (h : m.WF) {b : Nat} (hb : b < m.nBoundaryFaces) :
    rd m.bnd.faceCells b = .ok (m.fc b) := rd_getD 0 (by rw [h.fcLen]; exact hb)

/-- Requests of the counting loop (proof side). -/
def facePar (m : Mesh K) (base : Nat → Nat) : TPar where
  q := 2
  m := m.nInternalFaces
  cell r := if r % 2 = 0 then m.own (r / 2) else m.nbr (r / 2)
  base r := base (if r % 2 = 0 then m.own (r / 2) else m.nbr (r / 2))
  val r := r / 2

theorem card_two (own nbr : Nat → Nat) (c : Nat) : ∀ n, ((range (2 * n)).filter
    (fun r => (if r % 2 = 0 then own (r / 2) else nbr (r / 2)) = c)).card =
    ((range n).filter (own · = c)).card + ((range n).filter (nbr · = c)).card
  | 0 => by simp
  | n + 1 => by
    have ih := card_two own nbr c n
    have e0 : (2 * n) % 2 = 0 ∧ (2 * n) / 2 = n := by omega
    have e1 : (2 * n + 1) % 2 = 1 ∧ (2 * n + 1) / 2 = n := by omega
    rw [show 2 * (n + 1) = 2 * n + 1 + 1 by ring, range_add_one, range_add_one, range_add_one, filter_insert, filter_insert,
      filter_insert, filter_insert, e0.1, e0.2, e1.1, e1.2]
    simp only [if_true, one_ne_zero, if_false]
    have hn : ∀ (p : Nat → Prop) [DecidablePred p] (k j : Nat), j ≤ k → k ∉ filter p (range j) := by
      intro p _ k j hj; simp; omega
    have hn1 : 2 * n + 1 ∉ insert (2 * n) (filter (fun r => (if r % 2 = 0 then own (r / 2)
        else nbr (r / 2)) = c) (range (2 * n))) := by
      simp
    split <;> split <;>
      simp only [card_insert_of_notMem hn1, card_insert_of_notMem (hn _ (2 * n) (2 * n) le_rfl),
        card_insert_of_notMem (hn _ (2 * n + 1) (2 * n) (by omega)),
        card_insert_of_notMem (hn _ n n le_rfl), ih] <;> omega

theorem facePar_cnt (m : Mesh K) (base : Nat → Nat) (c : Nat) :
    (facePar m base).cnt (range (2 * m.nInternalFaces)) c = m.deg c :=
  card_two m.own m.nbr c m.nInternalFaces

theorem facePar_cell_lt {m : Mesh K} (h : m.WF) (base : Nat → Nat) {r : Nat}
    (hr : r < 2 * m.nInternalFaces) : (facePar m base).cell r < m.nCells := by
  have : r / 2 < m.nInternalFaces := by omega
  simp only [facePar]
  split
  · exact h.own_lt_int this
  · exact h.nbr_lt _ this

theorem even_odd (f : Nat) : (2 * f + 0) % 2 = 0 ∧ (2 * f + 0) / 2 = f ∧ (2 * f + 1) % 2 = 1 ∧ (2 * f + 1) / 2 = f := by
  omega

/-- The counting loop adds the number of internal faces of each cell. -/
theorem count_ok {m : Mesh K} (h : m.WF) (e : ExecKind) (cnt : List Nat) (hl : cnt.length = m.nCells) :
    (ticketRun e ((List.range m.nInternalFaces).mapM (countBody m)) cnt [] []).Ok fun r =>
      r.1.length = m.nCells ∧ ∀ c < m.nCells, r.1.getD c 0 = cnt.getD c 0 + m.deg c := by
  refine ticketRun_ok (facePar m fun _ => 0) [.fetch 0, .fetch 1]
    (by show ShapeOK 2 _; decide) (cnt.getD · 0) m.nCells [] 0
    (Or.inl (by show ∀ j < 2, _; decide)) (fun r hr => facePar_cell_lt h _ hr) (by simp) (by simp) e _ rfl cnt [] _ ?_ hl
    (fun _ _ => rfl) rfl _ ?_
  · intro f hf
    have hf' : f < m.nInternalFaces := hf
    obtain ⟨a, b, c, d⟩ := even_odd f
    have a' : (2 * f) % 2 = 0 ∧ (2 * f) / 2 = f := by omega
    simp [countBody, h.rd_owner_int hf', h.rd_nbr hf', TI.act, facePar, a', c, d]
  · intro s tk I
    refine ⟨I.cntLen, fun c hc => ?_⟩
    have := I.cnt c hc
    rw [TPar.upTo_full _ _ _ (by show ∀ j < 2, _; decide)] at this
    rw [this]
    congr 1
    exact facePar_cnt m _ c

/-- Row pointers: prefix sums of the row sizes (proof side). -/
def Mesh.rp (sz : Nat → Nat) (n i : Nat) : Nat := prefixSum ((List.range n).map sz) i

theorem rp_succ (sz : Nat → Nat) (n : Nat) {c : Nat} (hc : c < n) :
    Mesh.rp sz n (c + 1) = Mesh.rp sz n c + sz c := by
  unfold Mesh.rp
  rw [prefixSum_succ]
  simp [List.getD, List.getElem?_range hc]

theorem rp_mono (sz : Nat → Nat) (n : Nat) {a b : Nat} (h : a ≤ b) : Mesh.rp sz n a ≤ Mesh.rp sz n b :=
  prefixSum_mono _ h

theorem rp_zero (sz : Nat → Nat) (n : Nat) : Mesh.rp sz n 0 = 0 := by simp [Mesh.rp, prefixSum]

theorem rp_last (sz : Nat → Nat) (n : Nat) : Mesh.rp sz n n = ∑ c ∈ range n, sz c := by
  have : ∀ k ≤ n, Mesh.rp sz n k = ∑ c ∈ range k, sz c := by
    intro k
    induction k with
    | zero => intro _; simp [rp_zero]
    | succ k ih => intro hk; rw [rp_succ sz n (by omega), ih (by omega), Finset.sum_range_succ]
  exact this n le_rfl

/-- Positions in different rows differ. -/
theorem rp_disj (sz : Nat → Nat) (n : Nat) {a b i j : Nat} (ha : a < n) (hb : b < n) (hi : i < sz a)
    (hj : j < sz b) (h : Mesh.rp sz n a + i = Mesh.rp sz n b + j) : a = b ∧ i = j := by
  have e1 := rp_succ sz n ha
  have e2 := rp_succ sz n hb
  rcases Nat.lt_trichotomy a b with hlt | heq | hgt
  · have := rp_mono sz n (show a + 1 ≤ b by omega); omega
  · subst heq; exact ⟨rfl, by omega⟩
  · have := rp_mono sz n (show b + 1 ≤ a by omega); omega

theorem rp_lt_last (sz : Nat → Nat) (n : Nat) {a i : Nat} (ha : a < n) (hi : i < sz a) :
    Mesh.rp sz n a + i < Mesh.rp sz n n := by
  have e1 := rp_succ sz n ha
  have := rp_mono sz n (show a + 1 ≤ n by omega)
  omega

theorem sum_fiber (g : Nat → Nat) (k n : Nat) (h : ∀ f < k, g f < n) :
    ∑ c ∈ range n, ((range k).filter (g · = c)).card = k := by
  have := Finset.card_eq_sum_card_fiberwise (s := range k) (t := range n) (f := g)
    (fun f hf => by simpa using h f (by simpa using hf))
  rw [card_range] at this
  exact this.symm

theorem list_eq_of_getD {l : List Nat} {n : Nat} {g : Nat → Nat} (hl : l.length = n)
    (h : ∀ c < n, l.getD c 0 = g c) : l = (List.range n).map g := by
  apply List.ext_getElem?
  intro i
  by_cases hi : i < n
  · rw [List.getElem?_map, List.getElem?_range hi, Option.map_some, ← h i hi]
    rw [List.getD, List.getElem?_eq_getElem (by omega)]; simp
  · rw [List.getElem?_eq_none (by omega), List.getElem?_eq_none (by simp; omega)]

theorem segments_ok (sz : Nat → Nat) (n : Nat) (cnt : List Nat) (h : cnt = (List.range n).map sz) :
    NR.Ok (segmentsFromIntervals cnt (List.replicate (n + 1) 0) : NR (Nat × List Nat)) fun r =>
      r.1 = Mesh.rp sz n n ∧ r.2 = (List.range (n + 1)).map (Mesh.rp sz n) := by
  subst h
  intro out hout
  have := (C10_segmentedField ((List.range n).map sz) out).1 (by
    unfold segmentedField
    simpa using hout)
  refine ⟨_, this, ?_, by simp [Mesh.rp]⟩
  simp only [Mesh.rp, prefixSum]
  rw [List.take_of_length_le (by simp)]

theorem fill_ok (e : ExecKind) (cnt : List Nat) (n : Nat) (h : cnt.length = n) :
    NR.Ok (ParElem e cnt 0 cnt.length (fun _ _ => 0) : NR (List Nat)) fun r =>
      r.length = n ∧ ∀ c < n, r.getD c 0 = 0 := by
  intro out hout
  rw [parElem_det e _ _ _ _ le_rfl] at hout
  refine ⟨_, hout, by simpa using h, ?_⟩
  intro c hc
  simp [List.getD, h, hc]

theorem rd_map_range {g : Nat → Nat} {n i : Nat} (h : i < n) : rd ((List.range n).map g) i = .ok (g i) := by
  rw [rd_eq_ok_iff, List.getElem?_map, List.getElem?_range h]; rfl

/-- Requests with one cell per thread (proof side). -/
def onePar (k : Nat) (cell rp val : Nat → Nat) : TPar where
  q := 1
  m := k
  cell := cell
  base r := rp (cell r)
  val := val

/-- Facts about a finished loop that takes one slot per thread (proof side). -/
structure OneFinal (k : Nat) (cell rp val : Nat → Nat) (c0 : Nat → Nat) (n : Nat) (col0 : List Nat)
    (tk : Nat → Nat) (cnt col : List Nat) : Prop where
  cntLen : cnt.length = n
  cnt : ∀ c < n, cnt.getD c 0 = c0 c + ((range k).filter (cell · = c)).card
  lo : ∀ r < k, c0 (cell r) ≤ tk r
  hi : ∀ r < k, tk r < c0 (cell r) + ((range k).filter (cell · = cell r)).card
  inj : ∀ r < k, ∀ r' < k, cell r = cell r' → tk r = tk r' → r = r'
  colLen : col.length = col0.length
  colW : ∀ r < k, col.getD (rp (cell r) + tk r) 0 = val r
  colE : ∀ p, (∀ r < k, p ≠ rp (cell r) + tk r) → col.getD p 0 = col0.getD p 0

theorem one_ok (shape : List TI) (hs : ShapeOK 1 shape) (k : Nat) (cell val : Nat → Nat) (c0 sz : Nat → Nat)
    (n : Nat) (col0 : List Nat) (nOff : Nat) (hC : posF shape 0 < shape.length ∧ posC shape 0 < shape.length ∧
      posW shape 0 < shape.length)
    (hmode : posF shape 0 = posC shape 0 ∨ ∀ r < k, ∀ r' < k, cell r = cell r' → r = r')
    (hcell : ∀ r < k, cell r < n) (hoff : ∀ j, TI.off j ∈ shape → k ≤ nOff)
    (hcap : ∀ r < k, c0 (cell r) + ((range k).filter (cell · = cell r)).card ≤ sz (cell r))
    (hcl : col0.length = Mesh.rp sz n n)
    (e : ExecKind) (m' : Nat) (hm : m' = k) (cnt off : List Nat) (body : Nat → Res (List TAct))
    (hb : ∀ r < k, body r = .ok (shape.map (TI.act (onePar k cell (Mesh.rp sz n) val) r)))
    (hcnl : cnt.length = n) (hc : ∀ c < n, cnt.getD c 0 = c0 c) (hol : off.length = nOff) :
    (ticketRun e ((List.range m').mapM body) cnt col0 off).Ok fun r =>
      ∃ tk, OneFinal k cell (Mesh.rp sz n) val c0 n col0 tk r.1 r.2.1 ∧ r.2.2.length = nOff ∧
        (posO shape 0 < shape.length → ∀ r' < k, r.2.2.getD r' 0 = tk r' % 256) := by
  have hone : ∀ j < 1, j = 0 := by omega
  refine ticketRun_ok (onePar k cell (Mesh.rp sz n) val) shape hs c0 n col0 nOff ?_ ?_ ?_ ?_ e m' hm cnt off
    body hb hcnl hc hol _ ?_
  · rcases hmode with h | h
    · left; intro j hj; rw [hone j hj]; exact h
    · right; intro r hr r' hr'
      simp only [onePar, one_mul] at hr hr'
      exact h r hr r' hr'
  · intro r hr; simp only [onePar, one_mul] at hr; exact hcell r hr
  · intro j hj; simpa [onePar] using hoff j hj
  · intro j hj r hr i hi
    simp only [onePar, one_mul, TPar.cnt] at hr hi ⊢
    have hi' := lt_of_lt_of_le hi (hcap r hr)
    refine ⟨?_, ?_⟩
    · rw [hcl]; exact rp_lt_last sz n (hcell r hr) hi'
    · intro r' hr' i' hi'' heq
      exact rp_disj sz n (hcell r hr) (hcell r' hr') hi' (lt_of_lt_of_le hi'' (hcap r' hr')) heq
  · intro s tk I
    have hR : (onePar k cell (Mesh.rp sz n) val).q * (onePar k cell (Mesh.rp sz n) val).m = k := by
      simp [onePar]
    rw [TPar.upTo_full _ (posF shape) _ (by intro j hj; rw [hone j hj]; exact hC.1),
      TPar.upTo_full _ (posC shape) _ (by intro j hj; rw [hone j hj]; exact hC.2.1),
      TPar.upTo_full _ (posW shape) _ (by intro j hj; rw [hone j hj]; exact hC.2.2), hR] at I
    refine ⟨tk, ⟨I.cntLen, I.cnt, ?_, ?_, ?_, I.colLen, ?_, ?_⟩, I.offLen, ?_⟩
    · intro r hr; exact I.lo r (mem_range.2 hr)
    · intro r hr; exact I.hi r (mem_range.2 hr)
    · intro r hr r' hr'; exact I.inj r (mem_range.2 hr) r' (mem_range.2 hr')
    · intro r hr; exact I.colW r (mem_range.2 hr)
    · intro p hp; exact I.colE p (fun r hr => hp r (mem_range.1 hr))
    · intro hO r hr
      have := I.offO
      rw [TPar.upTo_full _ (posO shape) _ (by intro j hj; rw [hone j hj]; exact hO), hR] at this
      exact this r (mem_range.2 hr)

end NeoFOAM
