import Verif.Props.C37_Tags

/-!
# C38 – communication buffers give every rank a disjoint slice of the right size
-/
namespace NeoFOAM

/-- The element counts per rank that the last sizing in a history asked for. -/
def requested (sizes : List Nat) : List BufCall → List Nat
  | [] => sizes
  | .setSizes _ s :: l => requested s l
  | .init _ _ :: l => requested sizes l
  | .finalise :: l => requested sizes l

/-- The size of the element type last given. -/
def typeInUse (t : Nat) : List BufCall → Nat
  | [] => t
  | .setSizes t' _ :: l => typeInUse t' l
  | .init t' _ :: l => typeInUse t' l
  | .finalise :: l => typeInUse t l

/-- The name of the communication a history leaves open. -/
def openName (o : Option String) : List BufCall → Option String
  | [] => o
  | .setSizes _ _ :: l => openName o l
  | .init _ name :: l => openName (some name) l
  | .finalise :: l => openName none l

/-- A call the code's assertions allow, on `n` ranks: element types have a size, size tables one entry per rank. -/
def BufCall.Valid (n : Nat) : BufCall → Prop
  | .setSizes t s => 0 < t ∧ s.length = n
  | .init t _ => 0 < t
  | .finalise => True

namespace HalfBuf

/-- Where the parts of the ranks start when `sizes` elements of size `t` are laid out one after the other. -/
def layout (sizes : List Nat) (t : Nat) : List Nat := (List.range (sizes.length + 1)).map fun r => t * (sizes.take r).sum

theorem length_layout (sizes : List Nat) (t : Nat) : (layout sizes t).length = sizes.length + 1 := by simp [layout]

theorem layout_getElem? (sizes : List Nat) (t : Nat) {r : Nat} (h : r ≤ sizes.length) :
    (layout sizes t)[r]? = some (t * (sizes.take r).sum) := by
  simp [layout, List.getElem?_map, List.getElem?_range (show r < sizes.length + 1 by omega)]

theorem take_succ_sum (sizes : List Nat) {r : Nat} (h : r < sizes.length) :
    (sizes.take (r + 1)).sum = (sizes.take r).sum + sizes.getD r 0 := by
  rw [List.take_succ, List.sum_append]
  simp [List.getD, List.getElem?_eq_getElem h]

theorem length_resizeList {α : Type} (l : List α) (n : Nat) (v : α) : (resizeList l n v).length = n := by
  simp [resizeList]; omega

theorem prefix_resizeList {α : Type} (l : List α) {n : Nat} (v : α) (h : l.length ≤ n) : l <+: resizeList l n v := by
  unfold resizeList
  rw [List.take_of_length_le h]
  exact List.prefix_append _ _

theorem offset_loop {sizes : List Nat} {rankSize : Nat → Res Nat} {t : Nat} {offs : List Nat}
    (hs : ∀ r < sizes.length, rankSize r = .ok (sizes.getD r 0)) (ho : offs.length = sizes.length + 1) :
    ∀ k ≤ sizes.length, ∃ o, (List.range k).foldlM (offsetStep rankSize t) (offs, 0) = .ok (o, t * (sizes.take k).sum) ∧
      o.length = sizes.length + 1 ∧ ∀ r < k, o[r]? = some (t * (sizes.take r).sum)
  | 0, _ => ⟨offs, by simp, ho, by omega⟩
  | k + 1, hk => by
    obtain ⟨o, h1, h2, h3⟩ := offset_loop hs ho k (by omega)
    refine ⟨o.set k (t * (sizes.take k).sum), ?_, by simpa using h2, ?_⟩
    · rw [List.range_succ, List.foldlM_append, h1, Res.ok_bind]
      simp only [List.foldlM_cons, List.foldlM_nil, offsetStep]
      rw [wr_ok (by omega), hs k (by omega), take_succ_sum sizes (by omega)]
      simp [Nat.mul_add, Nat.mul_comm]
    · intro r hr
      rw [List.getElem?_set]
      by_cases h : k = r
      · subst h; simp [h2]; omega
      · simp only [h, if_false]; exact h3 r (by omega)

/-- `updateDataSize` lays the parts out one after the other. -/
theorem updateDataSize_ok {b : HalfBuf} {sizes : List Nat} {rankSize : Nat → Res Nat} {t : Nat}
    (hn : b.sizeRank = sizes.length) (hs : ∀ r < sizes.length, rankSize r = .ok (sizes.getD r 0))
    (ho : b.rankOffset.length = sizes.length + 1) :
    ∃ bytes, b.updateDataSize rankSize t = .ok { b with rankOffset := layout sizes t, bytes := bytes } ∧
      b.bytes <+: bytes ∧ t * sizes.sum ≤ bytes.length := by
  obtain ⟨o, h1, h2, h3⟩ := offset_loop (t := t) hs ho sizes.length (le_refl _)
  have hlay : o.set sizes.length (t * (sizes.take sizes.length).sum) = layout sizes t := by
    apply List.ext_getElem?
    intro r
    rw [List.getElem?_set]
    by_cases h : sizes.length = r
    · subst h; rw [layout_getElem? _ _ (le_refl _)]; simp [h2]
    · simp only [h, if_false]
      by_cases hr : r < sizes.length
      · rw [h3 r hr, layout_getElem? _ _ (by omega)]
      · rw [List.getElem?_eq_none (by omega), List.getElem?_eq_none (by rw [length_layout]; omega)]
  unfold updateDataSize
  rw [hn, h1, Res.ok_bind]
  simp only [h2, Nat.add_sub_cancel]
  rw [wr_ok (by omega), Res.ok_bind, hlay, List.take_of_length_le (le_refl _)]
  refine ⟨_, rfl, ?_, ?_⟩
  · split
    · exact prefix_resizeList _ _ (by omega)
    · exact List.prefix_rfl
  · split
    · rw [length_resizeList]
    · omega

/-- The tag of an open communication, −1 when there is none. -/
def tagOf (hash : String → Nat) : Option String → Int
  | some n => bufferHash hash n
  | none => -1

/-- The state of a buffer on `sizes.length` ranks with `sizes` elements of size `t`. -/
structure Holds (hash : String → Nat) (b : HalfBuf) (sizes : List Nat) (t : Nat) (o : Option String) : Prop where
  ranks : b.sizeRank = sizes.length
  type : b.typeSize = t
  pos : 0 < t
  offs : b.rankOffset = layout sizes t
  fits : t * sizes.sum ≤ b.bytes.length
  req : b.request.length = sizes.length
  name : o = if b.isCommInit then some b.commName else none
  tag : b.tag = tagOf hash o

theorem rankCount_layout {b : HalfBuf} {sizes : List Nat} {t : Nat} (ht : 0 < t) (ho : b.rankOffset = layout sizes t) {r : Nat}
    (hr : r < sizes.length) : b.rankCount t r = .ok (sizes.getD r 0) := by
  unfold rankCount
  rw [rd_eq_ok_iff.2 (ho ▸ layout_getElem? sizes t (show r + 1 ≤ sizes.length by omega)),
    rd_eq_ok_iff.2 (ho ▸ layout_getElem? sizes t (show r ≤ sizes.length by omega))]
  simp only [Res.ok_bind, take_succ_sum sizes hr, Nat.mul_add, Nat.add_sub_cancel_left, Nat.mul_div_cancel_left _ ht, Res.pure_eq]

theorem Holds.get {hash : String → Nat} {b : HalfBuf} {sizes : List Nat} {t : Nat} {o : Option String}
    (h : b.Holds hash sizes t o) {r : Nat} (hr : r < sizes.length) :
    b.get t r = .ok (t * (sizes.take r).sum, sizes.getD r 0) := by
  unfold HalfBuf.get
  rw [rankCount_layout h.pos h.offs hr, rd_eq_ok_iff.2 (h.offs ▸ layout_getElem? sizes t (show r ≤ sizes.length by omega))]
  rfl

theorem isCommInit_hash {hash : String → Nat} {n : String} {b : HalfBuf} (h : b.tag = bufferHash hash n) : b.isCommInit = true := by
  unfold isCommInit
  rw [h]
  simpa using (C37_range_partial hash n).2.2

theorem setCommRankSize_holds {hash : String → Nat} {b : HalfBuf} {sizes : List Nat} {t : Nat} {o : Option String} {t' : Nat}
    {sizes' : List Nat} (h : b.Holds hash sizes t o) (ht : 0 < t') (hl : sizes'.length = sizes.length) :
    ∃ b', b.setCommRankSize t' sizes' = .ok b' ∧ b'.Holds hash sizes' t' o ∧ b.bytes <+: b'.bytes := by
  obtain ⟨bytes, h1, h2, h3⟩ := updateDataSize_ok (b := { b with
    typeSize := t'
    rankOffset := resizeList b.rankOffset (sizes'.length + 1) 0
    request := resizeList b.request sizes'.length none }) (sizes := sizes') (rankSize := rd sizes') (t := t')
    (by rw [hl]; exact h.ranks) (fun r hr => rd_getD 0 hr) (length_resizeList _ _ _)
  refine ⟨_, h1, ⟨?_, rfl, ht, rfl, h3, length_resizeList _ _ _, h.name, h.tag⟩, h2⟩
  rw [hl]; exact h.ranks

theorem create_holds {hash : String → Nat} (sizes : List Nat) :
    ∃ b, create sizes.length sizes = .ok b ∧ b.Holds hash sizes 1 none := by
  obtain ⟨bytes, h1, h2, h3⟩ := updateDataSize_ok (b := { unsized sizes.length with
    typeSize := 1
    rankOffset := resizeList (unsized sizes.length).rankOffset (sizes.length + 1) 0
    request := resizeList (unsized sizes.length).request sizes.length none }) (sizes := sizes) (rankSize := rd sizes) (t := 1)
    rfl (fun r hr => rd_getD 0 hr) (length_resizeList _ _ _)
  exact ⟨_, h1, ⟨rfl, rfl, by decide, rfl, h3, length_resizeList _ _ _, rfl, rfl⟩⟩

theorem setType_ok {hash : String → Nat} {b : HalfBuf} {sizes : List Nat} {t : Nat} {o : Option String} (h : b.Holds hash sizes t o)
    {t' : Nat} (ht : 0 < t') :
    ∃ bytes, b.setType t' = .ok { b with typeSize := t', rankOffset := layout sizes t', bytes := bytes } ∧
      b.bytes <+: bytes ∧ t' * sizes.sum ≤ bytes.length := by
  unfold setType
  by_cases he : b.typeSize = t'
  · refine ⟨b.bytes, ?_, List.prefix_rfl, ?_⟩
    · rw [if_pos he, ← he, h.type, ← h.offs]
      cases b with
      | mk a1 a2 a3 a4 a5 a6 a7 =>
        have := h.type
        simp only at this ⊢
        rw [this]
    · rw [← he, h.type]; exact h.fits
  · obtain ⟨bytes, h1, h2, h3⟩ := updateDataSize_ok (b := b) (sizes := sizes) (rankSize := b.rankCount b.typeSize) (t := t')
      h.ranks (fun r hr => by rw [h.type]; exact rankCount_layout h.pos h.offs hr) (by rw [h.offs, length_layout])
    exact ⟨bytes, by rw [if_neg he, h1]; rfl, h2, h3⟩

theorem initComm_holds {hash : String → Nat} {b : HalfBuf} {sizes : List Nat} {t : Nat} {o : Option String}
    (h : b.Holds hash sizes t o) {t' : Nat} (ht : 0 < t') (name : String) :
    ∃ b', b.initComm hash t' name = .ok b' ∧ b'.Holds hash sizes t' (some name) ∧ b.bytes <+: b'.bytes ∧ b'.request = b.request := by
  obtain ⟨bytes, h1, h2, h3⟩ := setType_ok h ht
  unfold initComm
  rw [h1]
  refine ⟨_, rfl, ⟨h.ranks, rfl, ht, rfl, h3, h.req, ?_, rfl⟩, h2, rfl⟩
  rw [isCommInit_hash (hash := hash) (n := name) rfl]; rfl

theorem finaliseComm_holds {hash : String → Nat} {b : HalfBuf} {sizes : List Nat} {t : Nat} {o : Option String}
    (h : b.Holds hash sizes t o) : b.finaliseComm.Holds hash sizes t none :=
  ⟨h.ranks, h.type, h.pos, h.offs, h.fits, h.req, rfl, rfl⟩

theorem calls_holds {hash : String → Nat} : ∀ (l : List BufCall) {b : HalfBuf} {sizes : List Nat} {t : Nat} {o : Option String},
    b.Holds hash sizes t o → (∀ c ∈ l, c.Valid sizes.length) →
    ∃ b', b.calls hash l = .ok b' ∧ b'.Holds hash (requested sizes l) (typeInUse t l) (openName o l) ∧ b.bytes <+: b'.bytes ∧
      (requested sizes l).length = sizes.length
  | [], b, _, _, _, h, _ => ⟨b, rfl, h, List.prefix_rfl, rfl⟩
  | c :: l, b, sizes, t, o, h, hv => by
    have hc := hv c (by simp)
    have hrest : ∀ c ∈ l, c.Valid sizes.length := fun x hx => hv x (by simp [hx])
    unfold calls
    simp only [List.foldlM_cons]
    cases c with
    | setSizes t' s =>
      obtain ⟨b1, e1, h1, p1⟩ := setCommRankSize_holds h hc.1 hc.2
      obtain ⟨b2, e2, h2, p2, q2⟩ := calls_holds l h1 (by rw [hc.2]; exact hrest)
      refine ⟨b2, ?_, h2, p1.trans p2, q2.trans hc.2⟩
      simp only [call, e1, Res.ok_bind]; exact e2
    | init t' name =>
      obtain ⟨b1, e1, h1, p1, _⟩ := initComm_holds h (t' := t') hc name
      obtain ⟨b2, e2, h2, p2, q2⟩ := calls_holds l h1 hrest
      refine ⟨b2, ?_, h2, p1.trans p2, q2⟩
      simp only [call, e1, Res.ok_bind]; exact e2
    | finalise =>
      obtain ⟨b2, e2, h2, p2, q2⟩ := calls_holds l (finaliseComm_holds h) hrest
      exact ⟨b2, e2, h2, p2, q2⟩

end HalfBuf

/-- **C38.** Construct a buffer for any size table and make any history of sizings, initialisations and finalisations with
element types of any sizes. All calls succeed; afterwards the view of each rank, for the element type in use, has exactly the number of
elements last requested for that rank; the first view starts at byte 0, each further one where the one before ends (so the views are
contiguous and in rank order), every start is a multiple of the element size, the views are pairwise disjoint and the last ends within
the allocated bytes. The bytes the buffer had are still there, and the buffer says it is initialised, under the name given,
exactly when the history left it so. -/
theorem C38_slices (hash : String → Nat) (sizes : List Nat) (l : List BufCall) (hl : ∀ c ∈ l, c.Valid sizes.length) :
    ∃ b0 b, HalfBuf.create sizes.length sizes = .ok b0 ∧ b0.calls hash l = .ok b ∧
      (requested sizes l).length = sizes.length ∧
      (∃ start : Nat → Nat, start 0 = 0 ∧
        (∀ r < sizes.length, b.get (typeInUse 1 l) r = .ok (start r, (requested sizes l).getD r 0) ∧
          start (r + 1) = start r + (requested sizes l).getD r 0 * typeInUse 1 l ∧ typeInUse 1 l ∣ start r) ∧
        (∀ r r', r < r' → r' < sizes.length → start r + (requested sizes l).getD r 0 * typeInUse 1 l ≤ start r') ∧
        start sizes.length ≤ b.bytes.length) ∧
      b0.bytes <+: b.bytes ∧
      (if b.isCommInit then some b.commName else none) = openName none l := by
  obtain ⟨b0, e0, h0⟩ := HalfBuf.create_holds (hash := hash) sizes
  obtain ⟨b, e, h, p, q⟩ := HalfBuf.calls_holds l h0 hl
  have step : ∀ r < sizes.length, typeInUse 1 l * ((requested sizes l).take (r + 1)).sum
      = typeInUse 1 l * ((requested sizes l).take r).sum + (requested sizes l).getD r 0 * typeInUse 1 l := by
    intro r hr
    rw [HalfBuf.take_succ_sum _ (by omega), Nat.mul_add, Nat.mul_comm (typeInUse 1 l) (List.getD _ _ _)]
  refine ⟨b0, b, e0, e, q, ⟨fun r => typeInUse 1 l * ((requested sizes l).take r).sum, by simp, ?_, ?_, ?_⟩, p, h.name.symm⟩
  · exact fun r hr => ⟨h.get (by omega), step r hr, Nat.dvd_mul_right _ _⟩
  · intro r r' hr hr'
    show _ ≤ typeInUse 1 l * ((requested sizes l).take r').sum
    rw [← step r (by omega)]
    refine Nat.mul_le_mul_left _ ?_
    obtain ⟨d, rfl⟩ : ∃ d, r' = r + 1 + d := ⟨r' - (r + 1), by omega⟩
    rw [List.take_add (i := r + 1) (j := d), List.sum_append]
    exact Nat.le_add_right _ _
  · show typeInUse 1 l * _ ≤ _
    rw [List.take_of_length_le (by omega)]
    exact h.fits

/-- A buffer that was never sized cannot be initialised for a type other than bytes: undefined behaviour. -/
theorem C38_unsized_undefined (hash : String → Nat) (n t : Nat) (ht : t ≠ 1) (name : String) :
    (HalfBuf.unsized n).initComm hash t name = .ub := by
  unfold HalfBuf.initComm HalfBuf.setType
  rw [if_neg (by simpa [HalfBuf.unsized] using Ne.symm ht)]
  unfold HalfBuf.updateDataSize
  cases n with
  | zero => simp [HalfBuf.unsized, wr]
  | succ n =>
    have : (List.range (n + 1)).foldlM (HalfBuf.offsetStep ((HalfBuf.unsized (n + 1)).rankCount (HalfBuf.unsized (n + 1)).typeSize) t)
        ((HalfBuf.unsized (n + 1)).rankOffset, 0) = .ub := by
      rw [List.range_succ_eq_map, List.foldlM_cons]
      simp [HalfBuf.offsetStep, HalfBuf.unsized, wr]
    rw [show (HalfBuf.unsized (n + 1)).sizeRank = n + 1 from rfl, this]
    rfl

/-- A history with three type switches and a change of the sizes on three ranks. -/
example : ∀ c ∈ [BufCall.init 8 "a", .finalise, .setSizes 4 [0, 5, 1], .init 24 "b"], c.Valid [2, 0, 3].length := by
  simp [BufCall.Valid]

end NeoFOAM
