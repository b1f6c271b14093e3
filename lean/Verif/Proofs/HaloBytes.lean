import Verif.Spec.Halo
import Verif.Props.C38_Buffers
import Mathlib.Tactic.Common
import Mathlib.Tactic.Ring

/-!
# Bytes and buffers of halo exchanges
-/
namespace NeoFOAM

/-- Bytes `[off, off+n)`. -/
def slice (bytes : List UInt8) (off n : Nat) : List UInt8 := (bytes.drop off).take n

theorem length_slice {bytes : List UInt8} {off n : Nat} (h : off + n ≤ bytes.length) : (slice bytes off n).length = n := by
  simp [slice]; omega

theorem slice_add (bytes : List UInt8) (off n k : Nat) : slice bytes off (n + k) = slice bytes off n ++ slice bytes (off + n) k := by
  simp [slice, List.take_add, List.drop_drop]

theorem getBytes_ok {bytes : List UInt8} {off n : Nat} (h : off + n ≤ bytes.length) : getBytes bytes off n = .ok (slice bytes off n) := by
  simp [getBytes, h, slice]

theorem putBytes_ok {bytes : List UInt8} {pos : Nat} {e : List UInt8} (h : pos + e.length ≤ bytes.length) :
    ∃ b', putBytes bytes pos e = .ok b' ∧ b'.length = bytes.length ∧ slice b' pos e.length = e ∧
      ∀ off n, off + n ≤ pos ∨ pos + e.length ≤ off → slice b' off n = slice bytes off n := by
  refine ⟨bytes.take pos ++ e ++ bytes.drop (pos + e.length), by simp [putBytes, h], ?_, ?_, ?_⟩
  · simp; omega
  · have hl : (bytes.take pos).length = pos := by simp; omega
    unfold slice
    rw [List.append_assoc, List.drop_append_of_le_length (by omega), List.drop_of_length_le (by omega)]
    simp
  · intro off n hd
    have hl : (bytes.take pos).length = pos := by simp; omega
    unfold slice
    rcases hd with hd | hd
    · rw [List.append_assoc, List.drop_append_of_le_length (by omega), List.take_append_of_le_length (by simp; omega),
        List.drop_take, List.take_take]
      congr 1; omega
    · have hl2 : (bytes.take pos ++ e).length = pos + e.length := by simp; omega
      rw [List.drop_append, List.drop_of_length_le (by omega), hl2, List.drop_drop]
      simp
      congr 2; omega

/-- A loop over a map of elements that are put one after the other. -/
theorem fillRank_ok {size : Nat} {field : List Elem} {map : List Nat} {off : Nat} {bytes : List UInt8}
    (hm : ∀ i ∈ map, i < field.length ∧ (field.getD i []).length = size) (hb : off + size * map.length ≤ bytes.length) :
    ∃ b', fillRank size field map off bytes = .ok b' ∧ b'.length = bytes.length ∧
      slice b' off (size * map.length) = (map.map fun i => field.getD i []).flatten ∧
      ∀ o n, o + n ≤ off ∨ off + size * map.length ≤ o → slice b' o n = slice bytes o n := by
  have key : ∀ k ≤ map.length, ∃ b', (List.range k).foldlM (fun bytes data => do
      let i ← rd map data
      let e ← rd field i
      putBytes bytes (off + data * size) e) bytes = .ok b' ∧ b'.length = bytes.length ∧
      slice b' off (size * k) = ((map.take k).map fun i => field.getD i []).flatten ∧
      ∀ o n, o + n ≤ off ∨ off + size * k ≤ o → slice b' o n = slice bytes o n := by
    intro k
    induction k with
    | zero => intro _; exact ⟨bytes, by simp, rfl, by simp [slice], fun _ _ _ => rfl⟩
    | succ k ih =>
      intro hk
      obtain ⟨b1, e1, l1, s1, d1⟩ := ih (by omega)
      have hk' : k < map.length := by omega
      obtain ⟨hi, hs⟩ := hm map[k] (List.getElem_mem hk')
      have hmul : size * (k + 1) = size * k + size := by ring
      have hle : size * (k + 1) ≤ size * map.length := Nat.mul_le_mul_left _ hk
      have hpos : off + k * size + (field.getD map[k] []).length ≤ b1.length := by rw [hs, l1, Nat.mul_comm k]; omega
      obtain ⟨b2, e2, l2, s2, d2⟩ := putBytes_ok hpos
      rw [hs] at s2 d2
      have hc : k * size = size * k := Nat.mul_comm _ _
      refine ⟨b2, ?_, by rw [l2, l1], ?_, ?_⟩
      · rw [List.range_succ, List.foldlM_append, e1, Res.ok_bind]
        simp only [List.foldlM_cons, List.foldlM_nil]
        rw [rd_ok hk', Res.ok_bind, rd_getD [] hi, Res.ok_bind, e2]
        rfl
      · rw [hmul, slice_add, d2 _ _ (.inl (by omega)), s1, ← hc, s2, List.take_succ_eq_append_getElem hk', List.map_append, List.flatten_append]
        simp
      · intro o n ho
        rw [d2 _ _ (by omega), d1 _ _ (by omega)]
  obtain ⟨b', h1, h2, h3, h4⟩ := key map.length (le_refl _)
  exact ⟨b', h1, h2, by simpa using h3, h4⟩

/-- Reading the part of one rank. -/
theorem readRank_ok {size : Nat} {bytes : List UInt8} {map : List Nat} {off : Nat} {vals : List Elem} (field : List Elem)
    (hl : vals.length = map.length) (hv : ∀ v ∈ vals, v.length = size)
    (hs : slice bytes off (size * map.length) = vals.flatten) (hb : off + size * map.length ≤ bytes.length)
    (hf : ∀ i ∈ map, i < field.length) :
    readRank size bytes map off field = .ok (writeAt field map vals) := by
  have hel : ∀ k, k ≤ map.length → slice bytes off (size * k) = (vals.take k).flatten := by
    intro k hk
    have hkl : (vals.take k).flatten.length = size * k := by
      rw [List.length_flatten]
      have : (vals.take k).map List.length = List.replicate k size := by
        apply List.ext_getElem
        · simp; omega
        · intro i h1 h2
          simp only [List.getElem_map, List.getElem_take, List.getElem_replicate]
          exact hv _ (List.getElem_mem _)
      rw [this]; simp [Nat.mul_comm]
    have h2 : size * map.length = size * k + size * (map.length - k) := by rw [← Nat.mul_add]; congr 1; omega
    have h1 := hs
    rw [h2, slice_add] at h1
    have h3 : vals.flatten = (vals.take k).flatten ++ (vals.drop k).flatten := by
      rw [← List.flatten_append, List.take_append_drop]
    rw [h3] at h1
    have hle : size * k ≤ size * map.length := Nat.mul_le_mul_left _ hk
    exact (List.append_inj h1 (by rw [length_slice (by omega), hkl])).1
  have key : ∀ k ≤ map.length, (List.range k).foldlM (fun field data => do
      let i ← rd map data
      let e ← getBytes bytes (off + data * size) size
      wr field i e) field = .ok (writeAt field (map.take k) (vals.take k)) ∧ (writeAt field (map.take k) (vals.take k)).length = field.length := by
    intro k
    induction k with
    | zero => intro _; simp [writeAt]
    | succ k ih =>
      intro hk
      obtain ⟨e1, l1⟩ := ih (by omega)
      have hk' : k < map.length := by omega
      have hv' : k < vals.length := by omega
      have hmul : size * (k + 1) = size * k + size := by ring
      have hle : size * (k + 1) ≤ size * map.length := Nat.mul_le_mul_left _ hk
      have hc : k * size = size * k := Nat.mul_comm _ _
      have hsl : slice bytes (off + k * size) size = vals[k] := by
        have h1 := hel (k + 1) hk
        rw [hmul, slice_add, hel k (by omega), List.take_succ_eq_append_getElem hv', List.flatten_append] at h1
        simpa [hc] using h1
      have hw : writeAt field (map.take (k + 1)) (vals.take (k + 1)) = (writeAt field (map.take k) (vals.take k)).set map[k] vals[k] := by
        unfold writeAt
        rw [List.take_succ_eq_append_getElem hk', List.take_succ_eq_append_getElem hv', List.zip_append (by simp; omega), List.foldl_append]
        rfl
      refine ⟨?_, by rw [hw]; simpa using l1⟩
      rw [List.range_succ, List.foldlM_append, e1, Res.ok_bind]
      simp only [List.foldlM_cons, List.foldlM_nil]
      rw [rd_ok hk', Res.ok_bind, getBytes_ok (by omega), Res.ok_bind, hsl, wr_ok (by rw [l1]; exact hf _ (List.getElem_mem hk')), hw]
      rfl
  have := (key map.length (le_refl _)).1
  rw [List.take_of_length_le (le_refl _), List.take_of_length_le (by omega)] at this
  exact this

theorem length_writeAt (f : List Elem) (pos : List Nat) (vals : List Elem) : (writeAt f pos vals).length = f.length := by
  unfold writeAt
  induction pos.zip vals generalizing f with
  | nil => rfl
  | cons x l ih => rw [List.foldl_cons, ih]; simp

/-- Where the part of rank `s` starts. -/
def partOff (sizes : List Nat) (t s : Nat) : Nat := t * (sizes.take s).sum

theorem partOff_end {sizes : List Nat} {t s : Nat} (h : s < sizes.length) :
    partOff sizes t s + t * sizes.getD s 0 ≤ t * sizes.sum := by
  unfold partOff
  rw [← Nat.mul_add, ← HalfBuf.take_succ_sum sizes h]
  refine Nat.mul_le_mul_left _ ?_
  conv_rhs => rw [← List.take_append_drop (s + 1) sizes, List.sum_append]
  omega

theorem partOff_disjoint {sizes : List Nat} {t s s' : Nat} (h : s < s') (h' : s' < sizes.length) :
    partOff sizes t s + t * sizes.getD s 0 ≤ partOff sizes t s' := by
  unfold partOff
  rw [← Nat.mul_add, ← HalfBuf.take_succ_sum sizes (by omega)]
  refine Nat.mul_le_mul_left _ ?_
  obtain ⟨d, rfl⟩ : ∃ d, s' = s + 1 + d := ⟨s' - (s + 1), by omega⟩
  rw [List.take_add (i := s + 1) (j := d), List.sum_append]
  omega

/-- The parts of two different ranks do not overlap. -/
theorem partOff_apart {sizes : List Nat} {t s s' : Nat} (hne : s ≠ s') (hs : s < sizes.length) (hs' : s' < sizes.length) :
    partOff sizes t s + t * sizes.getD s 0 ≤ partOff sizes t s' ∨ partOff sizes t s' + t * sizes.getD s' 0 ≤ partOff sizes t s := by
  rcases Nat.lt_or_gt_of_ne hne with h | h
  · exact .inl (partOff_disjoint h hs')
  · exact .inr (partOff_disjoint h hs)

/-- Holding only depends on the bytes through their number. -/
theorem HalfBuf.Holds.withBytes {hash : String → Nat} {b : HalfBuf} {sizes : List Nat} {t : Nat} {o : Option String}
    (h : b.Holds hash sizes t o) {bytes : List UInt8} (hl : bytes.length = b.bytes.length) :
    ({ b with bytes := bytes } : HalfBuf).Holds hash sizes t o :=
  ⟨h.ranks, h.type, h.pos, h.offs, by rw [hl]; exact h.fits, h.req, h.name, h.tag⟩

theorem HalfBuf.Holds.withRequest {hash : String → Nat} {b : HalfBuf} {sizes : List Nat} {t : Nat} {o : Option String}
    (h : b.Holds hash sizes t o) {req : List (Option Nat)} (hl : req.length = b.request.length) :
    ({ b with request := req } : HalfBuf).Holds hash sizes t o :=
  ⟨h.ranks, h.type, h.pos, h.offs, h.fits, by rw [← h.req]; exact hl, h.name, h.tag⟩

/-- Filling the send buffer. -/
theorem fillSend_ok {hash : String → Nat} {b : HalfBuf} {maps : List (List Nat)} {t : Nat} {o : Option String} {field : List Elem}
    (h : b.Holds hash (maps.map List.length) t o)
    (hm : ∀ s < maps.length, ∀ i ∈ maps.getD s [], i < field.length ∧ (field.getD i []).length = t) :
    ∃ bytes, fillSend maps.length t field maps b = .ok { b with bytes := bytes } ∧ bytes.length = b.bytes.length ∧
      ∀ s < maps.length, slice bytes (partOff (maps.map List.length) t s) (t * (maps.getD s []).length)
        = ((maps.getD s []).map fun i => field.getD i []).flatten := by
  have hsz : ∀ s, (maps.map List.length).getD s 0 = (maps.getD s []).length := by
    intro s
    simp only [List.getD, List.getElem?_map]
    cases maps[s]? <;> rfl
  have key : ∀ k ≤ maps.length, ∃ bytes, (List.range k).foldlM (fun b rank => do
      let (off, _) ← HalfBuf.get b t rank
      let map ← rd maps rank
      let bytes ← fillRank t field map off b.bytes
      return { b with bytes := bytes }) b = .ok { b with bytes := bytes } ∧ bytes.length = b.bytes.length ∧
      ∀ s < k, slice bytes (partOff (maps.map List.length) t s) (t * (maps.getD s []).length)
        = ((maps.getD s []).map fun i => field.getD i []).flatten := by
    intro k
    induction k with
    | zero => intro _; exact ⟨b.bytes, by simp, rfl, by omega⟩
    | succ k ih =>
      intro hk
      obtain ⟨b1, e1, l1, s1⟩ := ih (by omega)
      have hend := partOff_end (sizes := maps.map List.length) (t := t) (s := k) (by rw [List.length_map]; omega)
      rw [hsz] at hend
      have hfits := h.fits
      obtain ⟨b2, e2, l2, s2, d2⟩ := fillRank_ok (bytes := b1) (off := partOff (maps.map List.length) t k) (hm k (by omega)) (by omega)
      refine ⟨b2, ?_, by rw [l2, l1], ?_⟩
      · rw [List.range_succ, List.foldlM_append, e1, Res.ok_bind]
        simp only [List.foldlM_cons, List.foldlM_nil]
        rw [(h.withBytes l1).get (by rw [List.length_map]; omega), Res.ok_bind, rd_getD [] (by omega)]
        simp only [Res.ok_bind]
        rw [show fillRank t field (maps.getD k []) (t * (List.take k (List.map List.length maps)).sum) b1 = .ok b2 from e2]
        rfl
      · intro s hs
        by_cases hsk : s = k
        · subst hsk; exact s2
        · rw [d2 _ _ (.inl ?_), s1 s (by omega)]
          have := partOff_disjoint (sizes := maps.map List.length) (t := t) (s := s) (s' := k) (by omega) (by rw [List.length_map]; omega)
          rw [hsz] at this
          exact this
  exact key maps.length (le_refl _)

/-- Reading the receive buffer. -/
theorem readRecv_ok {hash : String → Nat} {b : HalfBuf} {maps : List (List Nat)} {t : Nat} {o : Option String} {field : List Elem}
    (h : b.Holds hash (maps.map List.length) t o) (vals : Nat → List Elem)
    (hl : ∀ s < maps.length, (vals s).length = (maps.getD s []).length) (hv : ∀ s < maps.length, ∀ v ∈ vals s, v.length = t)
    (hs : ∀ s < maps.length, slice b.bytes (partOff (maps.map List.length) t s) (t * (maps.getD s []).length) = (vals s).flatten)
    (hf : ∀ s < maps.length, ∀ i ∈ maps.getD s [], i < field.length) :
    readRecv maps.length t b maps field = .ok ((List.range maps.length).foldl (fun f s => writeAt f (maps.getD s []) (vals s)) field) := by
  have hsz : ∀ s, (maps.map List.length).getD s 0 = (maps.getD s []).length := by
    intro s
    simp only [List.getD, List.getElem?_map]
    cases maps[s]? <;> rfl
  refine (foldlM_ok (fun f => f.length = field.length) _ _ (List.range maps.length) field rfl ?_).1
  intro f s hs' hfl
  have hs' : s < maps.length := List.mem_range.1 hs'
  have hend := partOff_end (sizes := maps.map List.length) (t := t) (s := s) (by simpa using hs')
  rw [hsz] at hend
  have hfits := h.fits
  refine ⟨?_, by rw [length_writeAt]; exact hfl⟩
  rw [h.get (by simpa using hs'), Res.ok_bind, rd_getD [] hs']
  exact readRank_ok f (hl s hs') (hv s hs') (hs s hs') (show partOff _ _ _ + _ ≤ _ by omega) (by rw [hfl]; exact hf s hs')

end NeoFOAM
