import Verif.Props.C08_FieldRanges

/-!
# C09 – copies, assignment, resizing and executor transfers preserve contents
-/
namespace NeoFOAM
variable {K : Type u}

/-- **C09, copy constructors.** -/
theorem C09_copy (e : Exec) (f : FieldObj) (h : Heap K) (hf : f.Valid h) :
    ∃ r h', NM.Det (copyField e f) h (.ok r, h') ∧ r.Valid h' ∧ r.size = f.size ∧ r.exec = e ∧
      r.elems h' = f.elems h ∧ h.next ≤ r.ptr ∧ (∀ q, q < h.next → h'.mem q = h.mem q) := by
  obtain ⟨h', d, m, o, n⟩ := newFieldFrom_det e f.ptr f.size h hf.1.symm hf.2
  exact ⟨_, h', d, ⟨by simp [m, hf.1], by simp [n]⟩, rfl, rfl, m, Nat.le_refl _,
    fun q hq => o q (Nat.ne_of_lt hq)⟩

/-- **C09, copies are independent**: later writes that touch only the original leave the copy as it
was, and conversely. -/
theorem C09_copy_independent (e : Exec) (f : FieldObj) (h : Heap K) (hf : f.Valid h) :
    ∃ r h', NM.Det (copyField e f) h (.ok r, h') ∧
      (∀ h'' : Heap K, (∀ q, q ≠ f.ptr → h''.mem q = h'.mem q) → r.elems h'' = f.elems h) ∧
      (∀ h'' : Heap K, (∀ q, q ≠ r.ptr → h''.mem q = h'.mem q) → f.elems h'' = f.elems h) := by
  obtain ⟨r, h', d, _, _, _, m, hn, o⟩ := C09_copy e f h hf
  have hne : r.ptr ≠ f.ptr := by have := hf.2; omega
  refine ⟨r, h', d, fun h'' hq => ?_, fun h'' hq => ?_⟩
  · rw [← m]; exact hq _ hne
  · unfold FieldObj.elems
    rw [hq _ hne.symm, o _ hf.2]

/-- **C09, uniform construction.** -/
theorem C09_uniform (e : Exec) (n : Nat) (v : K) (h : Heap K) :
    ∃ r h', NM.Det (newFieldUniform e n v) h (.ok r, h') ∧ r.Valid h' ∧ r.size = n ∧ r.exec = e ∧
      r.elems h' = List.replicate n v ∧ h.next ≤ r.ptr ∧ (∀ q, q < h.next → h'.mem q = h.mem q) := by
  let h0 : Heap K := ⟨fun q => if q = h.next then (List.range n).map (h.garbage h.next) else h.mem q,
    h.next + 1, h.garbage⟩
  obtain ⟨h', d, v', m, o⟩ := C08_whole ⟨n, h.next, e⟩ v h0 ⟨by simp [h0], by simp [h0]⟩
  refine ⟨⟨n, h.next, e⟩, h', ?_, v', rfl, rfl, m, Nat.le_refl _, fun q hq => ?_⟩
  · exact NM.Det.bind (NM.Det.bind (alloc_det n h) (NM.Det.pure _ _)) (NM.Det.bind d (NM.Det.pure _ _))
  · rw [o q (Nat.ne_of_lt hq)]; simp [h0, Nat.ne_of_lt hq]

/-- **C09, `resize`**: the first `min n size` elements are kept, other fields are untouched. -/
theorem C09_resize (f : FieldObj) (n : Nat) (h : Heap K) (hf : f.Valid h) :
    ∃ r h', NM.Det (resize f n) h (.ok r, h') ∧ r.Valid h' ∧ r.size = n ∧ r.exec = f.exec ∧
      (∀ i, i < n → i < f.size → (r.elems h')[i]? = (f.elems h)[i]?) ∧ h.next ≤ r.ptr ∧
      h'.next = h.next + 1 ∧ h'.garbage = h.garbage ∧
      (∀ q, q < h.next → q ≠ f.ptr → h'.mem q = h.mem q) := by
  unfold resize
  split
  · rename_i h0
    refine ⟨⟨n, h.next, f.exec⟩, ⟨fun q => if q = h.next then (List.range n).map (h.garbage h.next)
      else h.mem q, h.next + 1, h.garbage⟩, NM.Det.bind (alloc_det n h) (NM.Det.pure _ _),
      ⟨by simp, by simp⟩, rfl, rfl, ?_, Nat.le_refl _, rfl, rfl, ?_⟩
    · intro i _ hi; omega
    · intro q hq _; simp [Nat.ne_of_lt hq]
  · refine ⟨⟨n, h.next, f.exec⟩, ⟨fun q => if q = h.next then (h.mem f.ptr).take n ++
      ((List.range n).map (h.garbage h.next)).drop (h.mem f.ptr).length
      else if q = f.ptr then [] else h.mem q, h.next + 1, h.garbage⟩,
      NM.Det.bind (realloc_det f.ptr n h) (NM.Det.pure _ _), ⟨?_, by simp⟩, rfl, rfl, ?_,
      Nat.le_refl _, rfl, rfl, ?_⟩
    · simp; omega
    · intro i hi hs
      have hl : i < ((h.mem f.ptr).take n).length := by rw [List.length_take, hf.1]; omega
      simp only [FieldObj.elems, if_true]
      rw [List.getElem?_append_left hl, List.getElem?_take_of_lt hi]
    · intro q hq hne; simp [Nat.ne_of_lt hq, hne]

/-- **C09, assignment**: afterwards the target has the source's size and elements and the source is
unchanged; other fields are untouched. Self-assignment is the case `b = a`. -/
theorem C09_assign [Inhabited K] (a b : FieldObj) (h : Heap K) (ha : a.Valid h) (hb : b.Valid h)
    (he : a.exec = b.exec) :
    ∃ r h', NM.Det (assign a b) h (.ok r, h') ∧ r.Valid h' ∧ r.size = b.size ∧ r.exec = a.exec ∧
      r.elems h' = b.elems h ∧ b.elems h' = b.elems h ∧ (b.ptr ≠ a.ptr → r.ptr ≠ b.ptr) ∧
      (∀ q, q < h.next → q ≠ a.ptr → h'.mem q = h.mem q) := by
  by_cases hs : a.size = b.size
  · refine ⟨a, h.put a.ptr (h.mem b.ptr), assign_same_size_det a b h ha hb he hs,
      ⟨by simp [Heap.put, hb.1, hs], ha.2⟩, hs, rfl, by simp [FieldObj.elems, Heap.put], ?_,
      fun h => h.symm, ?_⟩
    · simp only [FieldObj.elems, Heap.put]; split <;> rfl
    · intro q _ hq; simp [Heap.put, hq]
  · obtain ⟨r, h1, d1, v1, s1, e1, _, n1, hnx, hg, o1⟩ := C09_resize a b.size h ha
    have hne : b.ptr ≠ a.ptr := by
      intro e
      apply hs
      rw [← ha.1, ← hb.1, e]
    have hmb : h1.mem b.ptr = h.mem b.ptr := o1 _ hb.2 hne
    have hrb : r.ptr ≠ b.ptr := by have := hb.2; omega
    have d2 := setField_det r b.ptr h1 v1 (by rw [hmb, hb.1, s1])
    refine ⟨r, h1.put r.ptr (h1.mem b.ptr), ?_, ⟨?_, v1.2⟩, s1, e1, ?_, ?_, fun _ => hrb, ?_⟩
    · unfold assign matchSize
      rw [if_neg (by simpa using he), if_pos hs]
      exact NM.Det.bind d1 (NM.Det.bind d2 (NM.Det.pure _ _))
    · simp [Heap.put, hmb, hb.1, s1]
    · simp [FieldObj.elems, Heap.put, hmb]
    · simp [FieldObj.elems, Heap.put, hrb.symm, hmb]
    · intro q hq hqa
      have : q ≠ r.ptr := by omega
      simp [Heap.put, this, o1 q hq hqa]

/-- **C09, assignment between executors stops the program** and changes nothing. -/
theorem C09_assign_executor [Inhabited K] (a b : FieldObj) (h : Heap K) (he : a.exec ≠ b.exec) :
    NM.Det (assign a b) h (.abort, h) := by
  unfold assign
  rw [if_pos he]
  exact NM.Det.lift _ _

/-- **C09, transfers**: a transfer to any executor gives an independent field with the same contents. -/
theorem C09_transfer (f : FieldObj) (e : Exec) (h : Heap K) (hf : f.Valid h) :
    ∃ r h', NM.Det (copyToExecutor f e) h (.ok r, h') ∧ r.Valid h' ∧ r.size = f.size ∧ r.exec = e ∧
      r.elems h' = f.elems h ∧ h.next ≤ r.ptr ∧ (∀ q, q < h.next → h'.mem q = h.mem q) := by
  unfold copyToExecutor
  split
  · rename_i he
    subst he
    exact C09_copy f.exec f h hf
  · have := C09_copy e f h hf
    exact this

/-- **C09, round trips** reproduce the field, whatever executors it passes through. -/
theorem C09_round_trip (f : FieldObj) (e : Exec) (h : Heap K) (hf : f.Valid h) :
    ∃ r h', NM.Det (do let g ← copyToExecutor f e; copyToExecutor g f.exec) h (.ok r, h') ∧
      r.Valid h' ∧ r.size = f.size ∧ r.exec = f.exec ∧ r.elems h' = f.elems h ∧
      f.elems h' = f.elems h := by
  obtain ⟨g, h1, d1, v1, s1, e1, m1, n1, o1⟩ := C09_transfer f e h hf
  obtain ⟨r, h2, d2, v2, s2, e2, m2, n2, o2⟩ := C09_transfer g f.exec h1 v1
  refine ⟨r, h2, NM.Det.bind d1 d2, v2, s2.trans s1, e2, m2.trans m1, ?_⟩
  have : f.ptr < h1.next := by have := hf.2; have := v1.2; omega
  unfold FieldObj.elems
  rw [o2 _ this, o1 _ hf.2]

/-- Assigning a field of another size, and a round trip from the GPU. -/
example : ∃ r h', NM.Det (assign ⟨0, 5, .gpu⟩ exB) ⟨exHeap.mem, 6, exHeap.garbage⟩ (.ok r, h') ∧
    r.elems h' = [10, 20, 30] := by
  obtain ⟨r, h', d, _, _, _, e, _⟩ := C09_assign ⟨0, 5, .gpu⟩ exB ⟨exHeap.mem, 6, exHeap.garbage⟩
    (by decide) (by decide) rfl
  exact ⟨r, h', d, by rw [e]; decide⟩
example : ∃ r h', NM.Det (do let g ← copyToExecutor exA .serial; copyToExecutor g .gpu) exHeap
    (.ok r, h') ∧ r.elems h' = [1, 2, 3] := by
  obtain ⟨r, h', d, _, _, _, e, _⟩ := C09_round_trip exA .serial exHeap (by decide)
  exact ⟨r, h', d, by rw [e]; decide⟩

end NeoFOAM
