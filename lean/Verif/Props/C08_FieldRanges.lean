import Verif.Props.C07_FieldArithmetic

/-!
# C08 – `fill`, `map` and `setField` write exactly the requested range

Proved for every range whose end is not zero. A range ending at zero – the empty range `{k, 0}` – is
taken to mean "to the end of the field", so the full claim fails; `C08_violation` shows it.
-/
namespace NeoFOAM
variable {K : Type u}

theorem kernResult_const (h : Heap K) (a : Nat) (w : Nat → K) (start stop : Nat) :
    (kernResult h [] a (fun i _ => w i) start stop).mem a =
      (h.mem a).mapIdx (fun i x => if start ≤ i ∧ i < stop then w i else x) := by
  simp [kernResult, Heap.put]

/-- **C08 (`map`), all ranges with a non-zero end.** -/
theorem C08_map_partial (a : FieldObj) (w : Nat → K) (start stop : Nat) (h : Heap K) (ha : a.Valid h)
    (h0 : stop ≠ 0) (hs : stop ≤ a.size) :
    ∃ h', NM.Det (fmap a w start stop) h (.ok (), h') ∧ a.Valid h' ∧
      a.elems h' = (a.elems h).mapIdx (fun i x => if start ≤ i ∧ i < stop then w i else x) ∧
      ∀ q, q ≠ a.ptr → h'.mem q = h.mem q := by
  refine ⟨kernResult h [] a.ptr (fun i _ => w i) start stop, ?_, ⟨?_, ha.2⟩,
    kernResult_const h a.ptr w start stop, ?_⟩
  · have := kern_det a.exec start stop [] a.ptr (fun i _ => w i) h (by simp) (by rw [ha.1]; exact hs)
    unfold fmap
    rwa [rangeEnd, if_neg h0]
  · rw [kernResult_const]; simp [ha.1]
  · intro q hq; simp [kernResult, Heap.put, hq]

/-- **C08 (`fill`), all ranges with a non-zero end.** -/
theorem C08_fill_partial (a : FieldObj) (v : K) (start stop : Nat) (h : Heap K) (ha : a.Valid h)
    (h0 : stop ≠ 0) (hs : stop ≤ a.size) :
    ∃ h', NM.Det (fill a v start stop) h (.ok (), h') ∧ a.Valid h' ∧
      a.elems h' = (a.elems h).mapIdx (fun i x => if start ≤ i ∧ i < stop then v else x) ∧
      ∀ q, q ≠ a.ptr → h'.mem q = h.mem q := C08_map_partial a (fun _ => v) start stop h ha h0 hs

/-- **C08 (`setField`), all ranges with a non-zero end.** The source view `b` must cover the range; it
may be the field itself. -/
theorem C08_setField_partial [Inhabited K] (a : FieldObj) (b : Nat) (start stop : Nat) (h : Heap K)
    (ha : a.Valid h) (h0 : stop ≠ 0) (hs : stop ≤ a.size) (hb : stop ≤ (h.mem b).length) :
    ∃ h', NM.Det (setField a b start stop) h (.ok (), h') ∧ a.Valid h' ∧
      (∀ i, (a.elems h')[i]? = if start ≤ i ∧ i < stop then (h.mem b)[i]? else (a.elems h)[i]?) ∧
      ∀ q, q ≠ a.ptr → h'.mem q = h.mem q := by
  refine ⟨kernResult h [b] a.ptr (fun _ l => l.headD default) start stop, ?_, ⟨?_, ha.2⟩, ?_, ?_⟩
  · have := kern_det a.exec start stop [b] a.ptr (fun _ l => l.headD default) h (by simpa using hb)
      (by rw [ha.1]; exact hs)
    unfold setField
    rwa [rangeEnd, if_neg h0]
  · simp [kernResult, Heap.put, ha.1]
  · intro i
    simp only [kernResult, Heap.put, FieldObj.elems, if_true, List.getElem?_mapIdx]
    split
    · rename_i hi
      have h1 : i < (h.mem b).length := by omega
      have h2 : i < (h.mem a.ptr).length := by rw [ha.1]; omega
      simp [List.getElem?_eq_getElem h1, List.getElem?_eq_getElem h2]
    · cases (h.mem a.ptr)[i]? <;> simp
  · intro q hq; simp [kernResult, Heap.put, hq]

/-- **The documented default**: without a range the whole field is set. -/
theorem C08_whole (a : FieldObj) (v : K) (h : Heap K) (ha : a.Valid h) :
    ∃ h', NM.Det (fill a v 0 0) h (.ok (), h') ∧ a.Valid h' ∧
      a.elems h' = List.replicate a.size v ∧ ∀ q, q ≠ a.ptr → h'.mem q = h.mem q := by
  have e : (h.mem a.ptr).mapIdx (fun i x => if 0 ≤ i ∧ i < a.size then v else x)
      = List.replicate a.size v := by
    apply List.ext_getElem?
    intro i
    simp only [List.getElem?_mapIdx, List.getElem?_replicate]
    by_cases hi : i < a.size
    · have h2 : i < (h.mem a.ptr).length := by rw [ha.1]; omega
      simp [List.getElem?_eq_getElem h2, hi]
    · have h2 : (h.mem a.ptr).length ≤ i := by rw [ha.1]; omega
      simp [List.getElem?_eq_none h2, hi]
  refine ⟨kernResult h [] a.ptr (fun _ _ => v) 0 a.size, ?_, ⟨?_, ha.2⟩,
    (kernResult_const h a.ptr (fun _ => v) 0 a.size).trans e, ?_⟩
  · exact kern_det a.exec 0 a.size [] a.ptr (fun _ _ => v) h (by simp)
      (Nat.le_of_eq ha.1.symm)
  · rw [kernResult_const h a.ptr (fun _ => v), e]; simp
  · intro q hq; simp [kernResult, Heap.put, hq]

/-- **Assignment of a value** sets the whole field, and nothing else. -/
theorem C08_assign (a : FieldObj) (v : K) (h : Heap K) (ha : a.Valid h) :
    ∃ h', NM.Det (assignValue a v) h (.ok (), h') ∧ a.Valid h' ∧
      a.elems h' = List.replicate a.size v ∧ ∀ q, q ≠ a.ptr → h'.mem q = h.mem q := C08_whole a v h ha

/-- **The claim fails for the empty range `{k, 0}`**: it writes from `k` to the end. -/
theorem C08_violation (a : FieldObj) (v : K) (k : Nat) (h : Heap K) (ha : a.Valid h) :
    ∃ h', NM.Det (fill a v k 0) h (.ok (), h') ∧
      a.elems h' = (a.elems h).mapIdx (fun i x => if k ≤ i ∧ i < a.size then v else x) := by
  refine ⟨kernResult h [] a.ptr (fun _ _ => v) k a.size, ?_, kernResult_const h a.ptr (fun _ => v) k a.size⟩
  exact kern_det a.exec k a.size [] a.ptr (fun _ _ => v) h (by simp) (Nat.le_of_eq ha.1.symm)

/-- The hypotheses are met, and the empty range `{1, 0}` really changes a field. -/
example : ∃ h', NM.Det (fill exA 7 1 2) exHeap (.ok (), h') ∧ exA.elems h' = [1, 7, 3] := by
  obtain ⟨h', d, _, e, _⟩ := C08_fill_partial exA 7 1 2 exHeap (by decide) (by decide) (by decide)
  exact ⟨h', d, by rw [e]; decide⟩
example : ∃ h', NM.Det (fill exA 7 1 0) exHeap (.ok (), h') ∧ exA.elems h' = [1, 7, 7] := by
  obtain ⟨h', d, e⟩ := C08_violation exA 7 1 exHeap (by decide)
  exact ⟨h', d, by rw [e]; decide⟩

end NeoFOAM
