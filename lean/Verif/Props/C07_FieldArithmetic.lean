import Verif.Proofs.Field

/-!
# C07 – field arithmetic is element-wise, on every executor and schedule

The scalar operations are arbitrary functions, so nothing depends on associativity or commutativity of
floating-point arithmetic. `NM.Det x h r` says that `r` is the only possible outcome of `x` started in
heap `h`, whatever the executor of the fields and the interleaving of the threads.
-/
namespace NeoFOAM
variable {K : Type u}

/-- A live field: its block exists and has as many elements as the field says. -/
def FieldObj.Valid (h : Heap K) (f : FieldObj) : Prop := (h.mem f.ptr).length = f.size ∧ f.ptr < h.next

instance (h : Heap K) (f : FieldObj) : Decidable (f.Valid h) := by unfold FieldObj.Valid; infer_instance

/-- The elements of a field. -/
def FieldObj.elems (h : Heap K) (f : FieldObj) : List K := h.mem f.ptr

theorem kernResult_one [Inhabited K] (h : Heap K) (p : Nat) (g : K → K) (n : Nat)
    (hn : (h.mem p).length = n) : kernResult h [p] p (fun _ l => g (l.headD default)) 0 n =
      h.put p ((h.mem p).map g) := by
  unfold kernResult
  congr 1
  apply List.ext_getElem?
  intro i
  simp only [List.getElem?_mapIdx, List.getElem?_map]
  by_cases hi : i < (h.mem p).length
  · simp [List.getElem?_eq_getElem hi, hn ▸ hi]
  · simp [List.getElem?_eq_none (Nat.le_of_not_lt hi)]

theorem kernResult_two [Inhabited K] (h : Heap K) (p q : Nat) (op : K → K → K) (n : Nat)
    (hp : (h.mem p).length = n) (hq : (h.mem q).length = n) :
    kernResult h [p, q] p (fun _ l => op (l.headD default) (l.getD 1 default)) 0 n =
      h.put p (List.zipWith op (h.mem p) (h.mem q)) := by
  unfold kernResult
  congr 1
  apply List.ext_getElem?
  intro i
  simp only [List.getElem?_mapIdx, List.getElem?_zipWith]
  by_cases hi : i < n
  · have h1 : i < (h.mem p).length := hp ▸ hi
    have h2 : i < (h.mem q).length := hq ▸ hi
    simp [List.getElem?_eq_getElem h1, List.getElem?_eq_getElem h2, hi]
  · have h1 : (h.mem p).length ≤ i := by omega
    simp [List.getElem?_eq_none h1]

/-- **C07, assigning forms** (`+=`, `-=`, `*=`, `add`, `sub`, `mul`): the left operand becomes the
element-wise result, every other block of memory is untouched. `a` and `b` may be the same field. -/
theorem C07_assign [Inhabited K] (op : K → K → K) (a b : FieldObj) (h : Heap K) (ha : a.Valid h)
    (hb : b.Valid h) (hs : a.size = b.size) :
    ∃ h', NM.Det (assignOp op a b) h (.ok (), h') ∧ a.Valid h' ∧
      a.elems h' = List.zipWith op (a.elems h) (b.elems h) ∧
      ∀ q, q ≠ a.ptr → h'.mem q = h.mem q := by
  refine ⟨h.put a.ptr (List.zipWith op (h.mem a.ptr) (h.mem b.ptr)), ?_, ⟨?_, ha.2⟩, ?_, ?_⟩
  · unfold assignOp fieldBinaryOp
    rw [if_neg (by simpa using hs), ← kernResult_two h a.ptr b.ptr op a.size ha.1 (hb.1.trans hs.symm)]
    apply kern_det
    · intro p hp
      rcases List.mem_cons.1 hp with rfl | hp
      · exact Nat.le_of_eq ha.1.symm
      · rw [List.mem_singleton] at hp; subst hp
        rw [hb.1, hs]; exact Nat.le_refl _
    · exact Nat.le_of_eq ha.1.symm
  · simp [Heap.put, ha.1, hb.1, hs]
  · simp [FieldObj.elems, Heap.put]
  · intro q hq; simp [Heap.put, hq]

/-- **C07, size check**: operands of different sizes raise an exception and change nothing. -/
theorem C07_mismatch [Inhabited K] (op : K → K → K) (a b : FieldObj) (h : Heap K)
    (hs : a.size ≠ b.size) : NM.Det (assignOp op a b) h (.throw .dimensionMismatch, h) := by
  unfold assignOp fieldBinaryOp
  rw [if_pos hs]
  exact NM.Det.lift _ _

/-- **C07, scaling** (`scalarMul`, `*= s`). -/
theorem C07_scalarMul [Inhabited K] (mulS : K → K) (a : FieldObj) (h : Heap K) (ha : a.Valid h) :
    ∃ h', NM.Det (scalarMul mulS a) h (.ok (), h') ∧ a.Valid h' ∧
      a.elems h' = (a.elems h).map mulS ∧ ∀ q, q ≠ a.ptr → h'.mem q = h.mem q := by
  refine ⟨h.put a.ptr ((h.mem a.ptr).map mulS), ?_, ⟨?_, ha.2⟩, ?_, ?_⟩
  · unfold scalarMul
    rw [← kernResult_one h a.ptr mulS a.size ha.1]
    apply kern_det
    · intro p hp
      rw [List.mem_singleton] at hp; subst hp
      exact Nat.le_of_eq ha.1.symm
    · exact Nat.le_of_eq ha.1.symm
  · simp [Heap.put, ha.1]
  · simp [FieldObj.elems, Heap.put]
  · intro q hq; simp [Heap.put, hq]

/-- A fresh copy of a block: the copy constructors. -/
theorem newFieldFrom_det (e : Exec) (src n : Nat) (h : Heap K) (hs : n = (h.mem src).length)
    (hlt : src < h.next) :
    ∃ h', NM.Det (newFieldFrom e src n) h (.ok ⟨n, h.next, e⟩, h') ∧ h'.mem h.next = h.mem src ∧
      (∀ q, q ≠ h.next → h'.mem q = h.mem q) ∧ h'.next = h.next + 1 := by
  let h0 : Heap K := ⟨fun q => if q = h.next then (List.range n).map (h.garbage h.next) else h.mem q,
    h.next + 1, h.garbage⟩
  have hd : NM.Det (newFieldFrom e src n) h (.ok ⟨n, h.next, e⟩,
      h0.put h.next ((h0.mem src).take n ++ (h0.mem h.next).drop n)) := by
    unfold newFieldFrom newField
    refine NM.Det.bind (NM.Det.bind (alloc_det n h) (NM.Det.pure _ _))
      (NM.Det.bind (deepCopy_det ?_ ?_) (NM.Det.pure _ _))
    · simp [Nat.ne_of_lt hlt, hs]
    · simp
  refine ⟨_, hd, ?_, ?_, ?_⟩
  · simp [h0, Heap.put, Nat.ne_of_lt hlt, hs]
  · intro q hq; simp [h0, Heap.put, hq]
  · rfl

/-- **C07, `a + b` and `a - b`**: a new field holds the element-wise result; all existing memory,
hence both operands, is untouched. -/
theorem C07_plus [Inhabited K] (op : K → K → K) (a b : FieldObj) (h : Heap K) (ha : a.Valid h)
    (hb : b.Valid h) (hs : a.size = b.size) :
    ∃ r h', NM.Det (plusOp op a b) h (.ok r, h') ∧ r.Valid h' ∧ r.size = a.size ∧ r.exec = a.exec ∧
      r.elems h' = List.zipWith op (a.elems h) (b.elems h) ∧ h.next ≤ r.ptr ∧
      ∀ q, q < h.next → h'.mem q = h.mem q := by
  obtain ⟨h1, d1, m1, o1, n1⟩ := newFieldFrom_det a.exec a.ptr a.size h ha.1.symm ha.2
  have v1 : FieldObj.Valid h1 ⟨a.size, h.next, a.exec⟩ := ⟨by simp [m1, ha.1], by simp [n1]⟩
  have vb : b.Valid h1 := ⟨by rw [o1 _ (Nat.ne_of_lt hb.2)]; exact hb.1, by have := hb.2; omega⟩
  obtain ⟨h2, d2, v2, m2, o2⟩ := C07_assign op ⟨a.size, h.next, a.exec⟩ b h1 v1 vb hs
  refine ⟨⟨a.size, h.next, a.exec⟩, h2, ?_, v2, rfl, rfl, ?_, Nat.le_refl _, ?_⟩
  · exact NM.Det.bind d1 (NM.Det.bind d2 (NM.Det.pure _ _))
  · rw [m2]
    simp only [FieldObj.elems, m1, o1 _ (Nat.ne_of_lt hb.2)]
  · intro q hq
    rw [o2 q (Nat.ne_of_lt hq), o1 q (Nat.ne_of_lt hq)]

/-- **C07, `a + b` with different sizes**: exception; existing memory untouched. -/
theorem C07_plus_mismatch [Inhabited K] (op : K → K → K) (a b : FieldObj) (h : Heap K) (ha : a.Valid h)
    (hs : a.size ≠ b.size) :
    ∃ h', NM.Det (plusOp op a b) h (.throw .dimensionMismatch, h') ∧
      ∀ q, q < h.next → h'.mem q = h.mem q := by
  obtain ⟨h1, d1, m1, o1, n1⟩ := newFieldFrom_det a.exec a.ptr a.size h ha.1.symm ha.2
  refine ⟨h1, NM.Det.bind d1 (NM.Det.bind_throw ?_), fun q hq => o1 q (Nat.ne_of_lt hq)⟩
  exact C07_mismatch op ⟨a.size, h.next, a.exec⟩ b h1 hs

/-- What `setField` over the whole field does. -/
theorem setField_det [Inhabited K] (a : FieldObj) (b : Nat) (h : Heap K) (ha : a.Valid h)
    (hb : (h.mem b).length = a.size) :
    NM.Det (setField a b 0 0) h (.ok (), h.put a.ptr (h.mem b)) := by
  have : kernResult h [b] a.ptr (fun _ l => l.headD default) 0 a.size = h.put a.ptr (h.mem b) := by
    unfold kernResult
    congr 1
    apply List.ext_getElem?
    intro i
    simp only [List.getElem?_mapIdx]
    by_cases hi : i < a.size
    · have h1 : i < (h.mem a.ptr).length := ha.1 ▸ hi
      have h2 : i < (h.mem b).length := hb ▸ hi
      simp [List.getElem?_eq_getElem h1, List.getElem?_eq_getElem h2, hi]
    · have h1 : (h.mem a.ptr).length ≤ i := by rw [ha.1]; omega
      have h2 : (h.mem b).length ≤ i := by omega
      simp [List.getElem?_eq_none h1, List.getElem?_eq_none h2]
  unfold setField
  rw [← this]
  have he : rangeEnd a 0 = a.size := by simp [rangeEnd]
  rw [he]
  apply kern_det
  · intro p hp
    rw [List.mem_singleton] at hp; subst hp
    exact Nat.le_of_eq hb.symm
  · exact Nat.le_of_eq ha.1.symm

/-- Assignment between fields of one executor and size. -/
theorem assign_same_size_det [Inhabited K] (a b : FieldObj) (h : Heap K) (ha : a.Valid h)
    (hb : b.Valid h) (he : a.exec = b.exec) (hs : a.size = b.size) :
    NM.Det (assign a b) h (.ok a, h.put a.ptr (h.mem b.ptr)) := by
  unfold assign matchSize
  rw [if_neg (by simpa using he), if_neg (by simpa using hs)]
  exact NM.Det.bind (NM.Det.pure _ _)
    (NM.Det.bind (setField_det a b.ptr h ha (hb.1.trans hs.symm)) (NM.Det.pure _ _))

/-- A copy made the way `operator*` makes it. -/
theorem copyForMul_det [Inhabited K] (a : FieldObj) (h : Heap K) (ha : a.Valid h) :
    ∃ h', NM.Det (do let r ← newField a.exec a.size; assign r a) h (.ok ⟨a.size, h.next, a.exec⟩, h') ∧
      h'.mem h.next = h.mem a.ptr ∧ (∀ q, q ≠ h.next → h'.mem q = h.mem q) ∧ h'.next = h.next + 1 := by
  let h0 : Heap K := ⟨fun q => if q = h.next then (List.range a.size).map (h.garbage h.next)
    else h.mem q, h.next + 1, h.garbage⟩
  have hd : NM.Det (do let r ← newField a.exec a.size; assign r a) h
      (.ok ⟨a.size, h.next, a.exec⟩, h0.put h.next (h0.mem a.ptr)) := by
    unfold newField
    refine NM.Det.bind (NM.Det.bind (alloc_det a.size h) (NM.Det.pure _ _))
      (assign_same_size_det ⟨a.size, h.next, a.exec⟩ a _ ⟨?_, ?_⟩ ⟨?_, ?_⟩ rfl rfl)
    · simp
    · simp
    · simp [Nat.ne_of_lt ha.2, ha.1]
    · have := ha.2; simp; omega
  refine ⟨_, hd, ?_, ?_, rfl⟩
  · simp [h0, Heap.put, Nat.ne_of_lt ha.2]
  · intro q hq; simp [h0, Heap.put, hq]

theorem NM.bind_assoc' {α β γ : Type v} (x : NM K α) (f : α → NM K β) (g : β → NM K γ)
    (h : Heap K) (r : Res γ × Heap K) :
    NM.Det (do let y ← (do let a ← x; f a); g y) h r → NM.Det (do let a ← x; let y ← f a; g y) h r := by
  intro hd out
  rw [← hd out]
  constructor
  · rintro ⟨r1, h1, h2⟩
    obtain ⟨v, h'⟩ := r1
    cases v with
    | ok a =>
      obtain ⟨r2, h3, h4⟩ := h2
      exact ⟨r2, ⟨_, h1, h3⟩, h4⟩
    | throw e => exact ⟨_, ⟨_, h1, rfl⟩, h2⟩
    | abort => exact ⟨_, ⟨_, h1, rfl⟩, h2⟩
    | ub => exact ⟨_, ⟨_, h1, rfl⟩, h2⟩
  · rintro ⟨r2, ⟨r1, h1, h2⟩, h4⟩
    obtain ⟨v, h'⟩ := r1
    cases v with
    | ok a => exact ⟨_, h1, r2, h2, h4⟩
    | throw e => cases h2; exact ⟨_, h1, h4⟩
    | abort => cases h2; exact ⟨_, h1, h4⟩
    | ub => cases h2; exact ⟨_, h1, h4⟩

/-- **C07, `a * b`**. -/
theorem C07_times [Inhabited K] (op : K → K → K) (a b : FieldObj) (h : Heap K) (ha : a.Valid h)
    (hb : b.Valid h) (hs : a.size = b.size) :
    ∃ r h', NM.Det (timesOp op a b) h (.ok r, h') ∧ r.Valid h' ∧ r.size = a.size ∧ r.exec = a.exec ∧
      r.elems h' = List.zipWith op (a.elems h) (b.elems h) ∧ h.next ≤ r.ptr ∧
      ∀ q, q < h.next → h'.mem q = h.mem q := by
  obtain ⟨h1, d1, m1, o1, n1⟩ := copyForMul_det a h ha
  have v1 : FieldObj.Valid h1 ⟨a.size, h.next, a.exec⟩ := ⟨by simp [m1, ha.1], by simp [n1]⟩
  have vb : b.Valid h1 := ⟨by rw [o1 _ (Nat.ne_of_lt hb.2)]; exact hb.1, by have := hb.2; omega⟩
  obtain ⟨h2, d2, v2, m2, o2⟩ := C07_assign op ⟨a.size, h.next, a.exec⟩ b h1 v1 vb hs
  refine ⟨⟨a.size, h.next, a.exec⟩, h2, ?_, v2, rfl, rfl, ?_, Nat.le_refl _, ?_⟩
  · exact NM.bind_assoc' _ _ _ _ _ (NM.Det.bind d1 (NM.Det.bind d2 (NM.Det.pure _ _)))
  · rw [m2]
    simp only [FieldObj.elems, m1, o1 _ (Nat.ne_of_lt hb.2)]
  · intro q hq
    rw [o2 q (Nat.ne_of_lt hq), o1 q (Nat.ne_of_lt hq)]

/-- **C07, `a * s`**. -/
theorem C07_times_scalar [Inhabited K] (mulS : K → K) (a : FieldObj) (h : Heap K) (ha : a.Valid h) :
    ∃ r h', NM.Det (timesScalar mulS a) h (.ok r, h') ∧ r.Valid h' ∧ r.size = a.size ∧
      r.exec = a.exec ∧ r.elems h' = (a.elems h).map mulS ∧ h.next ≤ r.ptr ∧
      ∀ q, q < h.next → h'.mem q = h.mem q := by
  obtain ⟨h1, d1, m1, o1, n1⟩ := copyForMul_det a h ha
  have v1 : FieldObj.Valid h1 ⟨a.size, h.next, a.exec⟩ := ⟨by simp [m1, ha.1], by simp [n1]⟩
  obtain ⟨h2, d2, v2, m2, o2⟩ := C07_scalarMul mulS ⟨a.size, h.next, a.exec⟩ h1 v1
  refine ⟨⟨a.size, h.next, a.exec⟩, h2, ?_, v2, rfl, rfl, ?_, Nat.le_refl _, ?_⟩
  · exact NM.bind_assoc' _ _ _ _ _ (NM.Det.bind d1 (NM.Det.bind d2 (NM.Det.pure _ _)))
  · rw [m2]
    simp only [FieldObj.elems, m1]
  · intro q hq
    rw [o2 q (Nat.ne_of_lt hq), o1 q (Nat.ne_of_lt hq)]

/-- A heap with two fields on the GPU. -/
def exHeap : Heap Int := ⟨fun q => if q = 0 then [1, 2, 3] else if q = 1 then [10, 20, 30] else [], 2,
  fun _ i => 99 - i⟩
def exA : FieldObj := ⟨3, 0, .gpu⟩
def exB : FieldObj := ⟨3, 1, .gpu⟩
example : exA.Valid exHeap ∧ exB.Valid exHeap := by decide
/-- The theorems apply, and in-place subtraction of a field from itself is covered. -/
example : ∃ h', NM.Det (assignOp (· - ·) exB exA) exHeap (.ok (), h') ∧ exB.elems h' = [9, 18, 27] := by
  obtain ⟨h', d, _, e, _⟩ := C07_assign (· - ·) exB exA exHeap (by decide) (by decide) rfl
  exact ⟨h', d, by rw [e]; decide⟩
example : ∃ h', NM.Det (assignOp (· - ·) exA exA) exHeap (.ok (), h') ∧ exA.elems h' = [0, 0, 0] := by
  obtain ⟨h', d, _, e, _⟩ := C07_assign (· - ·) exA exA exHeap (by decide) (by decide) rfl
  exact ⟨h', d, by rw [e]; decide⟩

end NeoFOAM
