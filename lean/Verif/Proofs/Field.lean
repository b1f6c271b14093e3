import Verif.Model.Field

/-!
# Element-wise kernels are deterministic

Proof-side lemmas: the kernels of `Field` touch only their own column, so every schedule of every
executor gives one outcome.
-/
namespace NeoFOAM

namespace NM
variable {K : Type u} {α β : Type v}

theorem Det.pure (a : α) (h : Heap K) : Det (Pure.pure a : NM K α) h (.ok a, h) := fun _ => Iff.rfl

theorem Det.lift (r : Res α) (h : Heap K) : Det (NM.lift r) h (r, h) := fun _ => Iff.rfl

theorem Det.bind {x : NM K α} {f : α → NM K β} {h h' : Heap K} {a : α} {r : Res β × Heap K}
    (hx : Det x h (.ok a, h')) (hf : Det (f a) h' r) : Det (x >>= f) h r := by
  intro out
  constructor
  · rintro ⟨r1, h1, h2⟩
    rw [hx] at h1; subst h1
    exact (hf out).1 h2
  · rintro rfl
    exact ⟨_, (hx _).2 rfl, (hf _).2 rfl⟩

theorem Det.bind_throw {x : NM K α} {f : α → NM K β} {h h' : Heap K} {e : Exn}
    (hx : Det x h (.throw e, h')) : Det (x >>= f) h (.throw e, h') := by
  intro out
  constructor
  · rintro ⟨r1, h1, h2⟩
    rw [hx] at h1; subst h1
    exact h2
  · rintro rfl
    exact ⟨_, (hx _).2 rfl, rfl⟩

theorem Det.unique {x : NM K α} {h : Heap K} {r r' : Res α × Heap K} (h1 : Det x h r)
    (h2 : Det x h r') : r = r' := (h2 r).1 ((h1 r).2 rfl)

end NM

variable {K : Type u}

theorem Heap.ext' {h h' : Heap K} (h1 : ∀ q, h.mem q = h'.mem q) (h2 : h.next = h'.next)
    (h3 : h.garbage = h'.garbage) : h = h' := by
  cases h; cases h'
  simp only [Heap.mk.injEq]
  exact ⟨funext h1, h2, h3⟩

theorem alloc_det (n : Nat) (h : Heap K) : NM.Det (alloc n) h
    (.ok h.next, ⟨fun q => if q = h.next then (List.range n).map (h.garbage h.next) else h.mem q,
    h.next + 1, h.garbage⟩) := fun _ => Iff.rfl

theorem realloc_det (p n : Nat) (h : Heap K) : NM.Det (realloc p n) h
    (.ok h.next, ⟨fun q => if q = h.next then (h.mem p).take n ++
      ((List.range n).map (h.garbage h.next)).drop (h.mem p).length
    else if q = p then [] else h.mem q, h.next + 1, h.garbage⟩) := fun _ => Iff.rfl

theorem deepCopy_det {n src dst : Nat} {h : Heap K} (h1 : n ≤ (h.mem src).length)
    (h2 : n ≤ (h.mem dst).length) : NM.Det (deepCopy n src dst) h
    (.ok (), h.put dst ((h.mem src).take n ++ (h.mem dst).drop n)) := by
  intro out
  have : ¬((h.mem src).length < n ∨ (h.mem dst).length < n) := by omega
  simp only [deepCopy, this, if_false]

theorem set_self_of_getElem? {l : List K} {i : Nat} {v : K} (h : l[i]? = some v) : l.set i v = l := by
  apply List.ext_getElem?
  intro k
  rw [List.getElem?_set]
  split
  · rename_i e; subst e
    obtain ⟨hl, e⟩ := List.getElem?_eq_some_iff.1 h
    simp [hl, e]
  · rfl

theorem run_loads (t i : Nat) : ∀ (ins : List Nat) (s : LMem Nat K (List K)),
    (∀ p ∈ ins, i < (s.arr p).length) →
    runActs LMem.step s (ins.map (fun p => LAct.load t p i)) = .ok ⟨s.arr,
      fun u => if u = t then (ins.filterMap (fun p => (s.arr p)[i]?)).reverse ++ s.loc t else s.loc u⟩
  | [], s, _ => by
    simp only [List.map_nil, runActs_nil]
    congr 1
    apply LMem.ext'
    · intro a; rfl
    · intro u; by_cases h : u = t <;> simp [h]
  | p :: ins, s, hp => by
    have hi := hp p (by simp)
    have hs : s.step (LAct.load t p i) = .ok ⟨s.arr,
        fun u => if u = t then (s.arr p)[i] :: s.loc t else s.loc u⟩ := by
      rw [LMem.step_ok (v := (s.arr p)[i]) (by simp [LAct.load])]
      congr 1
      apply LMem.ext'
      · intro b
        by_cases hb : b = p
        · subst hb
          simpa [LAct.load] using set_self_of_getElem? (List.getElem?_eq_getElem hi)
        · simp [LAct.load, hb]
      · intro u
        by_cases hu : u = t <;> simp [LAct.load, hu]
    rw [List.map_cons, runActs_cons, hs, Res.ok_bind, run_loads t i ins _ (by
      intro q hq; exact hp q (by simp [hq]))]
    congr 1
    apply LMem.ext'
    · intro b; rfl
    · intro u
      simp only
      split
      · simp [List.filterMap_cons, List.getElem?_eq_getElem hi]
      · rfl

theorem run_kern (ins : List Nat) (a : Nat) (g : Nat → List K → K) (i : Nat)
    (s : LMem Nat K (List K)) (hins : ∀ p ∈ ins, i < (s.arr p).length) (ha : i < (s.arr a).length) :
    ∃ s', runActs LMem.step s (kern ins a g i) = .ok s' ∧
      (∀ b, s'.arr b = if b = a then (s.arr b).set i (g i (ins.filterMap (fun p => (s.arr p)[i]?)))
        else s.arr b) := by
  rw [kern, runActs_append, run_loads i i ins s hins, Res.ok_bind, runActs_cons]
  rw [LMem.step_ok (v := (s.arr a)[i]) (by simp [LAct.store, ha])]
  refine ⟨_, by rw [Res.ok_bind, runActs_nil], fun b => ?_⟩
  have hl : (ins.filterMap (fun p => (s.arr p)[i]?)).length = ins.length := by
    clear ha
    induction ins with
    | nil => rfl
    | cons p ins ih =>
      rw [List.filterMap_cons, List.getElem?_eq_getElem (hins p (by simp))]
      simp [ih (fun q hq => hins q (by simp [hq]))]
  simp only [LAct.store, if_true]
  split
  · congr 2
    rw [List.take_left' (by simp [hl])]
    simp
  · rfl

theorem kern_mem {ins : List Nat} {a : Nat} {g : Nat → List K → K} {i : Nat}
    {x : LAct Nat K (List K)} (h : x ∈ kern ins a g i) : x.t = i ∧ ∀ s, (x.loc s).2 = i := by
  rw [kern, List.mem_append] at h
  rcases h with h | h
  · obtain ⟨p, _, rfl⟩ := List.mem_map.1 h
    exact ⟨rfl, fun _ => rfl⟩
  · rw [List.mem_singleton] at h; subst h
    exact ⟨rfl, fun _ => rfl⟩

/-- The result of an element-wise kernel. -/
def kernResult (h : Heap K) (ins : List Nat) (a : Nat) (g : Nat → List K → K) (s t : Nat) : Heap K :=
  h.put a ((h.mem a).mapIdx fun i x =>
    if s ≤ i ∧ i < t then g i (ins.filterMap (fun p => (h.mem p)[i]?)) else x)

/-- **Element-wise kernels are deterministic on every executor and schedule.** -/
theorem kern_det (e : Exec) (start stop : Nat) (ins : List Nat) (a : Nat) (g : Nat → List K → K)
    (h : Heap K) (hins : ∀ p ∈ ins, stop ≤ (h.mem p).length) (ha : stop ≤ (h.mem a).length) :
    NM.Det (parallelFor e start stop (kern ins a g)) h (.ok (), kernResult h ins a g start stop) := by
  have hn : (List.range' start (stop - start)).Nodup := List.nodup_range'
  have hmem : ∀ i, i ∈ List.range' start (stop - start) ↔ start ≤ i ∧ i < stop := by
    intro i; rw [List.mem_range'_1]; omega
  have hcomm := columns_commute (K := K) (L := List K) (kern ins a g) _ hn (fun i x hx => kern_mem hx)
  obtain ⟨s', r, e'⟩ := run_columns (K := K) (L := List K) (kern ins a g)
    (fun i c b => if b = a then some (g i (ins.filterMap c)) else c b)
    (fun i c => (∀ p ∈ ins, (c p).isSome) ∧ (c a).isSome)
    (by
      intro i s ⟨h1, h2⟩
      obtain ⟨s', r, e⟩ := run_kern ins a g i s
        (fun p hp => by have := h1 p hp; simpa [LMem.col] using this)
        (by simpa [LMem.col] using h2)
      refine ⟨s', r, ?_, ?_⟩
      · funext b
        simp only [LMem.col, e b]
        split
        · rename_i hb; subst hb
          have : i < (s.arr b).length := by simpa [LMem.col] using h2
          simp [this]
          rfl
        · rfl
      · intro j hj
        funext b
        simp only [LMem.col, e b]
        split
        · rw [List.getElem?_set_ne (Ne.symm hj)]
        · rfl)
    (List.range' start (stop - start)) hn ⟨h.mem, fun _ => []⟩
    (by
      intro i hi
      have hi' := (hmem i).1 hi
      refine ⟨fun p hp => ?_, ?_⟩
      · have := hins p hp
        have : i < (h.mem p).length := by omega
        simp [LMem.col, this]
      · have : i < (h.mem a).length := by omega
        simp [LMem.col, this])
  have harr : (⟨s'.arr, h.next, h.garbage⟩ : Heap K) = kernResult h ins a g start stop := by
    apply Heap.ext'
    · intro b
      simp only [kernResult, Heap.put]
      apply List.ext_getElem?
      intro i
      have := congrFun (e' i) b
      simp only [LMem.col] at this
      rw [this]
      split
      · rename_i hi
        have hi' := (hmem i).1 hi
        by_cases hb : b = a
        · subst hb
          have hl : i < (h.mem b).length := by omega
          simp [hi', hl]
          rfl
        · simp [hb]
      · rename_i hi
        rw [hmem] at hi
        by_cases hb : b = a
        · subst hb
          simp [List.getElem?_mapIdx, hi, LMem.col]
        · simp [hb, LMem.col]
    · rfl
    · rfl
  intro out
  constructor
  · rintro ⟨l, hl, hout⟩
    rw [hl.run_eq_serial _ hcomm, r] at hout
    rw [← harr]; exact hout
  · rintro rfl
    obtain ⟨l, hl⟩ := Schedule.exists e.kind ((List.range' start (stop - start)).map (kern ins a g))
    refine ⟨l, hl, ?_⟩
    rw [hl.run_eq_serial _ hcomm, r, ← harr]

end NeoFOAM
