import Verif.Model.Lifecycle

/-!
# C51 – field storage is neither freed twice, nor used after it was freed, nor leaked

For every history of constructions, copies, moves, assignments, resizes, uses and destructions of any number of fields. Resizing
to zero and then to a larger size leaks (`C51_leak_violation`); nothing else does.
-/
namespace NeoFOAM

section proofs

/-- What holds between calls. -/
structure World.Inv (w : World) : Prop where
  fresh : ∀ p, w.mem.live p ≠ none → p < w.mem.next
  held : ∀ x o p, w.objs x = some o → o.ptr = some p → w.mem.live p = some o.size
  null : ∀ x o, w.objs x = some o → o.ptr = none → o.size = 0
  own : ∀ x y o o' p, w.objs x = some o → w.objs y = some o' → o.ptr = some p → o'.ptr = some p → x = y
  left : ∀ p n, w.mem.live p = some n → n ≠ 0 → ∃ x o, w.objs x = some o ∧ o.ptr = some p

/-- No block is lost and empty fields hold none. -/
structure World.Tight (w : World) : Prop where
  owned : ∀ p, w.mem.live p ≠ none → ∃ x o, w.objs x = some o ∧ o.ptr = some p
  zero : ∀ x o, w.objs x = some o → o.size = 0 → o.ptr = none

theorem World.inv_empty : World.empty.Inv :=
  ⟨fun _ h => absurd rfl h, (fun _ _ _ h _ => nomatch h), (fun _ _ h _ => nomatch h), (fun _ _ _ _ _ h _ _ _ => nomatch h),
    (fun _ _ h _ => nomatch h)⟩

theorem World.tight_empty : World.empty.Tight := ⟨fun _ h => absurd rfl h, (fun _ _ h _ => nomatch h)⟩

@[simp] theorem World.bind_objs (w : World) (x : Nat) (o : Option FieldVar) (y : Nat) :
    (w.bind x o).objs y = if y = x then o else w.objs y := rfl
@[simp] theorem World.bind_mem (w : World) (x : Nat) (o : Option FieldVar) : (w.bind x o).mem = w.mem := rfl

theorem World.Inv.touch {w : World} (h : w.Inv) {x : Nat} {o : FieldVar} (hx : w.objs x = some o) : touch o w = .ok () := by
  unfold NeoFOAM.touch
  by_cases h0 : o.size = 0
  · rw [if_pos h0]
  · rw [if_neg h0]
    cases hp : o.ptr with
    | none => exact absurd (h.null x o hx hp) h0
    | some p => simp [h.held x o p hx hp]

/-- A variable that holds no elements gets a new block. -/
theorem World.Inv.setAlloc {w : World} (h : w.Inv) (x n : Nat) (hx : ∀ o, w.objs x = some o → o.size = 0) :
    ((World.mk w.objs (kAlloc n w.mem).2).bind x (some ⟨n, (kAlloc n w.mem).1⟩)).Inv := by
  by_cases hn : n = 0
  · subst hn
    have e : kAlloc 0 w.mem = (none, w.mem) := rfl
    rw [e]
    constructor
    · exact h.fresh
    · intro y o p hy hp
      simp only [World.bind_objs] at hy
      split at hy
      · cases hy; cases hp
      · exact h.held y o p hy hp
    · intro y o hy hp
      simp only [World.bind_objs] at hy
      split at hy
      · cases hy; rfl
      · exact h.null y o hy hp
    · intro y z o o' p hy hz hp hp'
      simp only [World.bind_objs] at hy hz
      split at hy
      · cases hy; cases hp
      · split at hz
        · cases hz; cases hp'
        · exact h.own y z o o' p hy hz hp hp'
    · intro p k hk hk0
      obtain ⟨y, o, hy, hp⟩ := h.left p k hk hk0
      have hyx : y ≠ x := by
        rintro rfl
        have h1 : w.mem.live p = some o.size := h.held y o p hy hp
        have h2 := hx o hy
        have h3 : some k = some o.size := hk.symm.trans h1
        injection h3 with h3
        omega
      exact ⟨y, o, by simp [hyx, hy], hp⟩
  · have e : kAlloc n w.mem = (some w.mem.next, w.mem.grow n) := by simp [kAlloc, hn]
    rw [e]
    have hlt : ∀ y o p, w.objs y = some o → o.ptr = some p → p < w.mem.next := fun y o p hy hp =>
      h.fresh p (by rw [h.held y o p hy hp]; simp)
    constructor
    · intro p hp
      simp only [World.bind_mem, Blocks.grow] at hp ⊢
      split at hp
      · omega
      · have := h.fresh p hp; omega
    · intro y o p hy hp
      simp only [World.bind_objs, World.bind_mem, Blocks.grow] at hy ⊢
      split at hy
      · cases hy; cases hp; simp
      · have h1 := hlt y o p hy hp
        rw [if_neg (by omega)]
        exact h.held y o p hy hp
    · intro y o hy hp
      simp only [World.bind_objs] at hy
      split at hy
      · cases hy; cases hp
      · exact h.null y o hy hp
    · intro y z o o' p hy hz hp hp'
      simp only [World.bind_objs] at hy hz
      split at hy
      · split at hz
        · omega
        · cases hy; cases hp
          have := hlt z o' _ hz hp'; omega
      · split at hz
        · cases hz; cases hp'
          have := hlt y o _ hy hp; omega
        · exact h.own y z o o' p hy hz hp hp'
    · intro p k hk hk0
      simp only [World.bind_mem, Blocks.grow] at hk
      split at hk
      · rename_i hpn
        exact ⟨x, ⟨n, some w.mem.next⟩, by simp, by rw [hpn]⟩
      · obtain ⟨y, o, hy, hp⟩ := h.left p k hk hk0
        have hyx : y ≠ x := by
          rintro rfl
          have h1 : w.mem.live p = some o.size := h.held y o p hy hp
          have h2 := hx o hy
          have h3 : some k = some o.size := hk.symm.trans h1
          injection h3 with h3
          omega
        exact ⟨y, o, by simp [hyx, hy], hp⟩

theorem World.Tight.setAlloc {w : World} (_h : w.Inv) (ht : w.Tight) (x n : Nat) (hx : ∀ o, w.objs x = some o → o.size = 0) :
    ((World.mk w.objs (kAlloc n w.mem).2).bind x (some ⟨n, (kAlloc n w.mem).1⟩)).Tight := by
  have hxp : ∀ o, w.objs x = some o → o.ptr = none := fun o ho => ht.zero x o ho (hx o ho)
  have keep : ∀ p, w.mem.live p ≠ none → ∃ y o, y ≠ x ∧ w.objs y = some o ∧ o.ptr = some p := by
    intro p hp
    obtain ⟨y, o, hy, ho⟩ := ht.owned p hp
    refine ⟨y, o, ?_, hy, ho⟩
    rintro rfl
    rw [hxp o hy] at ho
    cases ho
  by_cases hn : n = 0
  · subst hn
    have e : kAlloc 0 w.mem = (none, w.mem) := rfl
    rw [e]
    constructor
    · intro p hp
      obtain ⟨y, o, hyx, hy, ho⟩ := keep p hp
      exact ⟨y, o, by simp [hyx, hy], ho⟩
    · intro y o hy h0
      simp only [World.bind_objs] at hy
      split at hy
      · cases hy; rfl
      · exact ht.zero y o hy h0
  · have e : kAlloc n w.mem = (some w.mem.next, w.mem.grow n) := by simp [kAlloc, hn]
    rw [e]
    constructor
    · intro p hp
      simp only [World.bind_mem, Blocks.grow] at hp
      split at hp
      · rename_i hpn
        exact ⟨x, ⟨n, some w.mem.next⟩, by simp, by rw [hpn]⟩
      · obtain ⟨y, o, hyx, hy, ho⟩ := keep p hp
        exact ⟨y, o, by simp [hyx, hy], ho⟩
    · intro y o hy h0
      simp only [World.bind_objs] at hy
      split at hy
      · cases hy; exact absurd h0 hn
      · exact ht.zero y o hy h0

theorem World.Inv.setRealloc {w : World} (h : w.Inv) {x p : Nat} {o : FieldVar} (hx : w.objs x = some o) (hp : o.ptr = some p)
    (n : Nat) : ((World.mk w.objs ((w.mem.grow n).drop p)).bind x (some ⟨n, some w.mem.next⟩)).Inv := by
  have hlt : ∀ y o p, w.objs y = some o → o.ptr = some p → p < w.mem.next := fun y o p hy hp =>
    h.fresh p (by rw [h.held y o p hy hp]; simp)
  have hpn := hlt x o p hx hp
  constructor
  · intro q hq
    simp only [World.bind_mem, Blocks.grow, Blocks.drop] at hq ⊢
    split at hq
    · exact absurd rfl hq
    · split at hq
      · omega
      · have := h.fresh q hq; omega
  · intro y o' q hy hq
    simp only [World.bind_objs, World.bind_mem, Blocks.grow, Blocks.drop] at hy ⊢
    split at hy
    · cases hy; cases hq
      rw [if_neg (by omega), if_pos rfl]
    · rename_i hyx
      have h1 := hlt y o' q hy hq
      have h2 : q ≠ p := by
        rintro rfl
        exact hyx (h.own y x o' o q hy hx hq hp)
      rw [if_neg h2, if_neg (by omega)]
      exact h.held y o' q hy hq
  · intro y o' hy hq
    simp only [World.bind_objs] at hy
    split at hy
    · cases hy; cases hq
    · exact h.null y o' hy hq
  · intro y z o1 o2 q hy hz hq hq'
    simp only [World.bind_objs] at hy hz
    split at hy
    · split at hz
      · omega
      · cases hy; cases hq
        have := hlt z o2 _ hz hq'; omega
    · split at hz
      · cases hz; cases hq'
        have := hlt y o1 _ hy hq; omega
      · exact h.own y z o1 o2 q hy hz hq hq'
  · intro q k hk hk0
    simp only [World.bind_mem, Blocks.grow, Blocks.drop] at hk
    split at hk
    · cases hk
    · rename_i hqp
      split at hk
      · rename_i hqn
        exact ⟨x, ⟨n, some w.mem.next⟩, by simp, by rw [hqn]⟩
      · obtain ⟨y, o', hy, hq⟩ := h.left q k hk hk0
        have hyx : y ≠ x := by
          rintro rfl
          rw [hx] at hy
          cases hy
          rw [hp] at hq
          cases hq
          exact hqp rfl
        exact ⟨y, o', by simp [hyx, hy], hq⟩

theorem World.Tight.setRealloc {w : World} (ht : w.Tight) {x p : Nat} {o : FieldVar} (hx : w.objs x = some o)
    (hp : o.ptr = some p) (n : Nat) (hn : n ≠ 0) :
    ((World.mk w.objs ((w.mem.grow n).drop p)).bind x (some ⟨n, some w.mem.next⟩)).Tight := by
  constructor
  · intro q hq
    simp only [World.bind_mem, Blocks.grow, Blocks.drop] at hq
    split at hq
    · exact absurd rfl hq
    · rename_i hqp
      split at hq
      · rename_i hqn
        exact ⟨x, ⟨n, some w.mem.next⟩, by simp, by rw [hqn]⟩
      · obtain ⟨y, o', hy, ho⟩ := ht.owned q hq
        have hyx : y ≠ x := by
          rintro rfl
          rw [hx] at hy
          cases hy
          rw [hp] at ho
          cases ho
          exact hqp rfl
        exact ⟨y, o', by simp [hyx, hy], ho⟩
  · intro y o' hy h0
    simp only [World.bind_objs] at hy
    split at hy
    · cases hy; exact absurd h0 hn
    · exact ht.zero y o' hy h0

theorem World.Inv.setMove {w : World} (h : w.Inv) {x y : Nat} {o : FieldVar} (hx : w.objs x = none) (hy : w.objs y = some o) :
    ((w.bind x (some o)).bind y (some ⟨0, none⟩)).Inv := by
  have hxy : x ≠ y := by rintro rfl; rw [hx] at hy; cases hy
  constructor
  · exact h.fresh
  · intro z o' p hz hp
    simp only [World.bind_objs] at hz
    split at hz
    · cases hz; cases hp
    · split at hz
      · cases hz; exact h.held y o p hy hp
      · exact h.held z o' p hz hp
  · intro z o' hz hp
    simp only [World.bind_objs] at hz
    split at hz
    · cases hz; rfl
    · split at hz
      · cases hz; exact h.null y o hy hp
      · exact h.null z o' hz hp
  · intro z z' o1 o2 p hz hz' hp hp'
    simp only [World.bind_objs] at hz hz'
    split at hz
    · cases hz; cases hp
    · rename_i hzy
      split at hz'
      · cases hz'; cases hp'
      · rename_i hzy'
        split at hz
        · split at hz'
          · omega
          · cases hz
            exact absurd (h.own z' y o2 o p hz' hy hp' hp) hzy'
        · split at hz'
          · cases hz'
            exact absurd (h.own z y o1 o p hz hy hp hp') hzy
          · exact h.own z z' o1 o2 p hz hz' hp hp'
  · intro p k hk hk0
    obtain ⟨z, o', hz, hp⟩ := h.left p k hk hk0
    by_cases hzy : z = y
    · subst hzy
      rw [hy] at hz; cases hz
      exact ⟨x, o, by simp [hxy], hp⟩
    · have hzx : z ≠ x := by rintro rfl; rw [hx] at hz; cases hz
      exact ⟨z, o', by simp [hzy, hzx, hz], hp⟩

theorem World.Tight.setMove {w : World} (ht : w.Tight) {x y : Nat} {o : FieldVar} (hx : w.objs x = none) (hy : w.objs y = some o) :
    ((w.bind x (some o)).bind y (some ⟨0, none⟩)).Tight := by
  have hxy : x ≠ y := by rintro rfl; rw [hx] at hy; cases hy
  constructor
  · intro p hp
    obtain ⟨z, o', hz, ho⟩ := ht.owned p hp
    by_cases hzy : z = y
    · subst hzy
      rw [hy] at hz; cases hz
      exact ⟨x, o, by simp [hxy], ho⟩
    · have hzx : z ≠ x := by rintro rfl; rw [hx] at hz; cases hz
      exact ⟨z, o', by simp [hzy, hzx, hz], ho⟩
  · intro z o' hz h0
    simp only [World.bind_objs] at hz
    split at hz
    · cases hz; rfl
    · split at hz
      · cases hz; exact ht.zero y o hy h0
      · exact ht.zero z o' hz h0

theorem World.Inv.setFree {w : World} (h : w.Inv) {x : Nat} {o : FieldVar} (hx : w.objs x = some o) :
    ∃ b, kFree o.ptr w.mem = .ok b ∧ ((World.mk w.objs b).bind x none).Inv ∧
      (w.Tight → ((World.mk w.objs b).bind x none).Tight) := by
  cases hp : o.ptr with
  | none =>
    refine ⟨w.mem, rfl, ⟨h.fresh, ?_, ?_, ?_, ?_⟩, fun ht => ⟨?_, ?_⟩⟩
    · intro z o' p hz hp
      simp only [World.bind_objs] at hz
      split at hz
      · cases hz
      · exact h.held z o' p hz hp
    · intro z o' hz hp
      simp only [World.bind_objs] at hz
      split at hz
      · cases hz
      · exact h.null z o' hz hp
    · intro z z' o1 o2 p hz hz' hp hp'
      simp only [World.bind_objs] at hz hz'
      split at hz
      · cases hz
      · split at hz'
        · cases hz'
        · exact h.own z z' o1 o2 p hz hz' hp hp'
    · intro p k hk hk0
      obtain ⟨z, o', hz, hq⟩ := h.left p k hk hk0
      have hzx : z ≠ x := by rintro rfl; rw [hx] at hz; cases hz; rw [hp] at hq; cases hq
      exact ⟨z, o', by simp [hzx, hz], hq⟩
    · intro p hk
      obtain ⟨z, o', hz, hq⟩ := ht.owned p hk
      have hzx : z ≠ x := by rintro rfl; rw [hx] at hz; cases hz; rw [hp] at hq; cases hq
      exact ⟨z, o', by simp [hzx, hz], hq⟩
    · intro z o' hz h0
      simp only [World.bind_objs] at hz
      split at hz
      · cases hz
      · exact ht.zero z o' hz h0
  | some p =>
    have hl := h.held x o p hx hp
    have other : ∀ z o' q, z ≠ x → w.objs z = some o' → o'.ptr = some q → q ≠ p := by
      rintro z o' q hzx hz hq rfl
      exact hzx (h.own z x o' o q hz hx hq hp)
    refine ⟨w.mem.drop p, by simp [kFree, hl], ⟨?_, ?_, ?_, ?_, ?_⟩, fun ht => ⟨?_, ?_⟩⟩
    · intro q hq
      simp only [World.bind_mem, Blocks.drop] at hq ⊢
      split at hq
      · exact absurd rfl hq
      · exact h.fresh q hq
    · intro z o' q hz hq
      simp only [World.bind_objs, World.bind_mem, Blocks.drop] at hz ⊢
      split at hz
      · cases hz
      · rename_i hzx
        rw [if_neg (other z o' q hzx hz hq)]
        exact h.held z o' q hz hq
    · intro z o' hz hp
      simp only [World.bind_objs] at hz
      split at hz
      · cases hz
      · exact h.null z o' hz hp
    · intro z z' o1 o2 p hz hz' hp hp'
      simp only [World.bind_objs] at hz hz'
      split at hz
      · cases hz
      · split at hz'
        · cases hz'
        · exact h.own z z' o1 o2 p hz hz' hp hp'
    · intro q k hk hk0
      simp only [World.bind_mem, Blocks.drop] at hk
      split at hk
      · cases hk
      · rename_i hqp
        obtain ⟨z, o', hz, hq⟩ := h.left q k hk hk0
        have hzx : z ≠ x := by rintro rfl; rw [hx] at hz; cases hz; rw [hp] at hq; cases hq; exact hqp rfl
        exact ⟨z, o', by simp [hzx, hz], hq⟩
    · intro q hk
      simp only [World.bind_mem, Blocks.drop] at hk
      split at hk
      · exact absurd rfl hk
      · rename_i hqp
        obtain ⟨z, o', hz, hq⟩ := ht.owned q hk
        have hzx : z ≠ x := by rintro rfl; rw [hx] at hz; cases hz; rw [hp] at hq; cases hq; exact hqp rfl
        exact ⟨z, o', by simp [hzx, hz], hq⟩
    · intro z o' hz h0
      simp only [World.bind_objs] at hz
      split at hz
      · cases hz
      · exact ht.zero z o' hz h0

/-- The call takes a field that has elements to size zero. -/
def World.ShrinksToZero (w : World) : FieldCall → Prop
  | .resize x n => n = 0 ∧ ∃ o, w.objs x = some o ∧ o.size ≠ 0
  | .assign x y => ∃ a b, w.objs x = some a ∧ w.objs y = some b ∧ a.size ≠ 0 ∧ b.size = 0
  | _ => False

theorem fResize_ok {w : World} (h : w.Inv) {x : Nat} {o : FieldVar} (hx : w.objs x = some o) (n : Nat) :
    ∃ p b, fResize x o n w = .ok ((World.mk w.objs b).bind x (some ⟨n, p⟩)) ∧
      ((World.mk w.objs b).bind x (some ⟨n, p⟩)).Inv ∧
      (w.Tight → ¬ (n = 0 ∧ o.size ≠ 0) → ((World.mk w.objs b).bind x (some ⟨n, p⟩)).Tight) := by
  unfold fResize
  by_cases h0 : o.size = 0
  · have hx0 : ∀ o', w.objs x = some o' → o'.size = 0 := by intro o' ho'; rw [hx] at ho'; cases ho'; exact h0
    refine ⟨(kAlloc n w.mem).1, (kAlloc n w.mem).2, ?_, h.setAlloc x n hx0, fun ht _ => ht.setAlloc h x n hx0⟩
    rw [if_neg (by simpa using h0)]
  · rw [if_pos h0]
    cases hp : o.ptr with
    | none => exact absurd (h.null x o hx hp) h0
    | some p =>
      refine ⟨some w.mem.next, (w.mem.grow n).drop p, ?_, h.setRealloc hx hp n, fun ht hn => ht.setRealloc hx hp n ?_⟩
      · simp [kRealloc, h.held x o p hx hp]
      · intro e; exact hn ⟨e, h0⟩

theorem World.step_ok {w : World} (h : w.Inv) (c : FieldCall) :
    ∃ w', w.step c = .ok w' ∧ w'.Inv ∧ (w.Tight → ¬ w.ShrinksToZero c → w'.Tight) := by
  cases c with
  | create x n =>
    simp only [World.step]
    cases hx : w.objs x with
    | some o => exact ⟨w, rfl, h, fun ht _ => ht⟩
    | none =>
      have hx0 : ∀ o', w.objs x = some o' → o'.size = 0 := by intro o' ho'; rw [hx] at ho'; cases ho'
      exact ⟨_, rfl, h.setAlloc x n hx0, fun ht _ => ht.setAlloc h x n hx0⟩
  | copy x y =>
    simp only [World.step]
    cases hx : w.objs x with
    | some o => exact ⟨w, rfl, h, fun ht _ => ht⟩
    | none =>
      cases hy : w.objs y with
      | none => exact ⟨w, rfl, h, fun ht _ => ht⟩
      | some o =>
        have hx0 : ∀ o', w.objs x = some o' → o'.size = 0 := by intro o' ho'; rw [hx] at ho'; cases ho'
        have hi := h.setAlloc x o.size hx0
        have hyx : y ≠ x := by rintro rfl; rw [hx] at hy; cases hy
        refine ⟨_, ?_, hi, fun ht _ => ht.setAlloc h x o.size hx0⟩
        simp only [fCopy]
        rw [hi.touch (x := y) (o := o) (by simp [hyx, hy]), hi.touch (x := x) (by simp)]
        rfl
  | move x y =>
    simp only [World.step]
    cases hx : w.objs x with
    | some o => exact ⟨w, rfl, h, fun ht _ => ht⟩
    | none =>
      cases hy : w.objs y with
      | none => exact ⟨w, rfl, h, fun ht _ => ht⟩
      | some o => exact ⟨_, rfl, h.setMove hx hy, fun ht _ => ht.setMove hx hy⟩
  | assign x y =>
    simp only [World.step]
    cases hx : w.objs x with
    | none => exact ⟨w, rfl, h, fun ht _ => ht⟩
    | some a =>
      cases hy : w.objs y with
      | none => exact ⟨w, rfl, h, fun ht _ => ht⟩
      | some b =>
        simp only [fAssign, fMatch]
        by_cases hs : a.size = b.size
        · rw [if_neg (by simpa using hs)]
          refine ⟨w, ?_, h, fun ht _ => ht⟩
          simp only [Res.ok_bind, hx, hy]
          rw [h.touch hx, h.touch hy]
          rfl
        · rw [if_pos hs]
          obtain ⟨p, m, he, hi, ht⟩ := fResize_ok h hx b.size
          rw [he]
          have hyx : y ≠ x := by rintro rfl; rw [hx] at hy; cases hy; exact hs rfl
          refine ⟨_, ?_, hi, fun t hn => ht t (fun hz => hn ⟨a, b, hx, hy, hz.2, hz.1⟩)⟩
          simp only [Res.ok_bind, World.bind_objs, if_true, if_neg hyx, hy]
          rw [hi.touch (x := x) (by simp), hi.touch (x := y) (o := b) (by simp [hyx, hy])]
          rfl
  | resize x n =>
    simp only [World.step]
    cases hx : w.objs x with
    | none => exact ⟨w, rfl, h, fun ht _ => ht⟩
    | some o =>
      obtain ⟨p, m, he, hi, ht⟩ := fResize_ok h hx n
      exact ⟨_, he, hi, fun t hn => ht t (fun hz => hn ⟨hz.1, o, hx, hz.2⟩)⟩
  | use x =>
    simp only [World.step]
    cases hx : w.objs x with
    | none => exact ⟨w, rfl, h, fun ht _ => ht⟩
    | some o => exact ⟨w, by simp [h.touch hx], h, fun ht _ => ht⟩
  | destroy x =>
    simp only [World.step]
    cases hx : w.objs x with
    | none => exact ⟨w, rfl, h, fun ht _ => ht⟩
    | some o =>
      obtain ⟨b, hb, hi, ht⟩ := h.setFree hx
      exact ⟨_, by simp [fDestroy, hb], hi, fun t _ => ht t⟩

theorem World.run_ok (cs : List FieldCall) : ∀ {w : World}, w.Inv → ∃ w', w.run cs = .ok w' ∧ w'.Inv := by
  induction cs with
  | nil => intro w h; exact ⟨w, rfl, h⟩
  | cons c cs ih =>
    intro w h
    obtain ⟨w1, h1, hi, -⟩ := World.step_ok h c
    obtain ⟨w2, h2, hi2⟩ := ih hi
    exact ⟨w2, by simp only [World.run, List.foldlM_cons, h1, Res.ok_bind]; exact h2, hi2⟩

theorem World.run_append (w : World) (cs ds : List FieldCall) : w.run (cs ++ ds) = (w.run cs >>= fun w' => w'.run ds) :=
  List.foldlM_append

end proofs

/-- **C51, no double free, no use after free**: every history of calls runs through; afterwards every field holds as much memory
as it has elements and no two fields hold the same block. -/
theorem C51_safe (cs : List FieldCall) : ∃ w, World.empty.run cs = .ok w ∧
    (∀ x o, w.objs x = some o → o.size ≠ 0 → ∃ p, o.ptr = some p ∧ w.mem.live p = some o.size) ∧
    ∀ x y o o' p, w.objs x = some o → w.objs y = some o' → o.ptr = some p → o'.ptr = some p → x = y := by
  obtain ⟨w, h, hi⟩ := World.run_ok cs World.inv_empty
  refine ⟨w, h, fun x o hx h0 => ?_, hi.own⟩
  cases hp : o.ptr with
  | none => exact absurd (hi.null x o hx hp) h0
  | some p => exact ⟨p, rfl, hi.held x o p hx hp⟩

/-- **C51, what can be lost**: memory no field holds any more has no elements (only the bookkeeping of an empty block). -/
theorem C51_lost_blocks_empty (cs : List FieldCall) (w : World) (h : World.empty.run cs = .ok w) (p n : Nat) (hp : w.mem.live p = some n)
    (hl : ∀ x o, w.objs x = some o → o.ptr ≠ some p) : n = 0 := by
  obtain ⟨w', h', hi⟩ := World.run_ok cs World.inv_empty
  rw [h] at h'; cases h'
  by_cases h0 : n = 0
  · exact h0
  · obtain ⟨x, o, hx, ho⟩ := hi.left p n hp h0
    exact absurd ho (hl x o hx)

/-- **C51, no leak**: when no call of the history takes a field that has elements to size zero (`resize(0)`, or assigning an empty
field), the allocated blocks are exactly those of the non-empty fields; after the last field is destroyed nothing is allocated.
Missing: histories with such calls (`C51_leak_violation`). -/
theorem C51_no_leak_partial (cs : List FieldCall) (w : World) (h : World.empty.run cs = .ok w)
    (hz : ∀ cs1 c cs2 w1, cs = cs1 ++ c :: cs2 → World.empty.run cs1 = .ok w1 → ¬ w1.ShrinksToZero c) :
    (∀ p, w.mem.live p ≠ none ↔ ∃ x o, w.objs x = some o ∧ o.size ≠ 0 ∧ o.ptr = some p) ∧
    ((∀ x, w.objs x = none) → ∀ p, w.mem.live p = none) := by
  have key : ∀ (ds es : List FieldCall) (v : World), cs = ds ++ es → World.empty.run ds = .ok v → v.Inv → v.Tight →
      ∃ u, v.run es = .ok u ∧ u.Inv ∧ u.Tight := by
    intro ds es
    induction es generalizing ds with
    | nil => intro v _ _ hi ht; exact ⟨v, rfl, hi, ht⟩
    | cons c es ih =>
      intro v he hv hi ht
      obtain ⟨v1, h1, hi1, ht1⟩ := World.step_ok hi c
      have ht1 := ht1 ht (hz ds c es v he hv)
      obtain ⟨u, hu, hiu, htu⟩ := ih (ds ++ [c]) v1 (by simp [he])
        (by rw [World.run_append, hv, Res.ok_bind]; simp [World.run, h1]) hi1 ht1
      exact ⟨u, by simp only [World.run, List.foldlM_cons, h1, Res.ok_bind]; exact hu, hiu, htu⟩
  obtain ⟨u, hu, hi, ht⟩ := key [] cs World.empty rfl rfl World.inv_empty World.tight_empty
  rw [h] at hu; cases hu
  refine ⟨fun p => ⟨fun hp => ?_, ?_⟩, fun hn p => ?_⟩
  · obtain ⟨x, o, hx, ho⟩ := ht.owned p hp
    exact ⟨x, o, hx, fun h0 => (by rw [ht.zero x o hx h0] at ho; cases ho), ho⟩
  · rintro ⟨x, o, hx, -, ho⟩
    rw [hi.held x o p hx ho]; simp
  · cases hp : w.mem.live p with
    | none => rfl
    | some n =>
      obtain ⟨x, o, hx, -⟩ := ht.owned p (by rw [hp]; simp)
      rw [hn x] at hx
      cases hx

/-- **C51 fails** for `resize(0)` followed by another `resize`: after all fields are destroyed a block is still allocated, and
each repetition loses one more. -/
theorem C51_leak_violation : ∃ (cs : List FieldCall) (w : World), World.empty.run cs = .ok w ∧ (∀ x, w.objs x = none) ∧
    w.mem.live 1 = some 0 ∧ w.mem.live 3 = some 0 := by
  refine ⟨[.create 0 3, .resize 0 0, .resize 0 2, .resize 0 0, .resize 0 5, .destroy 0], _, rfl, ?_, rfl, rfl⟩
  intro x
  by_cases hx : x = 0 <;> simp [World.bind, World.empty, hx]

/-- The calls after which a view of `x` taken before may dangle. -/
def FieldCall.Invalidates (x : Nat) : FieldCall → Prop
  | .resize y _ => y = x
  | .assign y _ => y = x
  | .destroy y => y = x
  | .move _ y => y = x
  | _ => False

theorem step_keeps {w : World} (h : w.Inv) (c : FieldCall) {x : Nat} {o : FieldVar} (hx : w.objs x = some o)
    (hc : ¬ c.Invalidates x) (w' : World) (hs : w.step c = .ok w') : w'.objs x = some o := by
  cases c with
  | create y n =>
    simp only [World.step] at hs
    cases hy : w.objs y with
    | some _ => rw [hy] at hs; cases hs; exact hx
    | none =>
      rw [hy] at hs; cases hs
      have : x ≠ y := by rintro rfl; rw [hx] at hy; cases hy
      simp [this, hx]
  | copy y z =>
    simp only [World.step] at hs
    cases hy : w.objs y with
    | some _ => rw [hy] at hs; cases hs; exact hx
    | none =>
      rw [hy] at hs
      cases hz : w.objs z with
      | none => rw [hz] at hs; cases hs; exact hx
      | some o' =>
        rw [hz] at hs
        simp only [fCopy] at hs
        rw [Res.bind_eq_ok] at hs
        obtain ⟨-, -, hs⟩ := hs
        rw [Res.bind_eq_ok] at hs
        obtain ⟨-, -, hs⟩ := hs
        cases hs
        have : x ≠ y := by rintro rfl; rw [hx] at hy; cases hy
        simp [this, hx]
  | move y z =>
    simp only [World.step] at hs
    cases hy : w.objs y with
    | some _ => rw [hy] at hs; cases hs; exact hx
    | none =>
      rw [hy] at hs
      cases hz : w.objs z with
      | none => rw [hz] at hs; cases hs; exact hx
      | some o' =>
        rw [hz] at hs; cases hs
        have h1 : x ≠ y := by rintro rfl; rw [hx] at hy; cases hy
        have h2 : x ≠ z := fun e => hc e.symm
        simp [h1, h2, hx]
  | assign y z =>
    have hxy : x ≠ y := fun e => hc e.symm
    simp only [World.step] at hs
    cases hy : w.objs y with
    | none => rw [hy] at hs; cases hs; exact hx
    | some a =>
      rw [hy] at hs
      cases hz : w.objs z with
      | none => rw [hz] at hs; cases hs; exact hx
      | some b =>
        rw [hz] at hs
        simp only [fAssign] at hs
        rw [Res.bind_eq_ok] at hs
        obtain ⟨w1, h1, hs⟩ := hs
        have hw1 : w' = w1 := by
          cases ha : w1.objs y with
          | none => rw [ha] at hs; cases hs
          | some a' =>
            rw [ha] at hs
            cases hb : w1.objs z with
            | none => rw [hb] at hs; cases hs
            | some b' =>
              rw [hb] at hs
              simp only at hs
              rw [Res.bind_eq_ok] at hs
              obtain ⟨-, -, hs⟩ := hs
              rw [Res.bind_eq_ok] at hs
              obtain ⟨-, -, hs⟩ := hs
              cases hs
              rfl
        subst hw1
        unfold fMatch at h1
        split at h1
        · obtain ⟨p, m, he, -⟩ := fResize_ok h hy b.size
          rw [he] at h1; cases h1
          simp [hxy, hx]
        · cases h1; exact hx
  | resize y n =>
    have hxy : x ≠ y := fun e => hc e.symm
    simp only [World.step] at hs
    cases hy : w.objs y with
    | none => rw [hy] at hs; cases hs; exact hx
    | some a =>
      rw [hy] at hs
      obtain ⟨p, m, he, -⟩ := fResize_ok h hy n
      simp only [he] at hs
      cases hs
      simp [hxy, hx]
  | use y =>
    simp only [World.step] at hs
    cases hy : w.objs y with
    | none => rw [hy] at hs; cases hs; exact hx
    | some a =>
      rw [hy] at hs
      simp only at hs
      rw [Res.bind_eq_ok] at hs
      obtain ⟨-, -, hs⟩ := hs
      cases hs
      exact hx
  | destroy y =>
    have hxy : x ≠ y := fun e => hc e.symm
    simp only [World.step] at hs
    cases hy : w.objs y with
    | none => rw [hy] at hs; cases hs; exact hx
    | some a =>
      rw [hy] at hs
      simp only [fDestroy] at hs
      rw [Res.bind_eq_ok] at hs
      obtain ⟨b, -, hs⟩ := hs
      cases hs
      simp [hxy, hx]

/-- **C51, views**: a view of a field (its size and pointer) stays valid through any calls that do not resize, assign, move or
destroy that field, whatever happens to other fields. -/
theorem C51_views (cs ds : List FieldCall) (w w' : World) (h : World.empty.run cs = .ok w) (x : Nat) (o : FieldVar)
    (hx : w.objs x = some o) (hd : ∀ c ∈ ds, ¬ c.Invalidates x) (h' : w.run ds = .ok w') : touch o w' = .ok () := by
  obtain ⟨w0, h0, hi⟩ := World.run_ok cs World.inv_empty
  rw [h] at h0; cases h0
  clear h
  induction ds generalizing w with
  | nil => cases h'; exact hi.touch hx
  | cons c ds ih =>
    obtain ⟨w1, h1, hi1, -⟩ := World.step_ok hi c
    simp only [World.run, List.foldlM_cons, h1, Res.ok_bind] at h'
    exact ih w1 (step_keeps hi c hx (hd c List.mem_cons_self) w1 h1) (fun c hc => hd c (List.mem_cons_of_mem _ hc)) h' hi1

/-- A view taken before `resize` dangles. -/
theorem C51_view_dangles : ∃ (cs ds : List FieldCall) (w w' : World) (o : FieldVar), World.empty.run cs = .ok w ∧ w.objs 0 = some o ∧
    w.run ds = .ok w' ∧ touch o w' = .ub := by
  refine ⟨[.create 0 3], [.resize 0 4], _, _, ⟨3, some 0⟩, rfl, rfl, rfl, rfl⟩

/-- The hypotheses can be met: copies, moves, assignments and destructions without any call that empties a field. -/
example : ∃ w, World.empty.run [.create 0 3, .copy 1 0, .move 2 1, .create 3 5, .assign 0 3, .destroy 1, .use 2, .destroy 0] = .ok w ∧
    w.objs 2 = some ⟨3, some 1⟩ ∧ w.objs 0 = none := ⟨_, rfl, rfl, rfl⟩

/-- **C51, what the model counts as undefined**: releasing a pointer that is not (or no longer) allocated, reallocating such a pointer or a
null pointer, reading a field through a null pointer, a released pointer or a block that is too small. The theorems above say that none of
this happens. -/
theorem C51_undefined (p : Nat) (b : Blocks) (objs : Nat → Option FieldVar) :
    (b.live p = none → kFree (some p) b = .ub ∧ (∀ n, kRealloc (some p) n b = .ub) ∧ ∀ n, n ≠ 0 → touch ⟨n, some p⟩ ⟨objs, b⟩ = .ub) ∧
    (∀ n m, b.live p = some m → m < n → touch ⟨n, some p⟩ ⟨objs, b⟩ = .ub) ∧
    (∀ n, kRealloc none n b = .ub ∧ (n ≠ 0 → touch ⟨n, none⟩ ⟨objs, b⟩ = .ub)) ∧
    (∀ b', kFree (some p) b = .ok b' → kFree (some p) b' = .ub) := by
  refine ⟨fun h => ⟨by simp [kFree, h], fun n => by simp [kRealloc, h], fun n hn => by simp [touch, hn, h]⟩, ?_, ?_, ?_⟩
  · intro n m h hlt
    simp only [touch, h]
    rw [if_neg (by omega), if_neg (by omega)]
  · exact fun n => ⟨rfl, fun hn => by simp [touch, hn]⟩
  · intro b' h
    unfold kFree at h
    split at h
    · contradiction
    · rename_i q hq
      cases hq
      split at h
      · cases h; simp [kFree, Blocks.drop]
      · cases h

end NeoFOAM
