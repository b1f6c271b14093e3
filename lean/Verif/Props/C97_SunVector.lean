import Verif.Spec.SunVector

/-!
# C97 – wrappers of SUNDIALS vectors as values
-/
namespace NeoFOAM
open Function
variable {K : Type}

/-- Every vector belongs to exactly one wrapper, and the wrappers with data refer to their own. -/
structure SunInv (w : SunWorld K) : Prop where
  fresh : ∀ h, w.next ≤ h → w.heap h = none
  owned : ∀ i x h, w.wraps i = some x → x.own = some h → ∃ v, w.heap h = some v
  once : ∀ i j x y h, w.wraps i = some x → w.wraps j = some y → x.own = some h → y.own = some h → i = j
  alive : ∀ h v, w.heap h = some v → ∃ i x, w.wraps i = some x ∧ x.own = some h

/-- The wrapper is what its user sees. -/
def Shows (w : SunWorld K) (o : Option SunWrapper) (v : Option (VecValue K)) : Prop :=
  match o, v with
  | none, none => True
  | some x, some y => y.kind = x.kind ∧ ∀ d, y.data = some d → ∃ h, x.own = some h ∧ x.handle = some h ∧ w.heap h = some ⟨x.kind, d⟩
  | _, _ => False

theorem SunInv.start : SunInv (SunWorld.start : SunWorld K) :=
  ⟨fun _ _ => rfl, fun _ _ _ h => by simp [SunWorld.start] at h, fun _ _ _ _ _ h => by simp [SunWorld.start] at h, fun _ _ h => by simp [SunWorld.start] at h⟩

theorem SunWorld.wrap_ok {w : SunWorld K} {i : Nat} {x : SunWrapper} : w.wrap i = .ok x ↔ w.wraps i = some x := by
  unfold SunWorld.wrap
  cases w.wraps i <;> simp

/-- The world after wrapper `i` got the object `y`, what it owned is freed and, if `v` says so, a new vector was made. (A shorthand of the proofs.) -/
def SunWorld.after (w : SunWorld K) (i : Nat) (y : Option SunWrapper) (v : Option (SunVec K)) : SunWorld K where
  heap := fun h => if (w.wraps i).bind (·.own) = some h then none else if h = w.next then v else w.heap h
  next := if v.isSome then w.next + 1 else w.next
  wraps := update w.wraps i y

theorem SunInv.fresh_ne {w : SunWorld K} (g : SunInv w) {j : Nat} {z : SunWrapper} {h : Nat} (hz : w.wraps j = some z) (ho : z.own = some h) : h ≠ w.next := by
  rintro rfl
  obtain ⟨v', hv'⟩ := g.owned j z _ hz ho
  rw [g.fresh _ (Nat.le_refl _)] at hv'
  cases hv'

theorem SunInv.after {w : SunWorld K} (g : SunInv w) (i : Nat) (y : Option SunWrapper) (v : Option (SunVec K))
    (hy : ∀ z h, y = some z → z.own = some h → h = w.next ∧ v.isSome) (hv : ∀ v', v = some v' → ∃ z, y = some z ∧ z.own = some w.next) :
    SunInv (w.after i y v) := by
  constructor
  · intro h hh
    simp only [SunWorld.after] at hh ⊢
    split
    · rfl
    · cases v with
      | none =>
        simp only [Option.isSome_none, Bool.false_eq_true, if_false] at hh
        split
        · rfl
        · exact g.fresh h hh
      | some v =>
        simp only [Option.isSome_some, if_true] at hh
        rw [if_neg (by omega)]
        exact g.fresh h (by omega)
  · intro j z h hz ho
    simp only [SunWorld.after] at hz ⊢
    by_cases e : j = i
    · subst e
      rw [update_self] at hz
      obtain ⟨rfl, hs⟩ := hy z h hz ho
      rw [if_neg, if_pos rfl]
      · exact Option.isSome_iff_exists.1 hs
      · cases hx : w.wraps j with
        | none => simp
        | some x => exact fun e => g.fresh_ne hx e rfl
    · rw [update_of_ne e] at hz
      rw [if_neg, if_neg (g.fresh_ne hz ho)]
      · exact g.owned j z h hz ho
      · cases hx : w.wraps i with
        | none => simp
        | some x => exact fun e' => e (g.once j i z x h hz hx ho e')
  · intro j k z z' h hz hz' ho ho'
    simp only [SunWorld.after] at hz hz'
    by_cases e : j = i <;> by_cases e' : k = i
    · rw [e, e']
    · subst e
      rw [update_self] at hz
      rw [update_of_ne e'] at hz'
      exact absurd (hy z h hz ho).1 (g.fresh_ne hz' ho')
    · subst e'
      rw [update_self] at hz'
      rw [update_of_ne e] at hz
      exact absurd (hy z' h hz' ho').1 (g.fresh_ne hz ho)
    · rw [update_of_ne e] at hz
      rw [update_of_ne e'] at hz'
      exact g.once j k z z' h hz hz' ho ho'
  · intro h v' hh
    simp only [SunWorld.after] at hh ⊢
    split at hh
    · cases hh
    · rename_i hxh
      split at hh
      · rename_i e
        obtain ⟨z, h1, h2⟩ := hv v' hh
        exact ⟨i, z, by rw [update_self, h1], by rw [h2, e]⟩
      · obtain ⟨j, z, h1, h2⟩ := g.alive h v' hh
        refine ⟨j, z, ?_, h2⟩
        rw [update_of_ne]
        · exact h1
        · rintro rfl
          rw [h1] at hxh
          exact hxh h2

/-- What another wrapper shows is not changed by that. -/
theorem Shows.after {w : SunWorld K} (g : SunInv w) {i j : Nat} (hij : j ≠ i) (y : Option SunWrapper) (v : Option (SunVec K))
    {u : Option (VecValue K)} (h : Shows w (w.wraps j) u) : Shows (w.after i y v) ((w.after i y v).wraps j) u := by
  have e : (w.after i y v).wraps j = w.wraps j := update_of_ne hij _ _
  rw [e]
  cases hz : w.wraps j with
  | none => rw [hz] at h; cases u <;> exact h
  | some z =>
    rw [hz] at h
    cases u with
    | none => exact h
    | some u =>
      refine ⟨h.1, fun d hd => ?_⟩
      obtain ⟨a, h1, h2, h3⟩ := h.2 d hd
      refine ⟨a, h1, h2, ?_⟩
      simp only [SunWorld.after]
      rw [if_neg, if_neg (g.fresh_ne hz h1), h3]
      cases hx : w.wraps i with
      | none => simp
      | some x => exact fun e => hij (g.once j i z x a hz hx h1 e)

theorem SunInv.free_after {w : SunWorld K} (g : SunInv w) {i : Nat} {x : SunWrapper} (hx : w.wraps i = some x) (y : Option SunWrapper) :
    (w.free x.own >>= fun w => (.ok ((none : Option (List K)), { w with wraps := update w.wraps i y }) : Res _)) = .ok (none, w.after i y none) := by
  unfold SunWorld.free SunWorld.after
  rw [hx]
  cases ho : x.own with
  | none =>
    simp only [Res.ok_bind, Option.bind_some, ho, Option.isSome_none, Bool.false_eq_true, if_false]
    congr 3
    funext h
    rw [if_neg (by simp)]
    split
    · rename_i e; rw [e, g.fresh _ (Nat.le_refl _)]
    · rfl
  | some h =>
    obtain ⟨v, hv⟩ := g.owned i x h hx ho
    simp only [hv, Res.ok_bind, Option.bind_some, ho, Option.isSome_none, Bool.false_eq_true, if_false]
    congr 3
    funext h'
    by_cases e : h' = h
    · subst e; simp
    · rw [update_of_ne e, if_neg (by simpa using fun e' => e e'.symm)]
      split
      · rename_i e; rw [e, g.fresh _ (Nat.le_refl _)]
      · rfl

section
variable [Zero K] {lib : List K → List K} {w : SunWorld K}

theorem declare_after (g : SunInv w) {i : Nat} (hx : w.wraps i = none) (y : SunWrapper) : w.declare i y = .ok (w.after i (some y) none) := by
  unfold SunWorld.declare SunWorld.after
  rw [hx]
  simp only [Option.bind_none, Option.isSome_none, Bool.false_eq_true, if_false, Res.ok.injEq]
  congr 1
  funext h
  rw [if_neg (by simp)]
  split
  · rename_i e; rw [e, g.fresh _ (Nat.le_refl _)]
  · rfl

theorem run_new (g : SunInv w) {i : Nat} (hx : w.wraps i = none) : (SunOp.new i).run lib w = .ok (none, w.after i (some ⟨.cpu, none, none⟩) none) := by
  rw [SunOp.run, declare_after g hx]; rfl

theorem run_setExecutor (g : SunInv w) {i : Nat} {x : SunWrapper} {e : Exec} (hx : w.wraps i = some x) :
    (SunOp.setExecutor i e).run lib w = .ok (none, w.after i (some ⟨e, none, none⟩) none) := by
  rw [SunOp.run, SunWorld.wrap_ok.2 hx]
  exact g.free_after hx _

theorem run_destroy (g : SunInv w) {i : Nat} {x : SunWrapper} (hx : w.wraps i = some x) :
    (SunOp.destroy i).run lib w = .ok (none, w.after i none none) := by
  rw [SunOp.run, SunWorld.wrap_ok.2 hx]
  exact g.free_after hx _

theorem run_init (g : SunInv w) {i n : Nat} {x : SunWrapper} (hx : w.wraps i = some x) :
    (SunOp.initNVector i n).run lib w = .ok (none, w.after i (some ⟨x.kind, some w.next, some w.next⟩) (some ⟨x.kind, List.replicate n 0⟩)) := by
  rw [SunOp.run, SunWorld.wrap_ok.2 hx]
  simp only [Res.ok_bind, SunWorld.alloc, SunWorld.free, SunWorld.after, hx, Option.bind_some, Option.isSome_some, if_true]
  cases ho : x.own with
  | none =>
    simp only [Res.ok_bind, Res.pure_eq]
    congr 3
    funext h
    rw [if_neg (by simp)]
    by_cases e : h = w.next
    · subst e; simp
    · rw [update_of_ne e, if_neg e]
  | some h =>
    obtain ⟨v, hv⟩ := g.owned i x h hx ho
    have hn := g.fresh_ne hx ho
    simp only [update_of_ne hn, hv, Res.ok_bind, Res.pure_eq]
    congr 3
    funext h'
    by_cases e : h' = h
    · subst e; simp
    · rw [update_of_ne e, if_neg (by simpa using fun e' => e e'.symm)]
      by_cases e : h' = w.next
      · subst e; simp
      · rw [update_of_ne e, if_neg e]

theorem run_copy_none (g : SunInv w) {i j : Nat} {x : SunWrapper} (hx : w.wraps i = some x) (ho : x.own = none) (hj : w.wraps j = none) :
    (SunOp.copy i j).run lib w = .ok (none, w.after j (some ⟨x.kind, none, none⟩) none) := by
  rw [SunOp.run, SunWorld.wrap_ok.2 hx]
  simp only [Res.ok_bind, ho]
  rw [declare_after g hj]; rfl

theorem run_copy_some (g : SunInv w) {i j h : Nat} {x : SunWrapper} {v : SunVec K} (hx : w.wraps i = some x) (ho : x.own = some h) (hv : w.heap h = some v) (hj : w.wraps j = none) :
    (SunOp.copy i j).run lib w = .ok (none, w.after j (some ⟨x.kind, some w.next, some h⟩) (some ⟨v.space, lib v.data⟩)) := by
  rw [SunOp.run, SunWorld.wrap_ok.2 hx]
  simp only [Res.ok_bind, ho, SunWorld.deref, hv, SunWorld.alloc, SunWorld.declare, hj, Res.pure_eq, SunWorld.after, Option.bind_none, Option.isSome_some, if_true]
  congr 3
  funext h'
  rw [if_neg (by simp)]
  by_cases e : h' = w.next
  · subst e; simp
  · rw [update_of_ne e, if_neg e]

theorem run_move {i j : Nat} {x : SunWrapper} (hx : w.wraps i = some x) (hj : w.wraps j = none) :
    (SunOp.move i j).run lib w = .ok (none, { w with wraps := update (update w.wraps j (some x)) i (some ⟨x.kind, none, x.handle⟩) }) := by
  rw [SunOp.run, SunWorld.wrap_ok.2 hx]
  simp only [Res.ok_bind, SunWorld.declare, hj, Res.pure_eq]

theorem run_write {i h : Nat} {x : SunWrapper} {v : SunVec K} {e : Exec} {f : List K} (hx : w.wraps i = some x) (ho : x.handle = some h) (hv : w.heap h = some v)
    (hs : v.space = e ∧ f.length ≤ v.data.length) :
    (SunOp.write i e f).run lib w = .ok (none, { w with heap := update w.heap h (some ⟨v.space, f ++ v.data.drop f.length⟩) }) := by
  rw [SunOp.run, SunWorld.wrap_ok.2 hx]
  simp only [Res.ok_bind, SunWorld.deref, ho, hv, Res.pure_eq]
  rw [if_pos hs]

theorem run_read {i h n : Nat} {x : SunWrapper} {v : SunVec K} {e : Exec} (hx : w.wraps i = some x) (ho : x.handle = some h) (hv : w.heap h = some v)
    (hs : v.space = e ∧ n ≤ v.data.length) : (SunOp.read i e n).run lib w = .ok (some (v.data.take n), w) := by
  rw [SunOp.run, SunWorld.wrap_ok.2 hx]
  simp only [Res.ok_bind, SunWorld.deref, ho, hv, Res.pure_eq]
  rw [if_pos hs]

theorem SunInv.move (g : SunInv w) {i j : Nat} {x : SunWrapper} (hx : w.wraps i = some x) (hj : w.wraps j = none) :
    SunInv { w with wraps := update (update w.wraps j (some x)) i (some ⟨x.kind, none, x.handle⟩) } := by
  have hij : i ≠ j := by rintro rfl; rw [hx] at hj; cases hj
  -- who owns `h` now, and who did
  have back : ∀ k z h, update (update w.wraps j (some x)) i (some ⟨x.kind, none, x.handle⟩) k = some z → z.own = some h →
      ∃ k', k = (if k' = i then j else k') ∧ k' ≠ j ∧ ∃ z', w.wraps k' = some z' ∧ z'.own = some h := by
    intro k z h hz ho
    by_cases e : k = i
    · subst e
      rw [update_self] at hz
      cases hz
      cases ho
    · rw [update_of_ne e] at hz
      by_cases e' : k = j
      · subst e'
        rw [update_self] at hz
        cases hz
        exact ⟨i, by rw [if_pos rfl], hij, x, hx, ho⟩
      · rw [update_of_ne e'] at hz
        exact ⟨k, by rw [if_neg e], e', z, hz, ho⟩
  refine ⟨g.fresh, fun k z h hz ho => ?_, fun k l z z' h hz hz' ho ho' => ?_, fun h v hv => ?_⟩
  · obtain ⟨k', -, -, z', h1, h2⟩ := back k z h hz ho
    exact g.owned k' z' h h1 h2
  · obtain ⟨k', h0, -, y, h1, h2⟩ := back k z h hz ho
    obtain ⟨l', h0', -, y', h1', h2'⟩ := back l z' h hz' ho'
    rw [h0, h0', g.once k' l' y y' h h1 h1' h2 h2']
  · obtain ⟨k, z, h1, h2⟩ := g.alive h v hv
    dsimp only
    by_cases e : k = i
    · subst e
      rw [hx] at h1
      cases h1
      exact ⟨j, x, by rw [update_of_ne (Ne.symm hij), update_self], h2⟩
    · refine ⟨k, z, ?_, h2⟩
      rw [update_of_ne e, update_of_ne]
      · exact h1
      · rintro rfl
        rw [h1] at hj
        cases hj

theorem SunInv.write (g : SunInv w) {h : Nat} {v v' : SunVec K} (hv : w.heap h = some v) : SunInv { w with heap := update w.heap h (some v') } := by
  refine ⟨fun h' hh => ?_, fun i x h' hx ho => ?_, g.once, fun h' u hu => ?_⟩
  · have e : h' ≠ h := by
      rintro rfl
      rw [g.fresh _ hh] at hv
      cases hv
    dsimp only
    rw [update_of_ne e]
    exact g.fresh h' hh
  · dsimp only
    by_cases e : h' = h
    · subst e; exact ⟨v', update_self ..⟩
    · rw [update_of_ne e]; exact g.owned i x h' hx ho
  · dsimp only at hu
    by_cases e : h' = h
    · subst e; exact g.alive h' v hv
    · rw [update_of_ne e] at hu; exact g.alive h' u hu

/-- Every operation that runs keeps the ownership. -/
theorem SunInv.step {w' : SunWorld K} (g : SunInv w) {o : SunOp K} {r : Option (List K)} (h : o.run lib w = .ok (r, w')) : SunInv w' := by
  have none' : ∀ {i : Nat} {y : Option SunWrapper} {r : Option (List K)} {w' : SunWorld K}, (∀ z, y = some z → z.own = none) →
      (.ok (none, w.after i y none) : Res (Option (List K) × SunWorld K)) = .ok (r, w') → SunInv w' := by
    intro i y r w' hy h
    cases h
    exact g.after i y none (fun z h hz ho => by rw [hy z hz] at ho; cases ho) (fun _ h => by cases h)
  have some' : ∀ {i : Nat} {z : SunWrapper} {v : SunVec K} {r : Option (List K)} {w' : SunWorld K}, z.own = some w.next →
      (.ok (none, w.after i (some z) (some v)) : Res (Option (List K) × SunWorld K)) = .ok (r, w') → SunInv w' := by
    intro i y v r w' hy h
    cases h
    exact g.after i _ _ (fun z h hz ho => by cases hz; rw [hy] at ho; cases ho; exact ⟨rfl, rfl⟩) (fun _ _ => ⟨y, rfl, hy⟩)
  have wrapped : ∀ {i : Nat} {α : Type} {f : SunWrapper → Res α} {a : α}, (w.wrap i >>= f) = .ok a → ∃ x, w.wraps i = some x := by
    intro i α f a h
    obtain ⟨x, h1, -⟩ := Res.bind_eq_ok.1 h
    exact ⟨x, SunWorld.wrap_ok.1 h1⟩
  have declared : ∀ {i : Nat} {x : SunWrapper} {w₀ w' : SunWorld K}, w₀.declare i x = .ok w' → w₀.wraps i = none := by
    intro i x w₀ w' h
    unfold SunWorld.declare at h
    split at h
    · cases h
    · assumption
  cases o with
  | new i =>
    obtain ⟨_, h1, -⟩ := Res.bind_eq_ok.1 h
    rw [run_new g (declared h1)] at h
    exact none' (fun z hz => by cases hz; rfl) h
  | setExecutor i e =>
    obtain ⟨x, hx⟩ := wrapped h
    rw [run_setExecutor g hx] at h
    exact none' (fun z hz => by cases hz; rfl) h
  | initNVector i n =>
    obtain ⟨x, hx⟩ := wrapped h
    rw [run_init g hx] at h
    exact some' rfl h
  | copy i j =>
    obtain ⟨x, hx⟩ := wrapped h
    have h' := h
    rw [SunOp.run, SunWorld.wrap_ok.2 hx] at h'
    simp only [Res.ok_bind] at h'
    cases ho : x.own with
    | none =>
      rw [ho] at h'
      obtain ⟨_, h1, -⟩ := Res.bind_eq_ok.1 h'
      rw [run_copy_none g hx ho (declared h1)] at h
      exact none' (fun z hz => by cases hz; rfl) h
    | some a =>
      obtain ⟨v, hv⟩ := g.owned i x a hx ho
      rw [ho] at h'
      simp only [SunWorld.deref, hv, Res.ok_bind, SunWorld.alloc] at h'
      obtain ⟨_, h1, -⟩ := Res.bind_eq_ok.1 h'
      have hj := declared h1
      change w.wraps j = none at hj
      rw [run_copy_some g hx ho hv hj] at h
      exact some' rfl h
  | move i j =>
    obtain ⟨x, hx⟩ := wrapped h
    have h' := h
    rw [SunOp.run, SunWorld.wrap_ok.2 hx] at h'
    simp only [Res.ok_bind] at h'
    obtain ⟨_, h1, -⟩ := Res.bind_eq_ok.1 h'
    rw [run_move hx (declared h1)] at h
    cases h
    exact g.move hx (declared h1)
  | destroy i =>
    obtain ⟨x, hx⟩ := wrapped h
    rw [run_destroy g hx] at h
    exact none' (fun z hz => by cases hz) h
  | write i e f =>
    obtain ⟨x, hx⟩ := wrapped h
    rw [SunOp.run, SunWorld.wrap_ok.2 hx] at h
    simp only [Res.ok_bind] at h
    obtain ⟨⟨a, v⟩, h1, h2⟩ := Res.bind_eq_ok.1 h
    simp only at h2
    split at h2
    · cases h2
      refine g.write (v := v) ?_
      unfold SunWorld.deref at h1
      split at h1
      · cases h1
      · split at h1
        · cases h1; assumption
        · cases h1
    · cases h2
  | read i e n =>
    obtain ⟨x, hx⟩ := wrapped h
    rw [SunOp.run, SunWorld.wrap_ok.2 hx] at h
    simp only [Res.ok_bind] at h
    obtain ⟨⟨a, v⟩, h1, h2⟩ := Res.bind_eq_ok.1 h
    simp only at h2
    split at h2
    · cases h2; exact g
    · cases h2

theorem SunInv.run {ops : List (SunOp K)} : ∀ {w w' : SunWorld K} {out : List (List K)}, SunInv w → sunRun lib ops w = .ok (out, w') → SunInv w' := by
  induction ops with
  | nil => intro w w' out g h; cases h; exact g
  | cons o ops ih =>
    intro w w' out g h
    obtain ⟨⟨r, w₁⟩, h1, h2⟩ := Res.bind_eq_ok.1 h
    obtain ⟨⟨rs, w₂⟩, h3, h4⟩ := Res.bind_eq_ok.1 h2
    cases h4
    exact ih (g.step h1) h3

/-- Every operation that makes sense does what it means. -/
theorem sun_step (g : SunInv w) {s s' : Nat → Option (VecValue K)} (hs : ∀ i, Shows w (w.wraps i) (s i)) {o : SunOp K} {r : Option (List K)}
    (h : o.meaning (fun _ => none) s = .ok (r, s')) : ∃ w', o.run lib w = .ok (r, w') ∧ ∀ i, Shows w' (w'.wraps i) (s' i) := by
  have wrapped : ∀ {i : Nat} {v : VecValue K}, s i = some v → ∃ x, w.wraps i = some x ∧ v.kind = x.kind ∧
      ∀ d, v.data = some d → ∃ h, x.own = some h ∧ x.handle = some h ∧ w.heap h = some ⟨x.kind, d⟩ := by
    intro i v hv
    have := hs i
    rw [hv] at this
    cases hx : w.wraps i with
    | none => rw [hx] at this; exact this.elim
    | some x => rw [hx] at this; exact ⟨x, rfl, this⟩
  have absent : ∀ {i : Nat}, s i = none → w.wraps i = none := by
    intro i hv
    have := hs i
    rw [hv] at this
    cases hx : w.wraps i with
    | none => rfl
    | some x => rw [hx] at this; exact this.elim
  have fin : ∀ i y v u, Shows (w.after i y v) y u → ∀ k, Shows (w.after i y v) ((w.after i y v).wraps k) (update s i u k) := by
    intro i y v u hu k
    by_cases e : k = i
    · subst e
      rw [update_self, show (w.after k y v).wraps k = y from update_self ..]
      exact hu
    · rw [update_of_ne e]
      exact Shows.after g e y v (hs k)
  cases o with
  | new i =>
    simp only [SunOp.meaning] at h
    split at h
    · rename_i e
      cases h
      refine ⟨_, run_new g (absent e), fin _ _ _ _ ⟨rfl, fun d hd => by cases hd⟩⟩
    · cases h
  | setExecutor i e =>
    simp only [SunOp.meaning] at h
    split at h
    · cases h
    · rename_i hn
      cases h
      obtain ⟨v, hv⟩ := Option.ne_none_iff_exists'.1 hn
      obtain ⟨x, hx, -⟩ := wrapped hv
      exact ⟨_, run_setExecutor g hx, fin _ _ _ _ ⟨rfl, fun d hd => by cases hd⟩⟩
  | initNVector i n =>
    simp only [SunOp.meaning] at h
    split at h
    · rename_i v hv
      cases h
      obtain ⟨x, hx, hk, -⟩ := wrapped hv
      refine ⟨_, run_init g hx, fin _ _ _ _ ⟨hk, fun d hd => ⟨w.next, rfl, rfl, ?_⟩⟩⟩
      cases hd
      simp only [SunWorld.after, hx, Option.bind_some]
      rw [if_neg (fun e => g.fresh_ne hx e rfl), if_pos trivial]
    · cases h
  | copy i j =>
    simp only [SunOp.meaning] at h
    split at h
    · rename_i v hv
      split at h
      · rename_i e
        cases h
        obtain ⟨x, hx, hk, -⟩ := wrapped hv
        cases ho : x.own with
        | none => exact ⟨_, run_copy_none g hx ho (absent e), fin _ _ _ _ ⟨hk, fun d hd => by cases hd⟩⟩
        | some a =>
          obtain ⟨u, hu⟩ := g.owned i x a hx ho
          exact ⟨_, run_copy_some g hx ho hu (absent e), fin _ _ _ _ ⟨hk, fun d hd => by cases hd⟩⟩
      · cases h
    · cases h
  | move i j =>
    simp only [SunOp.meaning] at h
    split at h
    · rename_i v hv
      split at h
      · rename_i e
        cases h
        obtain ⟨x, hx, hk, hd⟩ := wrapped hv
        refine ⟨_, run_move hx (absent e), fun k => ?_⟩
        dsimp only
        by_cases e1 : k = i
        · subst e1
          rw [update_self, update_self]
          exact ⟨hk, fun d hd => by cases hd⟩
        · rw [update_of_ne e1, update_of_ne e1]
          by_cases e2 : k = j
          · subst e2
            rw [update_self, update_self]
            exact ⟨hk, hd⟩
          · rw [update_of_ne e2, update_of_ne e2]
            exact hs k
      · cases h
    · cases h
  | destroy i =>
    simp only [SunOp.meaning] at h
    split at h
    · cases h
    · rename_i hn
      cases h
      obtain ⟨v, hv⟩ := Option.ne_none_iff_exists'.1 hn
      obtain ⟨x, hx, -⟩ := wrapped hv
      exact ⟨_, run_destroy g hx, fin _ _ _ _ trivial⟩
  | write i e f =>
    simp only [SunOp.meaning] at h
    split at h
    · rename_i k d hv
      split at h
      · rename_i hc
        cases h
        obtain ⟨x, hx, hk, hd⟩ := wrapped hv
        obtain ⟨a, h1, h2, h3⟩ := hd d rfl
        simp only at hk
        refine ⟨_, run_write hx h2 h3 ⟨by rw [← hk]; exact hc.1, hc.2⟩, fun l => ?_⟩
        by_cases el : l = i
        · subst el
          rw [update_self]
          dsimp only
          rw [hx]
          refine ⟨hk, fun d' hd' => ⟨a, h1, h2, ?_⟩⟩
          cases hd'
          exact update_self ..
        · rw [update_of_ne el]
          dsimp only
          have hl := hs l
          cases hz : w.wraps l with
          | none => rw [hz] at hl; cases hu : s l <;> rw [hu] at hl <;> exact hl
          | some z =>
            rw [hz] at hl
            cases hu : s l with
            | none => rw [hu] at hl; exact hl
            | some u =>
              rw [hu] at hl
              refine ⟨hl.1, fun d' hd' => ?_⟩
              obtain ⟨b, h4, h5, h6⟩ := hl.2 d' hd'
              refine ⟨b, h4, h5, ?_⟩
              dsimp only
              rw [update_of_ne]
              · exact h6
              · rintro rfl
                exact el (g.once l i z x b hz hx h4 h1)
      · cases h
    · cases h
  | read i e n =>
    simp only [SunOp.meaning] at h
    split at h
    · rename_i k d hv
      split at h
      · rename_i hc
        cases h
        obtain ⟨x, hx, hk, hd⟩ := wrapped hv
        obtain ⟨a, h1, h2, h3⟩ := hd d rfl
        simp only at hk
        exact ⟨_, run_read hx h2 h3 ⟨by rw [← hk]; exact hc.1, hc.2⟩, hs⟩
      · cases h
    · cases h

/-- **The wrappers are values, as long as no copy is used before it is initialised.** Every program with wrappers whose meaning is defined – every wrapper used is alive,
initialised, has the executor of the field and room for it, and a copy or what was moved from counts as uninitialised – runs, and its reads return what they should; whatever a
copy of a SUNDIALS vector holds. -/
theorem C97_vectors_partial (lib : List K → List K) (ops : List (SunOp K)) (out : List (List K)) (h : sunMeaning (fun _ => none) ops (fun _ => none) = .ok out) :
    ∃ w, sunRun lib ops .start = .ok (out, w) := by
  suffices H : ∀ (ops : List (SunOp K)) (out : List (List K)) (w : SunWorld K) (s : Nat → Option (VecValue K)), SunInv w → (∀ i, Shows w (w.wraps i) (s i)) →
      sunMeaning (fun _ => none) ops s = .ok out → ∃ w', sunRun lib ops w = .ok (out, w') from
    H ops out .start _ SunInv.start (fun _ => show Shows _ none none from trivial) h
  intro ops
  induction ops with
  | nil => intro out w s _ _ h; cases h; exact ⟨w, rfl⟩
  | cons o ops ih =>
    intro out w s g hs h
    obtain ⟨⟨r, s'⟩, h1, h2⟩ := Res.bind_eq_ok.1 h
    obtain ⟨rs, h3, h4⟩ := Res.bind_eq_ok.1 h2
    cases h4
    obtain ⟨w', h5, h6⟩ := sun_step (lib := lib) g hs h1
    obtain ⟨w'', h7⟩ := ih rs w' s' (g.step h5) h6 h3
    refine ⟨w'', ?_⟩
    simp only [sunRun]
    rw [h5]
    simp only [Res.ok_bind]
    rw [h7]
    rfl

/-- **No vector leaks and none is freed twice.** After every program that runs – with copies, moves and uses of whatever they hold – every vector that is alive is owned by exactly
one wrapper, and what a wrapper owns is alive. -/
theorem C97_ownership (lib : List K → List K) (ops : List (SunOp K)) {out : List (List K)} {w : SunWorld K} (h : sunRun lib ops .start = .ok (out, w)) (a : Nat) :
    (∃ v, w.heap a = some v) ↔ ∃! i, ∃ x, w.wraps i = some x ∧ x.own = some a := by
  have g := SunInv.start.run h
  constructor
  · rintro ⟨v, hv⟩
    obtain ⟨i, x, h1, h2⟩ := g.alive a v hv
    refine ⟨i, ⟨x, h1, h2⟩, ?_⟩
    rintro j ⟨y, h3, h4⟩
    exact g.once j i y x a h3 h1 h4 h2
  · rintro ⟨i, ⟨x, h1, h2⟩, -⟩
    exact g.owned i x a h1 h2

/-- **Destroying the wrappers frees everything.** -/
theorem C97_no_leak (lib : List K → List K) (ops : List (SunOp K)) {out : List (List K)} {w : SunWorld K} (h : sunRun lib ops .start = .ok (out, w)) (hw : ∀ i, w.wraps i = none)
    (a : Nat) : w.heap a = none := by
  cases hv : w.heap a with
  | none => rfl
  | some v =>
    obtain ⟨i, ⟨x, h1, -⟩, -⟩ := (C97_ownership lib ops h a).1 ⟨v, hv⟩
    rw [hw i] at h1
    cases h1

/-- **Destroying a wrapper that is alive never fails**, whatever was done before. -/
theorem C97_destroy (lib : List K → List K) (ops : List (SunOp K)) {out : List (List K)} {w : SunWorld K} (h : sunRun lib ops .start = .ok (out, w)) {i : Nat}
    (hi : w.wraps i ≠ none) : ∃ w', (SunOp.destroy i).run lib w = .ok (none, w') ∧ w'.wraps i = none := by
  obtain ⟨x, hx⟩ := Option.ne_none_iff_exists'.1 hi
  exact ⟨_, run_destroy (SunInv.start.run h) hx, update_self ..⟩

/-- **What the Runge–Kutta integrator does with a wrapper**: executor, size, the field in, the field out. -/
theorem C97_round_trip (lib : List K → List K) (e : Exec) (field : List K) :
    ∃ w, sunRun lib [.new 0, .setExecutor 0 e, .initNVector 0 field.length, .write 0 e field, .read 0 e field.length] .start = .ok ([field], w) := by
  refine C97_vectors_partial lib _ _ ?_
  simp [sunMeaning, SunOp.meaning]

/-- **A copy is not a copy**: a copied wrapper hands out the vector of the wrapper it was copied from, so what is written into the copy arrives in the original – for every
executor, every length and every field, and whatever the copy constructor of SUNDIALS does. -/
theorem C97_violation_copy (lib : List K → List K) (e : Exec) (field : List K) :
    let ops : List (SunOp K) := [.new 0, .setExecutor 0 e, .initNVector 0 field.length, .copy 0 1, .write 1 e field, .read 0 e field.length]
    (∃ w, sunRun lib ops .start = .ok ([field], w)) ∧ sunMeaning id ops (fun _ => none) = .ok [List.replicate field.length 0] := by
  refine ⟨?_, ?_⟩
  · simp [sunRun, SunOp.run, SunWorld.start, SunWorld.declare, SunWorld.wrap, SunWorld.free, SunWorld.alloc, SunWorld.deref, update]
  · simp [sunMeaning, SunOp.meaning, update]

/-- **A copy dangles**: when the wrapper it was copied from is gone, using the copy is undefined, although it owns a vector. -/
theorem C97_violation_dangling (lib : List K → List K) (e : Exec) (n : Nat) :
    let ops : List (SunOp K) := [.new 0, .setExecutor 0 e, .initNVector 0 n, .copy 0 1, .destroy 0, .read 1 e n]
    sunRun lib ops .start = .ub ∧ sunMeaning id ops (fun _ => none) = .ok [List.replicate n 0] := by
  refine ⟨?_, ?_⟩
  · simp [sunRun, SunOp.run, SunWorld.start, SunWorld.declare, SunWorld.wrap, SunWorld.free, SunWorld.alloc, SunWorld.deref, update]
  · simp [sunMeaning, SunOp.meaning, update]

/-- **Initialising the original again** has the same effect on a copy. -/
theorem C97_violation_init (lib : List K → List K) (e : Exec) (n m : Nat) :
    let ops : List (SunOp K) := [.new 0, .setExecutor 0 e, .initNVector 0 n, .copy 0 1, .initNVector 0 m, .read 1 e n]
    sunRun lib ops .start = .ub ∧ sunMeaning id ops (fun _ => none) = .ok [List.replicate n 0] := by
  refine ⟨?_, ?_⟩
  · simp [sunRun, SunOp.run, SunWorld.start, SunWorld.declare, SunWorld.wrap, SunWorld.free, SunWorld.alloc, SunWorld.deref, update]
  · simp [sunMeaning, SunOp.meaning, update]

/-- **Nothing checks the executor or the length**: a field of another executor, or longer than the vector, makes undefined behaviour instead of an error. -/
theorem C97_violation_unchecked (lib : List K → List K) (e e' : Exec) (n : Nat) (field : List K) (h : e' ≠ e ∨ n < field.length) :
    sunRun lib [.new 0, .setExecutor 0 e, .initNVector 0 n, .write 0 e' field] .start = .ub := by
  have : ¬ (e = e' ∧ field.length ≤ n) := by
    rintro ⟨rfl, h2⟩
    rcases h with h | h
    · exact h rfl
    · omega
  simp [sunRun, SunOp.run, SunWorld.start, SunWorld.declare, SunWorld.wrap, SunWorld.free, SunWorld.alloc, SunWorld.deref, update, this]

/-- **Nothing checks that a wrapper was initialised**: using one before follows a null pointer. -/
theorem C97_violation_null (lib : List K → List K) (e e' : Exec) (n : Nat) (field : List K) :
    sunRun lib [.new 0, .setExecutor 0 e, .write 0 e' field] .start = .ub ∧ sunRun lib [.new 0, .setExecutor 0 e, .read 0 e' n] .start = .ub := by
  constructor <;> simp [sunRun, SunOp.run, SunWorld.start, SunWorld.declare, SunWorld.wrap, SunWorld.free, SunWorld.deref, update]

/-- **A wrapper whose executor was not set hands out no GPU vector**: it is a host vector. -/
theorem C97_default_kind (lib : List K → List K) (n : Nat) (field : List K) (hn : field.length ≤ n) :
    (∃ w, sunRun lib [.new 0, .initNVector 0 n, .write 0 .cpu field, .read 0 .cpu field.length] .start = .ok ([field], w)) ∧
      sunRun lib [.new 0, .initNVector 0 n, .write 0 .gpu field] .start = .ub := by
  refine ⟨C97_vectors_partial lib _ _ ?_, ?_⟩
  · simp [sunMeaning, SunOp.meaning, hn]
  · simp [sunRun, SunOp.run, SunWorld.start, SunWorld.declare, SunWorld.wrap, SunWorld.free, SunWorld.alloc, SunWorld.deref, update]

end

-- Two wrappers, a move, a shorter field into a longer vector, a new initialisation: the reads the theorem gives.
example : ∃ w, sunRun (K := Int) id [.new 0, .setExecutor 0 .serial, .initNVector 0 3, .write 0 .serial [7, 8], .copy 0 2, .move 0 1, .read 1 .serial 3, .initNVector 2 1, .write 2 .serial [5],
    .initNVector 0 2, .read 0 .serial 2, .destroy 0, .read 2 .serial 1, .read 1 .serial 3, .destroy 1, .destroy 2] .start = .ok ([[7, 8, 0], [0, 0], [5], [7, 8, 0]], w) :=
  C97_vectors_partial id _ _ (by decide)

end NeoFOAM
