import Verif.Base.RelAt

/-!
# Racing plain updates

Threads that update elements of arrays with plain (not atomic) loads and stores may lose updates. What remains of them in any interleaving: the last value of an
element is its first value with the updates of some of the threads, each at most once, in some order; if any thread updates the element at all, at least one update
remains.
-/
namespace NeoFOAM
variable {A V : Type} [DecidableEq A]

/-- Plain updates of the listed elements by thread `t`. -/
def plains (t : Nat) (f : A × Nat → V → V) (ls : List (A × Nat)) : List (Act A V) := ls.flatMap fun L => Act.plain t L.1 L.2 (f L)

/-- What is left of a thread: an element loaded and not yet stored, and the elements after it. -/
def remActs (t : Nat) (f : A × Nat → V → V) : Option (A × Nat) → List (A × Nat) → List (Act A V)
  | none, ls => plains t f ls
  | some L, ls => Act.store t L.1 L.2 (f L) :: plains t f ls

/-- Thread `t` has still to store to `L`. -/
def Todo (p : Nat → Option (A × Nat)) (r : Nat → List (A × Nat)) (t : Nat) (L : A × Nat) : Prop := p t = some L ∨ L ∈ r t

/-- The invariant of the run in which each element holds the list of the threads whose updates it contains. -/
structure LostInv (start n : Nat) (locs : Nat → List (A × Nat)) (len : A → Nat) (p : Nat → Option (A × Nat)) (r : Nat → List (A × Nat)) (s : Mem A (List Nat)) : Prop where
  nd : ∀ t, start ≤ t → t < start + n → (r t).Nodup ∧ ∀ L, p t = some L → L ∉ r t
  sub : ∀ t, start ≤ t → t < start + n → ∀ L, Todo p r t L → L ∈ locs t
  val : ∀ a i σ, (s.arr a)[i]? = some σ → σ.Nodup ∧ (∀ t ∈ σ, start ≤ t ∧ t < start + n ∧ (a, i) ∈ locs t ∧ ¬ Todo p r t (a, i)) ∧
    ∀ t, start ≤ t → t < start + n → (a, i) ∈ locs t → ¬ Todo p r t (a, i) → σ ≠ []
  reg : ∀ t, start ≤ t → t < start + n → ∀ L, p t = some L → ∃ σ, s.reg t = some σ ∧ σ.Nodup ∧
    ∀ u ∈ σ, start ≤ u ∧ u < start + n ∧ L ∈ locs u ∧ ¬ Todo p r u L
  len : ∀ a, (s.arr a).length = len a

omit [DecidableEq A] in
theorem map_set_range' {β : Type} (start n k : Nat) (hk : k < n) (g g' : Nat → β) (h : ∀ t, t ≠ start + k → g' t = g t) :
    ((List.range' start n).map g).set k (g' (start + k)) = (List.range' start n).map g' := by
  apply List.ext_getElem
  · simp
  · intro i h1 h2
    simp only [List.getElem_set, List.getElem_map, List.getElem_range', Nat.one_mul]
    split
    · next e => rw [e]
    · next e => exact (h _ (fun h => e (by omega))).symm

theorem lost_run {start n : Nat} {locs : Nat → List (A × Nat)} {len : A → Nat} (hin : ∀ t, start ≤ t → t < start + n → ∀ L ∈ locs t, L.2 < len L.1)
    {ts : List (List (Act A (List Nat)))} {l : List (Act A (List Nat))} (h : Interleave ts l) :
    ∀ (p : Nat → Option (A × Nat)) (r : Nat → List (A × Nat)) (s : Mem A (List Nat)),
      ts = (List.range' start n).map (fun t => remActs t (fun _ σ => t :: σ) (p t) (r t)) → LostInv start n locs len p r s →
      ∃ s', runActs Mem.step s l = .ok s' ∧ LostInv start n locs len (fun _ => none) (fun _ => []) s' := by
  induction h with
  | done ts h =>
    intro p r s hts hi
    have he : ∀ t, start ≤ t → t < start + n → p t = none ∧ r t = [] := by
      intro t h1 h2
      have := h (remActs t (fun _ σ => t :: σ) (p t) (r t)) (by rw [hts]; exact List.mem_map.2 ⟨t, by rw [List.mem_range'_1]; omega, rfl⟩)
      cases hp : p t with
      | some L => rw [hp] at this; cases this
      | none =>
        rw [hp] at this
        refine ⟨rfl, ?_⟩
        cases hr : r t with
        | nil => rfl
        | cons L ls => rw [hr] at this; cases this
    have ht : ∀ t, start ≤ t → t < start + n → ∀ L, ¬ Todo p r t L := by
      rintro t h1 h2 L (h | h)
      · rw [(he t h1 h2).1] at h; cases h
      · rw [(he t h1 h2).2] at h; cases h
    refine ⟨s, rfl, ⟨fun t _ _ => ⟨List.nodup_nil, fun L h => nomatch h⟩, fun t _ _ L h => ?_, fun a i σ hσ => ?_, (fun t _ _ L h => nomatch h), hi.len⟩⟩
    · rcases h with h | h <;> cases h
    · obtain ⟨v1, v2, v3⟩ := hi.val a i σ hσ
      refine ⟨v1, fun t hm => ⟨(v2 t hm).1, (v2 t hm).2.1, (v2 t hm).2.2.1, ?_⟩, fun t h1 h2 h3 _ => v3 t h1 h2 h3 (ht t h1 h2 _)⟩
      rintro (h | h) <;> cases h
  | step pre x rest post l _ ih =>
    intro p r s hts hi
    have hk : pre.length < n := by
      have := congrArg List.length hts
      simp at this
      omega
    have hx : x :: rest = remActs (start + pre.length) (fun _ σ => (start + pre.length) :: σ) (p (start + pre.length)) (r (start + pre.length)) := by
      have := congrArg (fun q => q[pre.length]?) hts
      simpa [hk] using this
    have hset : pre ++ rest :: post = (pre ++ (x :: rest) :: post).set pre.length rest := by simp
    generalize ht : start + pre.length = t at hx
    have ht1 : start ≤ t := by omega
    have ht2 : t < start + n := by omega
    -- the two kinds of action
    cases hp : p t with
    | none =>
      rw [hp] at hx
      cases hr : r t with
      | nil => rw [hr] at hx; cases hx
      | cons L ls =>
        rw [hr] at hx
        have hx1 : x = Act.load t L.1 L.2 := (List.cons.inj hx).1
        have hx2 : rest = remActs t (fun _ σ => t :: σ) (some L) ls := (List.cons.inj hx).2
        subst hx1
        have hL := hi.sub t ht1 ht2 L (Or.inr (by rw [hr]; simp))
        have hlt : L.2 < (s.arr L.1).length := by rw [hi.len]; exact hin t ht1 ht2 L hL
        have hstep : Mem.step s (.load t L.1 L.2) = .ok { s with reg := fun u => if u = t then some ((s.arr L.1)[L.2]) else s.reg u } := by
          simp [Mem.step, hlt]
        have htodo : ∀ u K, Todo (Function.update p t (some L)) (Function.update r t ls) u K ↔ Todo p r u K := by
          intro u K
          unfold Todo
          by_cases hu : u = t
          · subst hu
            simp only [Function.update_self, hp, hr, List.mem_cons, Option.some.injEq]
            constructor
            · rintro (h | h)
              · exact Or.inr (Or.inl h.symm)
              · exact Or.inr (Or.inr h)
            · rintro (h | h | h)
              · cases h
              · exact Or.inl h.symm
              · exact Or.inr h
          · simp only [Function.update_of_ne hu]
        have hnd := (hi.nd t ht1 ht2).1
        rw [hr, List.nodup_cons] at hnd
        have key : LostInv start n locs len (Function.update p t (some L)) (Function.update r t ls) { s with reg := fun u => if u = t then some ((s.arr L.1)[L.2]) else s.reg u } := by
          refine ⟨?_, ?_, ?_, ?_, hi.len⟩
          · intro u h1 h2
            by_cases hu : u = t
            · subst hu
              simp only [Function.update_self]
              refine ⟨hnd.2, fun K hK => ?_⟩
              cases hK
              exact hnd.1
            · simp only [Function.update_of_ne hu]
              exact hi.nd u h1 h2
          · intro u h1 h2 K hK
            exact hi.sub u h1 h2 K ((htodo u K).1 hK)
          · intro a i σ hσ
            simp only [htodo]
            exact hi.val a i σ hσ
          · intro u h1 h2 K hK
            simp only [htodo]
            by_cases hu : u = t
            · subst hu
              rw [Function.update_self] at hK
              cases hK
              obtain ⟨v1, v2, -⟩ := hi.val L.1 L.2 _ (List.getElem?_eq_getElem hlt)
              exact ⟨_, by simp, v1, v2⟩
            · rw [Function.update_of_ne hu] at hK
              simp only [hu, if_false]
              exact hi.reg u h1 h2 K hK
        obtain ⟨s', h1, h2⟩ := ih (Function.update p t (some L)) (Function.update r t ls) { s with reg := fun u => if u = t then some ((s.arr L.1)[L.2]) else s.reg u } (by
          rw [hset, hts]
          have := map_set_range' start n pre.length hk (fun t => remActs t (fun _ σ => t :: σ) (p t) (r t))
            (fun u => remActs u (fun _ σ => u :: σ) (Function.update p t (some L) u) (Function.update r t ls u)) (fun u hu => by
              rw [Function.update_of_ne (by omega), Function.update_of_ne (by omega)])
          rw [← this, ht, Function.update_self, Function.update_self, hx2]) key
        exact ⟨s', by rw [runActs_cons, hstep]; exact h1, h2⟩
    | some L =>
      rw [hp] at hx
      have hx1 : x = Act.store t L.1 L.2 (fun σ => t :: σ) := (List.cons.inj hx).1
      have hx2 : rest = remActs t (fun _ σ => t :: σ) none (r t) := (List.cons.inj hx).2
      subst hx1
      have hL := hi.sub t ht1 ht2 L (Or.inl hp)
      have hlt : L.2 < (s.arr L.1).length := by rw [hi.len]; exact hin t ht1 ht2 L hL
      obtain ⟨σ, g1, g2, g3⟩ := hi.reg t ht1 ht2 L hp
      have hstep : Mem.step s (.store t L.1 L.2 (fun σ => t :: σ)) = .ok (s.setArr L.1 ((s.arr L.1).set L.2 (t :: σ))) := by
        simp [Mem.step, hlt, g1]
      have hnr := (hi.nd t ht1 ht2).2 L hp
      have hle : ∀ u K, Todo (Function.update p t none) r u K → Todo p r u K := by
        intro u K
        unfold Todo
        by_cases hu : u = t
        · subst hu
          rw [Function.update_self]
          rintro (h | h)
          · cases h
          · exact Or.inr h
        · rw [Function.update_of_ne hu]
          exact id
      have hother : ∀ u K, K ≠ L → ¬ Todo (Function.update p t none) r u K → ¬ Todo p r u K := by
        intro u K hK h1 h2
        unfold Todo at h1 h2
        by_cases hu : u = t
        · subst hu
          rw [Function.update_self] at h1
          rcases h2 with h2 | h2
          · rw [hp] at h2; exact hK (Option.some.inj h2).symm
          · exact h1 (Or.inr h2)
        · rw [Function.update_of_ne hu] at h1
          exact h1 h2
      have hdone : ¬ Todo (Function.update p t none) r t L := by
        unfold Todo
        rw [Function.update_self]
        rintro (h | h)
        · cases h
        · exact hnr h
      have key : LostInv start n locs len (Function.update p t none) r (s.setArr L.1 ((s.arr L.1).set L.2 (t :: σ))) := by
        refine ⟨?_, ?_, ?_, ?_, ?_⟩
        · intro u h1 h2
          refine ⟨(hi.nd u h1 h2).1, fun K hK => ?_⟩
          by_cases hu : u = t
          · subst hu
            rw [Function.update_self] at hK
            cases hK
          · rw [Function.update_of_ne hu] at hK
            exact (hi.nd u h1 h2).2 K hK
        · intro u h1 h2 K hK
          exact hi.sub u h1 h2 K (hle u K hK)
        · intro a i τ hτ
          by_cases hai : (a, i) = L
          · subst hai
            simp only [Mem.setArr_arr, if_true, List.getElem?_set_self hlt, Option.some.injEq] at hτ
            subst hτ
            refine ⟨List.nodup_cons.2 ⟨fun hm => (g3 t hm).2.2.2 (Or.inl hp), g2⟩, fun u hu => ?_, fun _ _ _ _ _ => List.cons_ne_nil _ _⟩
            rcases List.mem_cons.1 hu with rfl | hu
            · exact ⟨ht1, ht2, hL, hdone⟩
            · exact ⟨(g3 u hu).1, (g3 u hu).2.1, (g3 u hu).2.2.1, fun h => (g3 u hu).2.2.2 (hle _ _ h)⟩
          · have hτ' : (s.arr a)[i]? = some τ := by
              rw [Mem.setArr_arr] at hτ
              split at hτ
              · next e =>
                subst e
                rwa [List.getElem?_set_ne (fun e => hai (Prod.ext rfl e.symm))] at hτ
              · exact hτ
            obtain ⟨v1, v2, v3⟩ := hi.val a i τ hτ'
            exact ⟨v1, fun u hu => ⟨(v2 u hu).1, (v2 u hu).2.1, (v2 u hu).2.2.1, fun h => (v2 u hu).2.2.2 (hle _ _ h)⟩,
              fun u h1 h2 h3 h4 => v3 u h1 h2 h3 (hother u _ hai h4)⟩
        · intro u h1 h2 K hK
          by_cases hu : u = t
          · subst hu
            rw [Function.update_self] at hK
            cases hK
          · rw [Function.update_of_ne hu] at hK
            obtain ⟨τ, k1, k2, k3⟩ := hi.reg u h1 h2 K hK
            exact ⟨τ, k1, k2, fun w hw => ⟨(k3 w hw).1, (k3 w hw).2.1, (k3 w hw).2.2.1, fun h => (k3 w hw).2.2.2 (hle _ _ h)⟩⟩
        · intro a
          rw [Mem.setArr_arr]
          split
          · next e => rw [List.length_set, e]; exact hi.len L.1
          · exact hi.len a
      obtain ⟨s', h1, h2⟩ := ih (Function.update p t none) r (s.setArr L.1 ((s.arr L.1).set L.2 (t :: σ))) (by
          rw [hset, hts]
          have := map_set_range' start n pre.length hk (fun t => remActs t (fun _ σ => t :: σ) (p t) (r t))
            (fun u => remActs u (fun _ σ => u :: σ) (Function.update p t none u) (r u)) (fun u hu => by
              rw [Function.update_of_ne (by omega)])
          rw [← this, ht, Function.update_self, hx2]) key
      exact ⟨s', by rw [runActs_cons, hstep]; exact h1, h2⟩

omit [DecidableEq A] in
theorem plains_rel {W : Type} {R : A → Nat → V → W → Prop} (t : Nat) (f : A × Nat → V → V) (g : A × Nat → W → W) :
    ∀ (ls : List (A × Nat)), (∀ L ∈ ls, ∀ x y, R L.1 L.2 x y → R L.1 L.2 (f L x) (g L y)) → ThreadRel R t none (plains t f ls) (plains t g ls)
  | [], _ => .nil _
  | L :: ls, h => by
    have ih := plains_rel t f g ls fun K hK => h K (List.mem_cons_of_mem _ hK)
    have h1 : plains t f (L :: ls) = Act.plain t L.1 L.2 (f L) ++ plains t f ls := by simp [plains]
    have h2 : plains t g (L :: ls) = Act.plain t L.1 L.2 (g L) ++ plains t g ls := by simp [plains]
    rw [h1, h2]
    exact (ThreadRel.plain (h L (by simp))).append ih

/-- The run in which each element collects the threads whose updates it contains. -/
theorem lost_launch (e : ExecKind) (start stop : Nat) (locs : Nat → List (A × Nat)) (len : A → Nat) (hnd : ∀ t, start ≤ t → t < stop → (locs t).Nodup)
    (hin : ∀ t, start ≤ t → t < stop → ∀ L ∈ locs t, L.2 < len L.1) (body : Nat → Res (List (Act A (List Nat))))
    (hb : ∀ t, start ≤ t → t < stop → body t = .ok (plains t (fun _ σ => t :: σ) (locs t))) :
    (launch e start stop body (fun a => List.replicate (len a) [])).Ok (fun arrs' => (∀ a, (arrs' a).length = len a) ∧
      ∀ a i σ, (arrs' a)[i]? = some σ → σ.Nodup ∧ (∀ t ∈ σ, start ≤ t ∧ t < stop ∧ (a, i) ∈ locs t) ∧
        ∀ t, start ≤ t → t < stop → (a, i) ∈ locs t → σ ≠ []) := by
  rintro out ⟨r, hr, rfl⟩
  have hm : (List.range' start (stop - start)).mapM body = .ok ((List.range' start (stop - start)).map fun t => plains t (fun _ σ => t :: σ) (locs t)) :=
    mapM_ok body _ _ (fun i hi => by rw [List.mem_range'_1] at hi; exact hb i (by omega) (by omega))
  rw [hm] at hr
  obtain ⟨l, hl, hr⟩ := hr
  obtain ⟨s', h1, h2⟩ := lost_run (start := start) (n := stop - start) (locs := locs) (len := len) (fun t h1 h2 => hin t h1 (by omega)) hl.interleave (fun _ => none) locs
    ⟨fun a => List.replicate (len a) [], fun _ => none⟩ rfl ⟨fun t h1 h2 => ⟨hnd t h1 (by omega), fun L h => nomatch h⟩, fun t h1 h2 L h => by
      rcases h with h | h
      · cases h
      · exact h, fun a i σ hσ => by
      have : σ = [] := by
        simp only [List.getElem?_replicate] at hσ
        split at hσ
        · exact (Option.some.inj hσ).symm
        · cases hσ
      subst this
      exact ⟨List.nodup_nil, fun t h => absurd h (by simp), fun t h1 h2 h3 h4 => absurd (Or.inr h3) h4⟩, (fun t h1 h2 L h => nomatch h), fun a => by simp⟩
  rw [h1] at hr
  cases (show r = .ok s' from hr)
  refine ⟨s'.arr, rfl, h2.len, fun a i σ hσ => ?_⟩
  obtain ⟨v1, v2, v3⟩ := h2.val a i σ hσ
  refine ⟨v1, fun t ht => ⟨(v2 t ht).1, by have := (v2 t ht).2.1; have := (v2 t ht).1; omega, (v2 t ht).2.2.1⟩, fun t h1 h2 h3 => v3 t h1 (by omega) h3 ?_⟩
  rintro (h | h) <;> cases h

/-- Racing plain updates: at every element some of the updates remain, each at most once, in some order, and at least one if there is any. No law of
arithmetic is used. -/
theorem launch_lost (e : ExecKind) (start stop : Nat) (locs : Nat → List (A × Nat)) (f : Nat → A × Nat → V → V) (arrs : A → List V)
    (hnd : ∀ t, start ≤ t → t < stop → (locs t).Nodup) (hin : ∀ t, start ≤ t → t < stop → ∀ L ∈ locs t, L.2 < (arrs L.1).length)
    (body : Nat → Res (List (Act A V))) (hb : ∀ t, start ≤ t → t < stop → body t = .ok (plains t (f t) (locs t))) :
    (launch e start stop body arrs).Ok (fun arrs' => (∀ a, (arrs' a).length = (arrs a).length) ∧
      ∀ a i, ∃ σ : List Nat, σ.Nodup ∧ (∀ t ∈ σ, start ≤ t ∧ t < stop ∧ (a, i) ∈ locs t) ∧ (∀ t, start ≤ t → t < stop → (a, i) ∈ locs t → σ ≠ []) ∧
        (arrs' a)[i]? = ((arrs a)[i]?).map fun x => σ.foldr (fun t y => f t (a, i) y) x) := by
  set R : A → Nat → V → List Nat → Prop := fun a i x σ => ∃ x0, (arrs a)[i]? = some x0 ∧ x = σ.foldr (fun t y => f t (a, i) y) x0 with hR
  have rel := launch_relAt (R := R) e start stop (body := body) (body' := fun t => .ok (plains t (fun _ σ => t :: σ) (locs t))) (fun t h1 h2 => by
      rw [hb t h1 h2]
      refine Res.Rel.ok (plains_rel t (f t) (fun _ σ => t :: σ) (locs t) ?_)
      rintro L hL x σ ⟨x0, h3, h4⟩
      exact ⟨x0, h3, by rw [h4]; rfl⟩) (arrs := arrs) (arrs' := fun a => List.replicate (arrs a).length []) (fun a => by
      refine ⟨by simp, fun i h1 h2 => ⟨(arrs a)[i], List.getElem?_eq_getElem h1, ?_⟩⟩
      simp)
  refine (rel.ok_left (lost_launch e start stop locs (fun a => (arrs a).length) hnd hin _ fun _ _ _ => rfl)).mono ?_
  rintro arrs' ⟨g, h1, h2, h3⟩
  refine ⟨fun a => (h1 a).1.symm.trans (h2 a), fun a i => ?_⟩
  by_cases hi : i < (arrs a).length
  · have hi1 : i < (arrs' a).length := by rw [← (h1 a).1, h2]; exact hi
    have hi2 : i < (g a).length := by rw [h2]; exact hi
    obtain ⟨k1, k2, k3⟩ := h3 a i _ (List.getElem?_eq_getElem hi2)
    obtain ⟨x0, k4, k5⟩ := (h1 a).2 i hi1 hi2
    refine ⟨(g a)[i], k1, k2, k3, ?_⟩
    rw [k4, List.getElem?_eq_getElem hi1, k5]
    rfl
  · refine ⟨[], List.nodup_nil, fun t h => absurd h (by simp), fun t h4 h5 h6 => absurd (hin t h4 h5 _ h6) hi, ?_⟩
    rw [List.getElem?_eq_none (by rw [← (h1 a).1, h2]; omega), List.getElem?_eq_none (by omega)]
    rfl

end NeoFOAM
