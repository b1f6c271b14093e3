import Verif.Base.Rel
import Verif.Base.Writes

/-!
# Relating two runs when different elements are related in different ways
-/
namespace NeoFOAM

/-- Lists of the same length whose elements are related, position by position. -/
def ListRel {V W : Type} (R : Nat → V → W → Prop) (l : List V) (l' : List W) : Prop :=
  l'.length = l.length ∧ ∀ (i : Nat) (h : i < l.length) (h' : i < l'.length), R i l[i] l'[i]

variable {A V W : Type} [DecidableEq A] {R : A → Nat → V → W → Prop}

theorem ListRel.rd {R : Nat → V → W → Prop} {l : List V} {l' : List W} (h : ListRel R l l') (i : Nat) : Res.Rel (R i) (rd l i) (rd l' i) := by
  by_cases hi : i < l.length
  · have hi' : i < l'.length := h.1 ▸ hi
    rw [rd_ok hi, rd_ok hi']
    exact h.2 i hi hi'
  · have hi' : ¬ i < l'.length := h.1 ▸ hi
    simp only [NeoFOAM.rd, List.getElem?_eq_none (Nat.le_of_not_lt hi), List.getElem?_eq_none (Nat.le_of_not_lt hi')]
    trivial

theorem ListRel.modify {R : Nat → V → W → Prop} {l : List V} {l' : List W} (h : ListRel R l l') {i : Nat} {f : V → V} {g : W → W}
    (hfg : ∀ x y, R i x y → R i (f x) (g y)) : ListRel R (l.modify i f) (l'.modify i g) := by
  refine ⟨by simp [h.1], fun j hj hj' => ?_⟩
  rw [List.length_modify] at hj hj'
  simp only [List.getElem_modify]
  split
  · rename_i e; subst e; exact hfg _ _ (h.2 i hj hj')
  · exact h.2 j hj hj'

theorem ListRel.set {R : Nat → V → W → Prop} {l : List V} {l' : List W} (h : ListRel R l l') {i : Nat} {v : V} {w : W}
    (hvw : R i v w) : ListRel R (l.set i v) (l'.set i w) := by
  refine ⟨by simp [h.1], fun j hj hj' => ?_⟩
  rw [List.length_set] at hj hj'
  simp only [List.getElem_set]
  split
  · rename_i e; subst e; exact hvw
  · exact h.2 j hj hj'

/-- The accesses of thread `t` in two runs: the same elements in the same order, with effects that keep the relation of the element. A store
goes to the element that was loaded last. -/
inductive ThreadRel (R : A → Nat → V → W → Prop) (t : Nat) : Option (A × Nat) → List (Act A V) → List (Act A W) → Prop where
  | nil (o) : ThreadRel R t o [] []
  | rmw {o a i f g l l'} (h : ∀ x y, R a i x y → R a i (f x) (g y)) (hl : ThreadRel R t o l l') : ThreadRel R t o (.rmw a i f :: l) (.rmw a i g :: l')
  | load {o a i l l'} (hl : ThreadRel R t (some (a, i)) l l') : ThreadRel R t o (.load t a i :: l) (.load t a i :: l')
  | store {a i f g l l'} (h : ∀ x y, R a i x y → R a i (f x) (g y)) (hl : ThreadRel R t (some (a, i)) l l') :
      ThreadRel R t (some (a, i)) (.store t a i f :: l) (.store t a i g :: l')

/-- The same for a global order of accesses; `g t` is the element thread `t` has loaded last. -/
inductive SeqRel (R : A → Nat → V → W → Prop) : (Nat → Option (A × Nat)) → List (Act A V) → List (Act A W) → Prop where
  | nil (g) : SeqRel R g [] []
  | rmw {g a i f f' l l'} (h : ∀ x y, R a i x y → R a i (f x) (f' y)) (hl : SeqRel R g l l') : SeqRel R g (.rmw a i f :: l) (.rmw a i f' :: l')
  | load {g t a i l l'} (hl : SeqRel R (Function.update g t (some (a, i))) l l') : SeqRel R g (.load t a i :: l) (.load t a i :: l')
  | store {g t a i f f' l l'} (hg : g t = some (a, i)) (h : ∀ x y, R a i x y → R a i (f x) (f' y)) (hl : SeqRel R g l l') :
      SeqRel R g (.store t a i f :: l) (.store t a i f' :: l')

omit [DecidableEq A] in
theorem ThreadRel.weaken {t : Nat} {o : Option (A × Nat)} {l : List (Act A V)} {l' : List (Act A W)} (h : ThreadRel R t o l l') (ho : o = none) (p) :
    ThreadRel R t p l l' := by
  induction h with
  | nil => exact .nil _
  | rmw h _ ih => exact .rmw h (ih ho)
  | load hl _ => exact .load hl
  | store _ _ _ => exact nomatch ho

omit [DecidableEq A] in
theorem ThreadRel.append {t : Nat} {o : Option (A × Nat)} {l : List (Act A V)} {l' : List (Act A W)} (h : ThreadRel R t o l l') {k : List (Act A V)}
    {k' : List (Act A W)} (hk : ThreadRel R t none k k') : ThreadRel R t o (l ++ k) (l' ++ k') := by
  induction h with
  | nil => exact hk.weaken rfl _
  | rmw h _ ih => exact .rmw h ih
  | load _ ih => exact .load ih
  | store h _ ih => exact .store h ih

omit [DecidableEq A] in
theorem ThreadRel.plain {t : Nat} {a : A} {i : Nat} {f : V → V} {g : W → W} (h : ∀ x y, R a i x y → R a i (f x) (g y)) :
    ThreadRel R t none (Act.plain t a i f) (Act.plain t a i g) := .load (.store h (.nil _))

omit [DecidableEq A] in
theorem ThreadRel.write {t : Nat} {a : A} {i : Nat} {v : V} {w : W} (h : R a i v w) {o} {l : List (Act A V)} {l' : List (Act A W)} (hl : ThreadRel R t o l l') :
    ThreadRel R t o (Act.write a i v :: l) (Act.write a i w :: l') := .rmw (fun _ _ _ => h) hl

omit [DecidableEq A] in
theorem SeqRel.thread {t : Nat} {o : Option (A × Nat)} {l : List (Act A V)} {l' : List (Act A W)} (h : ThreadRel R t o l l') {k : List (Act A V)}
    {k' : List (Act A W)} (hk : ∀ g, SeqRel R g k k') : ∀ g : Nat → Option (A × Nat), g t = o → SeqRel R g (l ++ k) (l' ++ k') := by
  induction h with
  | nil => exact fun g _ => hk g
  | rmw h _ ih => exact fun g hg => .rmw h (ih g hg)
  | load _ ih => exact fun g _ => .load (ih _ (Function.update_self ..))
  | store h _ ih => exact fun g hg => .store hg h (ih g hg)

omit [DecidableEq A] in
/-- One thread after the other. -/
theorem SeqRel.serial : ∀ {ts : List (List (Act A V))} {ts' : List (List (Act A W))} (_ : List.Forall₂ (fun l l' => ∃ t, ThreadRel R t none l l') ts ts') (g),
    SeqRel R g ts.flatten ts'.flatten
  | _, _, .nil, g => .nil g
  | _, _, .cons ⟨t, h⟩ hs, g => by
    rw [List.flatten_cons, List.flatten_cons]
    exact SeqRel.thread (h.weaken rfl (g t)) (SeqRel.serial hs) g rfl

omit [DecidableEq A] in
/-- In any interleaving. -/
theorem SeqRel.interleave {tid : Nat → Nat} (hinj : Function.Injective tid) {ts : List (List (Act A V))} {l : List (Act A V)} (h : Interleave ts l) :
    ∀ (ts' : List (List (Act A W))) (g : Nat → Option (A × Nat)), ListRel (fun k x x' => ThreadRel R (tid k) (g (tid k)) x x') ts ts' →
      ∃ l', Interleave ts' l' ∧ SeqRel R g l l' := by
  induction h with
  | done ts h =>
    intro ts' g hts
    refine ⟨[], .done _ fun t ht => ?_, .nil _⟩
    obtain ⟨k, hk, rfl⟩ := List.getElem_of_mem ht
    have hk' : k < ts.length := hts.1 ▸ hk
    have := hts.2 k hk' hk
    rw [h _ (List.getElem_mem hk')] at this
    generalize ts'[k] = y at this
    generalize g (tid k) = o at this
    cases this
    rfl
  | step pre x t post l _ ih =>
    intro ts' g hts
    have hk' : pre.length < ts'.length := by rw [hts.1]; simp
    obtain ⟨pre', y, post', rfl, hpre⟩ : ∃ pre' y post', ts' = pre' ++ y :: post' ∧ pre'.length = pre.length :=
      ⟨ts'.take pre.length, ts'[pre.length], ts'.drop (pre.length + 1), by simp [← List.drop_eq_getElem_cons hk'], by simp; omega⟩
    have hx := hts.2 pre.length (by simp) hk'
    have key : ∀ (t' : List (Act A W)) (g' : Nat → Option (A × Nat)), ThreadRel R (tid pre.length) (g' (tid pre.length)) t t' →
        (∀ u, u ≠ tid pre.length → g' u = g u) →
        ListRel (fun k x x' => ThreadRel R (tid k) (g' (tid k)) x x') (pre ++ t :: post) (pre' ++ t' :: post') := by
      intro t' g' ht hg
      have hlen := hts.1
      simp only [List.length_append, List.length_cons] at hlen
      refine ⟨by simp; omega, fun k hk hk2 => ?_⟩
      simp only [List.length_append, List.length_cons] at hk hk2
      by_cases he : k = pre.length
      · subst he
        simpa [List.getElem_append_right, ← hpre] using ht
      · have h1 := hts.2 k (by simp; omega) (by simp; omega)
        rw [hg _ (fun e => he (hinj e))]
        by_cases hlt : k < pre.length
        · rw [List.getElem_append_left hlt, List.getElem_append_left (by omega)] at h1 ⊢
          exact h1
        · rw [List.getElem_append_right (by omega), List.getElem_append_right (by omega)] at h1 ⊢
          obtain ⟨d, hd⟩ : ∃ d, k - pre.length = d + 1 := ⟨k - pre.length - 1, by omega⟩
          have hd' : k - pre'.length = d + 1 := by omega
          simp only [hd, hd', List.getElem_cons_succ] at h1 ⊢
          exact h1
    rw [List.getElem_append_right (by omega), List.getElem_append_right (by omega)] at hx
    simp only [hpre, Nat.sub_self, List.getElem_cons_zero] at hx
    generalize ho : g (tid pre.length) = o at hx
    cases hx with
    | rmw h1 h2 =>
      obtain ⟨l', hl', hr⟩ := ih _ g (key _ g (ho ▸ h2) fun _ _ => rfl)
      exact ⟨_, .step _ _ _ _ _ hl', .rmw h1 hr⟩
    | @load _ a i _ _ h2 =>
      obtain ⟨l', hl', hr⟩ := ih _ (Function.update g (tid pre.length) (some (a, i)))
        (key _ _ (by rw [Function.update_self]; exact h2) fun u hu => Function.update_of_ne hu ..)
      exact ⟨_, .step _ _ _ _ _ hl', .load hr⟩
    | store h1 h2 =>
      obtain ⟨l', hl', hr⟩ := ih _ g (key _ g (ho ▸ h2) fun _ _ => rfl)
      exact ⟨_, .step _ _ _ _ _ hl', .store ho h1 hr⟩

/-- Related memories. -/
def Mem.RelAt (R : A → Nat → V → W → Prop) (g : Nat → Option (A × Nat)) (s : Mem A V) (s' : Mem A W) : Prop :=
  (∀ a, ListRel (R a) (s.arr a) (s'.arr a)) ∧ ∀ t a i, g t = some (a, i) → Option.Rel (R a i) (s.reg t) (s'.reg t)

theorem Mem.RelAt.setArr {g : Nat → Option (A × Nat)} {s : Mem A V} {s' : Mem A W} (h : Mem.RelAt R g s s') (a : A) {x : List V} {y : List W}
    (hxy : ListRel (R a) x y) : Mem.RelAt R g (s.setArr a x) (s'.setArr a y) := by
  refine ⟨fun b => ?_, h.2⟩
  simp only [Mem.setArr_arr]
  split
  · rename_i e; subst e; exact hxy
  · exact h.1 b

theorem runActs_relAt {g : Nat → Option (A × Nat)} {l : List (Act A V)} {l' : List (Act A W)} (hl : SeqRel R g l l') : ∀ {s : Mem A V} {s' : Mem A W},
    Mem.RelAt R g s s' → Res.Rel (fun s s' => ∀ a, ListRel (R a) (s.arr a) (s'.arr a)) (runActs Mem.step s l) (runActs Mem.step s' l') := by
  induction hl with
  | nil g => intro s s' h; exact h.1
  | @rmw g a i f f' l l' h _ ih =>
    intro s s' hs
    rw [runActs_cons, runActs_cons]
    refine Res.Rel.bind (R := Mem.RelAt R g) ?_ fun _ _ hs => ih hs
    simp only [Mem.step]
    rw [(hs.1 a).1]
    split
    · exact hs.setArr a ((hs.1 a).modify h)
    · trivial
  | @load g t a i l l' _ ih =>
    intro s s' hs
    rw [runActs_cons, runActs_cons]
    refine Res.Rel.bind (R := Mem.RelAt R (Function.update g t (some (a, i)))) ?_ fun _ _ hs => ih hs
    simp only [Mem.step]
    have := (hs.1 a).rd i
    unfold rd at this
    split <;> split <;> simp_all [Res.Rel]
    refine ⟨hs.1, fun u b j hu => ?_⟩
    simp only
    by_cases he : u = t
    · subst he
      rw [Function.update_self] at hu
      cases hu
      simpa using this
    · rw [Function.update_of_ne he] at hu
      simp only [he, if_false]
      exact hs.2 u b j hu
  | @store g t a i f f' l l' hg h _ ih =>
    intro s s' hs
    rw [runActs_cons, runActs_cons]
    refine Res.Rel.bind (R := Mem.RelAt R g) ?_ fun _ _ hs => ih hs
    simp only [Mem.step]
    rw [(hs.1 a).1]
    split
    · have ht := hs.2 t a i hg
      generalize s.reg t = r at ht
      generalize s'.reg t = r' at ht
      cases ht with
      | none => trivial
      | some hv => exact hs.setArr a ((hs.1 a).set (h _ _ hv))
    · trivial

omit [DecidableEq A] in
theorem ThreadRel.flip {t : Nat} {o : Option (A × Nat)} {l : List (Act A V)} {l' : List (Act A W)} (h : ThreadRel R t o l l') :
    ThreadRel (fun a i y x => R a i x y) t o l' l := by
  induction h with
  | nil => exact .nil _
  | rmw h _ ih => exact .rmw (fun x y => h y x) ih
  | load _ ih => exact .load ih
  | store h _ ih => exact .store (fun x y => h y x) ih

theorem ListRel.flip {R : Nat → V → W → Prop} {l : List V} {l' : List W} (h : ListRel R l l') : ListRel (fun i y x => R i x y) l' l :=
  ⟨h.1.symm, fun i h1 h2 => h.2 i h2 h1⟩

/-- One direction of `launch_relAt`. -/
theorem launch_relAt_fwd (e : ExecKind) (start stop : Nat) {body : Nat → Res (List (Act A V))} {body' : Nat → Res (List (Act A W))}
    (hb : ∀ i, start ≤ i → i < stop → Res.Rel (ThreadRel R i none) (body i) (body' i)) {arrs : A → List V} {arrs' : A → List W}
    (ha : ∀ a, ListRel (R a) (arrs a) (arrs' a)) (o : Res (A → List V)) (ho : launch e start stop body arrs o) :
    ∃ o', launch e start stop body' arrs' o' ∧ Res.Rel (fun f g => ∀ a, ListRel (R a) (f a) (g a)) o o' := by
  have hm : Res.Rel (ListRel fun k => ThreadRel R (start + k) none) ((List.range' start (stop - start)).mapM body)
      ((List.range' start (stop - start)).mapM body') := by
    clear ho
    generalize hn : stop - start = n
    have hb' : ∀ i, start ≤ i → i < start + n → Res.Rel (ThreadRel R i none) (body i) (body' i) := fun i h1 h2 => hb i h1 (by omega)
    clear hb hn
    induction n generalizing start with
    | zero => exact ⟨rfl, fun i h => absurd h (by simp)⟩
    | succ n ih =>
      rw [List.range'_succ, List.mapM_cons, List.mapM_cons]
      refine Res.Rel.bind (hb' start le_rfl (by omega)) fun x x' hx => Res.Rel.bind (ih (start + 1) fun i h1 h2 => hb' i (by omega) (by omega))
        fun xs xs' hxs => Res.Rel.ok (R := ListRel _) ⟨by simp [hxs.1], fun i h h' => ?_⟩
      cases i with
      | zero => simpa using hx
      | succ i =>
        have := hxs.2 i (by simpa using h) (by simpa using h')
        simp only [List.getElem_cons_succ]
        have e : start + 1 + i = start + (i + 1) := by omega
        simp only [e] at this
        exact this
  obtain ⟨r, hr, rfl⟩ := ho
  generalize hX : (List.range' start (stop - start)).mapM body = t at hm
  generalize hY : (List.range' start (stop - start)).mapM body' = t' at hm
  unfold launch
  rw [hX] at hr
  rw [hY]
  cases t <;> cases t' <;> first | exact hm.elim | skip
  · rename_i ts ts'
    have hm : ListRel (fun k => ThreadRel R (start + k) none) ts ts' := hm
    obtain ⟨l, hl, hr⟩ := hr
    obtain ⟨l', hl', hs⟩ : ∃ l', Schedule e ts' l' ∧ SeqRel R (fun _ => none) l l' := by
      cases e with
      | serial =>
        refine ⟨_, rfl, ?_⟩
        rw [show l = _ from hl]
        refine SeqRel.serial ?_ _
        rw [List.forall₂_iff_get]
        exact ⟨hm.1.symm, fun i h1 h2 => ⟨start + i, hm.2 i h1 h2⟩⟩
      | parallel => exact SeqRel.interleave (tid := fun k => start + k) (fun a b h => by simpa using h) hl ts' _ hm
    have hrun := runActs_relAt hs (s := ⟨arrs, fun _ => none⟩) (s' := ⟨arrs', fun _ => none⟩) ⟨ha, fun _ _ _ h => nomatch h⟩
    generalize runActs Mem.step _ l = x at hr hrun
    generalize hx' : runActs Mem.step _ l' = x' at hrun
    cases x <;> cases x' <;> first | exact hrun.elim | skip
    · rename_i s s'
      cases (show r = .ok s from hr)
      exact ⟨_, ⟨.ok s', ⟨l', hl', by rw [hx']; rfl⟩, rfl⟩, hrun⟩
    · cases hr; exact ⟨.throw _, ⟨.throw _, ⟨l', hl', by rw [hx']⟩, rfl⟩, hrun⟩
    · cases hr; exact ⟨.abort, ⟨.abort, ⟨l', hl', by rw [hx']⟩, rfl⟩, hrun⟩
    · cases hr; exact ⟨.ub, ⟨.ub, ⟨l', hl', by rw [hx']⟩, rfl⟩, hrun⟩
  · cases hr; exact ⟨_, ⟨_, rfl, rfl⟩, hm⟩
  · cases hr; exact ⟨_, ⟨_, rfl, rfl⟩, trivial⟩
  · cases hr; exact ⟨_, ⟨_, rfl, rfl⟩, trivial⟩

/-- A launch of the same kernel on data that are related element by element. -/
theorem launch_relAt (e : ExecKind) (start stop : Nat) {body : Nat → Res (List (Act A V))} {body' : Nat → Res (List (Act A W))}
    (hb : ∀ i, start ≤ i → i < stop → Res.Rel (ThreadRel R i none) (body i) (body' i)) {arrs : A → List V} {arrs' : A → List W}
    (ha : ∀ a, ListRel (R a) (arrs a) (arrs' a)) :
    NR.Rel (fun f g => ∀ a, ListRel (R a) (f a) (g a)) (launch e start stop body arrs) (launch e start stop body' arrs') := by
  refine ⟨launch_relAt_fwd e start stop hb ha, fun o' ho' => ?_⟩
  obtain ⟨o, ho, hr⟩ := launch_relAt_fwd (R := fun a i y x => R a i x y) e start stop (fun i h1 h2 => ((hb i h1 h2).flip).mono fun _ _ h => h.flip)
    (fun a => (ha a).flip) o' ho'
  exact ⟨o, ho, hr.flip.mono fun _ _ h a => (h a).flip⟩

theorem launch1_relAt {R : Nat → V → W → Prop} (e : ExecKind) (start stop : Nat) {body : Nat → Res (List (Act Unit V))} {body' : Nat → Res (List (Act Unit W))}
    (hb : ∀ i, start ≤ i → i < stop → Res.Rel (ThreadRel (fun _ => R) i none) (body i) (body' i)) {a : List V} {a' : List W}
    (ha : ListRel R a a') : NR.Rel (ListRel R) (launch1 e start stop body a) (launch1 e start stop body' a') :=
  NR.Rel.bind (launch_relAt (R := fun _ : Unit => R) e start stop hb fun _ => ha) fun _ _ h => NR.Rel.pure (h ())

/-! ### Launches that return have stayed in bounds -/

theorem step_length {s s' : Mem A V} {x : Act A V} (h : s.step x = .ok s') (a : A) : (s'.arr a).length = (s.arr a).length := by
  cases x with
  | rmw b i f =>
    simp only [Mem.step] at h
    split at h
    · cases h
      simp only [Mem.setArr_arr]
      split
      · rename_i e; subst e; simp
      · rfl
    · exact nomatch h
  | load t b i =>
    simp only [Mem.step] at h
    split at h
    · cases h; rfl
    · exact nomatch h
  | store t b i f =>
    simp only [Mem.step] at h
    split at h
    · split at h
      · cases h
        simp only [Mem.setArr_arr]
        split
        · rename_i e; subst e; simp
        · rfl
      · exact nomatch h
    · exact nomatch h

theorem runActs_bounds : ∀ (l : List (Act A V)) {s s' : Mem A V}, runActs Mem.step s l = .ok s' → ∀ x ∈ l, x.loc.2 < (s.arr x.loc.1).length
  | x :: l, s, s', h, y, hy => by
    rw [runActs_cons] at h
    obtain ⟨s1, h1, h2⟩ := Res.bind_eq_ok.1 h
    rcases List.mem_cons.1 hy with rfl | hy
    · cases y with
      | rmw b i f => simp only [Mem.step] at h1; split at h1; assumption; exact nomatch h1
      | load t b i =>
        simp only [Mem.step] at h1
        split at h1
        · rename_i v hv
          exact (List.getElem?_eq_some_iff.1 hv).1
        · exact nomatch h1
      | store t b i f => simp only [Mem.step] at h1; split at h1; assumption; exact nomatch h1
    · rw [← step_length h1]
      exact runActs_bounds l h2 y hy

theorem runActs_length : ∀ (l : List (Act A V)) {s s' : Mem A V}, runActs Mem.step s l = .ok s' → ∀ a, (s'.arr a).length = (s.arr a).length
  | [], s, s', h, a => by cases h; rfl
  | x :: l, s, s', h, a => by
    rw [runActs_cons] at h
    obtain ⟨s1, h1, h2⟩ := Res.bind_eq_ok.1 h
    rw [runActs_length l h2, step_length h1]

/-- A launch keeps the lengths. -/
theorem launch_length {e : ExecKind} {start stop : Nat} {body : Nat → Res (List (Act A V))} {arrs f : A → List V} (h : launch e start stop body arrs (.ok f))
    (a : A) : (f a).length = (arrs a).length := by
  obtain ⟨r, hr, ho⟩ := h
  generalize (List.range' start (stop - start)).mapM body = t at hr
  cases t with
  | ok ts =>
    obtain ⟨l, hl, hr⟩ := hr
    cases hrun : runActs Mem.step ⟨arrs, fun _ => none⟩ l with
    | ok s =>
      rw [hrun] at hr
      cases hr
      cases ho
      exact runActs_length l hrun a
    | throw _ => rw [hrun] at hr; cases hr; exact nomatch ho
    | abort => rw [hrun] at hr; cases hr; exact nomatch ho
    | ub => rw [hrun] at hr; cases hr; exact nomatch ho
  | throw _ => cases hr; exact nomatch ho
  | abort => cases hr; exact nomatch ho
  | ub => cases hr; exact nomatch ho

theorem NR.bind_eq_ok {α β : Type} {X : NR α} {k : α → NR β} {b : β} : (X >>= k) (.ok b) ↔ ∃ a, X (.ok a) ∧ k a (.ok b) := by
  constructor
  · rintro ⟨r, hr, h⟩
    cases r with
    | ok a => exact ⟨a, hr, h⟩
    | throw _ => exact nomatch h
    | abort => exact nomatch h
    | ub => exact nomatch h
  · rintro ⟨a, h1, h2⟩
    exact ⟨.ok a, h1, h2⟩

theorem launch1_length {e : ExecKind} {start stop : Nat} {body : Nat → Res (List (Act Unit V))} {x y : List V} (h : launch1 e start stop body x (.ok y)) :
    y.length = x.length := by
  obtain ⟨r, h1, h2⟩ := NR.bind_eq_ok.1 h
  have h2 : Res.ok y = .ok (r ()) := h2
  cases h2
  exact launch_length h1 ()

theorem mapM_mem {α : Type} {f : Nat → Res α} : ∀ {l : List Nat} {ys : List α}, l.mapM f = .ok ys → ∀ i ∈ l, ∃ y ∈ ys, f i = .ok y
  | j :: l, ys, h, i, hi => by
    rw [List.mapM_cons] at h
    obtain ⟨y, h1, h⟩ := Res.bind_eq_ok.1 h
    obtain ⟨zs, h2, h⟩ := Res.bind_eq_ok.1 h
    cases h
    rcases List.mem_cons.1 hi with rfl | hi
    · exact ⟨y, by simp, h1⟩
    · obtain ⟨z, hz, h3⟩ := mapM_mem h2 i hi
      exact ⟨z, by simp [hz], h3⟩

/-- A launch that returns has accessed only elements that exist. -/
theorem launch_bounds {e : ExecKind} {start stop : Nat} {body : Nat → Res (List (Act A V))} {arrs f : A → List V} (h : launch e start stop body arrs (.ok f))
    {i : Nat} (h1 : start ≤ i) (h2 : i < stop) {acts : List (Act A V)} (hi : body i = .ok acts) {x : Act A V} (hx : x ∈ acts) :
    x.loc.2 < (arrs x.loc.1).length := by
  obtain ⟨r, hr, ho⟩ := h
  generalize hX : (List.range' start (stop - start)).mapM body = t at hr
  cases t with
  | ok ts =>
    obtain ⟨l, hl, hr⟩ := hr
    cases hrun : runActs Mem.step ⟨arrs, fun _ => none⟩ l with
    | ok s =>
      have hmem : x ∈ l := by
        obtain ⟨y, hy, h3⟩ := mapM_mem hX i (by rw [List.mem_range'_1]; omega)
        rw [hi] at h3
        cases h3
        have : x ∈ ts.flatten := List.mem_flatten.2 ⟨_, hy, hx⟩
        cases e with
        | serial => rw [show l = _ from hl]; exact this
        | parallel => exact (Interleave.perm hl).mem_iff.2 this
      exact runActs_bounds l hrun x hmem
    | throw _ => rw [hrun] at hr; cases hr; exact nomatch ho
    | abort => rw [hrun] at hr; cases hr; exact nomatch ho
    | ub => rw [hrun] at hr; cases hr; exact nomatch ho
  | throw _ => cases hr; exact nomatch ho
  | abort => cases hr; exact nomatch ho
  | ub => cases hr; exact nomatch ho

theorem mapM_mem' {α : Type} {f : Nat → Res α} : ∀ {l : List Nat} {ys : List α}, l.mapM f = .ok ys → ∀ y ∈ ys, ∃ i ∈ l, f i = .ok y
  | [], ys, h, y, hy => by cases h; exact absurd hy (by simp)
  | j :: l, ys, h, y, hy => by
    rw [List.mapM_cons] at h
    obtain ⟨z, h1, h⟩ := Res.bind_eq_ok.1 h
    obtain ⟨zs, h2, h⟩ := Res.bind_eq_ok.1 h
    cases h
    rcases List.mem_cons.1 hy with rfl | hy
    · exact ⟨j, by simp, h1⟩
    · obtain ⟨i, hi, h3⟩ := mapM_mem' h2 y hy
      exact ⟨i, by simp [hi], h3⟩

/-- A launch that returns: its accesses in some order, exactly those of its threads. -/
theorem launch_run {e : ExecKind} {start stop : Nat} {body : Nat → Res (List (Act A V))} {arrs f : A → List V} (h : launch e start stop body arrs (.ok f)) :
    ∃ (l : List (Act A V)) (s : Mem A V), runActs Mem.step ⟨arrs, fun _ => none⟩ l = .ok s ∧ s.arr = f ∧
      ∀ x, x ∈ l ↔ ∃ i acts, start ≤ i ∧ i < stop ∧ body i = .ok acts ∧ x ∈ acts := by
  obtain ⟨r, hr, ho⟩ := h
  generalize hX : (List.range' start (stop - start)).mapM body = t at hr
  cases t with
  | ok ts =>
    obtain ⟨l, hl, hr⟩ := hr
    cases hrun : runActs Mem.step ⟨arrs, fun _ => none⟩ l with
    | ok s =>
      rw [hrun] at hr
      cases hr
      cases ho
      refine ⟨l, s, hrun, rfl, fun x => ?_⟩
      have hmem : x ∈ l ↔ x ∈ ts.flatten := by
        cases e with
        | serial => rw [show l = _ from hl]
        | parallel => exact (Interleave.perm hl).mem_iff
      rw [hmem, List.mem_flatten]
      constructor
      · rintro ⟨acts, ha, hx⟩
        obtain ⟨i, hi, h1⟩ := mapM_mem' hX acts ha
        rw [List.mem_range'_1] at hi
        exact ⟨i, acts, by omega, by omega, h1, hx⟩
      · rintro ⟨i, acts, h1, h2, h3, hx⟩
        obtain ⟨y, hy, h4⟩ := mapM_mem hX i (by rw [List.mem_range'_1]; omega)
        rw [h3] at h4
        cases h4
        exact ⟨_, hy, hx⟩
    | throw _ => rw [hrun] at hr; cases hr; exact nomatch ho
    | abort => rw [hrun] at hr; cases hr; exact nomatch ho
    | ub => rw [hrun] at hr; cases hr; exact nomatch ho
  | throw _ => cases hr; exact nomatch ho
  | abort => cases hr; exact nomatch ho
  | ub => cases hr; exact nomatch ho

theorem runActs_frame {a : A} {i : Nat} : ∀ (l : List (Act A V)) {s s' : Mem A V}, (∀ x ∈ l, x.loc ≠ (a, i)) → runActs Mem.step s l = .ok s' →
    (s'.arr a)[i]? = (s.arr a)[i]?
  | [], s, s', _, h => by cases h; rfl
  | x :: l, s, s', hl, h => by
    rw [runActs_cons] at h
    obtain ⟨s1, h1, h2⟩ := Res.bind_eq_ok.1 h
    rw [runActs_frame l (fun y hy => hl y (by simp [hy])) h2]
    have hx := hl x (by simp)
    cases x with
    | rmw b j f =>
      simp only [Mem.step] at h1
      split at h1
      · cases h1
        simp only [Mem.setArr_arr]
        split
        · rename_i e; subst e
          have hne : j ≠ i := fun e => hx (by simp [Act.loc, e])
          simp [List.getElem?_modify, hne]
        · rfl
      · exact nomatch h1
    | load t b j =>
      simp only [Mem.step] at h1
      split at h1
      · cases h1; rfl
      · exact nomatch h1
    | store t b j f =>
      simp only [Mem.step] at h1
      split at h1
      · split at h1
        · cases h1
          simp only [Mem.setArr_arr]
          split
          · rename_i e; subst e
            have hne : j ≠ i := fun e => hx (by simp [Act.loc, e])
            simp [hne]
          · rfl
        · exact nomatch h1
      · exact nomatch h1

/-- An element to which only `v` is written, at least once. -/
theorem runActs_const {a : A} {i : Nat} {v : V} : ∀ (l : List (Act A V)) {s s' : Mem A V}, (∀ x ∈ l, x.loc = (a, i) → x = Act.write a i v) →
    (Act.write a i v ∈ l ∨ (s.arr a)[i]? = some v) → runActs Mem.step s l = .ok s' → (s'.arr a)[i]? = some v
  | [], s, s', _, hv, h => by cases h; simpa using hv
  | x :: l, s, s', hl, hv, h => by
    rw [runActs_cons] at h
    obtain ⟨s1, h1, h2⟩ := Res.bind_eq_ok.1 h
    refine runActs_const l (fun y hy => hl y (by simp [hy])) ?_ h2
    by_cases hx : x.loc = (a, i)
    · have := hl x (by simp) hx
      subst this
      right
      simp only [Act.write, Mem.step] at h1
      split at h1
      · rename_i hi
        cases h1
        simp [Mem.setArr_arr, List.getElem?_eq_getElem hi]
      · exact nomatch h1
    · rcases hv with hv | hv
      · rcases List.mem_cons.1 hv with rfl | hv
        · exact absurd rfl hx
        · exact .inl hv
      · right
        rw [← hv]
        exact runActs_frame [x] (by simpa using hx) (by rw [runActs_cons, h1]; rfl)

end NeoFOAM
