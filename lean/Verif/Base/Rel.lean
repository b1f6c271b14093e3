import Verif.Model.LinearSystem
import Verif.Base.Launch
import Mathlib.Data.List.GetD
import Mathlib.Data.List.Forall2

/-!
# Relating two runs of the same code on different data
-/
namespace NeoFOAM

/-- The same kind of outcome, with related values. -/
def Res.Rel {α : Type u} {β : Type v} (R : α → β → Prop) : Res α → Res β → Prop
  | .ok a, .ok b => R a b
  | .throw x, .throw y => x = y
  | .abort, .abort => True
  | .ub, .ub => True
  | _, _ => False

namespace Res.Rel
variable {α : Type u} {β : Type v}

theorem bind {γ : Type w} {δ : Type w'} {R : α → β → Prop} {S : γ → δ → Prop} {x : Res α} {y : Res β} {f : α → Res γ} {g : β → Res δ}
    (h : Res.Rel R x y) (hf : ∀ a b, R a b → Res.Rel S (f a) (g b)) : Res.Rel S (x.bind f) (y.bind g) := by
  cases x <;> cases y <;> first | exact h.elim | exact hf _ _ h | exact h

theorem refl {R : α → α → Prop} (h : ∀ a, R a a) (x : Res α) : Res.Rel R x x := by
  cases x <;> first | exact h _ | trivial | rfl

theorem eq (x : Res α) : Res.Rel (· = ·) x x := refl (fun _ => rfl) x

theorem mono {R S : α → β → Prop} (h : ∀ a b, R a b → S a b) {x : Res α} {y : Res β} (hx : Res.Rel R x y) : Res.Rel S x y := by
  cases x <;> cases y <;> first | exact h _ _ hx | exact hx

theorem ok {R : α → β → Prop} {a : α} {b : β} (h : R a b) : Res.Rel R (.ok a) (.ok b) := h

/-- Equal outcomes up to a function. -/
theorem eq_map {f : α → β} {x : Res α} {y : Res β} (h : Res.Rel (fun a b => b = f a) x y) : y = x.bind fun a => .ok (f a) := by
  cases x <;> cases y <;> simp_all [Res.Rel, Res.bind]

theorem flip {R : α → β → Prop} {x : Res α} {y : Res β} (h : Res.Rel R x y) : Res.Rel (fun b a => R a b) y x := by
  cases x <;> cases y <;> first | exact h | exact h.symm

end Res.Rel

theorem Res.Rel.same {α γ δ : Type} {S : γ → δ → Prop} {x : Res α} {f : α → Res γ} {g : α → Res δ} (hf : ∀ a, Res.Rel S (f a) (g a)) :
    Res.Rel S (x.bind f) (x.bind g) := Res.Rel.bind (Res.Rel.eq x) fun a b hab => hab ▸ hf a

/-- Read something both runs share. -/
macro "same" : tactic => `(tactic| refine Res.Rel.same fun _ => ?_)

theorem rd_rel {α β : Type} {R : α → β → Prop} {l : List α} {l' : List β} (h : List.Forall₂ R l l') (i : Nat) : Res.Rel R (rd l i) (rd l' i) := by
  by_cases hi : i < l.length
  · rw [rd_ok hi, rd_ok (h.length_eq ▸ hi)]
    exact h.get hi _
  · have h' : ¬ i < l'.length := h.length_eq ▸ hi
    simp only [rd, List.getElem?_eq_none (Nat.le_of_not_lt hi), List.getElem?_eq_none (Nat.le_of_not_lt h')]
    trivial

theorem mapM_rel {ι : Type} {α β : Type} {R : α → β → Prop} {f : ι → Res α} {g : ι → Res β} : ∀ (l : List ι), (∀ i ∈ l, Res.Rel R (f i) (g i)) →
    Res.Rel (List.Forall₂ R) (l.mapM f) (l.mapM g)
  | [], _ => .nil
  | i :: l, h => by
    rw [List.mapM_cons, List.mapM_cons]
    exact Res.Rel.bind (h i (by simp)) fun a b hab =>
      Res.Rel.bind (mapM_rel l fun j hj => h j (List.mem_cons_of_mem _ hj)) fun as bs hs => List.Forall₂.cons hab hs

/-! ### Kernels -/

variable {A V W : Type} [DecidableEq A] {R : V → W → Prop}

/-- The same access with related effects. -/
def Act.Rel (R : V → W → Prop) : Act A V → Act A W → Prop
  | .rmw a i f, .rmw b j g => a = b ∧ i = j ∧ ∀ x y, R x y → R (f x) (g y)
  | .load t a i, .load u b j => t = u ∧ a = b ∧ i = j
  | .store t a i f, .store u b j g => t = u ∧ a = b ∧ i = j ∧ ∀ x y, R x y → R (f x) (g y)
  | _, _ => False

/-- Related memories. -/
def Mem.Rel (R : V → W → Prop) (s : Mem A V) (s' : Mem A W) : Prop := (∀ a, List.Forall₂ R (s.arr a) (s'.arr a)) ∧ ∀ t, Option.Rel R (s.reg t) (s'.reg t)

theorem forall₂_modify {f : V → V} {g : W → W} (hfg : ∀ x y, R x y → R (f x) (g y)) : ∀ {l : List V} {l' : List W}, List.Forall₂ R l l' → ∀ i, List.Forall₂ R (l.modify i f) (l'.modify i g)
  | _, _, .nil, i => by cases i <;> simp
  | _, _, .cons h hs, 0 => by simpa using ⟨hfg _ _ h, hs⟩
  | _, _, .cons h hs, i + 1 => by simpa using ⟨h, forall₂_modify hfg hs i⟩

theorem forall₂_set {v : V} {w : W} (hvw : R v w) : ∀ {l : List V} {l' : List W}, List.Forall₂ R l l' → ∀ i, List.Forall₂ R (l.set i v) (l'.set i w)
  | _, _, .nil, i => by simp
  | _, _, .cons h hs, 0 => by simpa using ⟨hvw, hs⟩
  | _, _, .cons h hs, i + 1 => by simpa using ⟨h, forall₂_set hvw hs i⟩

theorem Mem.Rel.setArr {s : Mem A V} {s' : Mem A W} (h : Mem.Rel R s s') (a : A) {x : List V} {y : List W} (hxy : List.Forall₂ R x y) :
    Mem.Rel R (s.setArr a x) (s'.setArr a y) := by
  refine ⟨fun b => ?_, h.2⟩
  simp only [Mem.setArr_arr]
  split
  · exact hxy
  · exact h.1 b

theorem step_rel {s : Mem A V} {s' : Mem A W} (h : Mem.Rel R s s') {x : Act A V} {x' : Act A W} (hx : Act.Rel R x x') :
    Res.Rel (Mem.Rel R) (s.step x) (s'.step x') := by
  cases x with
  | rmw a i f =>
    cases x' with
    | rmw b j g =>
      obtain ⟨rfl, rfl, hfg⟩ := hx
      simp only [Mem.step]
      rw [← (h.1 a).length_eq]
      split
      · exact h.setArr a (forall₂_modify hfg (h.1 a) i)
      · trivial
    | load _ _ _ => exact hx.elim
    | store _ _ _ _ => exact hx.elim
  | load t a i =>
    cases x' with
    | rmw _ _ _ => exact hx.elim
    | store _ _ _ _ => exact hx.elim
    | load u b j =>
      obtain ⟨rfl, rfl, rfl⟩ := hx
      simp only [Mem.step]
      have := rd_rel (h.1 a) i
      unfold rd at this
      split <;> split <;> simp_all [Res.Rel]
      refine ⟨h.1, fun u => ?_⟩
      simp only
      split
      · exact .some this
      · exact h.2 u
  | store t a i f =>
    cases x' with
    | rmw _ _ _ => exact hx.elim
    | load _ _ _ => exact hx.elim
    | store u b j g =>
      obtain ⟨rfl, rfl, rfl, hfg⟩ := hx
      simp only [Mem.step]
      rw [← (h.1 a).length_eq]
      split
      · have ht := h.2 t
        generalize s.reg t = r at ht
        generalize s'.reg t = r' at ht
        cases ht with
        | none => trivial
        | some hv => exact h.setArr a (forall₂_set (hfg _ _ hv) (h.1 a) i)
      · trivial

theorem runActs_rel {l : List (Act A V)} {l' : List (Act A W)} (hl : List.Forall₂ (Act.Rel R) l l') : ∀ {s : Mem A V} {s' : Mem A W}, Mem.Rel R s s' →
    Res.Rel (Mem.Rel R) (runActs Mem.step s l) (runActs Mem.step s' l') := by
  induction hl with
  | nil => intro s s' h; exact h
  | cons hx _ ih =>
    intro s s' h
    rw [runActs_cons, runActs_cons]
    exact Res.Rel.bind (step_rel h hx) fun _ _ hs => ih hs

theorem forall₂_split {α β : Type} {P : α → β → Prop} : ∀ {pre : List α} {x : α} {post : List α} {l' : List β}, List.Forall₂ P (pre ++ x :: post) l' →
    ∃ pre' x' post', l' = pre' ++ x' :: post' ∧ List.Forall₂ P pre pre' ∧ P x x' ∧ List.Forall₂ P post post'
  | [], x, post, _, .cons h hs => ⟨[], _, _, rfl, .nil, h, hs⟩
  | p :: pre, x, post, _, .cons h hs => by
    obtain ⟨pre', x', post', rfl, h1, h2, h3⟩ := forall₂_split (pre := pre) hs
    exact ⟨_ :: pre', x', post', rfl, .cons h h1, h2, h3⟩

theorem forall₂_join {α β : Type} {P : α → β → Prop} {pre : List α} {pre' : List β} (h : List.Forall₂ P pre pre') {post : List α} {post' : List β}
    (h' : List.Forall₂ P post post') : List.Forall₂ P (pre ++ post) (pre' ++ post') := List.rel_append h h'

theorem Interleave.rel {α β : Type} {P : α → β → Prop} {ts : List (List α)} {l : List α} (h : Interleave ts l) : ∀ {ts' : List (List β)},
    List.Forall₂ (List.Forall₂ P) ts ts' → ∃ l', Interleave ts' l' ∧ List.Forall₂ P l l' := by
  induction h with
  | done ts h =>
    intro ts' hts
    refine ⟨[], .done _ ?_, .nil⟩
    clear * - h hts
    induction hts with
    | nil => simp
    | cons hx _ ih =>
      intro t ht
      rcases List.mem_cons.1 ht with rfl | ht
      · have h0 := h _ List.mem_cons_self
        subst h0
        exact List.forall₂_nil_left_iff.1 hx
      · exact ih (fun t ht => h t (List.mem_cons_of_mem _ ht)) t ht
  | step pre a t post l _ ih =>
    intro ts' hts
    obtain ⟨pre', x', post', rfl, h1, h2, h3⟩ := forall₂_split hts
    cases h2 with
    | @cons _ b _ t' hab ht =>
      obtain ⟨l', hl', hr⟩ := ih (forall₂_join h1 (.cons ht h3))
      exact ⟨b :: l', .step pre' b t' post' l' hl', .cons hab hr⟩

theorem Schedule.rel {α β : Type} {P : α → β → Prop} {e : ExecKind} {ts : List (List α)} {l : List α} (h : Schedule e ts l) {ts' : List (List β)}
    (ht : List.Forall₂ (List.Forall₂ P) ts ts') : ∃ l', Schedule e ts' l' ∧ List.Forall₂ P l l' := by
  cases e with
  | serial =>
    refine ⟨_, rfl, ?_⟩
    rw [show l = _ from h]
    exact List.rel_flatten ht
  | parallel => exact Interleave.rel h ht

/-! ### Calls -/

/-- Every outcome of one call is matched by a related outcome of the other, and vice versa. -/
def NR.Rel {α : Type u} {β : Type v} (R : α → β → Prop) (X : NR α) (Y : NR β) : Prop :=
  (∀ o, X o → ∃ o', Y o' ∧ Res.Rel R o o') ∧ ∀ o', Y o' → ∃ o, X o ∧ Res.Rel R o o'

namespace NR.Rel
variable {α β γ δ : Type}

theorem pure {R : α → β → Prop} {a : α} {b : β} (h : R a b) : NR.Rel R (Pure.pure a : NR α) (Pure.pure b : NR β) :=
  ⟨fun _ ho => ⟨.ok b, rfl, by rw [show _ = _ from ho]; exact h⟩, fun _ ho => ⟨.ok a, rfl, by rw [show _ = _ from ho]; exact h⟩⟩

theorem lift {R : α → β → Prop} {x : Res α} {y : Res β} (h : Res.Rel R x y) : NR.Rel R (NR.lift x) (NR.lift y) :=
  ⟨fun _ ho => ⟨y, rfl, by rw [show _ = _ from ho]; exact h⟩, fun _ ho => ⟨x, rfl, by rw [show _ = _ from ho]; exact h⟩⟩

theorem bind {R : α → β → Prop} {S : γ → δ → Prop} {X : NR α} {Y : NR β} {k : α → NR γ} {k' : β → NR δ} (h : NR.Rel R X Y)
    (hk : ∀ a b, R a b → NR.Rel S (k a) (k' b)) : NR.Rel S (X >>= k) (Y >>= k') := by
  constructor
  · rintro o ⟨r, hr, ho⟩
    obtain ⟨r', hr', hrr⟩ := h.1 r hr
    cases r <;> cases r' <;> first | exact hrr.elim | skip
    · obtain ⟨o', h1, h2⟩ := (hk _ _ hrr).1 o ho
      exact ⟨o', ⟨_, hr', h1⟩, h2⟩
    · subst ho; exact ⟨_, ⟨_, hr', rfl⟩, hrr⟩
    · subst ho; exact ⟨_, ⟨_, hr', rfl⟩, trivial⟩
    · subst ho; exact ⟨_, ⟨_, hr', rfl⟩, trivial⟩
  · rintro o' ⟨r', hr', ho⟩
    obtain ⟨r, hr, hrr⟩ := h.2 r' hr'
    cases r <;> cases r' <;> first | exact hrr.elim | skip
    · obtain ⟨o, h1, h2⟩ := (hk _ _ hrr).2 o' ho
      exact ⟨o, ⟨_, hr, h1⟩, h2⟩
    · subst ho; exact ⟨_, ⟨_, hr, rfl⟩, hrr⟩
    · subst ho; exact ⟨_, ⟨_, hr, rfl⟩, trivial⟩
    · subst ho; exact ⟨_, ⟨_, hr, rfl⟩, trivial⟩

theorem mono {R S : α → β → Prop} (h : ∀ a b, R a b → S a b) {X : NR α} {Y : NR β} (hx : NR.Rel R X Y) : NR.Rel S X Y :=
  ⟨fun o ho => (hx.1 o ho).imp fun _ ⟨h1, h2⟩ => ⟨h1, h2.mono h⟩, fun o ho => (hx.2 o ho).imp fun _ ⟨h1, h2⟩ => ⟨h1, h2.mono h⟩⟩

theorem refl {R : α → α → Prop} (h : ∀ a, R a a) (X : NR α) : NR.Rel R X X :=
  ⟨fun o ho => ⟨o, ho, .refl h o⟩, fun o ho => ⟨o, ho, .refl h o⟩⟩

theorem foldlM {ι κ : Type} {P : ι → κ → Prop} {R : α → β → Prop} {f : α → ι → NR α} {g : β → κ → NR β}
    (hf : ∀ a b i j, R a b → P i j → NR.Rel R (f a i) (g b j)) : ∀ {l : List ι} {l' : List κ}, List.Forall₂ P l l' → ∀ {a : α} {b : β}, R a b →
    NR.Rel R (l.foldlM f a) (l'.foldlM g b)
  | _, _, .nil, _, _, h => NR.Rel.pure h
  | _, _, .cons hi hs, a, b, h => by
    rw [List.foldlM_cons, List.foldlM_cons]
    exact NR.Rel.bind (hf _ _ _ _ h hi) fun a' b' h' => NR.Rel.foldlM hf hs h'

end NR.Rel

/-- A launch of the same kernel on related data. -/
theorem launch_rel (e : ExecKind) (start stop : Nat) {body : Nat → Res (List (Act A V))} {body' : Nat → Res (List (Act A W))}
    (hb : ∀ i, start ≤ i → i < stop → Res.Rel (List.Forall₂ (Act.Rel R)) (body i) (body' i)) {arrs : A → List V} {arrs' : A → List W}
    (ha : ∀ a, List.Forall₂ R (arrs a) (arrs' a)) :
    NR.Rel (fun f g => ∀ a, List.Forall₂ R (f a) (g a)) (launch e start stop body arrs) (launch e start stop body' arrs') := by
  have hm := mapM_rel (List.range' start (stop - start)) (f := body) (g := body') fun i hi => by
    rw [List.mem_range'_1] at hi; exact hb i (by omega) (by omega)
  have h0 : Mem.Rel R (⟨arrs, fun _ => none⟩ : Mem A V) ⟨arrs', fun _ => none⟩ := ⟨ha, fun _ => .none⟩
  unfold launch
  generalize (List.range' start (stop - start)).mapM body = t at hm
  generalize (List.range' start (stop - start)).mapM body' = t' at hm
  cases t <;> cases t' <;> first | exact hm.elim | skip
  · rename_i ts ts'
    have hm : List.Forall₂ (List.Forall₂ (Act.Rel R)) ts ts' := hm
    constructor
    · rintro _ ⟨r, ⟨l, hl, hr⟩, rfl⟩
      obtain ⟨l', hl', hll⟩ := hl.rel hm
      have hrun := runActs_rel hll h0
      generalize runActs Mem.step _ l = x at hr hrun
      generalize hx' : runActs Mem.step _ l' = x' at hrun
      cases x <;> cases x' <;> first | exact hrun.elim | skip
      · rename_i s s'
        cases (show r = .ok s from hr)
        exact ⟨_, ⟨.ok s', ⟨l', hl', by rw [hx']; rfl⟩, rfl⟩, hrun.1⟩
      · cases hr; exact ⟨.throw _, ⟨.throw _, ⟨l', hl', by rw [hx']⟩, rfl⟩, hrun⟩
      · cases hr; exact ⟨.abort, ⟨.abort, ⟨l', hl', by rw [hx']⟩, rfl⟩, hrun⟩
      · cases hr; exact ⟨.ub, ⟨.ub, ⟨l', hl', by rw [hx']⟩, rfl⟩, hrun⟩
    · rintro _ ⟨r, ⟨l', hl', hr⟩, rfl⟩
      obtain ⟨l, hl, hll'⟩ := hl'.rel (P := fun y x => Act.Rel R x y) (List.Forall₂.flip (hm.imp fun _ _ h => h.flip))
      have hll : List.Forall₂ (Act.Rel R) l l' := hll'.flip
      have hrun := runActs_rel hll h0
      generalize runActs Mem.step _ l' = x' at hr hrun
      generalize hx : runActs Mem.step _ l = x at hrun
      cases x <;> cases x' <;> first | exact hrun.elim | skip
      · rename_i s s'
        cases (show r = .ok s' from hr)
        exact ⟨_, ⟨.ok s, ⟨l, hl, by rw [hx]; rfl⟩, rfl⟩, hrun.1⟩
      · cases hr; exact ⟨.throw _, ⟨.throw _, ⟨l, hl, by rw [hx]⟩, rfl⟩, hrun⟩
      · cases hr; exact ⟨.abort, ⟨.abort, ⟨l, hl, by rw [hx]⟩, rfl⟩, hrun⟩
      · cases hr; exact ⟨.ub, ⟨.ub, ⟨l, hl, by rw [hx]⟩, rfl⟩, hrun⟩
  · constructor
    · rintro _ ⟨r, hr, rfl⟩
      cases hr
      exact ⟨_, ⟨_, rfl, rfl⟩, hm⟩
    · rintro _ ⟨r, hr, rfl⟩
      cases hr
      exact ⟨_, ⟨_, rfl, rfl⟩, hm⟩
  · constructor
    · rintro _ ⟨r, hr, rfl⟩
      cases hr
      exact ⟨_, ⟨_, rfl, rfl⟩, trivial⟩
    · rintro _ ⟨r, hr, rfl⟩
      cases hr
      exact ⟨_, ⟨_, rfl, rfl⟩, trivial⟩
  · constructor
    · rintro _ ⟨r, hr, rfl⟩
      cases hr
      exact ⟨_, ⟨_, rfl, rfl⟩, trivial⟩
    · rintro _ ⟨r, hr, rfl⟩
      cases hr
      exact ⟨_, ⟨_, rfl, rfl⟩, trivial⟩

theorem launch1_rel (e : ExecKind) (start stop : Nat) {body : Nat → Res (List (Act Unit V))} {body' : Nat → Res (List (Act Unit W))}
    (hb : ∀ i, start ≤ i → i < stop → Res.Rel (List.Forall₂ (Act.Rel R)) (body i) (body' i)) {a : List V} {a' : List W} (ha : List.Forall₂ R a a') :
    NR.Rel (List.Forall₂ R) (launch1 e start stop body a) (launch1 e start stop body' a') :=
  NR.Rel.bind (launch_rel e start stop hb (fun _ => ha)) fun _ _ h => NR.Rel.pure (h ())

omit [DecidableEq A] in
theorem Act.Rel.plain {t : Nat} {a : A} {i : Nat} {f : V → V} {g : W → W} (h : ∀ x y, R x y → R (f x) (g y)) :
    List.Forall₂ (Act.Rel R) (Act.plain t a i f) (Act.plain t a i g) := .cons ⟨rfl, rfl, rfl⟩ (.cons ⟨rfl, rfl, rfl, h⟩ .nil)

theorem ParElem_rel (e : ExecKind) (start stop : Nat) {f : Nat → V → V} {g : Nat → W → W} (hfg : ∀ i, start ≤ i → i < stop → ∀ x y, R x y → R (f i x) (g i y))
    {a : List V} {a' : List W} (ha : List.Forall₂ R a a') : NR.Rel (List.Forall₂ R) (ParElem e a start stop f) (ParElem e a' start stop g) := by
  have hm : List.Forall₂ (List.Forall₂ (Act.Rel R)) ((List.range' start (stop - start)).map fun i => Act.plain (A := Unit) i () i (f i))
      ((List.range' start (stop - start)).map fun i => Act.plain (A := Unit) i () i (g i)) := by
    rw [List.forall₂_map_left_iff, List.forall₂_map_right_iff, List.forall₂_same]
    intro i hi
    rw [List.mem_range'_1] at hi
    exact Act.Rel.plain (hfg i (by omega) (by omega))
  have h0 : Mem.Rel R (⟨fun _ => a, fun _ => none⟩ : Mem Unit V) ⟨fun _ => a', fun _ => none⟩ := ⟨fun _ => ha, fun _ => .none⟩
  constructor
  · rintro o ⟨l, hl, ho⟩
    obtain ⟨l', hl', hll⟩ := hl.rel hm
    have hrun := runActs_rel hll h0
    generalize runActs Mem.step _ l = x at ho hrun
    generalize hx' : runActs Mem.step _ l' = x' at hrun
    cases x <;> cases x' <;> first | exact hrun.elim | skip
    · cases ho; exact ⟨.ok _, ⟨l', hl', by rw [hx']⟩, hrun.1 ()⟩
    · cases ho; exact ⟨.throw _, ⟨l', hl', by rw [hx']⟩, hrun⟩
    · cases ho; exact ⟨.abort, ⟨l', hl', by rw [hx']⟩, trivial⟩
    · cases ho; exact ⟨.ub, ⟨l', hl', by rw [hx']⟩, trivial⟩
  · rintro o ⟨l', hl', ho⟩
    obtain ⟨l, hl, hll'⟩ := hl'.rel (P := fun y x => Act.Rel R x y) (List.Forall₂.flip (hm.imp fun _ _ h => h.flip))
    have hrun := runActs_rel (hll'.flip : List.Forall₂ (Act.Rel R) l l') h0
    generalize runActs Mem.step _ l' = x' at ho hrun
    generalize hx : runActs Mem.step _ l = x at hrun
    cases x <;> cases x' <;> first | exact hrun.elim | skip
    · cases ho; exact ⟨.ok _, ⟨l, hl, by rw [hx]⟩, hrun.1 ()⟩
    · cases ho; exact ⟨.throw _, ⟨l, hl, by rw [hx]⟩, hrun⟩
    · cases ho; exact ⟨.abort, ⟨l, hl, by rw [hx]⟩, trivial⟩
    · cases ho; exact ⟨.ub, ⟨l, hl, by rw [hx]⟩, trivial⟩

/-- Kernels that change one element per thread. -/
theorem elemKernel_rel (e : ExecKind) (start stop : Nat) {body : Nat → Res (V → V)} {body' : Nat → Res (W → W)}
    (hb : ∀ i, start ≤ i → i < stop → Res.Rel (fun f g => ∀ x y, R x y → R (f x) (g y)) (body i) (body' i)) {a : List V} {a' : List W}
    (ha : List.Forall₂ R a a') : NR.Rel (List.Forall₂ R) (elemKernel e start stop body a) (elemKernel e start stop body' a') := by
  unfold elemKernel
  refine NR.Rel.bind (NR.Rel.lift (mapM_rel _ fun i hi => by rw [List.mem_range'_1] at hi; exact hb i (by omega) (by omega))) fun fs gs hfg => ?_
  refine ParElem_rel e start stop (fun i h1 h2 x y hxy => ?_) ha
  by_cases hi : i - start < fs.length
  · have hj : i - start < gs.length := hfg.length_eq ▸ hi
    rw [List.getD_eq_getElem _ _ hi, List.getD_eq_getElem _ _ hj]
    exact hfg.get hi hj x y hxy
  · have hj : ¬ i - start < gs.length := hfg.length_eq ▸ hi
    rw [List.getD_eq_default _ _ (by omega), List.getD_eq_default _ _ (by omega)]
    exact hxy

/-- From the run that is easier to describe to the one beside it. -/
theorem NR.Rel.ok_left {α β : Type} {R : α → β → Prop} {X : NR α} {Y : NR β} (h : NR.Rel R X Y) {P : β → Prop} (hY : Y.Ok P) :
    X.Ok (fun a => ∃ b, R a b ∧ P b) := by
  intro o ho
  obtain ⟨o', ho', hr⟩ := h.1 o ho
  obtain ⟨b, rfl, hb⟩ := hY o' ho'
  cases o with
  | ok a => exact ⟨a, rfl, b, hr, hb⟩
  | throw _ => exact hr.elim
  | abort => exact hr.elim
  | ub => exact hr.elim

end NeoFOAM
