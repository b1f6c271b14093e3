import Verif.Spec.Expression
import Verif.Proofs.Implicit
import Verif.Props.C44_Accumulate
import Mathlib.Data.List.Forall2

/-!
# Facts about expressions
-/
namespace NeoFOAM
variable {K V : Type}

section heap

/-- Handle `h` refers to model `o`. -/
def At (s : OpHeap K V) (h : Nat) (o : OpModel K V) : Prop := s[h]? = some o

theorem At.lt {s : OpHeap K V} {h : Nat} {o : OpModel K V} (ha : At s h o) : h < s.length :=
  (List.getElem?_eq_some_iff.1 ha).1

theorem At.mono {s s' : OpHeap K V} {h : Nat} {o : OpModel K V} (hp : s <+: s') (ha : At s h o) : At s' h o := by
  obtain ⟨r, rfl⟩ := hp
  unfold At
  rw [List.getElem?_append_left ha.lt]
  exact ha

theorem at_append {s : OpHeap K V} {o : OpModel K V} : At (s ++ [o]) s.length o := by simp [At]

abbrev Ats (s : OpHeap K V) (hs : List Nat) (os : List (OpModel K V)) : Prop := List.Forall₂ (At s) hs os

theorem Ats.mono {s s' : OpHeap K V} {hs : List Nat} {os : List (OpModel K V)} (hp : s <+: s') (h : Ats s hs os) : Ats s' hs os :=
  List.Forall₂.imp (fun _ _ ha => At.mono hp ha) h

/-- The action returns normally, keeps every existing cell, and its result satisfies `Q`. -/
def HM.Gives {α : Type} (a : HM K V α) (s : OpHeap K V) (Q : α → OpHeap K V → Prop) : Prop :=
  ∃ x s', a s = .ok (x, s') ∧ s <+: s' ∧ Q x s'

theorem HM.bind_run {α β : Type} (a : HM K V α) (k : α → HM K V β) (s : OpHeap K V) :
    (a >>= k) s = (a s >>= fun p => k p.1 p.2) := rfl

theorem HM.Gives.bind {α β : Type} {a : HM K V α} {k : α → HM K V β} {s : OpHeap K V} {Q : α → OpHeap K V → Prop}
    {R : β → OpHeap K V → Prop} (h1 : a.Gives s Q) (h2 : ∀ x s1, s <+: s1 → Q x s1 → (k x).Gives s1 R) : (a >>= k).Gives s R := by
  obtain ⟨x, s1, e1, p1, q1⟩ := h1
  obtain ⟨y, s2, e2, p2, q2⟩ := h2 x s1 p1 q1
  refine ⟨y, s2, ?_, p1.trans p2, q2⟩
  rw [HM.bind_run, e1]
  exact e2

theorem HM.Gives.pure {α : Type} {x : α} {s : OpHeap K V} {Q : α → OpHeap K V → Prop} (h : Q x s) :
    (Pure.pure x : HM K V α).Gives s Q := ⟨x, s, rfl, List.prefix_rfl, h⟩

theorem HM.Gives.mono {α : Type} {a : HM K V α} {s : OpHeap K V} {Q R : α → OpHeap K V → Prop} (h : a.Gives s Q)
    (hq : ∀ x s', s <+: s' → Q x s' → R x s') : a.Gives s R := by
  obtain ⟨x, s1, e1, p1, q1⟩ := h
  exact ⟨x, s1, e1, p1, hq _ _ p1 q1⟩

theorem clone_run {s : OpHeap K V} {h : Nat} {o : OpModel K V} (ha : At s h o) : HM.clone h s = .ok (s.length, s ++ [o]) := by
  unfold HM.clone
  rw [HM.bind_run]
  have : (HM.deref h : HM K V _) s = .ok (o, s) := by unfold HM.deref; rw [ha]
  rw [this]
  rfl

/-- A new handle. -/
def New (s0 s : OpHeap K V) (h : Nat) : Prop := s0.length ≤ h ∧ h < s.length

theorem clone_gives {s : OpHeap K V} {h : Nat} {o : OpModel K V} (ha : At s h o) :
    (HM.clone h).Gives s (fun h' s' => At s' h' o ∧ New s s' h' ∧ s' = s ++ [o] ∧ h' = s.length) :=
  ⟨_, _, clone_run ha, List.prefix_append _ _, at_append, ⟨le_rfl, by simp⟩, rfl, rfl⟩

theorem updCoeff_run {s : OpHeap K V} {h : Nat} {o : OpModel K V} (ha : At s h o) {f : Coeff K → Res (Coeff K)} {c : Coeff K}
    (hf : f o.coeff = .ok c) : (HM.updCoeff h f : HM K V Unit) s = .ok ((), s.set h { o with coeff := c }) := by
  unfold HM.updCoeff
  rw [ha]
  simp [hf]

theorem opMul_run {s : OpHeap K V} {h : Nat} {o : OpModel K V} (ha : At s h o) {f : Coeff K → Res (Coeff K)} {c : Coeff K}
    (hf : f o.coeff = .ok c) :
    (do let rhs ← HM.clone h
        let result ← HM.clone rhs
        HM.updCoeff result f
        return result : HM K V Nat) s = .ok (s.length + 1, s ++ [o] ++ [{ o with coeff := c }]) := by
  rw [HM.bind_run, clone_run ha]
  simp only [Res.ok_bind]
  rw [HM.bind_run, clone_run at_append]
  simp only [Res.ok_bind]
  rw [HM.bind_run, updCoeff_run at_append hf]
  show Res.ok _ = _
  simp

/-- The model an operator has after a multiplication of its coefficient. -/
def OpModel.withCoeff (o : OpModel K V) (c : Coeff K) : OpModel K V := { o with coeff := c }

theorem opMul_gives {s : OpHeap K V} {h : Nat} {o : OpModel K V} (ha : At s h o) {f : Coeff K → Res (Coeff K)} {c : Coeff K}
    (hf : f o.coeff = .ok c) :
    (do let rhs ← HM.clone h
        let result ← HM.clone rhs
        HM.updCoeff result f
        return result : HM K V Nat).Gives s (fun h' s' => At s' h' (o.withCoeff c) ∧ New s s' h') := by
  refine ⟨_, _, opMul_run ha hf, ⟨[o] ++ [{ o with coeff := c }], by simp⟩, ?_, ?_⟩
  · have := at_append (s := s ++ [o]) (o := o.withCoeff c)
    simpa [OpModel.withCoeff] using this
  · constructor <;> simp

theorem opScale_gives [Mul K] {s : OpHeap K V} {h : Nat} {o : OpModel K V} (ha : At s h o) (r : K) :
    (opScale r h).Gives s (fun h' s' => At s' h' (o.withCoeff (o.coeff.mulScalar r)) ∧ New s s' h') := opMul_gives ha rfl

theorem opCoeff_gives [Mul K] {s : OpHeap K V} {h : Nat} {o : OpModel K V} (ha : At s h o) {c c' : Coeff K}
    (hc : o.coeff.mul c = .ok c') :
    (opCoeff c h).Gives s (fun h' s' => At s' h' (o.withCoeff c') ∧ New s s' h') := opMul_gives ha hc

theorem opField_gives [Mul K] [One K] {s : OpHeap K V} {h : Nat} {o : OpModel K V} (ha : At s h o) {f : List K} {c' : Coeff K}
    (hc : o.coeff.mul (Coeff.ofField f) = .ok c') :
    (opField f h).Gives s (fun h' s' => At s' h' (o.withCoeff c') ∧ New s s' h') := opMul_gives ha hc

/-- The expression's handles refer to the models `T` and `S`. -/
structure Holds (s : OpHeap K V) (e : Expr) (T S : List (OpModel K V)) : Prop where
  temporal : Ats s e.temporal T
  spatial : Ats s e.spatial S

theorem Holds.mono {s s' : OpHeap K V} {e : Expr} {T S : List (OpModel K V)} (hp : s <+: s') (h : Holds s e T S) : Holds s' e T S :=
  ⟨h.temporal.mono hp, h.spatial.mono hp⟩

/-- … and its handles are distinct and were not in use in `s0`. -/
structure Fresh (s0 s : OpHeap K V) (e : Expr) : Prop where
  new : ∀ h ∈ e.temporal ++ e.spatial, New s0 s h
  nodup : (e.temporal ++ e.spatial).Nodup

theorem New.mono {s0 s1 s s' : OpHeap K V} {h : Nat} (h0 : s0 <+: s1) (hp : s <+: s') (hn : New s1 s h) : New s0 s' h :=
  ⟨h0.length_le.trans hn.1, hn.2.trans_le hp.length_le⟩

theorem Fresh.mono {s0 s1 s s' : OpHeap K V} {e : Expr} (h0 : s0 <+: s1) (hp : s <+: s') (hf : Fresh s1 s e) : Fresh s0 s' e :=
  ⟨fun h hh => (hf.new h hh).mono h0 hp, hf.nodup⟩

theorem fresh_empty (s0 s : OpHeap K V) : Fresh s0 s Expr.empty := ⟨by simp [Expr.empty], by simp [Expr.empty]⟩
theorem holds_empty (s : OpHeap K V) : Holds s Expr.empty [] [] := ⟨List.Forall₂.nil, List.Forall₂.nil⟩

/-- Appending to the right list. -/
def addAt (k' k : OpSort) (o : OpModel K V) (l : List (OpModel K V)) : List (OpModel K V) := if k' = k then l ++ [o] else l

theorem addOperator_gives {s0 s : OpHeap K V} {e : Expr} {T S : List (OpModel K V)} {h : Nat} {o : OpModel K V} (k : OpSort)
    (hp : s0 <+: s) (hh : Holds s e T S) (hf : Fresh s0 s e) (ha : At s h o) :
    (e.addOperator k h).Gives s (fun e' s' => Holds s' e' (addAt .temporal k o T) (addAt .spatial k o S) ∧ Fresh s0 s' e') := by
  unfold Expr.addOperator
  refine (clone_gives ha).bind fun h' s' p1 ⟨a1, n1, _, e1⟩ => HM.Gives.pure ?_
  have hlt : ∀ x ∈ e.temporal ++ e.spatial, x < h' := fun x hx => by rw [e1]; exact (hf.new x hx).2
  have hh' := hh.mono p1
  have hnd := hf.nodup
  rw [List.nodup_append] at hnd
  cases k
  · refine ⟨⟨by simpa [addAt] using List.rel_append hh'.temporal (List.Forall₂.cons a1 List.Forall₂.nil), by simpa [addAt] using hh'.spatial⟩, ?_, ?_⟩
    · intro x hx
      simp only [List.mem_append, List.mem_singleton] at hx
      rcases hx with (hx | rfl) | hx
      · exact (hf.new x (by simp [hx])).mono List.prefix_rfl p1
      · exact n1.mono hp List.prefix_rfl
      · exact (hf.new x (by simp [hx])).mono List.prefix_rfl p1
    · simp only [List.nodup_append, List.nodup_cons, List.not_mem_nil, not_false_eq_true, List.nodup_nil, and_self, true_and,
        List.mem_append, List.mem_singleton]
      refine ⟨⟨hnd.1, fun a ha b hb => ?_⟩, hnd.2.1, fun a ha b hb => ?_⟩
      · rw [hb]; exact (hlt a (by simp [ha])).ne
      · rcases ha with ha | ha
        · exact hnd.2.2 a ha b hb
        · rw [ha]; exact (hlt b (by simp [hb])).ne'
  · refine ⟨⟨by simpa [addAt] using hh'.temporal, by simpa [addAt] using List.rel_append hh'.spatial (List.Forall₂.cons a1 List.Forall₂.nil)⟩, ?_, ?_⟩
    · intro x hx
      simp only [List.mem_append, List.mem_singleton] at hx
      rcases hx with hx | hx | rfl
      · exact (hf.new x (by simp [hx])).mono List.prefix_rfl p1
      · exact (hf.new x (by simp [hx])).mono List.prefix_rfl p1
      · exact n1.mono hp List.prefix_rfl
    · simp only [List.nodup_append, List.nodup_cons, List.not_mem_nil, not_false_eq_true, List.nodup_nil, and_self, true_and,
        List.mem_append, List.mem_singleton]
      refine ⟨hnd.1, ⟨hnd.2.1, fun a ha b hb => ?_⟩, fun a ha b hb => ?_⟩
      · rw [hb]; exact (hlt a (by simp [ha])).ne
      · rcases hb with hb | hb
        · exact hnd.2.2 a ha b hb
        · rw [hb]; exact (hlt a (by simp [ha])).ne

/-- A loop that adds, for each handle, an operator made from it. -/
theorem addLoop_gives (k : OpSort) (g : OpModel K V → OpModel K V) (step : Expr → Nat → HM K V Expr)
    (hstep : ∀ (s0 s : OpHeap K V) (e : Expr) (T S : List (OpModel K V)) (h : Nat) (o : OpModel K V), s0 <+: s → Holds s e T S → Fresh s0 s e →
      At s h o → (step e h).Gives s (fun e' s' => Holds s' e' (addAt .temporal k (g o) T) (addAt .spatial k (g o) S) ∧ Fresh s0 s' e')) :
    ∀ (hs : List Nat) (os : List (OpModel K V)) (s0 s : OpHeap K V) (e : Expr) (T S : List (OpModel K V)), s0 <+: s → Holds s e T S →
      Fresh s0 s e → Ats s hs os →
      (hs.foldlM step e).Gives s (fun e' s' => Holds s' e' (if k = .temporal then T ++ os.map g else T)
        (if k = .spatial then S ++ os.map g else S) ∧ Fresh s0 s' e')
  | [], os, s0, s, e, T, S, hp, hh, hf, ha => by
    cases ha
    refine HM.Gives.pure ⟨?_, hf⟩
    simpa using hh
  | h :: hs, os, s0, s, e, T, S, hp, hh, hf, ha => by
    cases ha with
    | @cons _ o _ os h1 h2 =>
    rw [List.foldlM_cons]
    refine (hstep s0 s e T S h o hp hh hf h1).bind fun e' s' p1 ⟨hh', hf'⟩ => ?_
    refine (addLoop_gives k g step hstep hs os s0 s' e' _ _ (hp.trans p1) hh' hf' (Ats.mono p1 h2)).mono fun e2 s2 _ ⟨hh2, hf2⟩ => ⟨?_, hf2⟩
    cases k <;> simpa [addAt] using hh2

theorem addExpression_gives {s0 s : OpHeap K V} {e rhs : Expr} {T S T' S' : List (OpModel K V)} (hp : s0 <+: s)
    (hh : Holds s e T S) (hf : Fresh s0 s e) (hr : Holds s rhs T' S') :
    (e.addExpression rhs).Gives s (fun e' s' => Holds s' e' (T ++ T') (S ++ S') ∧ Fresh s0 s' e') := by
  unfold Expr.addExpression
  refine (addLoop_gives .temporal id _ (fun s0 s e T S h o a b c d => addOperator_gives .temporal a b c d) rhs.temporal T' s0 s e T S hp hh hf
    hr.temporal).bind fun e1 s1 p1 ⟨h1, f1⟩ => ?_
  refine (addLoop_gives .spatial id _ (fun s0 s e T S h o a b c d => addOperator_gives .spatial a b c d) rhs.spatial S' s0 s1 e1 _ _
    (hp.trans p1) h1 f1 (hr.spatial.mono p1)).mono fun e2 s2 p2 ⟨h2, f2⟩ => ⟨?_, f2⟩
  simpa using h2

theorem clones_gives : ∀ (hs : List Nat) (os : List (OpModel K V)) (s : OpHeap K V), Ats s hs os →
    (hs.mapM HM.clone).Gives s (fun hs' s' => hs' = List.range' s.length hs.length ∧ s' = s ++ os)
  | [], os, s, h => by
    cases h
    exact ⟨[], s, rfl, List.prefix_rfl, rfl, by simp⟩
  | h :: hs, os, s, ha => by
    cases ha with
    | @cons _ o _ os h1 h2 =>
    rw [List.mapM_cons]
    refine (clone_gives h1).bind fun h' s' p1 ⟨a1, n1, e1, e2⟩ => ?_
    refine (clones_gives hs os s' (Ats.mono p1 h2)).bind fun hs' s2 p2 ⟨q1, q2⟩ => HM.Gives.pure ?_
    subst e1 e2 q1 q2
    simp [List.range'_succ]

theorem ats_range' : ∀ (os : List (OpModel K V)) (s : OpHeap K V), Ats (s ++ os) (List.range' s.length os.length) os
  | [], s => by simp
  | o :: os, s => by
    have h := ats_range' os (s ++ [o])
    simp only [List.append_assoc, List.cons_append, List.nil_append, List.length_append, List.length_cons, List.length_nil] at h
    rw [List.length_cons, List.range'_succ]
    refine List.Forall₂.cons ?_ (by simpa using h)
    simp [At]

theorem copy_gives {s : OpHeap K V} {e : Expr} {T S : List (OpModel K V)} (hh : Holds s e T S) :
    e.copy.Gives s (fun e' s' => Holds s' e' T S ∧ Fresh s s' e') := by
  unfold Expr.copy
  refine (clones_gives e.temporal T s hh.temporal).bind fun hs1 s1 p1 ⟨a1, b1⟩ => ?_
  refine (clones_gives e.spatial S s1 (hh.spatial.mono p1)).bind fun hs2 s2 p2 ⟨a2, b2⟩ => HM.Gives.pure ?_
  have lT := hh.temporal.length_eq
  have lS := hh.spatial.length_eq
  subst b1
  rw [lT] at a1
  rw [lS] at a2
  subst a1 a2 b2
  refine ⟨⟨(ats_range' T s).mono (List.prefix_append _ _), ats_range' S (s ++ T)⟩, ?_, ?_⟩
  · intro h hm
    simp only [List.mem_append, List.mem_range'_1, List.length_append] at hm
    unfold New
    simp only [List.length_append]
    omega
  · show (List.range' s.length T.length ++ List.range' (s ++ T).length S.length).Nodup
    rw [List.length_append, show List.range' s.length T.length ++ List.range' (s.length + T.length) S.length
      = List.range' s.length (T.length + S.length) from by simp]
    exact List.nodup_range'

theorem exprScale_gives [Mul K] {s : OpHeap K V} {e : Expr} {T S : List (OpModel K V)} (hh : Holds s e T S) (r : K) :
    (exprScale r e).Gives s (fun e' s' => Holds s' e' (T.map fun o => o.withCoeff (o.coeff.mulScalar r))
      (S.map fun o => o.withCoeff (o.coeff.mulScalar r)) ∧ Fresh s s' e') := by
  have step : ∀ k (s0 s : OpHeap K V) (e : Expr) (T S : List (OpModel K V)) (h : Nat) (o : OpModel K V), s0 <+: s → Holds s e T S → Fresh s0 s e →
      At s h o → (do let h' ← opScale r h; e.addOperator k h' : HM K V Expr).Gives s
        (fun e' s' => Holds s' e' (addAt .temporal k (o.withCoeff (o.coeff.mulScalar r)) T) (addAt .spatial k (o.withCoeff (o.coeff.mulScalar r)) S)
          ∧ Fresh s0 s' e') := fun k s0 s e T S h o a b c d =>
    (opScale_gives d r).bind fun h' s1 p1 ⟨a1, _⟩ => addOperator_gives k (a.trans p1) (b.mono p1) (c.mono List.prefix_rfl p1) a1
  unfold exprScale
  refine (addLoop_gives .temporal _ _ (step .temporal) e.temporal T s s Expr.empty [] [] List.prefix_rfl (holds_empty s) (fresh_empty s s)
    hh.temporal).bind fun e1 s1 p1 ⟨h1, f1⟩ => ?_
  refine (addLoop_gives .spatial _ _ (step .spatial) e.spatial S s s1 e1 _ _ p1 h1 f1 (hh.spatial.mono p1)).mono fun e2 s2 _ ⟨h2, f2⟩ => ⟨?_, f2⟩
  simpa using h2

theorem derefs_ok : ∀ {s : OpHeap K V} {hs : List Nat} {os : List (OpModel K V)}, Ats s hs os → HM.derefs hs s = .ok os
  | s, [], os, h => by cases h; rfl
  | s, h :: hs, os, ha => by
    cases ha with
    | @cons _ o _ os h1 h2 =>
    have := derefs_ok h2
    unfold HM.derefs at this ⊢
    rw [List.mapM_cons, this]
    have : rd s h = .ok o := by unfold rd; rw [h1]
    rw [this]
    rfl

end heap

section denote
variable [Field K]

/-- The operator model a multiple of an operator has, as a value. -/
def OpT.denote (s : OpHeap K V) : OpT K → Res (OpModel K V)
  | .var _ h => rd s h
  | .smul r t => do let o ← t.denote s; return o.withCoeff (o.coeff.mulScalar r)
  | .cmul c t => do let o ← t.denote s; let c' ← o.coeff.mul c; return o.withCoeff c'
  | .fmul f t => do let o ← t.denote s; let c' ← o.coeff.mul (Coeff.ofField f); return o.withCoeff c'

theorem OpT.build_gives {s : OpHeap K V} : ∀ (t : OpT K) (o : OpModel K V), t.denote s = .ok o → ∀ s1, s <+: s1 →
    t.build.Gives s1 (fun h s' => At s' h o)
  | .var k h, o, hd, s1, hp => by
    refine HM.Gives.pure ?_
    have : At s h o := rd_eq_ok_iff.1 hd
    exact this.mono hp
  | .smul r t, o, hd, s1, hp => by
    simp only [OpT.denote, Res.bind_eq_ok] at hd
    obtain ⟨o1, h1, h2⟩ := hd
    cases h2
    exact (OpT.build_gives t o1 h1 s1 hp).bind fun h s2 p2 a2 => (opScale_gives a2 r).mono fun _ _ _ hq => hq.1
  | .cmul c t, o, hd, s1, hp => by
    simp only [OpT.denote, Res.bind_eq_ok] at hd
    obtain ⟨o1, h1, c', h2, h3⟩ := hd
    cases h3
    exact (OpT.build_gives t o1 h1 s1 hp).bind fun h s2 p2 a2 => (opCoeff_gives a2 h2).mono fun _ _ _ hq => hq.1
  | .fmul f t, o, hd, s1, hp => by
    simp only [OpT.denote, Res.bind_eq_ok] at hd
    obtain ⟨o1, h1, c', h2, h3⟩ := hd
    cases h3
    exact (OpT.build_gives t o1 h1 s1 hp).bind fun h s2 p2 a2 => (opField_gives a2 h2).mono fun _ _ _ hq => hq.1

/-- The operators of one sort in the order of the vectors. -/
def OpT.only (k k' : OpSort) (o : OpModel K V) : List (OpModel K V) := if k' = k then [o] else []

/-- The operator models of sort `k` of a composition, as values. -/
def ExT.denote (s : OpHeap K V) (k : OpSort) : ExT K → Res (List (OpModel K V))
  | .obj e => HM.derefs (match k with | .temporal => e.temporal | .spatial => e.spatial) s
  | .one a => do let x ← a.denote s; return OpT.only k a.sort x
  | .addOO a b => do let x ← a.denote s; let y ← b.denote s; return OpT.only k a.sort x ++ OpT.only k b.sort y
  | .subOO a b => do
    let x ← a.denote s; let y ← b.denote s; let c ← y.coeff.mul (Coeff.ofScalar (-1))
    return OpT.only k a.sort x ++ OpT.only k b.sort (y.withCoeff c)
  | .addEE x y => do let l ← x.denote s k; let r ← y.denote s k; return l ++ r
  | .subEE x y => do
    let l ← x.denote s k; let r ← y.denote s k; return l ++ r.map fun o => o.withCoeff (o.coeff.mulScalar (-1))
  | .addEO x b _ => do let l ← x.denote s k; let y ← b.denote s; return l ++ OpT.only k .spatial y
  | .subEO x b _ => do
    let l ← x.denote s k; let y ← b.denote s; return l ++ OpT.only k .spatial (y.withCoeff (y.coeff.mulScalar (-1)))
  | .smul r x => do let l ← x.denote s k; return l.map fun o => o.withCoeff (o.coeff.mulScalar r)

theorem ats_of_derefs : ∀ {s : OpHeap K V} {hs : List Nat} {os : List (OpModel K V)}, HM.derefs hs s = .ok os → Ats s hs os
  | s, [], os, h => by cases h; exact List.Forall₂.nil
  | s, h :: hs, os, hd => by
    unfold HM.derefs at hd
    rw [List.mapM_cons, Res.bind_eq_ok] at hd
    obtain ⟨o, h1, h2⟩ := hd
    rw [Res.bind_eq_ok] at h2
    obtain ⟨os', h3, h4⟩ := h2
    cases h4
    exact List.Forall₂.cons (rd_eq_ok_iff.1 h1) (ats_of_derefs h3)

theorem only_addAt (k k' : OpSort) (o : OpModel K V) (l : List (OpModel K V)) : addAt k k' o l = l ++ OpT.only k k' o := by
  cases k <;> cases k' <;> simp [addAt, OpT.only]

theorem ExT.build_gives {s : OpHeap K V} : ∀ (t : ExT K) (T S : List (OpModel K V)), t.denote s .temporal = .ok T →
    t.denote s .spatial = .ok S → ∀ s1, s <+: s1 →
    t.build.Gives s1 (fun e s' => Holds s' e T S ∧ (t.isVar = false → Fresh s1 s' e))
  | .obj e, T, S, hT, hS, s1, hp =>
    HM.Gives.pure ⟨⟨(ats_of_derefs hT).mono hp, (ats_of_derefs hS).mono hp⟩, fun h => by simp [ExT.isVar] at h⟩
  | .one a, T, S, hT, hS, s1, hp => by
    simp only [ExT.denote, Res.bind_eq_ok] at hT hS
    obtain ⟨o, ho, h1⟩ := hT
    obtain ⟨o', ho', h2⟩ := hS
    rw [ho] at ho'; cases ho'; cases h1; cases h2
    refine (OpT.build_gives a o ho s1 hp).bind fun h s2 p2 a2 => ?_
    refine (addOperator_gives a.sort p2 (holds_empty s2) (fresh_empty s1 s2) a2).mono fun e s3 _ ⟨h3, f3⟩ => ⟨?_, fun _ => f3⟩
    simpa [only_addAt] using h3
  | .addOO a b, T, S, hT, hS, s1, hp => by
    simp only [ExT.denote, Res.bind_eq_ok] at hT hS
    obtain ⟨x, hx, y, hy, h1⟩ := hT
    obtain ⟨x', hx', y', hy', h2⟩ := hS
    rw [hx] at hx'; cases hx'; rw [hy] at hy'; cases hy'; cases h1; cases h2
    refine (OpT.build_gives a x hx s1 hp).bind fun ha s2 p2 a2 => (OpT.build_gives b y hy s2 (hp.trans p2)).bind fun hb s3 p3 a3 => ?_
    unfold opsAdd
    refine (clone_gives (a2.mono p3)).bind fun l s4 p4 ⟨al, _⟩ => (clone_gives (a3.mono p4)).bind fun r s5 p5 ⟨ar, _⟩ => ?_
    refine (addOperator_gives (s0 := s1) a.sort (p2.trans (p3.trans (p4.trans p5))) (holds_empty s5) (fresh_empty s1 s5) (al.mono p5)).bind fun e6 s6 p6 ⟨h6, f6⟩ => ?_
    refine (addOperator_gives b.sort (p2.trans (p3.trans (p4.trans (p5.trans p6)))) h6 f6 (ar.mono p6)).mono fun e7 s7 _ ⟨h7, f7⟩ => ⟨?_, fun _ => f7⟩
    simpa [only_addAt] using h7
  | .subOO a b, T, S, hT, hS, s1, hp => by
    simp only [ExT.denote, Res.bind_eq_ok] at hT hS
    obtain ⟨x, hx, y, hy, c, hc, h1⟩ := hT
    obtain ⟨x', hx', y', hy', c', hc', h2⟩ := hS
    rw [hx] at hx'; cases hx'; rw [hy] at hy'; cases hy'; rw [hc] at hc'; cases hc'; cases h1; cases h2
    refine (OpT.build_gives a x hx s1 hp).bind fun ha s2 p2 a2 => (OpT.build_gives b y hy s2 (hp.trans p2)).bind fun hb s3 p3 a3 => ?_
    unfold opsSub
    refine (clone_gives (a2.mono p3)).bind fun l s4 p4 ⟨al, _⟩ => (clone_gives (a3.mono p4)).bind fun r s5 p5 ⟨ar, _⟩ => ?_
    refine (addOperator_gives (s0 := s1) a.sort (p2.trans (p3.trans (p4.trans p5))) (holds_empty s5) (fresh_empty s1 s5) (al.mono p5)).bind fun e6 s6 p6 ⟨h6, f6⟩ => ?_
    refine (opCoeff_gives (ar.mono p6) hc).bind fun r7 s7 p7 ⟨a7, _⟩ => ?_
    refine (addOperator_gives b.sort (p2.trans (p3.trans (p4.trans (p5.trans (p6.trans p7))))) (h6.mono p7) (f6.mono List.prefix_rfl p7) a7).mono
      fun e8 s8 _ ⟨h8, f8⟩ => ⟨?_, fun _ => f8⟩
    simpa [only_addAt] using h8
  | .addEE x y, T, S, hT, hS, s1, hp => by
    simp only [ExT.denote, Res.bind_eq_ok] at hT hS
    obtain ⟨Tx, hTx, Ty, hTy, h1⟩ := hT
    obtain ⟨Sx, hSx, Sy, hSy, h2⟩ := hS
    cases h1; cases h2
    refine (ExT.build_gives x Tx Sx hTx hSx s1 hp).bind fun l s2 p2 ⟨a2, _⟩ => (ExT.build_gives y Ty Sy hTy hSy s2 (hp.trans p2)).bind fun r s3 p3 ⟨a3, _⟩ => ?_
    unfold exprAdd
    refine (copy_gives (a2.mono p3)).bind fun c s4 p4 ⟨a4, f4⟩ => ?_
    exact (addExpression_gives (s0 := s1) (p2.trans (p3.trans p4)) a4 (f4.mono (p2.trans p3) List.prefix_rfl) (a3.mono p4)).mono
      fun e5 s5 _ ⟨h5, f5⟩ => ⟨h5, fun _ => f5⟩
  | .subEE x y, T, S, hT, hS, s1, hp => by
    simp only [ExT.denote, Res.bind_eq_ok] at hT hS
    obtain ⟨Tx, hTx, Ty, hTy, h1⟩ := hT
    obtain ⟨Sx, hSx, Sy, hSy, h2⟩ := hS
    cases h1; cases h2
    refine (ExT.build_gives x Tx Sx hTx hSx s1 hp).bind fun l s2 p2 ⟨a2, _⟩ => (ExT.build_gives y Ty Sy hTy hSy s2 (hp.trans p2)).bind fun r s3 p3 ⟨a3, _⟩ => ?_
    unfold exprSub
    refine (copy_gives (a2.mono p3)).bind fun c s4 p4 ⟨a4, f4⟩ => (exprScale_gives (a3.mono p4) (-1)).bind fun q s5 p5 ⟨a5, f5⟩ => ?_
    exact (addExpression_gives (s0 := s1) (p2.trans (p3.trans (p4.trans p5))) (a4.mono p5) (f4.mono (p2.trans p3) p5) a5).mono
      fun e5 s5 _ ⟨h5, f5⟩ => ⟨h5, fun _ => f5⟩
  | .addEO x b hb, T, S, hT, hS, s1, hp => by
    simp only [ExT.denote, Res.bind_eq_ok] at hT hS
    obtain ⟨Tx, hTx, y, hy, h1⟩ := hT
    obtain ⟨Sx, hSx, y', hy', h2⟩ := hS
    rw [hy] at hy'; cases hy'; cases h1; cases h2
    refine (ExT.build_gives x Tx Sx hTx hSx s1 hp).bind fun l s2 p2 ⟨a2, _⟩ => (OpT.build_gives b y hy s2 (hp.trans p2)).bind fun r s3 p3 a3 => ?_
    unfold exprAddOp
    refine (copy_gives (a2.mono p3)).bind fun c s4 p4 ⟨a4, f4⟩ => ?_
    refine (addOperator_gives (s0 := s1) .spatial (p2.trans (p3.trans p4)) a4 (f4.mono (p2.trans p3) List.prefix_rfl) (a3.mono p4)).mono
      fun e5 s5 _ ⟨h5, f5⟩ => ⟨?_, fun _ => f5⟩
    simpa [only_addAt] using h5
  | .subEO x b hb, T, S, hT, hS, s1, hp => by
    simp only [ExT.denote, Res.bind_eq_ok] at hT hS
    obtain ⟨Tx, hTx, y, hy, h1⟩ := hT
    obtain ⟨Sx, hSx, y', hy', h2⟩ := hS
    rw [hy] at hy'; cases hy'; cases h1; cases h2
    refine (ExT.build_gives x Tx Sx hTx hSx s1 hp).bind fun l s2 p2 ⟨a2, _⟩ => (OpT.build_gives b y hy s2 (hp.trans p2)).bind fun r s3 p3 a3 => ?_
    unfold exprSubOp
    refine (copy_gives (a2.mono p3)).bind fun c s4 p4 ⟨a4, f4⟩ => (opScale_gives (a3.mono p4) (-1)).bind fun q s5 p5 ⟨a5, _⟩ => ?_
    refine (addOperator_gives (s0 := s1) .spatial (p2.trans (p3.trans (p4.trans p5))) (a4.mono p5) (f4.mono (p2.trans p3) p5) a5).mono
      fun e5 s5 _ ⟨h5, f5⟩ => ⟨?_, fun _ => f5⟩
    simpa [only_addAt] using h5
  | .smul r x, T, S, hT, hS, s1, hp => by
    simp only [ExT.denote, Res.bind_eq_ok] at hT hS
    obtain ⟨Tx, hTx, h1⟩ := hT
    obtain ⟨Sx, hSx, h2⟩ := hS
    cases h1; cases h2
    refine (ExT.build_gives x Tx Sx hTx hSx s1 hp).bind fun l s2 p2 ⟨a2, _⟩ => ?_
    exact (exprScale_gives a2 r).mono fun e5 s5 _ ⟨h5, f5⟩ => ⟨h5, fun _ => f5.mono p2 List.prefix_rfl⟩

end denote

section values
variable [Field K] [AddCommGroup V] [Module K V] {ι W : Type} [AddCommGroup W] [Module K W]

/-- Evaluating the operator satisfies `P` with values proportional to its coefficient, whatever the coefficient. -/
def ScalesWith (n : Nat) (loc : ι → Nat) (P : OpModel K V → (ι → W) → Prop) (o : OpModel K V) (val : ι → W) : Prop :=
  ∃ (v : Nat → K) (base : ι → W), o.coeff.On n v ∧ (∀ i, val i = v (loc i) • base i) ∧
    ∀ (c : Coeff K) (v' : Nat → K), c.On n v' → P { o with coeff := c } (fun i => v' (loc i) • base i)

theorem ScalesWith.holds {n : Nat} {loc : ι → Nat} {P : OpModel K V → (ι → W) → Prop} {o : OpModel K V} {val : ι → W}
    (h : ScalesWith n loc P o val) : P o val := by
  obtain ⟨v, b, h1, h2, h3⟩ := h
  have := h3 _ v h1
  rwa [show (fun i => v (loc i) • b i) = val from funext fun i => (h2 i).symm] at this

theorem coeff_on_mulScalar {n : Nat} {c : Coeff K} {v : Nat → K} (h : c.On n v) (r : K) :
    (c.mulScalar r).On n (fun i => r * v i) := by
  intro i hi
  have := h i hi
  unfold Coeff.get at this ⊢
  unfold Coeff.mulScalar
  cases hv : c.hasView <;> simp only [hv, Bool.false_eq_true, if_false, if_true] at this ⊢
  · simp only [Res.ok.injEq] at this ⊢
    rw [this, mul_comm]
  · rw [Res.bind_eq_ok] at this ⊢
    obtain ⟨x, h1, h2⟩ := this
    refine ⟨x, h1, ?_⟩
    simp only [Res.pure_eq, Res.ok.injEq] at h2 ⊢
    rw [← h2]; ring

theorem ScalesWith.mulScalar {n : Nat} {loc : ι → Nat} {P : OpModel K V → (ι → W) → Prop} {o : OpModel K V} {val : ι → W}
    (h : ScalesWith n loc P o val) (r : K) : ScalesWith n loc P (o.withCoeff (o.coeff.mulScalar r)) (fun i => r • val i) := by
  obtain ⟨v, b, h1, h2, h3⟩ := h
  refine ⟨fun i => r * v i, b, coeff_on_mulScalar h1 r, fun i => ?_, fun c v' hc => h3 c v' hc⟩
  simp only [h2, mul_smul]

theorem coeff_mul_ok {n : Nat} {c d : Coeff K} {v : Nat → K} (h : c.On n v)
    (hd : d.hasView = true → c.hasView = false ∧ n ≤ d.view.length) :
    ∃ c', c.mul d = .ok c' ∧ c'.hasView = (d.hasView || c.hasView) ∧ c'.On n (fun i => d.value i * v i) := by
  unfold Coeff.mul
  cases hdv : d.hasView
  · refine ⟨c.mulScalar d.coeff, by simp, by simp [Coeff.mulScalar], ?_⟩
    simpa [Coeff.value, hdv] using coeff_on_mulScalar h d.coeff
  · obtain ⟨hcv, hlen⟩ := hd hdv
    refine ⟨({ c with view := d.view, hasView := true } : Coeff K).mulScalar d.coeff, by simp [hcv], by simp [Coeff.mulScalar], ?_⟩
    intro i hi
    have h1 := h i hi
    have r1 : rd d.view i = .ok (d.view.getD i 0) := rd_getD 0 (by omega)
    simp only [Coeff.get, hcv, Bool.false_eq_true, if_false, Res.ok.injEq] at h1
    simp only [Coeff.get, Coeff.mulScalar, if_true, r1, Res.ok_bind, Res.pure_eq, Coeff.value, hdv, ← h1]
    congr 1
    ring

theorem ScalesWith.mul {n : Nat} {loc : ι → Nat} {P : OpModel K V → (ι → W) → Prop} {o : OpModel K V} {val : ι → W}
    (h : ScalesWith n loc P o val) {d : Coeff K} (hd : d.hasView = true → o.coeff.hasView = false ∧ n ≤ d.view.length) :
    ∃ c', o.coeff.mul d = .ok c' ∧ c'.hasView = (d.hasView || o.coeff.hasView) ∧
      ScalesWith n loc P (o.withCoeff c') (fun i => d.value (loc i) • val i) := by
  obtain ⟨v, b, h1, h2, h3⟩ := h
  obtain ⟨c', e1, e2, e3⟩ := coeff_mul_ok h1 hd
  refine ⟨c', e1, e2, fun i => d.value i * v i, b, e3, fun i => ?_, fun c v' hc => h3 c v' hc⟩
  simp only [h2, mul_smul]

omit [AddCommGroup V] [Module K V] in
/-- The multiplications succeed. -/
theorem OpT.denote_ok {s : OpHeap K V} {n : Nat} : ∀ t : OpT K, t.leaf < s.length → t.FieldsOK s n →
    ∃ o, t.denote s = .ok o ∧ o.coeff.hasView = t.hasField s
  | .var k h, hl, _ => by
    obtain ⟨o, ho⟩ : ∃ o, s[h]? = some o := ⟨_, List.getElem?_eq_getElem (show h < s.length from hl)⟩
    exact ⟨o, rd_eq_ok_iff.2 ho, by simp [OpT.hasField, ho]⟩
  | .smul r t, hl, hf => by
    obtain ⟨o, h1, h2⟩ := OpT.denote_ok t hl hf
    exact ⟨o.withCoeff (o.coeff.mulScalar r), by simp [OpT.denote, h1], h2⟩
  | .cmul c t, hl, hf => by
    obtain ⟨o, h1, h2⟩ := OpT.denote_ok t hl hf.1
    have hv := hf.2
    cases hcv : c.hasView
    · refine ⟨o.withCoeff (o.coeff.mulScalar c.coeff), by simp [OpT.denote, h1, Coeff.mul, hcv], ?_⟩
      simpa [OpT.hasField, hcv, OpModel.withCoeff, Coeff.mulScalar] using h2
    · rw [(hv hcv).1] at h2
      refine ⟨o.withCoeff (Coeff.mulScalar { o.coeff with view := c.view, hasView := true } c.coeff), by simp [OpT.denote, h1, Coeff.mul, hcv, h2], ?_⟩
      simp [OpT.hasField, hcv, OpModel.withCoeff, Coeff.mulScalar]
  | .fmul f t, hl, hf => by
    obtain ⟨o, h1, h2⟩ := OpT.denote_ok t hl hf.1
    rw [hf.2.1] at h2
    refine ⟨o.withCoeff (Coeff.mulScalar { o.coeff with view := f, hasView := true } 1), by simp [OpT.denote, h1, Coeff.mul, Coeff.ofField, h2], ?_⟩
    simp [OpT.hasField, OpModel.withCoeff, Coeff.mulScalar]

theorem OpT.denote_scales {s : OpHeap K V} {n : Nat} {loc : ι → Nat} {P : OpModel K V → (ι → W) → Prop} {val : Nat → ι → W} :
    ∀ (t : OpT K), (∃ o, s[t.leaf]? = some o ∧ ScalesWith n loc P o (val t.leaf)) → t.FieldsOK s n →
    ∀ o, t.denote s = .ok o → o.coeff.hasView = t.hasField s ∧ ScalesWith n loc P o (t.value loc val)
  | .var k h, ⟨o', h1, h2⟩, _, o, hd => by
    have h1 : s[h]? = some o' := h1
    have : s[h]? = some o := rd_eq_ok_iff.1 hd
    rw [h1] at this; cases this
    exact ⟨by simp [OpT.hasField, h1], h2⟩
  | .smul r t, hl, hf, o, hd => by
    simp only [OpT.denote, Res.bind_eq_ok] at hd
    obtain ⟨o1, h1, h2⟩ := hd
    cases h2
    obtain ⟨a, b⟩ := OpT.denote_scales t hl hf o1 h1
    exact ⟨a, b.mulScalar r⟩
  | .cmul c t, hl, hf, o, hd => by
    simp only [OpT.denote, Res.bind_eq_ok] at hd
    obtain ⟨o1, h1, c', h2, h3⟩ := hd
    cases h3
    obtain ⟨a, b⟩ := OpT.denote_scales t hl hf.1 o1 h1
    obtain ⟨c2, e1, e2, e3⟩ := b.mul (d := c) (fun hc => by rw [a]; exact hf.2 hc)
    rw [h2] at e1; cases e1
    exact ⟨by rw [OpModel.withCoeff, e2, a]; rfl, e3⟩
  | .fmul f t, hl, hf, o, hd => by
    simp only [OpT.denote, Res.bind_eq_ok] at hd
    obtain ⟨o1, h1, c', h2, h3⟩ := hd
    cases h3
    obtain ⟨a, b⟩ := OpT.denote_scales t hl hf.1 o1 h1
    obtain ⟨c2, e1, e2, e3⟩ := b.mul (d := Coeff.ofField f) (fun _ => by rw [a]; exact hf.2)
    rw [h2] at e1; cases e1
    refine ⟨by rw [OpModel.withCoeff, e2, a]; simp [Coeff.ofField, OpT.hasField], ?_⟩
    have : (fun i => (Coeff.ofField f).value (loc i) • t.value loc val i) = (OpT.fmul f t).value loc val := by
      funext i
      simp [Coeff.value, Coeff.ofField, OpT.value]
    rwa [this] at e3

/-- Operators whose contributions sum to `total`. -/
def SumsTo (n : Nat) (loc : ι → Nat) (P : OpModel K V → (ι → W) → Prop) (os : List (OpModel K V)) (total : ι → W) : Prop :=
  ∃ vals : List (ι → W), List.Forall₂ (ScalesWith n loc P) os vals ∧ ∀ i, total i = (vals.map fun v => v i).sum

theorem SumsTo.nil {n : Nat} {loc : ι → Nat} {P : OpModel K V → (ι → W) → Prop} : SumsTo n loc P [] (fun _ => 0) :=
  ⟨[], List.Forall₂.nil, fun _ => rfl⟩

theorem SumsTo.single {n : Nat} {loc : ι → Nat} {P : OpModel K V → (ι → W) → Prop} {o : OpModel K V} {v : ι → W}
    (h : ScalesWith n loc P o v) : SumsTo n loc P [o] v := ⟨[v], List.Forall₂.cons h List.Forall₂.nil, fun _ => by simp⟩

theorem SumsTo.append {n : Nat} {loc : ι → Nat} {P : OpModel K V → (ι → W) → Prop} {a b : List (OpModel K V)} {u v : ι → W}
    (h1 : SumsTo n loc P a u) (h2 : SumsTo n loc P b v) : SumsTo n loc P (a ++ b) (fun i => u i + v i) := by
  obtain ⟨x, a1, a2⟩ := h1
  obtain ⟨y, b1, b2⟩ := h2
  exact ⟨x ++ y, List.rel_append a1 b1, fun i => by simp [a2, b2]⟩

theorem SumsTo.scale {n : Nat} {loc : ι → Nat} {P : OpModel K V → (ι → W) → Prop} {a : List (OpModel K V)} {u : ι → W}
    (h1 : SumsTo n loc P a u) (r : K) : SumsTo n loc P (a.map fun o => o.withCoeff (o.coeff.mulScalar r)) (fun i => r • u i) := by
  obtain ⟨x, a1, a2⟩ := h1
  refine ⟨x.map fun v => fun i => r • v i, ?_, fun i => ?_⟩
  · rw [List.forall₂_map_left_iff, List.forall₂_map_right_iff]
    exact a1.imp fun o v h => h.mulScalar r
  · simp only [a2, List.smul_sum]
    simp [Function.comp_def]

theorem SumsTo.congr {n : Nat} {loc : ι → Nat} {P : OpModel K V → (ι → W) → Prop} {a : List (OpModel K V)} {u v : ι → W}
    (h : SumsTo n loc P a u) (he : ∀ i, u i = v i) : SumsTo n loc P a v := by
  rw [← funext he]; exact h

theorem SumsTo.only {n : Nat} {loc : ι → Nat} {P : OpModel K V → (ι → W) → Prop} {o : OpModel K V} {v : ι → W} (k k' : OpSort)
    (h : k' = k → ScalesWith n loc P o v) : SumsTo n loc P (OpT.only k k' o) (fun i => if k' = k then v i else 0) := by
  unfold OpT.only
  by_cases hk : k' = k
  · simpa [hk] using SumsTo.single (h hk)
  · simpa [hk] using SumsTo.nil

theorem SumsTo.ats {n : Nat} {loc : ι → Nat} {P : OpModel K V → (ι → W) → Prop} {val : Nat → ι → W} {s : OpHeap K V} :
    ∀ {hs : List Nat} {os : List (OpModel K V)}, Ats s hs os →
      (∀ h ∈ hs, ∃ o, s[h]? = some o ∧ ScalesWith n loc P o (val h)) → SumsTo n loc P os (fun i => (hs.map fun h => val h i).sum)
  | [], os, ha, _ => by cases ha; exact SumsTo.nil
  | h :: hs, os, ha, hl => by
    cases ha with
    | @cons _ o _ os h1 h2 =>
    obtain ⟨o', e1, e2⟩ := hl h (by simp)
    have h1 : s[h]? = some o := h1
    rw [h1] at e1; cases e1
    simpa using (SumsTo.single e2).append (SumsTo.ats h2 fun h hm => hl h (by simp [hm]))

omit [AddCommGroup V] [Module K V] in
theorem ExT.denote_ok {s : OpHeap K V} {n : Nat} (k : OpSort) : ∀ t : ExT K, (∀ k, ∀ h ∈ t.leaves k, h < s.length) → t.FieldsOK s n →
    ∃ os, t.denote s k = .ok os := by
  have opl : ∀ (a : OpT K) (L : OpSort → List Nat), (∀ k, ∀ h ∈ L k, h < s.length) → (∀ k, a.sort = k → a.leaf ∈ L k) →
      a.FieldsOK s n → ∃ o, a.denote s = .ok o := fun a L h1 h2 h3 => by
    obtain ⟨o, ho, _⟩ := OpT.denote_ok a (h1 a.sort _ (h2 _ rfl)) h3
    exact ⟨o, ho⟩
  intro t
  induction t with
  | obj e =>
    intro hl _
    have : ∀ hs : List Nat, (∀ h ∈ hs, h < s.length) → ∃ os, HM.derefs hs s = .ok os := by
      intro hs
      induction hs with
      | nil => intro _; exact ⟨[], rfl⟩
      | cons h hs ih =>
        intro hh
        obtain ⟨os, e1⟩ := ih fun x hx => hh x (by simp [hx])
        unfold HM.derefs at e1 ⊢
        rw [List.mapM_cons, e1, rd_ok (hh h (by simp))]
        exact ⟨_, rfl⟩
    exact this _ (hl k)
  | one a =>
    intro hl hf
    obtain ⟨o, ho⟩ := opl a _ hl (fun k hk => by simp [ExT.leaves, hk]) hf
    exact ⟨_, by simp only [ExT.denote, ho]; rfl⟩
  | addOO a b =>
    intro hl hf
    obtain ⟨o, ho⟩ := opl a _ hl (fun k hk => by simp [ExT.leaves, hk]) hf.1
    obtain ⟨o', ho'⟩ := opl b _ hl (fun k hk => by simp [ExT.leaves, hk]) hf.2
    exact ⟨_, by simp only [ExT.denote, ho, ho']; rfl⟩
  | subOO a b =>
    intro hl hf
    obtain ⟨o, ho⟩ := opl a _ hl (fun k hk => by simp [ExT.leaves, hk]) hf.1
    obtain ⟨o', ho'⟩ := opl b _ hl (fun k hk => by simp [ExT.leaves, hk]) hf.2
    have : ∃ c, o'.coeff.mul (Coeff.ofScalar (-1)) = .ok c := ⟨_, by simp [Coeff.mul, Coeff.ofScalar]; rfl⟩
    obtain ⟨c, hc⟩ := this
    exact ⟨_, by simp only [ExT.denote, ho, ho', Res.ok_bind, hc]; rfl⟩
  | addEE x y ihx ihy =>
    intro hl hf
    obtain ⟨a, ha⟩ := ihx (fun k h hm => hl k h (by simp [ExT.leaves, hm])) hf.1
    obtain ⟨b, hb⟩ := ihy (fun k h hm => hl k h (by simp [ExT.leaves, hm])) hf.2
    exact ⟨_, by simp only [ExT.denote, ha, hb]; rfl⟩
  | subEE x y ihx ihy =>
    intro hl hf
    obtain ⟨a, ha⟩ := ihx (fun k h hm => hl k h (by simp [ExT.leaves, hm])) hf.1
    obtain ⟨b, hb⟩ := ihy (fun k h hm => hl k h (by simp [ExT.leaves, hm])) hf.2
    exact ⟨_, by simp only [ExT.denote, ha, hb]; rfl⟩
  | addEO x b hb ihx =>
    intro hl hf
    obtain ⟨a, ha⟩ := ihx (fun k h hm => hl k h (by simp [ExT.leaves, hm])) hf.1
    obtain ⟨o, ho⟩ := opl b _ hl (fun k hk => by simp [ExT.leaves, hk]) hf.2
    exact ⟨_, by simp only [ExT.denote, ha, ho]; rfl⟩
  | subEO x b hb ihx =>
    intro hl hf
    obtain ⟨a, ha⟩ := ihx (fun k h hm => hl k h (by simp [ExT.leaves, hm])) hf.1
    obtain ⟨o, ho⟩ := opl b _ hl (fun k hk => by simp [ExT.leaves, hk]) hf.2
    exact ⟨_, by simp only [ExT.denote, ha, ho]; rfl⟩
  | smul r x ihx =>
    intro hl hf
    obtain ⟨a, ha⟩ := ihx hl hf
    exact ⟨_, by simp only [ExT.denote, ha]; rfl⟩

theorem ExT.denote_sums {s : OpHeap K V} {n : Nat} {loc : ι → Nat} {P : OpModel K V → (ι → W) → Prop} {val : Nat → ι → W} (k : OpSort) :
    ∀ (t : ExT K), (∀ h ∈ t.leaves k, ∃ o, s[h]? = some o ∧ ScalesWith n loc P o (val h)) → t.FieldsOK s n →
    ∀ os, t.denote s k = .ok os → SumsTo n loc P os (t.value k loc val) := by
  have opl : ∀ (a : OpT K) (L : List Nat), (∀ h ∈ L, ∃ o, s[h]? = some o ∧ ScalesWith n loc P o (val h)) → (a.sort = k → a.leaf ∈ L) →
      a.FieldsOK s n → ∀ o, a.denote s = .ok o → a.sort = k → ScalesWith n loc P o (a.value loc val) := fun a L h1 h2 h3 o ho hk =>
    (OpT.denote_scales a (h1 _ (h2 hk)) h3 o ho).2
  intro t
  induction t with
  | obj e =>
    intro hl _ os hd
    exact SumsTo.ats (ats_of_derefs hd) hl
  | one a =>
    intro hl hf os hd
    simp only [ExT.denote, Res.bind_eq_ok] at hd
    obtain ⟨o, ho, h1⟩ := hd
    cases h1
    exact SumsTo.only k a.sort (opl a _ hl (fun hk => by simp [ExT.leaves, hk]) hf o ho)
  | addOO a b =>
    intro hl hf os hd
    simp only [ExT.denote, Res.bind_eq_ok] at hd
    obtain ⟨x, hx, y, hy, h1⟩ := hd
    cases h1
    exact (SumsTo.only k a.sort (opl a _ hl (fun hk => by simp [ExT.leaves, hk]) hf.1 x hx)).append
      (SumsTo.only k b.sort (opl b _ hl (fun hk => by simp [ExT.leaves, hk]) hf.2 y hy))
  | subOO a b =>
    intro hl hf os hd
    simp only [ExT.denote, Res.bind_eq_ok] at hd
    obtain ⟨x, hx, y, hy, c, hc, h1⟩ := hd
    cases h1
    refine ((SumsTo.only k a.sort (opl a _ hl (fun hk => by simp [ExT.leaves, hk]) hf.1 x hx)).append
      (SumsTo.only (v := fun i => -(b.value loc val i)) k b.sort fun hk => ?_)).congr fun i => ?_
    · obtain ⟨c', e1, _, e3⟩ := (opl b _ hl (fun hk => by simp [ExT.leaves, hk]) hf.2 y hy hk).mul (d := Coeff.ofScalar (-1))
        (by simp [Coeff.ofScalar])
      rw [hc] at e1; cases e1
      simpa [Coeff.value, Coeff.ofScalar] using e3
    · simp only [ExT.value, OpT.valueOf]
      split <;> split <;> simp [sub_eq_add_neg]
  | addEE x y ihx ihy =>
    intro hl hf os hd
    simp only [ExT.denote, Res.bind_eq_ok] at hd
    obtain ⟨a, ha, b, hb, h1⟩ := hd
    cases h1
    exact (ihx (fun h hm => hl h (by simp [ExT.leaves, hm])) hf.1 a ha).append (ihy (fun h hm => hl h (by simp [ExT.leaves, hm])) hf.2 b hb)
  | subEE x y ihx ihy =>
    intro hl hf os hd
    simp only [ExT.denote, Res.bind_eq_ok] at hd
    obtain ⟨a, ha, b, hb, h1⟩ := hd
    cases h1
    refine ((ihx (fun h hm => hl h (by simp [ExT.leaves, hm])) hf.1 a ha).append
      ((ihy (fun h hm => hl h (by simp [ExT.leaves, hm])) hf.2 b hb).scale (-1))).congr fun i => ?_
    simp [ExT.value, sub_eq_add_neg]
  | addEO x b hb ihx =>
    intro hl hf os hd
    simp only [ExT.denote, Res.bind_eq_ok] at hd
    obtain ⟨a, ha, y, hy, h1⟩ := hd
    cases h1
    refine ((ihx (fun h hm => hl h (by simp [ExT.leaves, hm])) hf.1 a ha).append
      (SumsTo.only k .spatial fun hk => opl b _ hl (fun hk => by simp [ExT.leaves, hk]) hf.2 y hy (hb.trans hk))).congr fun i => ?_
    simp [ExT.value, OpT.valueOf, hb]
  | subEO x b hb ihx =>
    intro hl hf os hd
    simp only [ExT.denote, Res.bind_eq_ok] at hd
    obtain ⟨a, ha, y, hy, h1⟩ := hd
    cases h1
    refine ((ihx (fun h hm => hl h (by simp [ExT.leaves, hm])) hf.1 a ha).append
      (SumsTo.only k .spatial fun hk => (opl b _ hl (fun hk => by simp [ExT.leaves, hk]) hf.2 y hy (hb.trans hk)).mulScalar (-1))).congr fun i => ?_
    simp only [ExT.value, OpT.valueOf, hb]
    split <;> simp [sub_eq_add_neg]
  | smul r x ihx =>
    intro hl hf os hd
    simp only [ExT.denote, Res.bind_eq_ok] at hd
    obtain ⟨a, ha, h1⟩ := hd
    cases h1
    exact (ihx hl hf a ha).scale r

end values
end NeoFOAM
