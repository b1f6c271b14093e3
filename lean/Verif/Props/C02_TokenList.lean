import Verif.Spec.Maps

/-!
# C02 – TokenList is read in order; a failed typed read consumes nothing
-/
namespace NeoFOAM
open Spec

/-- **C02 (failed reads).** A `next` or `popFront` that throws leaves the list as it was, so the
following correctly typed call gets the same token; one that returns delivers the token at the read
position, respectively the first token. -/
theorem C02_failed_read_consumes_nothing (t : Tokens) (ty : Ty) :
    (∀ t', (t.apply (.next ty)) = (t', none) → t' = t) ∧
    (∀ t', (t.apply (.popFront ty)) = (t', none) → t' = t) ∧
    (∀ t' a, (t.apply (.next ty)) = (t', some a) →
      t.data[t.next]? = some a ∧ a.ty = ty ∧ t'.data = t.data ∧ t'.next = t.next + 1) ∧
    (∀ t' a, (t.apply (.popFront ty)) = (t', some a) →
      a.ty = ty ∧ t.data = a :: t'.data ∧ t'.next = t.next) := by
  refine ⟨?_, ?_, ?_, ?_⟩
  · intro t' h
    simp only [Tokens.apply] at h
    split at h <;> simp_all
  · intro t' h
    simp only [Tokens.apply] at h
    split at h <;> simp_all
  · intro t' a h
    simp only [Tokens.apply] at h
    split at h
    · rename_i a' t1 h1
      simp only [Tokens.nextTok, Tokens.get, Res.bind_eq_ok] at h1
      obtain ⟨b, hb, hb2⟩ := h1
      cases hd : t.data[t.next]? with
      | none => simp [hd] at hb
      | some c =>
        simp only [hd, anyCast] at hb
        split at hb <;> simp_all
        obtain ⟨rfl, rfl⟩ := h
        obtain ⟨rfl, rfl⟩ := hb2
        simp_all
    · simp at h
  · intro t' a h
    simp only [Tokens.apply] at h
    split at h
    · rename_i a' t1 h1
      simp only [Tokens.popFront, Tokens.get, Res.bind_eq_ok] at h1
      obtain ⟨b, hb, hb2⟩ := h1
      cases hd : t.data with
      | nil => simp [hd] at hb
      | cons c r =>
        simp only [hd, anyCast] at hb
        simp only [List.getElem?_cons_zero] at hb
        split at hb <;> simp_all
        obtain ⟨rfl, rfl⟩ := h
        obtain ⟨rfl, rfl⟩ := hb2
        simp_all
    · simp at h

/-- **C02 (partial: histories that use `next` and `insert` only).** The tokens delivered are, in
order, the tokens in front of the read position, nothing skipped and nothing repeated; the list
itself only grows at the end. Missing: histories mixing `next` and `popFront`, for which the claim
is false (`C02_mixed_reads_skip`). -/
theorem C02_next_in_order_partial (ops : List TokOp) (hp : noPop ops) : ∀ (t : Tokens),
    t.next ≤ t.data.length →
    (t.run ops).1.data = t.data ++ appended ops ∧
    (t.run ops).1.next = t.next + (t.run ops).2.length ∧
    (t.run ops).2 = ((t.data ++ appended ops).drop t.next).take (t.run ops).2.length ∧
    (t.run ops).1.next ≤ (t.run ops).1.data.length := by
  induction ops with
  | nil => intro t ht; simp [Tokens.run, appended, ht]
  | cons op ops ih =>
    intro t ht
    have ih := ih (fun ty hm => hp ty (List.mem_cons_of_mem _ hm))
    cases op with
    | insert v =>
      have := ih (t.insert v) (by simp [Tokens.insert]; omega)
      simp only [Tokens.run, Tokens.apply, appended, Option.toList, List.nil_append] at this ⊢
      simpa [Tokens.insert] using this
    | next ty =>
      simp only [Tokens.run, appended]
      cases hq : t.apply (.next ty) with
      | mk t' o =>
        cases o with
        | none =>
          have := (C02_failed_read_consumes_nothing t ty).1 t' hq
          subst this
          simpa using ih t' ht
        | some a =>
          obtain ⟨h1, _, h3, h4⟩ := (C02_failed_read_consumes_nothing t ty).2.2.1 t' a hq
          have hlt : t.next < t.data.length := by
            rcases Nat.lt_or_ge t.next t.data.length with h | h
            · exact h
            · rw [List.getElem?_eq_none h] at h1; simp at h1
          have := ih t' (by rw [h3, h4]; omega)
          rw [h3, h4] at this
          refine ⟨this.1, ?_, ?_, this.2.2.2⟩
          · rw [this.2.1]; simp; omega
          · simp only [Option.toList, List.cons_append, List.nil_append, List.length_cons]
            have hd : (t.data ++ appended ops).drop t.next
                = a :: (t.data ++ appended ops).drop (t.next + 1) := by
              rw [List.drop_eq_getElem_cons (by simp; omega)]
              congr 1
              rw [List.getElem_append_left hlt]
              rw [List.getElem?_eq_getElem hlt] at h1
              simpa using h1
            rw [hd, List.take_succ_cons, ← this.2.2.1]
    | popFront ty => exact absurd List.mem_cons_self (hp ty)

/-- **C02 (partial: histories that use `popFront` and `insert` only).** The delivered tokens followed
by the tokens left in the list are the original tokens followed by the appended ones. -/
theorem C02_popFront_is_queue_partial (ops : List TokOp) (hp : noNext ops) : ∀ (t : Tokens),
    (t.run ops).2 ++ (t.run ops).1.data = t.data ++ appended ops := by
  induction ops with
  | nil => intro t; simp [Tokens.run, appended]
  | cons op ops ih =>
    intro t
    have ih := ih (fun ty hm => hp ty (List.mem_cons_of_mem _ hm))
    cases op with
    | insert v => simpa [Tokens.run, Tokens.apply, appended, Tokens.insert] using ih (t.insert v)
    | next ty => exact absurd List.mem_cons_self (hp ty)
    | popFront ty =>
      simp only [Tokens.run, appended]
      cases hq : t.apply (.popFront ty) with
      | mk t' o =>
        cases o with
        | none =>
          have := (C02_failed_read_consumes_nothing t ty).2.1 t' hq
          subst this
          simpa using ih t'
        | some a =>
          obtain ⟨_, h2, _⟩ := (C02_failed_read_consumes_nothing t ty).2.2.2 t' a hq
          have := ih t'
          simp only [Option.toList, List.cons_append, List.nil_append, this, h2]

/-- **C02 violated for mixed reads.** Reading with `next`, then `popFront`, then `next` on the list
`1 2 3` delivers `1 1 3`: token 1 twice, token 2 never. -/
theorem C02_mixed_reads_skip :
    ((⟨[.int 1, .int 2, .int 3], 0⟩ : Tokens).run [.next .int, .popFront .int, .next .int]).2
      = [.int 1, .int 1, .int 3] ∧
    ((⟨[.int 1, .int 2, .int 3], 0⟩ : Tokens).run [.next .int, .popFront .int, .next .int]).1
      = ⟨[.int 2, .int 3], 2⟩ := by
  constructor <;> rfl

/-- **C02 (size)** – `size` is the number of tokens the list holds, whether they have been read or not, `empty` says that it is zero, inserting adds
one, reading with `next` none, `popFront` removes exactly what it delivers, and exactly the positions below the size can be read. -/
theorem C02_size (t : Tokens) (v : Any) (ty : Ty) :
    (t.empty = true ↔ t.size = 0) ∧ (t.apply (.insert v)).1.size = t.size + 1 ∧ (t.apply (.next ty)).1.size = t.size ∧
      (t.apply (.popFront ty)).1.size + (t.apply (.popFront ty)).2.toList.length = t.size ∧ (∀ i, (∃ a, t.get a.ty i = .ok a) ↔ i < t.size) := by
  refine ⟨?_, ?_, ?_, ?_, fun i => ?_⟩
  · simp [Tokens.empty, Tokens.size]
  · simp [Tokens.apply, Tokens.insert, Tokens.size]
  · cases h : t.apply (.next ty) with
    | mk t' o =>
      cases o with
      | none => rw [(C02_failed_read_consumes_nothing t ty).1 t' h]
      | some a => exact congrArg List.length ((C02_failed_read_consumes_nothing t ty).2.2.1 t' a h).2.2.1
  · cases h : t.apply (.popFront ty) with
    | mk t' o =>
      cases o with
      | none => rw [(C02_failed_read_consumes_nothing t ty).2.1 t' h]; simp
      | some a =>
        have := ((C02_failed_read_consumes_nothing t ty).2.2.2 t' a h).2.1
        simp [Tokens.size, this]
  · unfold Tokens.get Tokens.size
    constructor
    · rintro ⟨a, h⟩
      refine Nat.lt_of_not_le fun hc => ?_
      rw [List.getElem?_eq_none hc] at h
      exact nomatch h
    · intro h
      exact ⟨t.data[i], by rw [List.getElem?_eq_getElem h]; simp [anyCast]⟩

/-- Non-vacuity: a history with a failing typed read in the middle. -/
example : noPop [.next .int, .next .int, .insert (.int 5), .next .str, .next .int] ∧
    ((⟨[.int 1, .str "a"], 0⟩ : Tokens).run
      [.next .int, .next .int, .insert (.int 5), .next .str, .next .int]).2
        = [.int 1, .str "a", .int 5] := by
  constructor
  · intro ty; simp
  · rfl
example : noNext [.popFront .str, .popFront .int, .insert (.int 5)] ∧
    ((⟨[.int 1, .str "a"], 0⟩ : Tokens).run [.popFront .str, .popFront .int]).2 = [.int 1] := by
  constructor
  · intro ty; simp
  · rfl

end NeoFOAM
