import Verif.Spec.Mesh

/-!
# C12 – boundary patches partition the boundary faces

The part about `patchEnd()` fails: it returns the start of the patch (`C12_patchEnd_violation`).
-/
namespace NeoFOAM

theorem offs_split (offs : List Nat) (n : Nat) (h : ValidOffsets offs n) :
    (∀ i j a b : Nat, i ≤ j → offs[i]? = some a → offs[j]? = some b → a ≤ b) ∧
      offs[0]? = some 0 ∧ offs[offs.length - 1]? = some n ∧ 0 < offs.length := by
  obtain ⟨h0, hp, hh, hl⟩ := h
  refine ⟨?_, by rw [← List.head?_eq_getElem?]; exact hh, by rw [← List.getLast?_eq_getElem?]; exact hl,
    List.length_pos_iff.2 h0⟩
  intro i j a b hij ha hb
  obtain ⟨hi, rfl⟩ := List.getElem?_eq_some_iff.1 ha
  obtain ⟨hj, rfl⟩ := List.getElem?_eq_some_iff.1 hb
  rcases Nat.lt_or_eq_of_le hij with h | h
  · exact List.pairwise_iff_getElem.1 hp i j hi hj h
  · subst h; exact Nat.le_refl _

theorem boundaryRange_ok (offs : List Nat) (p : Nat) (h : p + 1 < offs.length) :
    boundaryRange offs p = .ok (offs[p], offs[p + 1]) := by
  unfold boundaryRange
  rw [rd_ok (by omega), rd_ok h]; rfl

theorem boundaryRange_eq_ok {offs : List Nat} {p s e : Nat} (h : boundaryRange offs p = .ok (s, e)) :
    offs[p]? = some s ∧ offs[p + 1]? = some e := by
  unfold boundaryRange at h
  rw [Res.bind_eq_ok] at h
  obtain ⟨a, ha, h⟩ := h
  rw [Res.bind_eq_ok] at h
  obtain ⟨b, hb, h⟩ := h
  simp only [Res.pure_eq, Res.ok.injEq, Prod.mk.injEq] at h
  obtain ⟨rfl, rfl⟩ := h
  exact ⟨rd_eq_ok_iff.1 ha, rd_eq_ok_iff.1 hb⟩

/-- **C12, partition**: every boundary face lies in the range of exactly one patch, and patches contain
nothing but boundary faces. -/
theorem C12_partition (offs : List Nat) (n : Nat) (h : ValidOffsets offs n) :
    (∀ b < n, ∃! p, ∃ s e, boundaryRange offs p = .ok (s, e) ∧ s ≤ b ∧ b < e) ∧
      ∀ p s e, boundaryRange offs p = .ok (s, e) → s ≤ e ∧ e ≤ n := by
  obtain ⟨hm, h0, hl, hpos⟩ := offs_split offs n h
  constructor
  · intro b hb
    have hex : ∃ k, ∃ x, offs[k]? = some x ∧ b < x := ⟨_, n, hl, hb⟩
    classical
    let k := Nat.find hex
    obtain ⟨x, hx, hbx⟩ := Nat.find_spec hex
    have hk0 : k ≠ 0 := by
      intro e
      have : offs[k]? = some x := hx
      rw [e, h0] at this
      simp at this; omega
    have hkl : k < offs.length := (List.getElem?_eq_some_iff.1 hx).1
    have hx' : offs[k] = x := (List.getElem?_eq_some_iff.1 hx).2
    have hmin : ∀ j < k, ∀ y, offs[j]? = some y → y ≤ b := by
      intro j hj y hy
      have := Nat.find_min hex hj
      by_contra hc
      exact this ⟨y, hy, by omega⟩
    refine ⟨k - 1, ⟨offs[k - 1], offs[k - 1 + 1]'(by omega), boundaryRange_ok offs _ (by omega), ?_, ?_⟩, ?_⟩
    · exact hmin (k - 1) (by omega) _ (List.getElem?_eq_getElem (by omega))
    · have : offs[k - 1 + 1]'(by omega) = x := by
        rw [← hx']; congr 1; omega
      omega
    · rintro p ⟨s, e, hr, h1, h2⟩
      obtain ⟨hs, he⟩ := boundaryRange_eq_ok hr
      have h3 : k ≤ p + 1 := Nat.find_min' hex ⟨e, he, h2⟩
      have h4 : ¬ k ≤ p := fun hkp => by
        have := hm k p x s hkp hx hs
        omega
      omega
  · intro p s e hr
    obtain ⟨hs, he⟩ := boundaryRange_eq_ok hr
    have hl' := (List.getElem?_eq_some_iff.1 he).1
    exact ⟨hm p (p + 1) s e (by omega) hs he, hm (p + 1) (offs.length - 1) e n (by omega) he hl⟩

theorem extract_ok {α : Type} (field : List α) (offs : List Nat) (n : Nat) (h : ValidOffsets offs n)
    (hf : field.length = n) (p : Nat) (hp : p + 1 < offs.length) :
    extractSubSpan field offs p = .ok ((field.drop offs[p]).take (offs[p + 1] - offs[p])) := by
  obtain ⟨hm, h0, hl, hpos⟩ := offs_split offs n h
  unfold extractSubSpan
  rw [rd_ok (by omega), rd_ok hp]
  simp only [Res.ok_bind]
  rw [if_pos]
  refine ⟨hm p (p + 1) _ _ (by omega) (List.getElem?_eq_getElem (by omega)) (List.getElem?_eq_getElem hp), ?_⟩
  rw [hf]
  exact hm (p + 1) (offs.length - 1) _ _ (by omega) (List.getElem?_eq_getElem hp) hl

/-- **C12, patch views**: the views of the patches of any boundary array, one after the other, are the
whole array; the view of a patch has the size of its range. -/
theorem C12_views {α : Type} (field : List α) (offs : List Nat) (n : Nat) (h : ValidOffsets offs n)
    (hf : field.length = n) :
    ∃ views, (List.range (offs.length - 1)).mapM (extractSubSpan field offs) = .ok views ∧
      views.flatten = field ∧
      ∀ p v s e, extractSubSpan field offs p = .ok v → boundaryRange offs p = .ok (s, e) →
        v.length = e - s ∧ ∀ i < e - s, v[i]? = field[s + i]? := by
  obtain ⟨hm, h0, hl, hpos⟩ := offs_split offs n h
  refine ⟨(List.range (offs.length - 1)).map
    (fun p => (field.drop (offs.getD p 0)).take (offs.getD (p + 1) 0 - offs.getD p 0)), ?_, ?_, ?_⟩
  · apply mapM_ok
    intro p hp
    rw [List.mem_range] at hp
    rw [extract_ok field offs n h hf p (by omega)]
    have h1 : p < offs.length := by omega
    have h2 : p + 1 < offs.length := by omega
    simp [h1, h2]
  · have key : ∀ k, k < offs.length → ((List.range k).map
        (fun p => (field.drop (offs.getD p 0)).take (offs.getD (p + 1) 0 - offs.getD p 0))).flatten
        = field.take (offs.getD k 0) := by
      intro k
      induction k with
      | zero =>
        intro hk
        simp [List.getD, h0]
      | succ k ih =>
        intro hk
        rw [List.range_succ, List.map_append, List.flatten_append, ih (by omega)]
        simp only [List.map_cons, List.map_nil, List.flatten_cons, List.flatten_nil, List.append_nil]
        have hle : offs.getD k 0 ≤ offs.getD (k + 1) 0 := by
          have h1 : k < offs.length := by omega
          have := hm k (k + 1) _ _ (by omega) (List.getElem?_eq_getElem h1) (List.getElem?_eq_getElem hk)
          simpa [List.getD, h1, hk] using this
        rw [show offs.getD (k + 1) 0 = offs.getD k 0 + (offs.getD (k + 1) 0 - offs.getD k 0) by omega,
          List.take_add]
        simp
    rw [key (offs.length - 1) (by omega)]
    simp only [List.getD, hl, Option.getD_some]
    rw [← hf, List.take_length]
  · intro p v s e hv hr
    obtain ⟨hs, he⟩ := boundaryRange_eq_ok hr
    obtain ⟨hp, rfl⟩ := List.getElem?_eq_some_iff.1 he
    obtain ⟨hp0, rfl⟩ := List.getElem?_eq_some_iff.1 hs
    rw [extract_ok field offs n h hf p hp] at hv
    simp only [Res.ok.injEq] at hv
    subst hv
    have := (C12_partition offs n h).2 p _ _ hr
    refine ⟨by simp; omega, fun i hi => ?_⟩
    rw [List.getElem?_take_of_lt hi, List.getElem?_drop]

/-- **C12, patch objects**: start, size and range of a patch object agree with the range of the
boundary field; `patchEnd()` is not covered. -/
theorem C12_patch_partial (offs : List Nat) (n : Nat) (h : ValidOffsets offs n) (p : Nat)
    (hp : p + 1 < offs.length) :
    ∃ s e, boundaryRange offs p = .ok (s, e) ∧ ∃ P, Patch.ofOffsets offs p = .ok P ∧
      P.patchStart = s ∧ P.range = (s, e) ∧ P.patchSize + s = e ∧ P.patchID = p := by
  refine ⟨_, _, boundaryRange_ok offs p hp, ⟨p, offs[p], offs[p + 1]⟩, ?_, rfl, rfl, ?_, rfl⟩
  · unfold Patch.ofOffsets
    rw [rd_ok (by omega), rd_ok hp]; rfl
  · have := (C12_partition offs n h).2 p _ _ (boundaryRange_ok offs p hp)
    simp only [Patch.patchSize]; omega

/-- **`patchEnd()` is wrong for every non-empty patch.** -/
theorem C12_patchEnd_violation (P : Patch) (h : P.start_ < P.end_) :
    P.patchEnd ≠ P.range.2 ∧ P.patchEnd ≠ P.patchStart + P.patchSize := by
  constructor
  · simp only [Patch.patchEnd, Patch.range]; omega
  · simp only [Patch.patchEnd, Patch.patchStart, Patch.patchSize]; omega

/-- Three patches, one of them empty. -/
example : ValidOffsets [0, 2, 2, 5] 5 := by
  refine ⟨by decide, by decide, by decide, by decide⟩
example : boundaryRange [0, 2, 2, 5] 2 = .ok (2, 5) ∧
    extractSubSpan ['a', 'b', 'c', 'd', 'e'] [0, 2, 2, 5] 2 = .ok ['c', 'd', 'e'] := by decide

end NeoFOAM
