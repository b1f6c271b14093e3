import Verif.Props.C14_Sparsity

/-!
# Schedules that run the threads of a ticket kernel one after the other, in any order
-/
namespace NeoFOAM
open Finset

/-- A whole thread first. -/
theorem Interleave.first {α : Type} (pre post : List (List α)) (l : List α) (h : Interleave (pre ++ [] :: post) l) :
    ∀ t : List α, Interleave (pre ++ t :: post) (t ++ l)
  | [] => h
  | a :: t => .step pre a t post _ (Interleave.first pre post l h t)

/-- The threads one after the other, in any order. -/
theorem Interleave.ordered {α : Type} : ∀ (σ : List Nat) (ts : List (List α)), σ.Nodup → (∀ i, i ∉ σ → ts.getD i [] = []) →
    (∀ i ∈ σ, i < ts.length) → Interleave ts (σ.map (ts.getD · [])).flatten
  | [], ts, _, hn, _ => by
    refine .done ts fun t ht => ?_
    obtain ⟨i, hi, rfl⟩ := List.mem_iff_getElem.1 ht
    have := hn i (by simp)
    simpa [List.getD_eq_getElem?_getD, hi] using this
  | i :: σ, ts, hd, hn, hl => by
    obtain ⟨hi, hd⟩ := List.nodup_cons.1 hd
    have hil := hl i (by simp)
    have ih := Interleave.ordered σ (ts.set i []) hd (fun j hj => by
      rcases Nat.eq_or_lt_of_le (Nat.le_refl i) with _ | h
      · by_cases hji : j = i
        · subst hji
          simp [List.getD_eq_getElem?_getD, List.getElem?_set, hil]
        · have := hn j (by simp [hji, hj])
          rw [List.getD_eq_getElem?_getD] at this ⊢
          rw [List.getElem?_set_ne (fun h => hji h.symm)]
          exact this
      · omega) (fun j hj => by simpa using hl j (by simp [hj]))
    have e1 : (σ.map ((ts.set i []).getD · [])) = σ.map (ts.getD · []) := by
      refine List.map_congr_left fun j hj => ?_
      have : i ≠ j := fun h => hi (h ▸ hj)
      simp [List.getD_eq_getElem?_getD, List.getElem?_set_ne this]
    rw [e1] at ih
    have e2 : ts.set i [] = ts.take i ++ [] :: ts.drop (i + 1) := by
      rw [List.set_eq_take_append_cons_drop, if_pos hil]
    have e3 : ts = ts.take i ++ ts.getD i [] :: ts.drop (i + 1) := by
      have : ts.getD i [] = ts[i] := by simp [List.getD_eq_getElem?_getD, hil]
      rw [this]
      simp
    rw [e2] at ih
    have := Interleave.first _ _ _ ih (ts.getD i [])
    rw [← e3] at this
    simpa using this

/-- One thread of a ticket kernel. -/
def slotThread (cell base val : Nat → Nat) (r : Nat) : List TAct :=
  [TAct.fetchAdd r 0 (cell r), TAct.putOff r 0 r, TAct.putCol r 0 (base r) (val r)]

/-- The effect of one thread that runs alone. -/
theorem slotThread_run (cell base val : Nat → Nat) (r : Nat) (s s' : TMem) (h : runActs LMem.step s (slotThread cell base val r) = .ok s') :
    (∀ c, (s'.arr .cnt).getD c 0 = (s.arr .cnt).getD c 0 + if c = cell r then 1 else 0) ∧
    (s'.arr .off).getD r 0 = (s.arr .cnt).getD (cell r) 0 % 256 ∧ ∀ i ≠ r, (s'.arr .off).getD i 0 = (s.arr .off).getD i 0 := by
  simp only [slotThread, runActs_cons, runActs_nil] at h
  obtain ⟨s1, h1, h⟩ := Res.bind_eq_ok.1 h
  obtain ⟨s2, h2, h⟩ := Res.bind_eq_ok.1 h
  obtain ⟨s3, h3, h⟩ := Res.bind_eq_ok.1 h
  cases h
  simp only [LMem.step, TAct.fetchAdd, TAct.putOff, TAct.putCol] at h1 h2 h3
  cases e1 : (s.arr .cnt)[cell r]? with
  | none => rw [e1] at h1; cases h1
  | some v =>
    rw [e1] at h1
    cases h1
    simp only [reduceCtorEq, if_false, if_true, Function.update_self] at h2
    cases e2 : (s.arr .off)[r]? with
    | none => rw [e2] at h2; cases h2
    | some w =>
      rw [e2] at h2
      cases h2
      simp only [reduceCtorEq, if_false, if_true, Function.update_self] at h3
      split at h3
      · cases h3
      · cases h3
        have hv : (s.arr .cnt).getD (cell r) 0 = v := by simp [List.getD_eq_getElem?_getD, e1]
        have hl1 : cell r < (s.arr .cnt).length := by
          by_contra hn
          rw [List.getElem?_eq_none (by omega)] at e1
          cases e1
        have hl2 : r < (s.arr .off).length := by
          by_contra hn
          rw [List.getElem?_eq_none (by omega)] at e2
          cases e2
        refine ⟨fun c => ?_, ?_, fun i hi => ?_⟩
        · simp only [reduceCtorEq, if_false, if_true]
          by_cases hc : c = cell r
          · subst hc
            rw [hv, if_pos rfl]
            simp [List.getD_eq_getElem?_getD, hl1]
          · rw [if_neg hc]
            simp [List.getD_eq_getElem?_getD, List.getElem?_set_ne (fun h => hc h.symm)]
        · simp only [reduceCtorEq, if_false, if_true]
          rw [hv]
          simp [List.getD_eq_getElem?_getD, hl2]
        · simp only [reduceCtorEq, if_false, if_true]
          simp [List.getD_eq_getElem?_getD, List.getElem?_set_ne (fun h => hi h.symm)]

/-- Threads one after the other. -/
theorem slotThreads_run (cell base val : Nat → Nat) : ∀ (σ : List Nat) (s s' : TMem), σ.Nodup →
    runActs LMem.step s (σ.map (slotThread cell base val)).flatten = .ok s' →
    (∀ i ∉ σ, (s'.arr .off).getD i 0 = (s.arr .off).getD i 0) ∧
    ∀ r ∈ σ, (s'.arr .off).getD r 0 = ((s.arr .cnt).getD (cell r) 0 + (σ.takeWhile (· ≠ r)).countP (fun g => cell g = cell r)) % 256
  | [], s, s', _, h => by
    cases h
    exact ⟨fun _ _ => rfl, fun r hr => by simp at hr⟩
  | i :: σ, s, s', hd, h => by
    obtain ⟨hi, hd⟩ := List.nodup_cons.1 hd
    rw [List.map_cons, List.flatten_cons, runActs_append] at h
    obtain ⟨s1, h1, h2⟩ := Res.bind_eq_ok.1 h
    obtain ⟨a, b, c⟩ := slotThread_run cell base val i s s1 h1
    obtain ⟨ih1, ih2⟩ := slotThreads_run cell base val σ s1 s' hd h2
    constructor
    · intro j hj
      simp only [List.mem_cons, not_or] at hj
      rw [ih1 j hj.2, c j hj.1]
    · intro r hr
      by_cases hri : r = i
      · subst hri
        rw [ih1 r hi, b]
        simp
      · have hr' : r ∈ σ := by
          rcases List.mem_cons.1 hr with h | h
          · exact absurd h hri
          · exact h
        rw [ih2 r hr', a, List.takeWhile_cons_of_pos (by simpa using fun h => hri h.symm), List.countP_cons]
        congr 1
        by_cases hc : cell r = cell i
        · simp [hc]; omega
        · simp [hc, Ne.symm hc]

/-- Rank in a sorted list. -/
theorem rank_sorted (cell tk : Nat → Nat) (k : Nat) (σ : List Nat) (hp : σ.Perm (List.range k)) (hs : σ.Pairwise fun a b => tk a ≤ tk b)
    (inj : ∀ r < k, ∀ r' < k, cell r = cell r' → tk r = tk r' → r = r') (r : Nat) (hr : r < k) :
    (σ.takeWhile (· ≠ r)).countP (fun g => cell g = cell r) = ((range k).filter fun g => cell g = cell r ∧ tk g < tk r).card := by
  have hnd : σ.Nodup := hp.nodup_iff.2 List.nodup_range
  have hmem : r ∈ σ := hp.mem_iff.2 (List.mem_range.2 hr)
  obtain ⟨p, q, rfl, hrp⟩ : ∃ p q, σ = p ++ r :: q ∧ r ∉ p := by
    obtain ⟨p, q, h⟩ := List.append_of_mem hmem
    refine ⟨p, q, h, ?_⟩
    rw [h] at hnd
    intro hrp
    exact (List.disjoint_of_nodup_append hnd) hrp (by simp)
  have htw : (p ++ r :: q).takeWhile (· ≠ r) = p := by
    rw [List.takeWhile_append_of_pos (by
      intro a ha
      have : a ≠ r := fun h => hrp (h ▸ ha)
      simpa using this)]
    simp
  rw [htw]
  have h1 : p.Nodup := hnd.of_append_left
  have h2 := List.pairwise_append.1 hs
  have hset : (p.filter fun g => cell g = cell r).toFinset = (range k).filter fun g => cell g = cell r ∧ tk g < tk r := by
    ext g
    simp only [List.mem_toFinset, List.mem_filter, decide_eq_true_eq, mem_filter, mem_range]
    constructor
    · rintro ⟨hg, hc⟩
      have hgk : g < k := List.mem_range.1 (hp.mem_iff.1 (by simp [hg]))
      refine ⟨hgk, hc, lt_of_le_of_ne (h2.2.2 g hg r (by simp)) fun heq => ?_⟩
      exact hrp (inj g hgk r hr hc heq ▸ hg)
    · rintro ⟨hgk, hc, hlt⟩
      refine ⟨?_, hc⟩
      have hg : g ∈ p ++ r :: q := hp.mem_iff.2 (List.mem_range.2 hgk)
      rcases List.mem_append.1 hg with h | h
      · exact h
      · rcases List.mem_cons.1 h with rfl | h
        · omega
        · have := (List.pairwise_cons.1 h2.2.1).1 g h
          omega
  rw [← hset, List.toFinset_card_of_nodup (h1.filter _), List.countP_eq_length_filter]

/-- Every numbering of the requests of each counter is the outcome of some schedule. -/
theorem ticket_realize (k : Nat) (cell base val tk c0 : Nat → Nat) (cnt col off : List Nat) (body : Nat → Res (List TAct))
    (hb : ∀ r < k, body r = .ok (slotThread cell base val r)) (hc : ∀ r < k, cnt.getD (cell r) 0 = c0 (cell r))
    (lo : ∀ r < k, c0 (cell r) ≤ tk r) (hi : ∀ r < k, tk r < c0 (cell r) + ((range k).filter (cell · = cell r)).card)
    (inj : ∀ r < k, ∀ r' < k, cell r = cell r' → tk r = tk r' → r = r') :
    ∃ out, ticketRun .parallel ((List.range k).mapM body) cnt col off out ∧ ∀ x, out = .ok x → ∀ i < k, x.2.2.getD i 0 = tk i % 256 := by
  set σ := (List.range k).mergeSort (fun a b => decide (tk a ≤ tk b)) with hσ
  have hp : σ.Perm (List.range k) := List.mergeSort_perm _ _
  have hs : σ.Pairwise fun a b => tk a ≤ tk b := by
    have := List.pairwise_mergeSort (le := fun a b => decide (tk a ≤ tk b)) (by simp; omega) (by simp; omega) (List.range k)
    exact this.imp fun h => by simpa using h
  have hnd : σ.Nodup := hp.nodup_iff.2 List.nodup_range
  have hm := mapM_ok body (slotThread cell base val) (List.range k) (fun r hr => hb r (List.mem_range.1 hr))
  have hint := Interleave.ordered σ ((List.range k).map (slotThread cell base val)) hnd (fun i hi => by
    have : ¬ i < k := fun h => hi (hp.mem_iff.2 (List.mem_range.2 h))
    rw [List.getD_eq_getElem?_getD, List.getElem?_eq_none (by simpa using this)]
    rfl) (fun i hi => by simpa using hp.mem_iff.1 hi)
  have e1 : σ.map (((List.range k).map (slotThread cell base val)).getD · []) = σ.map (slotThread cell base val) := by
    refine List.map_congr_left fun i hi => ?_
    have : i < k := List.mem_range.1 (hp.mem_iff.1 hi)
    simp [List.getD_eq_getElem?_getD, this]
  rw [e1] at hint
  rw [hm]
  cases hrun : runActs LMem.step (tMem cnt col off) (σ.map (slotThread cell base val)).flatten with
  | ok s =>
    refine ⟨.ok (s.arr .cnt, s.arr .col, s.arr .off), ⟨_, hint, by rw [hrun]⟩, ?_⟩
    rintro x hx i hi'
    cases hx
    have := (slotThreads_run cell base val σ _ s hnd hrun).2 i (hp.mem_iff.2 (List.mem_range.2 hi'))
    show (s.arr .off).getD i 0 = _
    rw [this, rank_sorted cell tk k σ hp hs inj i hi']
    congr 1
    show cnt.getD (cell i) 0 + _ = _
    rw [hc i hi']
    -- the tickets of a cell are all numbers of its range
    have himg : ((range k).filter (cell · = cell i)).image tk = Finset.Ico (c0 (cell i)) (c0 (cell i) + ((range k).filter (cell · = cell i)).card) := by
      refine Finset.eq_of_subset_of_card_le ?_ ?_
      · intro t ht
        obtain ⟨g, hg, rfl⟩ := Finset.mem_image.1 ht
        obtain ⟨hg1, hg2⟩ := mem_filter.1 hg
        have h1 := lo g (mem_range.1 hg1)
        have h2 := hi g (mem_range.1 hg1)
        rw [hg2] at h1 h2
        exact Finset.mem_Ico.2 ⟨h1, h2⟩
      · rw [Finset.card_image_of_injOn]
        · simp
        · intro a ha b hb hab
          obtain ⟨a1, a2⟩ := mem_filter.1 (Finset.mem_coe.1 ha)
          obtain ⟨b1, b2⟩ := mem_filter.1 (Finset.mem_coe.1 hb)
          exact inj a (mem_range.1 a1) b (mem_range.1 b1) (a2.trans b2.symm) hab
    have himg2 : ((range k).filter fun g => cell g = cell i ∧ tk g < tk i).image tk = Finset.Ico (c0 (cell i)) (tk i) := by
      ext t
      constructor
      · intro ht
        obtain ⟨g, hg, rfl⟩ := Finset.mem_image.1 ht
        obtain ⟨hg1, hg2, hg3⟩ := mem_filter.1 hg
        have h1 := lo g (mem_range.1 hg1)
        rw [hg2] at h1
        exact Finset.mem_Ico.2 ⟨h1, hg3⟩
      · intro ht
        obtain ⟨h1, h2⟩ := Finset.mem_Ico.1 ht
        have h3 := hi i hi'
        have : t ∈ ((range k).filter (cell · = cell i)).image tk := by
          rw [himg]
          exact Finset.mem_Ico.2 ⟨h1, by omega⟩
        obtain ⟨g, hg, rfl⟩ := Finset.mem_image.1 this
        obtain ⟨hg1, hg2⟩ := mem_filter.1 hg
        exact Finset.mem_image.2 ⟨g, mem_filter.2 ⟨hg1, hg2, h2⟩, rfl⟩
    have hcard := congrArg Finset.card himg2
    rw [Finset.card_image_of_injOn, Nat.card_Ico] at hcard
    · rw [hcard]
      have := lo i hi'
      omega
    · intro a ha b hb hab
      obtain ⟨a1, a2, -⟩ := mem_filter.1 (Finset.mem_coe.1 ha)
      obtain ⟨b1, b2, -⟩ := mem_filter.1 (Finset.mem_coe.1 hb)
      exact inj a (mem_range.1 a1) b (mem_range.1 b1) (a2.trans b2.symm) hab
  | throw x => exact ⟨.throw x, ⟨_, hint, by rw [hrun]⟩, fun _ h => nomatch h⟩
  | abort => exact ⟨.abort, ⟨_, hint, by rw [hrun]⟩, fun _ h => nomatch h⟩
  | ub => exact ⟨.ub, ⟨_, hint, by rw [hrun]⟩, fun _ h => nomatch h⟩

end NeoFOAM
