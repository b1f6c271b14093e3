import Verif.Model.Mesh

/-!
# Element-wise loops on one or two arrays (proof side)
-/
namespace NeoFOAM

theorem parElem_det {α : Type} (e : ExecKind) (a : List α) (start stop : Nat) (g : Nat → α → α)
    (hs : stop ≤ a.length) (out : Res (List α)) :
    ParElem e a start stop g out ↔
      out = .ok (a.mapIdx fun i x => if start ≤ i ∧ i < stop then g i x else x) := by
  have hn : (List.range' start (stop - start)).Nodup := List.nodup_range'
  have hcomm : ThreadsCommute Mem.step ((List.range' start (stop - start)).map
      fun i => Act.plain (A := Unit) i () i (g i)) := by
    apply threadsCommute_map hn
    intro i _ j _ hij x hx y hy
    simp only [Act.plain, List.mem_cons, List.not_mem_nil, or_false] at hx hy
    have ex : x.tid = some i ∧ x.loc = ((), i) := by
      rcases hx with rfl | rfl <;> exact ⟨rfl, rfl⟩
    have ey : y.tid = some j ∧ y.loc = ((), j) := by
      rcases hy with rfl | rfl <;> exact ⟨rfl, rfl⟩
    refine comm_acts x y ?_ (Or.inl ?_)
    · rw [ex.1, ey.1]; intro t ht ht'
      simp only [Option.some.injEq] at ht ht'; omega
    · rw [ex.2, ey.2]; simpa using hij
  obtain ⟨s', hr, he⟩ := run_elementwise (A := Unit) (K := α) () g
    (fun i => Act.plain i () i (g i))
    (by
      intro i s hi
      exact ⟨_, run_plain s i () i (g i) hi, fun b => by simp⟩)
    (List.range' start (stop - start)) hn ⟨fun _ => a, fun _ => none⟩
    (by intro i hi; rw [List.mem_range'_1] at hi; simp; omega)
  have hres : s'.arr () = a.mapIdx fun i x => if start ≤ i ∧ i < stop then g i x else x := by
    rw [he ()]
    simp only [if_true, List.mem_range'_1]
    congr 1
    funext i x
    by_cases h : start ≤ i ∧ i < stop
    · rw [if_pos h, if_pos (by omega)]
    · rw [if_neg h, if_neg (by omega)]
  constructor
  · rintro ⟨l, hl, ho⟩
    rw [hl.run_eq_serial _ hcomm, hr] at ho
    rw [← hres]; exact ho
  · rintro rfl
    obtain ⟨l, hl⟩ := Schedule.exists e ((List.range' start (stop - start)).map
      fun i => Act.plain (A := Unit) i () i (g i))
    exact ⟨l, hl, by rw [hl.run_eq_serial _ hcomm, hr, ← hres]⟩

theorem parElem2_det {α : Type} (e : ExecKind) (a b : List α) (n : Nat) (g h : Nat → α)
    (ha : n ≤ a.length) (hb : n ≤ b.length) (out : Res (List α × List α)) :
    ParElem2 e a b 0 n g h out ↔
      out = .ok (a.mapIdx fun i x => if i < n then g i else x,
        b.mapIdx fun i x => if i < n then h i else x) := by
  have hn : (List.range' 0 (n - 0)).Nodup := List.nodup_range'
  let body : Nat → List (Act Bool α) := fun i => [Act.write false i (g i), Act.write true i (h i)]
  have hcomm : ThreadsCommute Mem.step ((List.range' 0 (n - 0)).map body) := by
    apply threadsCommute_map hn
    intro i _ j _ hij x hx y hy
    simp only [body, List.mem_cons, List.not_mem_nil, or_false] at hx hy
    have ex : x.tid = none ∧ x.loc.2 = i := by
      rcases hx with rfl | rfl <;> exact ⟨rfl, rfl⟩
    have ey : y.loc.2 = j := by
      rcases hy with rfl | rfl <;> rfl
    refine comm_acts x y ?_ (Or.inl ?_)
    · rw [ex.1]; intro t ht; simp at ht
    · intro e; apply hij; rw [← ex.2, ← ey, e]
  have key : ∀ k ≤ n, ∃ s', runActs Mem.step (⟨fun x => if x then b else a, fun _ => none⟩ : Mem Bool α)
      ((List.range k).map body).flatten = .ok s' ∧
      s'.arr false = (a.mapIdx fun i x => if i < k then g i else x) ∧
      s'.arr true = (b.mapIdx fun i x => if i < k then h i else x) := by
    intro k
    induction k with
    | zero =>
      intro _
      refine ⟨_, rfl, ?_, ?_⟩ <;>
      · apply List.ext_getElem?; intro i; simp
    | succ k ih =>
      intro hk
      obtain ⟨s, hr, h1, h2⟩ := ih (by omega)
      have hka : k < (s.arr false).length := by rw [h1]; simp; omega
      have hkb : k < (s.arr true).length := by rw [h2]; simp; omega
      refine ⟨(s.setArr false ((s.arr false).modify k (fun _ => g k))).setArr true
        ((s.arr true).modify k (fun _ => h k)), ?_, ?_, ?_⟩
      · rw [List.range_succ, List.map_append, List.flatten_append, runActs_append, hr]
        simp [body, Act.write, Mem.step, hka, hkb]
      · simp only [Mem.setArr_arr, if_true, Bool.false_eq_true, if_false]
        rw [h1]
        apply List.ext_getElem?; intro i
        simp only [List.getElem?_modify, List.getElem?_mapIdx]
        by_cases hi : k = i
        · subst hi; cases a[k]? <;> simp
        · cases a[i]? <;> simp [hi]
          by_cases h3 : i < k
          · rw [if_pos h3, if_pos (by omega)]
          · rw [if_neg h3, if_neg (by omega)]
      · simp only [Mem.setArr_arr, if_true]
        rw [h2]
        apply List.ext_getElem?; intro i
        simp only [List.getElem?_modify, List.getElem?_mapIdx]
        by_cases hi : k = i
        · subst hi; cases b[k]? <;> simp
        · cases b[i]? <;> simp [hi]
          by_cases h3 : i < k
          · rw [if_pos h3, if_pos (by omega)]
          · rw [if_neg h3, if_neg (by omega)]
  obtain ⟨s', hr, h1, h2⟩ := key n (Nat.le_refl _)
  have hr' : runActs Mem.step (⟨fun x => if x then b else a, fun _ => none⟩ : Mem Bool α)
      ((List.range' 0 (n - 0)).map body).flatten = .ok s' := by
    rw [Nat.sub_zero, ← List.range_eq_range']; exact hr
  constructor
  · rintro ⟨l, hl, ho⟩
    rw [Schedule.run_eq_serial Mem.step (ts := (List.range' 0 (n - 0)).map body) hl hcomm, hr'] at ho
    rw [← h1, ← h2]; exact ho
  · rintro rfl
    obtain ⟨l, hl⟩ := Schedule.exists e ((List.range' 0 (n - 0)).map body)
    exact ⟨l, hl, by rw [Schedule.run_eq_serial Mem.step hl hcomm, hr', ← h1, ← h2]⟩

end NeoFOAM
