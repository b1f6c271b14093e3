import Verif.Base.Launch

/-!
# Launches that only store values
-/
namespace NeoFOAM

variable {A : Type} {V : Type} [DecidableEq A]

/-- A store of a value into an element of an array. -/
structure Wr (A V : Type) where
  arr : A
  idx : Nat
  val : V

/-- The element a store goes to. -/
def Wr.loc (w : Wr A V) : A × Nat := (w.arr, w.idx)
/-- The memory action of a store. -/
def Wr.act (w : Wr A V) : Act A V := Act.write w.arr w.idx w.val

/-- What holds after the stores `ws` to different elements: each stored value is there, all other elements
are as before. -/
structure Stored (ws : List (Wr A V)) (arrs arrs' : A → List V) : Prop where
  len : ∀ a, (arrs' a).length = (arrs a).length
  new : ∀ w ∈ ws, (arrs' w.arr)[w.idx]? = some w.val
  old : ∀ a j, (∀ w ∈ ws, w.loc ≠ (a, j)) → (arrs' a)[j]? = (arrs a)[j]?

theorem run_writes : ∀ (ws : List (Wr A V)) (s : Mem A V),
    ws.Pairwise (fun w w' => w.loc ≠ w'.loc) → (∀ w ∈ ws, w.idx < (s.arr w.arr).length) →
    ∃ s', runActs Mem.step s (ws.map Wr.act) = .ok s' ∧ Stored ws s.arr s'.arr
  | [], s, _, _ => ⟨s, rfl, ⟨fun _ => rfl, by simp, fun _ _ _ => rfl⟩⟩
  | w :: ws, s, hp, hb => by
    have hw := hb w (by simp)
    rw [List.pairwise_cons] at hp
    obtain ⟨s', hs', h1, h2, h3⟩ := run_writes ws
      (s.setArr w.arr ((s.arr w.arr).modify w.idx (fun _ => w.val))) hp.2 (by
        intro w' hw'
        have := hb w' (by simp [hw'])
        simp only [Mem.setArr_arr]
        by_cases h : w'.arr = w.arr
        · simpa [h] using h ▸ this
        · simpa [h] using this)
    refine ⟨s', ?_, ?_, ?_, ?_⟩
    · rw [List.map_cons, runActs_cons]
      simp only [Wr.act, Act.write, Mem.step, hw, if_true, Res.ok_bind]
      exact hs'
    · intro a
      rw [h1 a, Mem.setArr_arr]
      by_cases h : a = w.arr <;> simp [h]
    · intro w' hw'
      rcases List.mem_cons.1 hw' with rfl | hw'
      · rw [h3 w'.arr w'.idx (fun x hx e => hp.1 x hx e.symm)]
        simp [List.getElem?_modify, hw]
      · exact h2 w' hw'
    · intro a j hj
      rw [h3 a j (fun x hx => hj x (by simp [hx])), Mem.setArr_arr]
      have := hj w (by simp)
      by_cases h : a = w.arr
      · subst h
        have hne : w.idx ≠ j := fun e => this (by simp [Wr.loc, e])
        simp [List.getElem?_modify, hne]
      · simp [h]

/-- A launch in which thread `i` performs the stores `ws i`, no two of them to the same element, has the
same effect under every schedule. -/
theorem launch_writes (e : ExecKind) (start stop : Nat) (body : Nat → Res (List (Act A V)))
    (ws : Nat → List (Wr A V)) (arrs : A → List V)
    (hb : ∀ i, start ≤ i → i < stop → body i = .ok ((ws i).map Wr.act))
    (hin : ∀ i, start ≤ i → i < stop → ∀ w ∈ ws i, w.idx < (arrs w.arr).length)
    (hd : ∀ i, start ≤ i → i < stop → (ws i).Pairwise (fun w w' => w.loc ≠ w'.loc))
    (hdd : ∀ i j, start ≤ i → i < stop → start ≤ j → j < stop → i ≠ j →
      ∀ w ∈ ws i, ∀ w' ∈ ws j, w.loc ≠ w'.loc) :
    (launch e start stop body arrs).Ok
      (Stored ((List.range' start (stop - start)).flatMap ws) arrs) := by
  rintro out ⟨r, hr, rfl⟩
  have hr' : ∀ i ∈ List.range' start (stop - start), start ≤ i ∧ i < stop := by
    intro i hi; rw [List.mem_range'_1] at hi; omega
  have hm : (List.range' start (stop - start)).mapM body
      = .ok ((List.range' start (stop - start)).map fun i => (ws i).map Wr.act) :=
    mapM_ok body (fun i => (ws i).map Wr.act) _ (fun i hi => hb i (hr' i hi).1 (hr' i hi).2)
  rw [hm] at hr
  obtain ⟨l, hl, hr⟩ := hr
  have hc : ThreadsCommute Mem.step
      ((List.range' start (stop - start)).map fun i => (ws i).map Wr.act) := by
    apply threadsCommute_map List.nodup_range'
    intro i hi j hj hij x hx y hy
    obtain ⟨w, hw, rfl⟩ := List.mem_map.1 hx
    obtain ⟨w', hw', rfl⟩ := List.mem_map.1 hy
    apply comm_acts
    · intro t ht; simp [Wr.act, Act.write, Act.tid] at ht
    · exact Or.inl (hdd i j (hr' i hi).1 (hr' i hi).2 (hr' j hj).1 (hr' j hj).2 hij w hw w' hw')
  rw [hl.run_eq_serial Mem.step hc] at hr
  have hfl : ((List.range' start (stop - start)).map fun i => (ws i).map Wr.act).flatten
      = ((List.range' start (stop - start)).flatMap ws).map Wr.act := by
    rw [List.map_flatMap, List.flatMap_def]
  rw [hfl] at hr
  obtain ⟨s', hs', hst⟩ := run_writes ((List.range' start (stop - start)).flatMap ws)
    ⟨arrs, fun _ => none⟩ (by
      rw [List.flatMap_def, List.pairwise_flatten]
      constructor
      · intro l hl
        obtain ⟨i, hi, rfl⟩ := List.mem_map.1 hl
        exact hd i (hr' i hi).1 (hr' i hi).2
      · rw [List.pairwise_map]
        refine (List.nodup_range' (s := start) (n := stop - start) (step := 1)).imp_of_mem ?_
        intro i j hi hj hij w hw w' hw'
        exact hdd i j (hr' i hi).1 (hr' i hi).2 (hr' j hj).1 (hr' j hj).2 hij w hw w' hw')
    (by
      intro w hw
      obtain ⟨i, hi, hw⟩ := List.mem_flatMap.1 hw
      exact hin i (hr' i hi).1 (hr' i hi).2 w hw)
  rw [hs'] at hr
  cases (show r = .ok s' from hr)
  exact ⟨s'.arr, rfl, hst⟩

end NeoFOAM
