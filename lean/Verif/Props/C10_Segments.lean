import Verif.Props.C11_Reduce
import Mathlib.Data.ZMod.Basic
import Mathlib.Algebra.BigOperators.Ring.Finset
import Mathlib.Algebra.Order.BigOperators.Group.Finset

/-!
# C10 – segment offsets partition the value range

`segmentsFromIntervals` is modelled as a Kokkos scan with an arbitrary cut of the range into work items
and an arbitrary interleaving of their final passes. The arithmetic is that of any commutative monoid,
so it covers the wrapping unsigned index types (`C10_wrapping`).
-/
namespace NeoFOAM
variable {K : Type u}

/-- Sum of the first `i` lengths. -/
def prefixSum [AddCommMonoid K] (inp : List K) (i : Nat) : K := (inp.take i).sum

section proofs
variable [AddCommMonoid K]

/-- The stores of a pass (proof side). -/
def scanWrites (inp : List K) : List Nat → K → List (Act Unit K)
  | [], _ => []
  | i :: c, u => Act.write () (i + 1) (u + inp.getD i 0) :: scanWrites inp c (u + inp.getD i 0)

theorem scanPass_ok (inp : List K) : ∀ (c : List Nat) (u : K), (∀ i ∈ c, i < inp.length) →
    scanPass inp c u = .ok (u + (c.map (inp.getD · 0)).sum, scanWrites inp c u)
  | [], u, _ => by simp [scanPass, scanWrites]
  | i :: c, u, h => by
    rw [scanPass, rd_getD 0 (h i (by simp)), Res.ok_bind,
      scanPass_ok inp c _ (fun j hj => h j (by simp [hj]))]
    simp [scanWrites, add_assoc]

theorem scanWrites_append (inp : List K) : ∀ (c d : List Nat) (u : K),
    scanWrites inp (c ++ d) u = scanWrites inp c u ++ scanWrites inp d (u + (c.map (inp.getD · 0)).sum)
  | [], d, u => by simp [scanWrites]
  | i :: c, d, u => by simp [scanWrites, scanWrites_append inp c d, add_assoc]

theorem prefixSum_succ (inp : List K) (i : Nat) :
    prefixSum inp (i + 1) = prefixSum inp i + inp.getD i 0 := by
  unfold prefixSum
  rw [List.take_add_one]
  cases h : inp[i]? <;> simp [h]

theorem scanWrites_range (inp : List K) : ∀ (m a : Nat), 
    scanWrites inp (List.range' a m) (prefixSum inp a) =
      (List.range' a m).map (fun i => Act.write () (i + 1) (prefixSum inp (i + 1)))
  | 0, a => rfl
  | m + 1, a => by
    rw [List.range'_succ, scanWrites, List.map_cons, ← prefixSum_succ, scanWrites_range inp m (a + 1)]

/-- The starting values of the work items (proof side). -/
def basesFrom (inp : List K) : List (List Nat) → K → List K
  | [], _ => []
  | c :: cs, u => u :: basesFrom inp cs (u + (c.map (inp.getD · 0)).sum)

theorem basesFrom_length (inp : List K) : ∀ (cs : List (List Nat)) (u : K),
    (basesFrom inp cs u).length = cs.length
  | [], _ => rfl
  | c :: cs, u => by simp [basesFrom, basesFrom_length inp cs]

theorem basesFrom_get (inp : List K) : ∀ (cs : List (List Nat)) (u : K) (k : Nat), k < cs.length →
    (basesFrom inp cs u)[k]? =
      some (u + ((cs.map fun c => (c.map (inp.getD · 0)).sum).take k).sum)
  | [], _, k, h => by simp at h
  | c :: cs, u, 0, _ => by simp [basesFrom]
  | c :: cs, u, k + 1, h => by
    simp only [basesFrom, List.getElem?_cons_succ]
    rw [basesFrom_get inp cs _ k (by simpa using h)]
    simp [add_assoc]

theorem scan_threads (inp : List K) : ∀ (cs : List (List Nat)) (u : K),
    ((cs.zip (basesFrom inp cs u)).map (fun p => scanWrites inp p.1 p.2)).flatten =
      scanWrites inp cs.flatten u
  | [], _ => by simp [basesFrom, scanWrites]
  | c :: cs, u => by
    simp only [basesFrom, List.zip_cons_cons, List.map_cons, List.flatten_cons, scan_threads inp cs,
      scanWrites_append]

end proofs

/-- **C10, the offsets**: whatever the cut and the schedule, offset `i+1` is the sum of the first `i+1`
lengths, offset 0 is left as it was, and the total is returned. -/
theorem C10_offsets [AddCommMonoid K] (inp offs : List K) (hl : offs.length = inp.length + 1)
    (out : Res (K × List K)) :
    segmentsFromIntervals inp offs out ↔
      out = .ok (inp.sum, offs.mapIdx (fun i x => if i = 0 then x else prefixSum inp i)) := by
  have key : ∀ out, KokkosScan inp offs inp.length out →
      out = .ok (inp.sum, offs.mapIdx (fun i x => if i = 0 then x else prefixSum inp i)) := by
    rintro out ⟨chunks, hf, hout⟩
    have hmem : ∀ c ∈ chunks, ∀ i ∈ c, i < inp.length := by
      intro c hc i hi
      have : i ∈ chunks.flatten := List.mem_flatten.2 ⟨c, hc, hi⟩
      rw [hf] at this; simpa using this
    rw [mapM_ok (fun c => scanPass inp c 0)
      (fun c => (0 + (c.map (inp.getD · 0)).sum, scanWrites inp c 0)) chunks
      (fun c hc => scanPass_ok inp c 0 (hmem c hc))] at hout
    obtain ⟨bases, hbl, hb, total, ht, hout⟩ := hout
    have htot : (List.map Prod.fst (chunks.map
        (fun c => (0 + (c.map (inp.getD · 0)).sum, scanWrites inp c 0)))) =
        chunks.map (fun c => (c.map (inp.getD · 0)).sum) := by
      simp [List.map_map, Function.comp_def]
    rw [htot] at hb ht
    have hbases : bases = basesFrom inp chunks 0 := by
      apply List.ext_getElem?
      intro k
      by_cases hk : k < chunks.length
      · rw [basesFrom_get inp chunks 0 k hk]
        have hk' : k < bases.length := by rw [hbl]; exact hk
        rw [List.getElem?_eq_getElem hk']
        rw [(hb k _ (List.getElem?_eq_getElem hk')).sum]
        simp
      · rw [List.getElem?_eq_none (by omega), List.getElem?_eq_none (by rw [basesFrom_length]; omega)]
    rw [mapM_ok (fun p : List Nat × K => scanPass inp p.1 p.2)
      (fun p => (p.2 + (p.1.map (inp.getD · 0)).sum, scanWrites inp p.1 p.2)) (chunks.zip bases)
      (fun p hp => scanPass_ok inp p.1 p.2 (hmem p.1 (List.of_mem_zip hp).1))] at hout
    obtain ⟨l, hi, hout⟩ := hout
    have hth : (List.map Prod.snd ((chunks.zip bases).map
        (fun p => (p.2 + (p.1.map (inp.getD · 0)).sum, scanWrites inp p.1 p.2)))) =
        (chunks.zip bases).map (fun p => scanWrites inp p.1 p.2) := by
      simp [List.map_map, Function.comp_def]
    rw [hth, hbases] at hi
    have hfl := scan_threads inp chunks 0
    have h0 : (0 : K) = prefixSum inp 0 := by simp [prefixSum]
    rw [hf, List.range_eq_range'] at hfl
    have hfl2 := hfl
    rw [show scanWrites inp (List.range' 0 inp.length) 0 =
      scanWrites inp (List.range' 0 inp.length) (prefixSum inp 0) from by rw [← h0],
      scanWrites_range] at hfl2
    have hcomm : ThreadsCommute Mem.step
        ((chunks.zip (basesFrom inp chunks 0)).map (fun p => scanWrites inp p.1 p.2)) := by
      have : ((chunks.zip (basesFrom inp chunks 0)).map (fun p => scanWrites inp p.1 p.2)).flatten.Pairwise
          (ActsCommute (Mem.step (A := Unit) (K := K))) := by
        rw [hfl2, List.pairwise_map]
        refine (List.nodup_range' (s := 0) (n := inp.length) (step := 1)).imp (fun {i j} hij => ?_)
        refine comm_acts _ _ (by simp [Act.write, Act.tid]) (Or.inl ?_)
        simp only [Act.write, Act.loc, ne_eq, Prod.mk.injEq, true_and]
        omega
      exact (List.pairwise_flatten.1 this).2
    rw [hi.run_eq_serial _ hcomm, hfl2] at hout
    have hre : (List.range' 0 inp.length).map
        (fun i => Act.write () (i + 1) (prefixSum inp (i + 1))) =
        ((List.range' 1 inp.length).map
          (fun i => [(Act.write () i (prefixSum inp i) : Act Unit K)])).flatten := by
      have e1 : List.range' 1 inp.length = (List.range' 0 inp.length).map (fun i => i + 1) := by
        rw [List.range'_eq_map_range, List.range'_eq_map_range, List.map_map]
        apply List.map_congr_left
        intro i _
        simp [Nat.add_comm]
      rw [e1, List.map_map]
      generalize List.range' 0 inp.length = r
      induction r with
      | nil => rfl
      | cons a r ih => simp only [List.map_cons, List.flatten_cons, ih]; rfl
    rw [hre] at hout
    obtain ⟨s', hr, he⟩ := run_elementwise (A := Unit) (K := K) () (fun i _ => prefixSum inp i)
      (fun i => [Act.write () i (prefixSum inp i)])
      (by
        intro i s hs
        exact ⟨s.setArr () ((s.arr ()).modify i (fun _ => prefixSum inp i)), by
          simp [Act.write, Mem.step, hs], fun b => by simp⟩)
      (List.range' 1 inp.length) List.nodup_range' ⟨fun _ => offs, fun _ => none⟩
      (by intro i hi; rw [List.mem_range'_1] at hi; simp; omega)
    rw [hr] at hout
    simp only at hout
    rw [hout, he ()]
    have hsum : total = inp.sum := by
      rw [ht.sum]
      have e1 : (chunks.map fun c => (c.map (inp.getD · 0)).sum).sum
          = (chunks.flatten.map (inp.getD · 0)).sum := by
        clear hb ht hbases hfl hfl2 hcomm hi hout hth htot hf hmem hbl
        induction chunks with
        | nil => simp
        | cons c cs ih => simp only [List.map_cons, List.sum_cons, ih, List.flatten_cons,
            List.map_append, List.sum_append]
      rw [e1, hf]
      clear * -
      induction inp using List.reverseRecOn with
      | nil => simp
      | append_singleton l a ih =>
        rw [List.length_append, List.length_singleton, List.range_succ, List.map_append,
          List.sum_append, List.sum_append]
        congr 1
        · rw [← ih]
          congr 1
          apply List.map_congr_left
          intro i hi
          rw [List.mem_range] at hi
          simp [List.getElem?_append_left hi]
        · simp
    rw [hsum]
    congr 2
    simp only [if_true]
    apply List.ext_getElem?
    intro i
    simp only [List.getElem?_mapIdx, List.mem_range'_1]
    by_cases hi' : i < offs.length
    · rw [List.getElem?_eq_getElem hi']
      by_cases h0 : i = 0
      · simp [h0]
      · have : 1 ≤ i ∧ i < 1 + inp.length := by omega
        simp [h0, this]
    · rw [List.getElem?_eq_none (by omega)]; simp
  have hex : ∃ out, KokkosScan inp offs inp.length out := by
    have hm : ∀ i ∈ List.range inp.length, i < inp.length := by simp
    refine ⟨match runActs Mem.step (⟨fun _ => offs, fun _ => none⟩ : Mem Unit K)
        (scanWrites inp (List.range inp.length) 0) with
      | .ok s => .ok (0 + ((List.range inp.length).map (inp.getD · 0)).sum, s.arr ())
      | _ => .ub, [List.range inp.length], by simp, ?_⟩
    simp only [List.mapM_cons, List.mapM_nil, scanPass_ok inp _ 0 hm, Res.ok_bind, Res.pure_eq]
    refine ⟨[0], rfl, ?_, 0 + ((List.range inp.length).map (inp.getD · 0)).sum,
      by simpa using Bracket.leaf _, ?_⟩
    · intro k b hb
      cases k with
      | zero =>
        have hb' : (0 : K) = b := by simpa using hb
        subst hb'
        exact Bracket.empty
      | succ k => simp at hb
    · simp only [List.zip_cons_cons, List.zip_nil_right, List.mapM_cons, List.mapM_nil,
        scanPass_ok inp _ 0 hm, Res.ok_bind, Res.pure_eq]
      refine ⟨scanWrites inp (List.range inp.length) 0, ?_, ?_⟩
      · have := Interleave.serial [scanWrites inp (List.range inp.length) 0]
        simpa using this
      · cases runActs Mem.step (⟨fun _ => offs, fun _ => none⟩ : Mem Unit K)
          (scanWrites inp (List.range inp.length) 0) <;> rfl
  unfold segmentsFromIntervals
  rw [if_neg (by omega), if_neg (by omega), show offs.length - 1 = inp.length from by omega]
  constructor
  · exact key out
  · rintro rfl
    obtain ⟨o, ho⟩ := hex
    rw [← key o ho]; exact ho

/-- **C10, size check**: offsets of the wrong length stop the program. -/
theorem C10_size_check [AddCommMonoid K] (inp offs : List K) (h0 : offs ≠ [])
    (hl : offs.length ≠ inp.length + 1) (out : Res (K × List K)) :
    segmentsFromIntervals inp offs out ↔ out = .abort := by
  have : offs.length ≠ 0 := by simpa using h0
  unfold segmentsFromIntervals
  rw [if_neg this, if_pos (by omega)]

/-- **C10, constructing a segmented field** gives the prefix sums and the total. -/
theorem C10_segmentedField [AddCommMonoid K] (inp : List K) (out : Res (K × List K)) :
    segmentedField inp out ↔
      out = .ok (inp.sum, (List.range (inp.length + 1)).map (prefixSum inp)) := by
  unfold segmentedField
  rw [C10_offsets inp _ (by simp)]
  have : (List.replicate (inp.length + 1) (0 : K)).mapIdx
      (fun i x => if i = 0 then x else prefixSum inp i) =
      (List.range (inp.length + 1)).map (prefixSum inp) := by
    apply List.ext_getElem?
    intro i
    simp only [List.getElem?_mapIdx, List.getElem?_map, List.getElem?_replicate]
    by_cases hi : i < inp.length + 1
    · rw [List.getElem?_range hi]
      by_cases h0 : i = 0
      · simp [h0, prefixSum]
      · simp [hi, h0]
    · rw [List.getElem?_eq_none (by simp; omega)]
      simp [hi]
  rw [this]

theorem prefixSum_mono (inp : List ℕ) : Monotone (prefixSum inp) :=
  monotone_nat_of_le_succ (fun i => by rw [prefixSum_succ]; omega)

/-- **C10, the partition**: for lengths as natural numbers, the computed segments start at 0, have the
given lengths, end at the total, and every value index lies in exactly one segment. -/
theorem C10_partition (inp : List ℕ) (total : ℕ) (segs : List ℕ)
    (h : segmentedField inp (.ok (total, segs))) :
    segs.length = inp.length + 1 ∧ total = inp.sum ∧ segs[0]? = some 0 ∧
      (∀ i n, inp[i]? = some n → ∃ a, segBounds segs i = .ok (a, a + n)) ∧
      ∀ v, v < total → ∃! i, ∃ a b, segBounds segs i = .ok (a, b) ∧ a ≤ v ∧ v < b := by
  rw [C10_segmentedField] at h
  simp only [Res.ok.injEq, Prod.mk.injEq] at h
  obtain ⟨rfl, rfl⟩ := h
  have hb : ∀ i a b, segBounds ((List.range (inp.length + 1)).map (prefixSum inp)) i = .ok (a, b) ↔
      i < inp.length ∧ a = prefixSum inp i ∧ b = prefixSum inp (i + 1) := by
    intro i a b
    unfold segBounds
    by_cases hi : i < inp.length
    · rw [rd_ok (by simp; omega), rd_ok (by simp; omega)]
      simp [hi, eq_comm]
    · simp only [hi, false_and, iff_false]
      rw [rd_ub (i := i + 1) (by simp; omega)]
      cases rd (List.map (prefixSum inp) (List.range (inp.length + 1))) i <;> simp
  refine ⟨by simp, rfl, by simp [prefixSum], ?_, ?_⟩
  · intro i n hn
    have hi : i < inp.length := (List.getElem?_eq_some_iff.1 hn).1
    refine ⟨prefixSum inp i, (hb i _ _).2 ⟨hi, rfl, ?_⟩⟩
    rw [prefixSum_succ]; simp [hn]
  · intro v hv
    have htot : prefixSum inp inp.length = inp.sum := by simp [prefixSum]
    have hex : ∃ k, v < prefixSum inp k := ⟨inp.length, by omega⟩
    classical
    let k := Nat.find hex
    have hk : v < prefixSum inp k := Nat.find_spec hex
    have hk0 : k ≠ 0 := by
      intro e; rw [e] at hk; simp [prefixSum] at hk
    have hkmin : ¬ v < prefixSum inp (k - 1) := Nat.find_min hex (by omega)
    have hkle : k ≤ inp.length := Nat.find_min' hex (by omega)
    refine ⟨k - 1, ⟨_, _, (hb _ _ _).2 ⟨by omega, rfl, rfl⟩, by omega, ?_⟩, ?_⟩
    · rw [show k - 1 + 1 = k from by omega]; exact hk
    · rintro j ⟨a, b, hab, h1, h2⟩
      obtain ⟨hj, rfl, rfl⟩ := (hb _ _ _).1 hab
      have h3 : k ≤ j + 1 := Nat.find_min' hex h2
      have h4 : ¬ k ≤ j := fun h => by
        have := prefixSum_mono inp h
        omega
      omega

/-- **C10 for wrapping index types**: with `w`-bit unsigned offsets the stored numbers are the true
prefix sums whenever the total fits into `w` bits. -/
theorem C10_wrapping (w : ℕ) (lengths : List ℕ) (hfit : lengths.sum < 2 ^ w)
    (total : ZMod (2 ^ w)) (segs : List (ZMod (2 ^ w)))
    (h : segmentedField (lengths.map (Nat.cast : ℕ → ZMod (2 ^ w))) (.ok (total, segs))) :
    total.val = lengths.sum ∧ segs.map ZMod.val = (List.range (lengths.length + 1)).map (prefixSum lengths) := by
  rw [C10_segmentedField] at h
  simp only [Res.ok.injEq, Prod.mk.injEq] at h
  obtain ⟨rfl, rfl⟩ := h
  have hval : ∀ l : List ℕ, l.sum < 2 ^ w → (l.map (Nat.cast : ℕ → ZMod (2 ^ w))).sum.val = l.sum := by
    intro l hl
    rw [← Nat.cast_list_sum, ZMod.val_natCast_of_lt hl]
  refine ⟨hval _ hfit, ?_⟩
  rw [List.map_map, List.length_map]
  apply List.map_congr_left
  intro i _
  simp only [Function.comp, prefixSum, ← List.map_take]
  apply hval
  have : lengths.sum = (lengths.take i).sum + (lengths.drop i).sum := by
    rw [← List.sum_append, List.take_append_drop]
  omega

/-- The theorems apply: lengths 1,2,0,3 give offsets 0,1,3,3,6; an 8-bit offset type suffices. -/
example : segmentedField [1, 2, 0, 3] (.ok ((6 : ℕ), [0, 1, 3, 3, 6])) := by
  rw [C10_segmentedField]; decide
example : ([200, 50] : List ℕ).sum < 2 ^ 8 := by decide

end NeoFOAM
