import Verif.Props.C10_Segments
import Verif.Model.Segments
import Verif.Base.Writes

/-!
# C68 – a segmented field is a vector of independent vectors

Specification: the nested list `L` that a segmented field stands for.
-/
namespace NeoFOAM
variable {α : Type}

/-- The segmented field `f` represents the vectors `L`: the values are those of all vectors in order, and the offsets are the
numbers of values before each vector (all of them 32-bit numbers). -/
def SegField.Holds (f : SegField α) (L : List (List α)) : Prop :=
  f.values = L.flatten ∧ f.segments = (List.range (L.length + 1)).map (fun i => (L.take i).flatten.length) ∧ L.flatten.length < 2 ^ 32

/-- Storing `x` as element `k` of vector `i`. -/
def setElem (L : List (List α)) (i k : Nat) (x : α) : List (List α) := L.modify i (fun l => l.set k x)

theorem flatten_split (L : List (List α)) (i : Nat) (l : List α) (h : L[i]? = some l) :
    L.flatten = (L.take i).flatten ++ l ++ (L.drop (i + 1)).flatten := by
  obtain ⟨hi, rfl⟩ := List.getElem?_eq_some_iff.1 h
  have e := congrArg List.flatten (List.take_append_drop i L)
  rw [List.drop_eq_getElem_cons hi, List.flatten_append, List.flatten_cons] at e
  rw [List.append_assoc]; exact e.symm

theorem take_succ_flatten (L : List (List α)) (i : Nat) (l : List α) (h : L[i]? = some l) :
    (L.take (i + 1)).flatten.length = (L.take i).flatten.length + l.length := by
  rw [List.take_add_one, h]; simp

/-- **C68, sizes**: the number of segments and of values. -/
theorem C68_sizes (f : SegField α) (L : List (List α)) (h : f.Holds L) : f.numSegments = L.length ∧ f.size = L.flatten.length := by
  obtain ⟨h1, h2, _⟩ := h
  simp [SegField.numSegments, SegField.size, h1, h2, szSub]

theorem SegField.Holds.range_eq {f : SegField α} {L : List (List α)} (h : f.Holds L) {i : Nat} {l : List α} (hl : L[i]? = some l) :
    f.range i = .ok ((L.take i).flatten.length, l.length) := by
  obtain ⟨h1, h2, h3⟩ := h
  have hi : i < L.length := (List.getElem?_eq_some_iff.1 hl).1
  unfold SegField.range
  rw [h2, rd_ok (by simp; omega), rd_ok (by simp; omega)]
  have := take_succ_flatten L i l hl
  simp only [List.getElem_map, List.getElem_range, Res.ok_bind, Res.pure_eq, this]
  simp [u32Sub]

/-- **C68, reading**: the span of segment `i` is vector `i`; beyond the last segment nothing may be read. -/
theorem C68_span (f : SegField α) (L : List (List α)) (h : f.Holds L) (i : Nat) :
    f.span i = (match L[i]? with | some l => .ok l | none => .ub) := by
  cases hl : L[i]? with
  | some l =>
    unfold SegField.span
    rw [h.range_eq hl]
    have hs := flatten_split L i l hl
    simp only [Res.ok_bind, h.1]
    rw [if_pos (by rw [hs]; simp), hs]
    simp [List.append_assoc]
  | none =>
    have hi : L.length ≤ i := List.getElem?_eq_none_iff.1 hl
    unfold SegField.span SegField.range
    rw [h.2.1, rd_ub (i := i + 1) (by simp; omega)]
    by_cases hi' : i < L.length + 1
    · rw [rd_ok (by simp; omega)]; rfl
    · rw [rd_ub (by simp; omega)]; rfl

/-- **C68, writing**: a store into the span of segment `i` changes that element of vector `i` and no other element of any
vector; a store outside the span is undefined. -/
theorem C68_write (f : SegField α) (L : List (List α)) (h : f.Holds L) (i k : Nat) (x : α) :
    (∀ l, L[i]? = some l → k < l.length → ∃ f', f.write i k x = .ok f' ∧ f'.Holds (setElem L i k x)) ∧
      ((∀ l, L[i]? = some l → l.length ≤ k) → f.write i k x = .ub) := by
  constructor
  · intro l hl hk
    have hs := flatten_split L i l hl
    have hb : (L.take i).flatten.length + k < f.values.length := by rw [h.1, hs]; simp; omega
    refine ⟨{ f with values := f.values.set ((L.take i).flatten.length + k) x }, ?_, ?_, ?_, ?_⟩
    · unfold SegField.write
      rw [C68_span f L h i, hl]
      simp only [Res.ok_bind]
      rw [h.range_eq hl]
      simp only [Res.ok_bind, hk, if_true, wr_ok hb]
      rfl
    · have hi : i < L.length := (List.getElem?_eq_some_iff.1 hl).1
      have hm : (setElem L i k x)[i]? = some (l.set k x) := by
        simp [setElem, List.getElem?_modify, hl]
      rw [flatten_split _ i _ hm]
      have e1 : (setElem L i k x).take i = L.take i := by
        apply List.ext_getElem?; intro j
        by_cases hj : j < i
        · rw [List.getElem?_take_of_lt hj, List.getElem?_take_of_lt hj]
          simp [setElem, List.getElem?_modify, show i ≠ j by omega]
        · rw [List.getElem?_eq_none (by simp; omega), List.getElem?_eq_none (by simp; omega)]
      have e2 : (setElem L i k x).drop (i + 1) = L.drop (i + 1) := by
        apply List.ext_getElem?; intro j
        rw [List.getElem?_drop, List.getElem?_drop]
        simp [setElem, List.getElem?_modify, show i ≠ i + 1 + j by omega]
      rw [e1, e2]
      show f.values.set _ x = _
      rw [h.1, hs, List.append_assoc, List.append_assoc, List.set_append_right _ _ (by omega), Nat.add_sub_cancel_left,
        List.set_append_left _ _ hk]
    · show f.segments = _
      rw [h.2.1]
      have hlen : (setElem L i k x).length = L.length := by simp [setElem]
      rw [hlen]
      apply List.map_congr_left
      intro j _
      rw [List.length_flatten, List.length_flatten, List.map_take, List.map_take]
      congr 2
      apply List.ext_getElem?; intro p
      simp only [setElem, List.getElem?_map, List.getElem?_modify]
      cases L[p]? with
      | none => simp
      | some q => by_cases hip : i = p <;> simp [hip]
    · have : (setElem L i k x).flatten.length = L.flatten.length := by
        rw [List.length_flatten, List.length_flatten]
        congr 1
        apply List.ext_getElem?; intro p
        simp only [setElem, List.getElem?_map, List.getElem?_modify]
        cases L[p]? with
        | none => simp
        | some q => by_cases hip : i = p <;> simp [hip]
      rw [this]; exact h.2.2
  · intro hk
    unfold SegField.write
    rw [C68_span f L h i]
    cases hl : L[i]? with
    | none => rfl
    | some l =>
      simp only [Res.ok_bind]
      rw [h.range_eq hl]
      simp only [Res.ok_bind]
      rw [if_neg (by have := hk l hl; omega)]

/-- **C68, any history of stores** that stay in their segments has the effect of the same stores on the separate vectors. -/
theorem C68_history : ∀ (ws : List (Nat × Nat × α)) (f : SegField α) (L : List (List α)), f.Holds L →
    (∀ w ∈ ws, ∃ l, L[w.1]? = some l ∧ w.2.1 < l.length) →
    ∃ f', ws.foldlM (fun f w => f.write w.1 w.2.1 w.2.2) f = .ok f' ∧ f'.Holds (ws.foldl (fun L w => setElem L w.1 w.2.1 w.2.2) L)
  | [], f, L, h, _ => ⟨f, rfl, h⟩
  | w :: ws, f, L, h, hw => by
    obtain ⟨l, hl, hk⟩ := hw w (by simp)
    obtain ⟨f', hf', hh⟩ := (C68_write f L h w.1 w.2.1 w.2.2).1 l hl hk
    rw [List.foldlM_cons, hf', Res.ok_bind, List.foldl_cons]
    refine C68_history ws f' _ hh ?_
    intro w' hw'
    obtain ⟨l', hl', hk'⟩ := hw w' (by simp [hw'])
    by_cases hi : w.1 = w'.1
    · refine ⟨l'.set w.2.1 w.2.2, ?_, by simpa using hk'⟩
      simp [setElem, List.getElem?_modify, hi, hl']
    · exact ⟨l', by simp [setElem, List.getElem?_modify, hi, hl'], hk'⟩

theorem eq_of_offset_eq {L : List (List α)} {i j p q : Nat} {l l' : List α} (hi : L[i]? = some l) (hj : L[j]? = some l') (hp : p < l.length)
    (hq : q < l'.length) (h : (L.take i).flatten.length + p = (L.take j).flatten.length + q) : i = j := by
  have mono : ∀ a b, a ≤ b → (L.take a).flatten.length ≤ (L.take b).flatten.length := by
    intro a b hab
    have : L.take a = (L.take b).take a := by rw [List.take_take, Nat.min_eq_left hab]
    rw [this]
    have e := congrArg List.length (congrArg List.flatten (List.take_append_drop a (L.take b)))
    rw [List.flatten_append, List.length_append] at e
    omega
  have h1 := take_succ_flatten L i l hi
  have h2 := take_succ_flatten L j l' hj
  rcases lt_trichotomy i j with h' | h' | h'
  · have := mono (i + 1) j (by omega); omega
  · exact h'
  · have := mono (j + 1) i (by omega); omega

theorem exists_offset (L : List (List α)) :
    ∀ p, p < L.flatten.length → ∃ i l k, L[i]? = some l ∧ k < l.length ∧ p = (L.take i).flatten.length + k := by
  induction L using List.reverseRecOn with
  | nil => intro p hp; simp at hp
  | append_singleton L a ih =>
    intro p hp
    rw [List.flatten_append, List.length_append] at hp
    by_cases hp' : p < L.flatten.length
    · obtain ⟨i, l, k, h1, h2, h3⟩ := ih p hp'
      have hi : i < L.length := (List.getElem?_eq_some_iff.1 h1).1
      exact ⟨i, l, k, by rw [List.getElem?_append_left hi]; exact h1, h2, by rw [List.take_append_of_le_length (by omega)]; exact h3⟩
    · refine ⟨L.length, a, p - L.flatten.length, by simp, ?_, ?_⟩
      · rw [List.flatten_singleton] at hp; omega
      · rw [List.take_append_of_le_length (le_refl _), List.take_length]; omega

/-- **C68, concurrent filling**: a kernel whose thread `i` fills segment `i` has, on every executor and schedule, the effect of
filling the separate vectors: no thread touches the segment of another. -/
theorem C68_parallel (e : ExecKind) (f : SegField α) (L : List (List α)) (h : f.Holds L) (g : Nat → Nat → α) :
    (f.fillAll e g).Ok (fun f' => f'.Holds (L.mapIdx fun i l => (List.range l.length).map (g i))) := by
  have hn := (C68_sizes f L h).1
  unfold SegField.fillAll
  rw [hn]
  let ws : Nat → List (Wr Unit α) := fun i => (List.range ((L[i]?).getD []).length).map fun k => ⟨(), (L.take i).flatten.length + k, g i k⟩
  have hget : ∀ i, i < L.length → ∃ l, L[i]? = some l := fun i hi => ⟨_, List.getElem?_eq_getElem hi⟩
  have hl := launch_writes e 0 L.length (f.fillBody g) ws (fun _ => f.values)
    (by
      intro i _ hi
      obtain ⟨l, hl⟩ := hget i hi
      unfold SegField.fillBody
      rw [C68_span f L h i, hl]
      simp only [Res.ok_bind]
      rw [h.range_eq hl]
      simp [ws, hl, Wr.act, Function.comp_def])
    (by
      intro i _ hi w hw
      obtain ⟨l, hl⟩ := hget i hi
      obtain ⟨k, hk, rfl⟩ := List.mem_map.1 hw
      rw [List.mem_range, hl] at hk
      simp only [Option.getD_some] at hk
      show _ + k < f.values.length
      rw [h.1, flatten_split L i l hl]; simp; omega)
    (by
      intro i _ hi
      rw [List.pairwise_map]
      refine List.nodup_range.imp (fun {a b} hab => ?_)
      simp [Wr.loc, hab])
    (by
      intro i j _ hi _ hj hij w hw w' hw'
      obtain ⟨l, hl⟩ := hget i hi
      obtain ⟨l', hl'⟩ := hget j hj
      obtain ⟨k, hk, rfl⟩ := List.mem_map.1 hw
      obtain ⟨k', hk', rfl⟩ := List.mem_map.1 hw'
      rw [List.mem_range, hl] at hk
      rw [List.mem_range, hl'] at hk'
      intro he
      simp only [Wr.loc, Prod.mk.injEq, true_and] at he
      exact hij (eq_of_offset_eq hl hl' hk hk' he))
  refine NR.Ok.bind (Q := fun v => v = (L.mapIdx fun i l => (List.range l.length).map (g i)).flatten) ?_ ?_
  · refine NR.Ok.bind hl ?_
    rintro arrs ⟨h1, h2, _⟩
    refine NR.Ok.pure ?_
    have hlen : (L.mapIdx fun i l => (List.range l.length).map (g i)).flatten.length = L.flatten.length := by
      rw [List.length_flatten, List.length_flatten]; congr 1
      apply List.ext_getElem?; intro p; simp only [List.getElem?_map, List.getElem?_mapIdx]
      cases L[p]? <;> simp
    have hall := exists_offset L
    apply List.ext_getElem?
    intro p
    by_cases hp : p < L.flatten.length
    · obtain ⟨i, l, k, hil, hk, rfl⟩ := hall p hp
      have hi : i < L.length := (List.getElem?_eq_some_iff.1 hil).1
      have hw := h2 ⟨(), (L.take i).flatten.length + k, g i k⟩ (by
        rw [List.mem_flatMap]
        exact ⟨i, by rw [List.mem_range'_1]; omega, List.mem_map.2 ⟨k, by rw [List.mem_range, hil]; exact hk, rfl⟩⟩)
      rw [hw]
      have hil' : (L.mapIdx fun i l => (List.range l.length).map (g i))[i]? = some ((List.range l.length).map (g i)) := by simp [hil]
      rw [flatten_split _ i _ hil']
      have e1 : ((L.mapIdx fun i l => (List.range l.length).map (g i)).take i).flatten.length = (L.take i).flatten.length := by
        rw [List.length_flatten, List.length_flatten, List.map_take, List.map_take]; congr 2
        apply List.ext_getElem?; intro p; simp only [List.getElem?_map, List.getElem?_mapIdx]
        cases L[p]? <;> simp
      rw [List.append_assoc, List.getElem?_append_right (by omega), e1, Nat.add_sub_cancel_left, List.getElem?_append_left (by simpa using hk)]
      simp [hk]
    · have h1' := h1 ()
      rw [List.getElem?_eq_none (by rw [h1', h.1]; omega), List.getElem?_eq_none (by omega)]
  · rintro v rfl
    refine NR.Ok.pure ⟨rfl, ?_, ?_⟩
    · show f.segments = _
      rw [h.2.1, List.length_mapIdx]
      apply List.map_congr_left
      intro j _
      rw [List.length_flatten, List.length_flatten, List.map_take, List.map_take]; congr 2
      apply List.ext_getElem?; intro p; simp only [List.getElem?_map, List.getElem?_mapIdx]
      cases L[p]? <;> simp
    · have : (L.mapIdx fun i l => (List.range l.length).map (g i)).flatten.length = L.flatten.length := by
        rw [List.length_flatten, List.length_flatten]; congr 1
        apply List.ext_getElem?; intro p; simp only [List.getElem?_map, List.getElem?_mapIdx]
        cases L[p]? <;> simp
      rw [this]; exact h.2.2

/-- The vectors a list falls into when cut into pieces of the given lengths. -/
def cut : List α → List Nat → List (List α)
  | _, [] => []
  | v, n :: ns => v.take n :: cut (v.drop n) ns

theorem cut_spec : ∀ (ns : List Nat) (v : List α), v.length = ns.sum →
    (cut v ns).flatten = v ∧ (cut v ns).map List.length = ns
  | [], v, h => by
    have : v = [] := List.length_eq_zero_iff.1 (by simpa using h)
    simp [cut, this]
  | n :: ns, v, h => by
    simp only [List.sum_cons] at h
    obtain ⟨h1, h2⟩ := cut_spec ns (v.drop n) (by simp; omega)
    simp only [cut, List.flatten_cons, h1, List.take_append_drop, List.map_cons, h2, List.length_take]
    refine ⟨trivial, ?_⟩
    rw [Nat.min_eq_left (by omega)]

/-- **C68, construction from lengths**: if the total fits into 32 bits, the new segmented field represents as many vectors as
there are lengths, each of its length. -/
theorem C68_construct (junk : Nat → α) (lengths : List Nat) (hfit : lengths.sum < 2 ^ 32) :
    (SegField.ofIntervals junk lengths).Runs ∧
    (SegField.ofIntervals junk lengths).Ok (fun f => ∃ L, f.Holds L ∧ L.map List.length = lengths) := by
  constructor
  · refine NR.Runs.bind ⟨_, (C10_segmentedField _ _).2 rfl⟩ (fun _ _ => NR.Runs.pure _)
  · refine NR.Ok.bind (Q := fun r : ZMod (2 ^ 32) × List (ZMod (2 ^ 32)) => r.1.val = lengths.sum ∧
        r.2.map ZMod.val = (List.range (lengths.length + 1)).map (prefixSum lengths)) ?_ ?_
    · intro out ho
      have ho' := ho
      rw [C10_segmentedField] at ho
      subst ho
      exact ⟨_, rfl, C10_wrapping 32 lengths hfit _ _ ho'⟩
    · rintro ⟨t, s⟩ ⟨h1, h2⟩
      refine NR.Ok.pure ?_
      simp only at h1 h2
      obtain ⟨c1, c2⟩ := cut_spec lengths ((List.range lengths.sum).map junk) (by simp)
      refine ⟨cut ((List.range lengths.sum).map junk) lengths, ⟨?_, ?_, ?_⟩, c2⟩
      · rw [c1, h1]
      · have hl : (cut ((List.range lengths.sum).map junk) lengths).length = lengths.length := by
          have := congrArg List.length c2; simpa using this
        rw [h2, hl]
        apply List.map_congr_left
        intro i _
        rw [List.length_flatten, List.map_take, c2]; rfl
      · rw [c1]; simpa using hfit

/-- **C68, what fails**: two segments of 2^31 elements: their total is taken modulo 2^32, so there are no values at all, and
the span of the first segment is out of bounds. -/
theorem C68_overflow_violation (junk : Nat → α) :
    (SegField.ofIntervals junk [2 ^ 31, 2 ^ 31]).Ok (fun f => f.size = 0 ∧ f.numSegments = 2 ∧ f.span 0 = .ub) := by
  refine NR.Ok.bind (Q := fun r : ZMod (2 ^ 32) × List (ZMod (2 ^ 32)) => r.1.val = 0 ∧ r.2.map ZMod.val = [0, 2 ^ 31, 0]) ?_ ?_
  · intro out ho
    rw [C10_segmentedField] at ho
    subst ho
    have hz : ((2 ^ 31 : ℕ) : ZMod (2 ^ 32)) + ((2 ^ 31 : ℕ) : ZMod (2 ^ 32)) = 0 := by
      rw [← Nat.cast_add]
      exact (ZMod.natCast_eq_zero_iff _ _).2 (by norm_num)
    have hv : (((2 ^ 31 : ℕ) : ZMod (2 ^ 32))).val = 2 ^ 31 := ZMod.val_natCast_of_lt (by norm_num)
    refine ⟨_, rfl, ?_, ?_⟩
    · simp only [List.map_cons, List.map_nil, List.sum_cons, List.sum_nil, add_zero, hz]; rfl
    · simp only [List.map_cons, List.map_nil, List.length_cons, List.length_nil]
      simp only [show List.range (0 + 1 + 1 + 1) = [0, 1, 2] from rfl, List.map_cons, List.map_nil, List.take, List.sum_cons, List.sum_nil,
        add_zero, hz, hv]
      rfl
  · rintro ⟨t, s⟩ ⟨h1, h2⟩
    refine NR.Ok.pure ?_
    simp only at h1 h2
    simp only [h1, h2]
    refine ⟨rfl, rfl, ?_⟩
    rfl

/-- **C68, what fails**: values and offsets that do not belong together are accepted; the span of a segment is then out of
bounds. -/
theorem C68_parts_violation (e : Exec) (x : α) :
    ∃ f, SegField.ofParts e e [x] [0, 2] = .ok f ∧ f.span 0 = .ub ∧ ∀ L, ¬ f.Holds L := by
  refine ⟨⟨[x], [0, 2]⟩, by simp [SegField.ofParts], rfl, ?_⟩
  intro L h
  have := C68_span _ L h 0
  rw [show (SegField.span ⟨[x], [0, 2]⟩ 0 : Res (List α)) = .ub from rfl] at this
  cases hl : L[0]? with
  | some l => rw [hl] at this; cases this
  | none =>
    have hL : L = [] := by
      have := List.getElem?_eq_none_iff.1 hl
      exact List.length_eq_zero_iff.1 (by omega)
    have := h.1
    rw [hL] at this; cases this

/-- **C68, what fails**: offsets that decrease are accepted; the length of the segment wraps around, and reading it is undefined for every
field with fewer than 2^32 values. -/
theorem C68_decreasing_violation (e : Exec) (v : List α) (hv : v.length < 2 ^ 32) (a b : Nat) (ha : a < 2 ^ 32) (hab : b < a) :
    ∃ f, SegField.ofParts e e v [a, b] = .ok f ∧ f.range 0 = .ok (a, 2 ^ 32 - (a - b)) ∧ f.span 0 = .ub := by
  have hr : (⟨v, [a, b]⟩ : SegField α).range 0 = .ok (a, 2 ^ 32 - (a - b)) := by
    show Res.ok (a, u32Sub b a) = _
    rw [u32Sub, if_neg (by omega)]
  refine ⟨⟨v, [a, b]⟩, by simp [SegField.ofParts], hr, ?_⟩
  unfold SegField.span
  rw [hr]
  simp only [Res.ok_bind]
  rw [if_neg (by show ¬ (a + (2 ^ 32 - (a - b)) ≤ v.length); omega)]

/-- What is right: parts that belong together are accepted as they are, parts on different executors never. -/
theorem C68_parts (e e' : Exec) (L : List (List α)) (hL : L.flatten.length < 2 ^ 32) :
    (∃ f, SegField.ofParts e e L.flatten ((List.range (L.length + 1)).map (fun i => (L.take i).flatten.length)) = .ok f ∧ f.Holds L) ∧
      (e ≠ e' → ∀ (v : List α) s, SegField.ofParts e e' v s = .abort) :=
  ⟨⟨⟨L.flatten, (List.range (L.length + 1)).map (fun i => (L.take i).flatten.length)⟩, by simp only [SegField.ofParts, if_true], rfl, rfl, hL⟩, fun h v s => by simp [SegField.ofParts, h]⟩

/-- **C68, what fails**: a field constructed with a size and a number of segments represents nothing until offsets are
written: what its spans are depends on the previous contents of the memory. -/
theorem C68_sized_violation (x : α) :
    ∃ junkI, (SegField.sized (fun _ => x) junkI 1 1).span 0 = .ub ∧ ∃ junkI', (SegField.sized (fun _ => x) junkI' 1 1).span 0 = .ok [x] :=
  ⟨fun _ => 7, rfl, fun i => i, rfl⟩

/-- The theorems apply: three vectors, one of them empty. -/
example : (⟨[1, 2, 3], [0, 2, 2, 3]⟩ : SegField Nat).Holds [[1, 2], [], [3]] := ⟨rfl, rfl, by decide⟩
example : ([2, 0, 1] : List Nat).sum < 2 ^ 32 := by decide
example : ∀ w ∈ ([(0, 1, 5), (2, 0, 6)] : List (Nat × Nat × Nat)), ∃ l, ([[1, 2], [], [3]] : List (List Nat))[w.1]? = some l ∧ w.2.1 < l.length := by
  intro w hw
  simp only [List.mem_cons, List.not_mem_nil, or_false] at hw
  rcases hw with rfl | rfl
  · exact ⟨[1, 2], rfl, by decide⟩
  · exact ⟨[3], rfl, by decide⟩

end NeoFOAM
