import Verif.Base.Mem

/-!
# Sequences of kernels and what they add to memory
-/
namespace NeoFOAM
open Finset

/-- The thread programs of one `parallelFor` (one thread per index). -/
abbrev Threads (A : Type u) (K : Type v) := List (List (Act A K))

variable {A : Type u} {K : Type v} [DecidableEq A]

/-- `RunProg e ks s out`: running the kernels `ks` one after another on executor kind `e` from
memory `s` can end with outcome `out`. A kernel whose own reads are undefined makes the whole run
undefined. Kernels launched on one executor run in launch order. -/
def RunProg (e : ExecKind) : List (Res (Threads A K)) → Mem A K → Res (Mem A K) → Prop
  | [], s, out => out = .ok s
  | .ok ts :: ks, s, out =>
      ∃ l, Schedule e ts l ∧
        match runActs Mem.step s l with
        | .ok s' => RunProg e ks s' out
        | r => out = r
  | .throw x :: _, _, out => out = .throw x
  | .abort :: _, _, out => out = .abort
  | .ub :: _, _, out => out = .ub

/-- Running the kernels on the serial executor. -/
def serialProg : List (Threads A K) → Mem A K → Res (Mem A K)
  | [], s => .ok s
  | ts :: ks, s => runActs Mem.step s ts.flatten >>= fun s' => serialProg ks s'

theorem RunProg.eq_serial {e : ExecKind} : ∀ {ks : List (Threads A K)} {s : Mem A K}
    {out : Res (Mem A K)}, (∀ ts ∈ ks, ThreadsCommute Mem.step ts) →
    RunProg e (ks.map .ok) s out → out = serialProg ks s
  | [], s, out, _, h => h
  | ts :: ks, s, out, hc, h => by
    obtain ⟨l, hl, hr⟩ := h
    rw [hl.run_eq_serial Mem.step (hc ts (by simp)) s] at hr
    simp only [serialProg]
    cases hs : runActs Mem.step s ts.flatten with
    | ok s' =>
      rw [hs] at hr
      exact RunProg.eq_serial (fun t ht => hc t (by simp [ht])) hr
    | throw x => rw [hs] at hr; simpa using hr
    | abort => rw [hs] at hr; simpa using hr
    | ub => rw [hs] at hr; simpa using hr

/-- Every program has at least one outcome. -/
theorem RunProg.exists (e : ExecKind) : ∀ (ks : List (Res (Threads A K))) (s : Mem A K),
    ∃ out, RunProg e ks s out
  | [], s => ⟨_, rfl⟩
  | .ok ts :: ks, s => by
    obtain ⟨l, hl⟩ := Schedule.exists e ts
    cases hs : runActs Mem.step s l with
    | ok s' =>
      obtain ⟨o, ho⟩ := RunProg.exists e ks s'
      exact ⟨o, l, hl, by rw [hs]; exact ho⟩
    | throw x => exact ⟨_, l, hl, by rw [hs]⟩
    | abort => exact ⟨_, l, hl, by rw [hs]⟩
    | ub => exact ⟨_, l, hl, by rw [hs]⟩
  | .throw x :: _, _ => ⟨_, rfl⟩
  | .abort :: _, _ => ⟨_, rfl⟩
  | .ub :: _, _ => ⟨_, rfl⟩

theorem threadsCommute_map {ι : Type w} {l : List ι} {body : ι → List (Act A K)}
    (hn : l.Nodup)
    (h : ∀ i ∈ l, ∀ j ∈ l, i ≠ j → ∀ x ∈ body i, ∀ y ∈ body j, ActsCommute Mem.step x y) :
    ThreadsCommute Mem.step (l.map body) := by
  unfold ThreadsCommute
  rw [List.pairwise_map]
  exact hn.imp_of_mem (fun {i j} hi hj hij => h i hi j hj hij)

theorem run_plain (s : Mem A K) (t : Nat) (a : A) (i : Nat) (f : K → K)
    (h : i < (s.arr a).length) :
    runActs Mem.step s (Act.plain t a i f) =
      .ok ⟨fun b => if b = a then (s.arr b).modify i f else s.arr b,
        fun u => if u = t then some ((s.arr a)[i]) else s.reg u⟩ := by
  simp only [Act.plain, runActs_cons, Mem.step, List.getElem?_eq_getElem h, Res.ok_bind, h, if_true,
    runActs_nil]
  congr 1
  apply Mem.ext'
  · intro b
    by_cases hb : b = a
    · subst hb
      simp only [Mem.setArr_arr, if_true]
      apply List.ext_getElem?
      intro k
      simp only [List.getElem?_modify, List.getElem?_set]
      by_cases hk : i = k
      · subst hk; simp [h]
      · simp [hk]
    · simp [hb]
  · intro u; simp

section adds
variable [AddCommGroup K]

theorem comm_add_add (a b : A) (i j : Nat) (v w : K) :
    ActsCommute Mem.step (Act.atomicAdd a i v) (Act.atomicAdd b j w) :=
  comm_acts _ _ (by simp [Act.atomicAdd, Act.tid])
    (Or.inr ⟨a, i, _, b, j, _, rfl, rfl, fun x => by abel⟩)

/-- An atomic add or subtract. -/
def Act.IsAddSub (x : Act A K) : Prop :=
  ∃ a i v, x = Act.atomicAdd a i v ∨ x = Act.atomicSub a i v

theorem comm_addSub {x y : Act A K} (hx : x.IsAddSub) (hy : y.IsAddSub) :
    ActsCommute Mem.step x y := by
  obtain ⟨a, i, v, hx⟩ := hx
  obtain ⟨b, j, w, hy⟩ := hy
  apply comm_acts
  · intro t ht
    rcases hx with rfl | rfl <;> simp [Act.atomicAdd, Act.atomicSub, Act.tid] at ht
  · right
    rcases hx with rfl | rfl <;> rcases hy with rfl | rfl <;>
      exact ⟨_, _, _, _, _, _, rfl, rfl, fun x => by abel⟩

omit [DecidableEq A] in
theorem Act.isAddSub_add (a : A) (i : Nat) (v : K) : (Act.atomicAdd a i v).IsAddSub :=
  ⟨a, i, v, Or.inl rfl⟩
omit [DecidableEq A] in
theorem Act.isAddSub_sub (a : A) (i : Nat) (v : K) : (Act.atomicSub a i v).IsAddSub :=
  ⟨a, i, v, Or.inr rfl⟩

/-- Value of element `i` of array `a` (0 outside). -/
def Mem.val (s : Mem A K) (a : A) (i : Nat) : K := (s.arr a).getD i 0

/-- `s'` is `s` with `δ a i` added to element `i` of each array `a`. -/
def Adds (s s' : Mem A K) (δ : A → Nat → K) : Prop :=
  (∀ a, (s'.arr a).length = (s.arr a).length) ∧
  ∀ a i, i < (s.arr a).length → s'.val a i = s.val a i + δ a i

omit [DecidableEq A] in
theorem Adds.refl (s : Mem A K) : Adds s s (fun _ _ => 0) := ⟨fun _ => rfl, by simp⟩

omit [DecidableEq A] in
theorem Adds.trans {s s1 s2 : Mem A K} {δ1 δ2 : A → Nat → K} (h1 : Adds s s1 δ1)
    (h2 : Adds s1 s2 δ2) : Adds s s2 (fun a i => δ1 a i + δ2 a i) := by
  refine ⟨fun a => (h2.1 a).trans (h1.1 a), fun a i hi => ?_⟩
  rw [h2.2 a i (by rw [h1.1 a]; exact hi), h1.2 a i hi, add_assoc]

/-- `v` at one element, zero elsewhere. -/
def single (a : A) (i : Nat) (v : K) : A → Nat → K :=
  fun b j => if b = a ∧ j = i then v else 0

/-- The actions `l` succeed on every memory with array sizes `n` and add `δ`. -/
def RunsAdd (n : A → Nat) (l : List (Act A K)) (δ : A → Nat → K) : Prop :=
  ∀ s : Mem A K, (∀ a, (s.arr a).length = n a) → ∃ s', runActs Mem.step s l = .ok s' ∧ Adds s s' δ

theorem RunsAdd.nil (n : A → Nat) : RunsAdd (K := K) n [] (fun _ _ => 0) :=
  fun s _ => ⟨s, rfl, Adds.refl s⟩

theorem RunsAdd.append {n : A → Nat} {l1 l2 : List (Act A K)} {δ1 δ2 : A → Nat → K}
    (h1 : RunsAdd n l1 δ1) (h2 : RunsAdd n l2 δ2) :
    RunsAdd n (l1 ++ l2) (fun a i => δ1 a i + δ2 a i) := by
  intro s hs
  obtain ⟨s1, r1, a1⟩ := h1 s hs
  obtain ⟨s2, r2, a2⟩ := h2 s1 (fun a => by rw [a1.1 a, hs a])
  exact ⟨s2, by rw [runActs_append, r1]; exact r2, a1.trans a2⟩

theorem RunsAdd.congr {n : A → Nat} {l : List (Act A K)} {δ δ' : A → Nat → K}
    (h : RunsAdd n l δ) (e : ∀ a i, i < n a → δ a i = δ' a i) : RunsAdd n l δ' := by
  intro s hs
  obtain ⟨s1, r1, a1⟩ := h s hs
  exact ⟨s1, r1, a1.1, fun a i hi => by rw [a1.2 a i hi, e a i (by rw [← hs a]; exact hi)]⟩

theorem getD_modify (l : List K) (i j : Nat) (f : K → K) (h : i < l.length) :
    (l.modify i f).getD j 0 = if j = i then f (l.getD i 0) else l.getD j 0 := by
  simp only [List.getD, List.getElem?_modify]
  by_cases hj : j = i
  · subst hj; simp [List.getElem?_eq_getElem h]
  · simp [hj, Ne.symm hj]

theorem RunsAdd.rmw {n : A → Nat} {a : A} {i : Nat} {f : K → K} {v : K} (hi : i < n a)
    (hf : ∀ x, f x = x + v) : RunsAdd n [Act.rmw a i f] (single a i v) := by
  intro s hs
  have hl : i < (s.arr a).length := by rw [hs a]; exact hi
  refine ⟨s.setArr a ((s.arr a).modify i f), by simp [Mem.step, hl], fun b => ?_, fun b j hj => ?_⟩
  · by_cases hb : b = a <;> simp [hb]
  · by_cases hb : b = a
    · subst hb
      simp only [Mem.val, Mem.setArr_arr, if_true, getD_modify _ _ _ _ hl, single, true_and]
      by_cases hji : j = i
      · subst hji; simp [hf]
      · simp [hji]
    · simp [Mem.val, hb, single]

theorem RunsAdd.atomicAdd {n : A → Nat} {a : A} {i : Nat} {v : K} (hi : i < n a) :
    RunsAdd n [Act.atomicAdd a i v] (single a i v) := RunsAdd.rmw hi (fun _ => rfl)

theorem RunsAdd.atomicSub {n : A → Nat} {a : A} {i : Nat} {v : K} (hi : i < n a) :
    RunsAdd n [Act.atomicSub a i v] (single a i (-v)) := RunsAdd.rmw hi (fun _ => sub_eq_add_neg _ _)

theorem RunsAdd.plain {n : A → Nat} {t : Nat} {a : A} {i : Nat} {f : K → K} {v : K} (hi : i < n a)
    (hf : ∀ x, f x = x + v) : RunsAdd n (Act.plain t a i f) (single a i v) := by
  intro s hs
  have hl : i < (s.arr a).length := by rw [hs a]; exact hi
  refine ⟨_, run_plain s t a i f hl, fun b => ?_, fun b j hj => ?_⟩
  · by_cases hb : b = a <;> simp [hb]
  · by_cases hb : b = a
    · subst hb
      simp only [Mem.val, if_true, getD_modify _ _ _ _ hl, single, true_and]
      by_cases hji : j = i
      · subst hji; simp [hf]
      · simp [hji]
    · simp [Mem.val, hb, single]

/-- Threads indexed `0..m-1`, run one after another, add the sum of what each adds. -/
theorem RunsAdd.range {n : A → Nat} (body : Nat → List (Act A K)) (δ : Nat → A → Nat → K) :
    ∀ (m : Nat), (∀ f, f < m → RunsAdd n (body f) (δ f)) →
    RunsAdd n ((List.range m).map body).flatten (fun a i => ∑ f ∈ range m, δ f a i)
  | 0, _ => by simpa using RunsAdd.nil n
  | m + 1, h => by
    have ih := RunsAdd.range body δ m (fun f hf => h f (by omega))
    rw [List.range_succ, List.map_append, List.flatten_append]
    refine (ih.append (l2 := ((List.map body [m]).flatten)) (δ2 := δ m) ?_).congr ?_
    · simpa using h m (by omega)
    · intro a i _; rw [Finset.sum_range_succ]

end adds

/-- Element-wise effect of threads that each touch only their own element of array `a`. -/
theorem run_elementwise (a : A) (f : Nat → K → K) (body : Nat → List (Act A K))
    (hb : ∀ i s, i < (s.arr a).length → ∃ s', runActs Mem.step s (body i) = .ok s' ∧
      ∀ b, s'.arr b = if b = a then (s.arr b).modify i (f i) else s.arr b) :
    ∀ (l : List Nat), l.Nodup → ∀ (s : Mem A K), (∀ i ∈ l, i < (s.arr a).length) →
    ∃ s', runActs Mem.step s (l.map body).flatten = .ok s' ∧
      ∀ b, s'.arr b =
        if b = a then (s.arr b).mapIdx (fun i x => if i ∈ l then f i x else x) else s.arr b
  | [], _, s, _ => ⟨s, rfl, fun b => by
      by_cases h : b = a
      · simp only [h, if_true, List.not_mem_nil, if_false]
        apply List.ext_getElem?; intro k; simp [List.getElem?_mapIdx]
      · simp [h]⟩
  | i :: l, hn, s, hr => by
    obtain ⟨s1, r1, e1⟩ := hb i s (hr i (by simp))
    have hn' := List.nodup_cons.1 hn
    obtain ⟨s2, r2, e2⟩ := run_elementwise a f body hb l hn'.2 s1 (by
      intro j hj; rw [e1 a]; simp; exact hr j (by simp [hj]))
    refine ⟨s2, ?_, fun b => ?_⟩
    · rw [List.map_cons, List.flatten_cons, runActs_append, r1]; exact r2
    · rw [e2 b, e1 b]
      by_cases h : b = a
      · simp only [h, if_true]
        apply List.ext_getElem?
        intro k
        simp only [List.getElem?_mapIdx, List.getElem?_modify]
        by_cases hk : i = k
        · subst hk
          cases hx : (s.arr a)[i]? <;> simp [hn'.1]
        · cases hx : (s.arr a)[k]? <;> simp [hk, Ne.symm hk]
      · simp [h]

end NeoFOAM
