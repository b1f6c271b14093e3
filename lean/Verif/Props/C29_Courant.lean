import Verif.Spec.Geometry
import Verif.Spec.Witness
import Verif.Proofs.Gauss
import Verif.Props.C11_Reduce
import Verif.Props.C27_Geometry

/-!
# C29 – the Courant number

`lowest` stands for the starting value Kokkos uses for a maximum (the lowest finite number); the theorem needs
only that it is not positive. On a mesh without cells the executors disagree (`C29_empty`).
-/
namespace NeoFOAM
open Finset
variable {K : Type} [Field K] [LinearOrder K] [IsStrictOrderedRing K]

section reduce

omit [Field K] [IsStrictOrderedRing K] in
theorem Bracket.max_le {init : K} {l : List K} {v : K} (h : Bracket max init l v) (hl : ∀ x ∈ l, init ≤ x)
    (u : K) : v ≤ u ↔ init ≤ u ∧ ∀ x ∈ l, x ≤ u := by
  induction h with
  | empty => simp
  | leaf x =>
    have := hl x (by simp)
    simp only [List.mem_singleton, forall_eq]
    exact ⟨fun h => ⟨this.trans h, h⟩, fun h => h.2⟩
  | @node l₁ l₂ a b _ _ ih1 ih2 =>
    rw [max_le_iff, ih1 (fun x hx => hl x (by simp [hx])), ih2 (fun x hx => hl x (by simp [hx]))]
    constructor
    · rintro ⟨⟨h1, h2⟩, -, h3⟩
      exact ⟨h1, fun x hx => (List.mem_append.1 hx).elim (h2 x) (h3 x)⟩
    · rintro ⟨h1, h2⟩
      exact ⟨⟨h1, fun x hx => h2 x (by simp [hx])⟩, h1, fun x hx => h2 x (by simp [hx])⟩

omit [Field K] [IsStrictOrderedRing K] in
theorem foldl_max_le (x : Nat → K) : ∀ (l : List Nat) (a u : K),
    l.foldl (fun acc i => if acc < x i then x i else acc) a ≤ u ↔ a ≤ u ∧ ∀ i ∈ l, x i ≤ u
  | [], a, u => by simp
  | i :: l, a, u => by
    rw [List.foldl_cons, foldl_max_le x l]
    have : (if a < x i then x i else a) ≤ u ↔ a ≤ u ∧ x i ≤ u := by
      by_cases h : a < x i
      · rw [if_pos h]; exact ⟨fun h' => ⟨h.le.trans h', h'⟩, fun h' => h'.2⟩
      · rw [if_neg h]; exact ⟨fun h' => ⟨h', (not_lt.1 h).trans h'⟩, fun h' => h'.1⟩
    rw [this]
    simp only [List.mem_cons, forall_eq_or_imp]
    tauto

omit [Field K] [IsStrictOrderedRing K] in
theorem foldl_max_ge (x : Nat → K) : ∀ (l : List Nat) (a : K),
    a ≤ l.foldl (fun acc i => if acc < x i then x i else acc) a :=
  fun l a => ((foldl_max_le x l a _).1 le_rfl).1

omit [Field K] [IsStrictOrderedRing K] in
/-- A maximum reduction: the starting value and all contributions. -/
theorem reduceMax_le (e : ExecKind) (x : Nat → K) (lowest value : K) (n : Nat) (v : K)
    (h : parallelReduce e (fun i acc => if acc < x i then x i else acc) max lowest 0 n value v) (u : K) :
    v ≤ u ↔ (if e = .serial then value else lowest) ≤ u ∧ ∀ i < n, x i ≤ u := by
  cases e with
  | serial =>
    rw [show v = _ from h, foldl_max_le]
    simp [List.mem_range'_1]
  | parallel =>
    obtain ⟨chunks, hp, hb⟩ := h
    rw [hb.max_le (by
      intro y hy
      obtain ⟨c, _, rfl⟩ := List.mem_map.1 hy
      exact foldl_max_ge x c lowest)]
    have hmem : ∀ i, i < n ↔ i ∈ chunks.flatten := by
      intro i; rw [hp.mem_iff]; simp [List.mem_range'_1]
    constructor
    · rintro ⟨h1, h2⟩
      refine ⟨h1, fun i hi => ?_⟩
      obtain ⟨c, hc, hic⟩ := List.mem_flatten.1 ((hmem i).1 hi)
      exact ((foldl_max_le x c lowest u).1 (h2 _ (List.mem_map_of_mem hc))).2 i hic
    · rintro ⟨h1, h2⟩
      refine ⟨h1, fun y hy => ?_⟩
      obtain ⟨c, hc, rfl⟩ := List.mem_map.1 hy
      exact (foldl_max_le x c lowest u).2 ⟨h1, fun i hi => h2 i ((hmem i).2 (List.mem_flatten.2 ⟨c, hc, hi⟩))⟩

omit [Field K] [LinearOrder K] [IsStrictOrderedRing K] in
theorem parallelReduce_congr (e : ExecKind) (k k' : Nat → K → K) (join : K → K → K) (init : K) (n : Nat)
    (hk : ∀ i < n, k i = k' i) (value v : K) :
    parallelReduce e k join init 0 n value v ↔ parallelReduce e k' join init 0 n value v := by
  have hfold : ∀ (l : List Nat) (a : K), (∀ i ∈ l, i < n) →
      l.foldl (fun acc i => k i acc) a = l.foldl (fun acc i => k' i acc) a := by
    intro l
    induction l with
    | nil => intros; rfl
    | cons i l ih =>
      intro a hl
      rw [List.foldl_cons, List.foldl_cons, hk i (hl i (by simp)), ih _ (fun j hj => hl j (by simp [hj]))]
  cases e with
  | serial =>
    simp only [parallelReduce]
    rw [hfold _ _ (by intro i hi; rw [List.mem_range'_1] at hi; omega)]
  | parallel =>
    have : ∀ chunks : List (List Nat), chunks.flatten.Perm (List.range' 0 (n - 0)) →
        chunks.map (fun c => c.foldl (fun acc i => k i acc) init)
          = chunks.map (fun c => c.foldl (fun acc i => k' i acc) init) := by
      intro chunks hp
      apply List.map_congr_left
      intro c hc
      apply hfold
      intro i hi
      have := (hp.mem_iff).1 (List.mem_flatten.2 ⟨c, hc, hi⟩)
      rw [List.mem_range'_1] at this
      omega
    constructor <;> rintro ⟨chunks, hp, hb⟩ <;> refine ⟨chunks, hp, ?_⟩
    · rw [← this chunks hp]; exact hb
    · rw [this chunks hp]; exact hb

omit [LinearOrder K] [IsStrictOrderedRing K] [Field K] in
theorem parallelReduce_exists (e : ExecKind) (k : Nat → K → K) (join : K → K → K) (init : K) (n : Nat) (value : K) :
    ∃ v, parallelReduce e k join init 0 n value v := by
  cases e with
  | serial => exact ⟨_, rfl⟩
  | parallel => exact ⟨_, [List.range' 0 (n - 0)], by simp, Bracket.leaf _⟩

omit [LinearOrder K] [IsStrictOrderedRing K] [Field K] in
theorem reduceKernel_iff (e : ExecKind) (kernel : Nat → Res (K → K)) (g : Nat → K → K) (join : K → K → K) (init : K)
    (n : Nat) (value : K) (hk : ∀ i < n, kernel i = .ok (g i)) (out : Res K) :
    reduceKernel e kernel join init 0 n value out ↔
      ∃ v, parallelReduce e g join init 0 n value v ∧ out = .ok v := by
  have hm : (List.range' 0 (n - 0)).mapM kernel = .ok ((List.range' 0 (n - 0)).map g) :=
    mapM_ok kernel g _ (fun i hi => by rw [List.mem_range'_1] at hi; exact hk i (by omega))
  have hg : ∀ i < n, (fun acc => ((List.range' 0 (n - 0)).map g).getD (i - 0) id acc) = g i := by
    intro i hi
    funext acc
    simp [List.getD, hi]
  refine Iff.trans (NR.bind_iff (a := (List.range' 0 (n - 0)).map g) (fun o => by
    constructor
    · intro h; exact (show o = _ from h).trans hm
    · intro h; exact h.trans hm.symm) out) ?_
  constructor
  · rintro ⟨v, hv, rfl⟩
    exact ⟨v, (parallelReduce_congr e _ g join init n hg value v).1 hv, rfl⟩
  · rintro ⟨v, hv, rfl⟩
    exact ⟨v, (parallelReduce_congr e _ g join init n hg value v).2 hv, rfl⟩

omit [LinearOrder K] [IsStrictOrderedRing K] [Field K] in
/-- On a sub-range: the result is that of joining, in some grouping, exactly the contributions of `start, …, stop - 1`. -/
theorem C29_reduce_range (e : ExecKind) (kernel : Nat → Res (K → K)) (g : Nat → K → K) (join : K → K → K) (init : K)
    (start stop : Nat) (value : K) (hk : ∀ i, start ≤ i → i < stop → kernel i = .ok (g i)) (out : Res K) :
    reduceKernel e kernel join init start stop value out ↔
      ∃ v, parallelReduce e (fun i acc => if start ≤ i ∧ i < stop then g i acc else acc) join init start stop value v ∧ out = .ok v := by
  have hm : (List.range' start (stop - start)).mapM kernel = .ok ((List.range' start (stop - start)).map g) :=
    mapM_ok kernel g _ (fun i hi => by rw [List.mem_range'_1] at hi; exact hk i (by omega) (by omega))
  have hg : ∀ i, start ≤ i → ∀ acc : K, ((List.range' start (stop - start)).map g).getD (i - start) id acc = if start ≤ i ∧ i < stop then g i acc else acc := by
    intro i hi acc
    by_cases h : i < stop
    · have h1 : i - start < stop - start := by omega
      have h2 : start + (i - start) = i := by omega
      rw [if_pos ⟨hi, h⟩]
      simp [List.getD, h1, h2]
    · have h1 : ¬ i - start < stop - start := by omega
      rw [if_neg (fun g => h g.2)]
      simp [List.getD, h1]
  have hfold : ∀ (l : List Nat) (a : K), (∀ i ∈ l, start ≤ i) →
      l.foldl (fun acc i => ((List.range' start (stop - start)).map g).getD (i - start) id acc) a
        = l.foldl (fun acc i => if start ≤ i ∧ i < stop then g i acc else acc) a := by
    intro l
    induction l with
    | nil => intros; rfl
    | cons i l ih =>
      intro a hl
      simp only [List.foldl_cons]
      rw [hg i (hl i (by simp)) a]
      exact ih _ (fun j hj => hl j (by simp [hj]))
  have hpr : ∀ v, parallelReduce e (fun i acc => ((List.range' start (stop - start)).map g).getD (i - start) id acc) join init start stop value v ↔
      parallelReduce e (fun i acc => if start ≤ i ∧ i < stop then g i acc else acc) join init start stop value v := by
    intro v
    cases e with
    | serial =>
      show v = _ ↔ v = _
      rw [hfold _ _ (fun i hi => by rw [List.mem_range'_1] at hi; exact hi.1)]
    | parallel =>
      have : ∀ chunks : List (List Nat), chunks.flatten.Perm (List.range' start (stop - start)) →
          (chunks.map fun c => c.foldl (fun acc i => ((List.range' start (stop - start)).map g).getD (i - start) id acc) init)
            = chunks.map fun c => c.foldl (fun acc i => if start ≤ i ∧ i < stop then g i acc else acc) init := by
        intro chunks hp
        apply List.map_congr_left
        intro c hc
        apply hfold
        intro i hi
        have := (hp.mem_iff).1 (List.mem_flatten.2 ⟨c, hc, hi⟩)
        rw [List.mem_range'_1] at this
        omega
      constructor <;> rintro ⟨chunks, hp, hb⟩ <;> refine ⟨chunks, hp, ?_⟩
      · rw [← this chunks hp]; exact hb
      · rw [this chunks hp]; exact hb
  refine Iff.trans (NR.bind_iff (a := (List.range' start (stop - start)).map g) (fun o => by
    constructor
    · intro h; exact (show o = _ from h).trans hm
    · intro h; exact h.trans hm.symm) out) ?_
  constructor
  · rintro ⟨v, hv, rfl⟩
    exact ⟨v, (hpr v).1 hv, rfl⟩
  · rintro ⟨v, hv, rfl⟩
    exact ⟨v, (hpr v).2 hv, rfl⟩

end reduce

theorem sqrt_sq {sqrt : K → K} (hs : IsSqrt sqrt) (a : K) : sqrt (a * a) = |a| := by
  obtain ⟨h1, h2⟩ := hs (a * a) (mul_self_nonneg a)
  have : sqrt (a * a) * sqrt (a * a) = |a| * |a| := by rw [h2, abs_mul_abs_self]
  exact (mul_self_inj h1 (abs_nonneg a)).1 this

/-- What the face loops leave in each cell. -/
theorem coPhi_ok {m : Mesh K} (h : m.WF) (e : ExecKind) {sqrt : K → K} (hs : IsSqrt sqrt) {flux : List K}
    (hfl : flux.length = m.nFaces) :
    (do
      let phi ← launch1 e 0 m.nInternalFaces (coInternal m sqrt flux) (List.replicate m.nCells 0)
      launch1 e m.nInternalFaces flux.length (coBoundary m sqrt flux) phi : NR (List K)).Ok
      (fun phi => phi = (List.range m.nCells).map (m.absFlux (ix flux))) := by
  have hfaces := h.faces
  have hrd : ∀ f < m.nFaces, rd flux f = .ok (ix flux f) := fun f hf => rd_getD 0 (by omega)
  refine NR.Ok.bind (launch1_ok e 0 m.nInternalFaces (coInternal m sqrt flux)
    (fun f => [Act.atomicAdd () (m.own f) |ix flux f|, Act.atomicAdd () (m.nbr f) |ix flux f|])
    (fun f c => (if m.own f = c then |ix flux f| else 0) + (if m.nbr f = c then |ix flux f| else 0))
    (List.replicate m.nCells 0) ?_ ?_ ?_) ?_
  · intro f _ hf
    simp [coInternal, hrd f (by omega), h.rd_owner_int hf, h.rd_nbr hf, sqrt_sq hs]
  · right
    apply threadsCommute_addSub
    intro i x hx
    simp only [List.mem_cons, List.not_mem_nil, or_false] at hx
    rcases hx with rfl | rfl <;> exact Act.isAddSub_add _ _ _
  · intro f _ hf
    refine ((RunsAdd.atomicAdd (n := fun _ : Unit => (List.replicate m.nCells (0 : K)).length) (a := ())
      (v := |ix flux f|) (by simpa using h.own_lt_int hf)).append
      (RunsAdd.atomicAdd (a := ()) (v := |ix flux f|) (by simpa using h.nbr_lt f hf))).congr ?_
    intro a i _
    simp only [single, true_and, eq_comm (a := i)]
  · rintro phi ⟨h1, h2⟩
    have hl : phi.length = m.nCells := by simpa using h1
    refine (launch1_ok e m.nInternalFaces flux.length (coBoundary m sqrt flux)
      (fun f => [Act.atomicAdd () (m.fc (f - m.nInternalFaces)) |ix flux f|])
      (fun f c => if m.fc (f - m.nInternalFaces) = c then |ix flux f| else 0) phi ?_ ?_ ?_).mono ?_
    · intro f hf1 hf
      have hb : f - m.nInternalFaces < m.nBoundaryFaces := by omega
      simp [coBoundary, h.rd_fc hb, hrd f (by omega), sqrt_sq hs]
    · right
      apply threadsCommute_addSub
      intro i x hx
      simp only [List.mem_cons, List.not_mem_nil, or_false] at hx
      subst hx
      exact Act.isAddSub_add _ _ _
    · intro f hf1 hf
      exact runsAdd_bface (by rw [hl]; exact h.fc_lt _ (by omega))
    · rintro phi' ⟨g1, g2⟩
      apply list_eq_range_map (g1.trans hl)
      intro c hc
      rw [g2 c (by omega), h2 c (by simpa using hc)]
      rw [show flux.length - m.nInternalFaces = m.nBoundaryFaces by omega]
      simp [Mesh.absFlux, List.getD, hc]

/-- **C29**: for every valid mesh with positive cell volumes and at least one cell, every face flux and time
step, on every executor and schedule, `computeCoNum` always returns one and the same number: half the time step
times the maximum over the cells of the summed flux magnitudes over the volume. The mean it logs is the total of
the sums over the total volume. -/
theorem C29_courant {m : Mesh K} (h : m.WF) (hv : ∀ c < m.nCells, 0 < m.vol c) (hn : 0 < m.nCells)
    (e : ExecKind) {sqrt : K → K} (hs : IsSqrt sqrt) (lowest : K) (hlow : lowest ≤ 0) {flux : List K}
    (hfl : flux.length = m.nFaces) (dt : K) :
    ∃ M, IsGreatest {x | ∃ c < m.nCells, x = m.absFlux (ix flux) c / m.vol c} M ∧ 0 ≤ M ∧
      ∀ out, computeCoNum e m sqrt lowest flux dt out ↔ out = .ok (1 / 2 * dt * M,
        1 / 2 * dt * ((∑ c ∈ range m.nCells, m.absFlux (ix flux) c) / ∑ c ∈ range m.nCells, m.vol c)) := by
  have hpos : ∀ c, 0 ≤ m.absFlux (ix flux) c := by
    intro c
    unfold Mesh.absFlux
    refine add_nonneg (Finset.sum_nonneg fun f _ => add_nonneg ?_ ?_) (Finset.sum_nonneg fun b _ => ?_) <;>
      split <;> first | exact abs_nonneg _ | exact le_rfl
  obtain ⟨c0, hc0, hmax⟩ := Finset.exists_max_image (range m.nCells)
    (fun c => m.absFlux (ix flux) c / m.vol c) ⟨0, by simpa using hn⟩
  rw [mem_range] at hc0
  have hM0 : 0 ≤ m.absFlux (ix flux) c0 / m.vol c0 := div_nonneg (hpos c0) (hv c0 hc0).le
  refine ⟨m.absFlux (ix flux) c0 / m.vol c0, ⟨⟨c0, hc0, rfl⟩, ?_⟩, hM0, fun out => ?_⟩
  · rintro x ⟨c, hc, rfl⟩
    exact hmax c (by simpa using hc)
  set phi := (List.range m.nCells).map (m.absFlux (ix flux)) with hphi
  have hrdp : ∀ c < m.nCells, rd phi c = .ok (m.absFlux (ix flux) c) := by
    intro c hc
    rw [rd_getD 0 (by simp [hphi, hc]), getD_range_map _ _ _ hc]
  have hrdv : ∀ c < m.nCells, rd m.cellVolumes c = .ok (m.vol c) := fun c hc => rd_getD 0 (by rw [h.volLen]; exact hc)
  have hPhi := NR.iff_of_ok_runs (coPhi_ok h e hs hfl)
    (NR.Runs.bind (launch1_runs _ _ _ _ _) (fun _ _ => launch1_runs _ _ _ _ _))
  have hmx : ∀ o, reduceKernel e (coMaxBody phi m.cellVolumes) max lowest 0 m.nCells 0 o ↔
      o = .ok (m.absFlux (ix flux) c0 / m.vol c0) := by
    intro o
    rw [reduceKernel_iff e _ (fun c lmax => if lmax < m.absFlux (ix flux) c / m.vol c then
      m.absFlux (ix flux) c / m.vol c else lmax) max lowest m.nCells 0
      (fun c hc => by simp [coMaxBody, hrdp c hc, hrdv c hc]) o]
    have key : ∀ v, parallelReduce e (fun c lmax => if lmax < m.absFlux (ix flux) c / m.vol c then
        m.absFlux (ix flux) c / m.vol c else lmax) max lowest 0 m.nCells 0 v →
        v = m.absFlux (ix flux) c0 / m.vol c0 := by
      intro v hv'
      have hle := reduceMax_le e _ lowest 0 m.nCells v hv'
      apply le_antisymm
      · rw [hle]
        refine ⟨?_, fun c hc => hmax c (by simpa using hc)⟩
        by_cases he : e = .serial
        · rw [if_pos he]; exact hM0
        · rw [if_neg he]; exact hlow.trans hM0
      · exact ((hle v).1 le_rfl).2 c0 hc0
    constructor
    · rintro ⟨v, hv', rfl⟩
      rw [key v hv']
    · rintro rfl
      obtain ⟨v, hv'⟩ := parallelReduce_exists e (fun c lmax => if lmax < m.absFlux (ix flux) c / m.vol c then
        m.absFlux (ix flux) c / m.vol c else lmax) max lowest m.nCells 0
      exact ⟨v, hv', by rw [key v hv']⟩
  have hsum : ∀ (a : List K) (x : Nat → K), (∀ c < m.nCells, rd a c = .ok (x c)) → ∀ o,
      reduceKernel e (coSumBody a) (· + ·) 0 0 m.nCells 0 o ↔ o = .ok (∑ c ∈ range m.nCells, x c) := by
    intro a x hx o
    rw [reduceKernel_iff e _ (fun c lsum => lsum + x c) (· + ·) 0 m.nCells 0
      (fun c hc => by simp [coSumBody, hx c hc]) o]
    simp only [C11_sum_partial, ← Nat.Ico_zero_eq_range]
    constructor
    · rintro ⟨v, rfl, rfl⟩; rfl
    · intro h; exact ⟨_, rfl, h⟩
  have hassoc : computeCoNum e m sqrt lowest flux dt out ↔
      ((do
        let phi ← launch1 e 0 m.nInternalFaces (coInternal m sqrt flux) (List.replicate m.nCells 0)
        launch1 e m.nInternalFaces flux.length (coBoundary m sqrt flux) phi : NR (List K)) >>= fun phi => do
      let mx ← reduceKernel e (coMaxBody phi m.cellVolumes) max lowest 0 m.nCells 0
      let sp ← reduceKernel e (coSumBody phi) (· + ·) 0 0 m.nCells 0
      let sv ← reduceKernel e (coSumBody m.cellVolumes) (· + ·) 0 0 m.nCells 0
      return (mx * half * dt, half * (sp / sv) * dt)) out := by
    unfold computeCoNum
    obtain ⟨r, hr⟩ := launch1_runs e 0 m.nInternalFaces (coInternal m sqrt flux) (List.replicate m.nCells 0)
    constructor
    · rintro ⟨r, hr, h'⟩
      cases r with
      | ok a =>
        obtain ⟨r2, hr2, h2⟩ := h'
        exact ⟨r2, ⟨.ok a, hr, hr2⟩, h2⟩
      | throw x => exact ⟨.throw x, ⟨.throw x, hr, rfl⟩, h'⟩
      | abort => exact ⟨.abort, ⟨.abort, hr, rfl⟩, h'⟩
      | ub => exact ⟨.ub, ⟨.ub, hr, rfl⟩, h'⟩
    · rintro ⟨r2, ⟨r, hr, h2⟩, h'⟩
      refine ⟨r, hr, ?_⟩
      cases r with
      | ok a => exact ⟨r2, h2, h'⟩
      | throw x => rw [show r2 = _ from h2] at h'; exact h'
      | abort => rw [show r2 = _ from h2] at h'; exact h'
      | ub => rw [show r2 = _ from h2] at h'; exact h'
  rw [hassoc]
  refine Iff.trans (NR.bind_iff hPhi out) ?_
  refine Iff.trans (NR.bind_iff hmx out) ?_
  refine Iff.trans (NR.bind_iff (hsum phi _ hrdp) out) ?_
  refine Iff.trans (NR.bind_iff (hsum m.cellVolumes _ hrdv) out) ?_
  rw [NR.pure_iff, half_eq]
  constructor <;> rintro rfl <;> congr 2 <;> ring

/-- **C29, consequences**: the result is not negative for a non-negative time step, and is proportional to the
time step. -/
theorem C29_scaling {m : Mesh K} (h : m.WF) (hv : ∀ c < m.nCells, 0 < m.vol c) (hn : 0 < m.nCells)
    (e e' : ExecKind) {sqrt : K → K} (hs : IsSqrt sqrt) (lowest : K) (hlow : lowest ≤ 0) {flux : List K}
    (hfl : flux.length = m.nFaces) (dt s : K) (r r' : K × K)
    (hr : computeCoNum e m sqrt lowest flux dt (.ok r))
    (hr' : computeCoNum e' m sqrt lowest flux (s * dt) (.ok r')) :
    r'.1 = s * r.1 ∧ (0 ≤ dt → 0 ≤ r.1) := by
  obtain ⟨M, hM, hM0, hd⟩ := C29_courant h hv hn e hs lowest hlow hfl dt
  obtain ⟨M', hM', _, hd'⟩ := C29_courant h hv hn e' hs lowest hlow hfl (s * dt)
  have hMM := hM.unique hM'
  subst hMM
  cases (hd _).1 hr
  cases (hd' _).1 hr'
  refine ⟨by simp only; ring, fun hdt => ?_⟩
  simp only
  positivity

/-- **C29 does not extend to a mesh without cells**: there the serial executor returns zero and a Kokkos
executor half the time step times the lowest number. -/
theorem C29_empty (m : Mesh K) (h : m.WF) (hn : m.nCells = 0) (hi : m.nInternalFaces = 0)
    (hb : m.nBoundaryFaces = 0) (sqrt : K → K) (lowest : K) (dt : K) (r r' : K × K)
    (hr : computeCoNum .serial m sqrt lowest [] dt (.ok r))
    (hr' : computeCoNum .parallel m sqrt lowest [] dt (.ok r')) :
    r.1 = 0 ∧ r'.1 = lowest * (1 / 2) * dt := by
  have hmax : ∀ (e : ExecKind) (r : K × K), computeCoNum e m sqrt lowest [] dt (.ok r) →
      ∃ v, parallelReduce e (fun i acc => (([] : List (K → K)).getD (i - 0) id acc)) max lowest 0 0 0 v ∧
        r.1 = v * (1 / 2) * dt := by
    intro e r hr
    obtain ⟨r1, _, hr⟩ := hr
    cases r1 with
    | ok p1 =>
      obtain ⟨r2, _, hr⟩ := hr
      cases r2 with
      | ok p2 =>
        obtain ⟨r3, h3, hr⟩ := hr
        cases r3 with
        | ok v =>
          obtain ⟨r4, _, hr⟩ := hr
          cases r4 with
          | ok v4 =>
            obtain ⟨r5, _, hr⟩ := hr
            cases r5 with
            | ok v5 =>
              cases (show Res.ok r = _ from hr)
              rw [hn] at h3
              obtain ⟨rf, hf, h3⟩ := h3
              cases (show rf = .ok [] from hf)
              obtain ⟨w, hw, hw'⟩ := h3
              cases hw'
              exact ⟨v, hw, by rw [half_eq]⟩
            | _ => simp at hr
          | _ => simp at hr
        | _ => simp at hr
      | _ => simp at hr
    | _ => simp at hr
  obtain ⟨v, h1, h2⟩ := hmax _ r hr
  obtain ⟨v', h1', h2'⟩ := hmax _ r' hr'
  constructor
  · rw [h2, show v = 0 from h1]; simp
  · obtain ⟨chunks, hp, hbk⟩ := h1'
    have hnil : ∀ c ∈ chunks, c = [] := by
      have : chunks.flatten = [] := by simpa using hp
      exact List.flatten_eq_nil_iff.1 this
    have hall : ∀ x ∈ chunks.map (fun c => c.foldl (fun acc i =>
        (([] : List (K → K)).getD (i - 0) id acc)) lowest), x = lowest := by
      intro x hx
      obtain ⟨c, hc, rfl⟩ := List.mem_map.1 hx
      rw [hnil c hc]; rfl
    have hv : v' = lowest := by
      have := hbk.max_le (fun x hx => (hall x hx).ge)
      apply le_antisymm
      · exact (this lowest).2 ⟨le_rfl, fun x hx => (hall x hx).le⟩
      · exact ((this v').1 le_rfl).1
    rw [h2', hv]

/-- The hypotheses can be met: the two-cell mesh over the reals. -/
example : twoCells.WF ∧ (∀ c < twoCells.nCells, 0 < twoCells.vol c) ∧ 0 < twoCells.nCells ∧ IsSqrt Real.sqrt ∧
    ([3, -2] : List ℝ).length = twoCells.nFaces ∧ twoCells.absFlux (ix [3, -2]) 0 = 5 := by
  refine ⟨twoCells_wf, ?_, by simp [twoCells], isSqrt_real, rfl, ?_⟩
  · intro c hc
    have : c = 0 ∨ c = 1 := by simp [twoCells] at hc; omega
    rcases this with rfl | rfl <;> simp [twoCells, Mesh.vol]
  · simp [Mesh.absFlux, twoCells, Mesh.own, Mesh.nbr, Mesh.fc, ix]
    norm_num [abs_of_nonneg]

end NeoFOAM
