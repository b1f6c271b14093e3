import Verif.Base.Res

/-!
# Thread schedules

`parallelFor` (`/repo/include/NeoFOAM/core/parallelAlgorithms.hpp:26-63`) runs one kernel call per
index. On the serial executor the calls run one after another in index order; on the CPU and GPU
executors each call is a thread and the runtime may interleave the threads' memory actions in any
way that keeps each thread's own order. Memory is taken to be sequentially consistent.
-/
namespace NeoFOAM

/-- `Interleave ts l`: `l` is one possible global order of the actions of the threads `ts`. -/
inductive Interleave {α : Type u} : List (List α) → List α → Prop where
  | done (ts : List (List α)) (h : ∀ t ∈ ts, t = []) : Interleave ts []
  | step (pre : List (List α)) (a : α) (t : List α) (post : List (List α)) (l : List α)
      (h : Interleave (pre ++ t :: post) l) : Interleave (pre ++ (a :: t) :: post) (a :: l)

/-- The two kinds of executor that matter for ordering: the serial executor, and the CPU/GPU
executors (`/repo/include/NeoFOAM/core/executor/executor.hpp`). -/
inductive ExecKind where
  | serial
  | parallel
  deriving DecidableEq, Repr

/-- The global action orders an executor may produce for the given threads. -/
def Schedule {α : Type u} (e : ExecKind) (ts : List (List α)) (l : List α) : Prop :=
  match e with
  | .serial => l = ts.flatten
  | .parallel => Interleave ts l

/-- Running a list of actions. -/
def runActs {σ : Type u} {α : Type v} (step : σ → α → Res σ) (s : σ) (l : List α) : Res σ :=
  l.foldlM step s

@[simp] theorem runActs_nil {σ : Type u} {α : Type v} (step : σ → α → Res σ) (s : σ) :
    runActs step s [] = .ok s := rfl

@[simp] theorem runActs_cons {σ : Type u} {α : Type v} (step : σ → α → Res σ) (s : σ) (a : α)
    (l : List α) : runActs step s (a :: l) = step s a >>= fun s' => runActs step s' l := by
  simp [runActs]

theorem runActs_append {σ : Type u} {α : Type v} (step : σ → α → Res σ) (s : σ) (l₁ l₂ : List α) :
    runActs step s (l₁ ++ l₂) = runActs step s l₁ >>= fun s' => runActs step s' l₂ := by
  simp [runActs, List.foldlM_append]

theorem flatten_eq_nil_of {α : Type u} {ts : List (List α)} (h : ∀ t ∈ ts, t = []) :
    ts.flatten = [] := by
  simpa [List.flatten_eq_nil_iff] using h

theorem Interleave.perm {α : Type u} {ts : List (List α)} {l : List α} (h : Interleave ts l) :
    l.Perm ts.flatten := by
  induction h with
  | done ts h => rw [flatten_eq_nil_of h]
  | step pre a t post l _ ih =>
    have : (pre ++ (a :: t) :: post).flatten = pre.flatten ++ a :: (t ++ post.flatten) := by simp
    rw [this]
    refine (List.Perm.cons a ih).trans ?_
    have h2 : (pre ++ t :: post).flatten = pre.flatten ++ (t ++ post.flatten) := by simp
    rw [h2]
    exact (List.perm_middle).symm

/-- Each thread's own order is kept. -/
theorem Interleave.sublist {α : Type u} {ts : List (List α)} {l : List α} (h : Interleave ts l) :
    ∀ t ∈ ts, t.Sublist l := by
  induction h with
  | done ts h => intro t ht; rw [h t ht]; exact List.Sublist.refl _
  | step pre a t post l _ ih =>
    intro u hu
    rcases List.mem_append.1 hu with hu | hu
    · exact (ih u (by simp [hu])).cons a
    · rcases List.mem_cons.1 hu with rfl | hu
      · exact (ih t (by simp)).cons_cons a
      · exact (ih u (by simp [hu])).cons a

theorem Interleave.of_nil_cons {α : Type u} {ts : List (List α)} {l : List α}
    (h : Interleave ts l) : Interleave ([] :: ts) l := by
  induction h with
  | done ts h => exact .done _ (by simpa using h)
  | step pre a t post l _ ih => exact .step ([] :: pre) a t post l ih

/-- The serial order is one of the interleavings. -/
theorem Interleave.serial {α : Type u} : ∀ (ts : List (List α)), Interleave ts ts.flatten
  | [] => .done [] (by simp)
  | t :: ts => by
    have ih := Interleave.serial ts
    induction t with
    | nil => simpa using ih.of_nil_cons
    | cons a t iht =>
      have := Interleave.step [] a t ts (t ++ ts.flatten) (by simpa using iht)
      simpa using this

theorem Schedule.interleave {α : Type u} {e : ExecKind} {ts : List (List α)} {l : List α}
    (h : Schedule e ts l) : Interleave ts l := by
  cases e with
  | serial => simp only [Schedule] at h; subst h; exact Interleave.serial ts
  | parallel => exact h

theorem Schedule.exists {α : Type u} (e : ExecKind) (ts : List (List α)) :
    ∃ l, Schedule e ts l := by
  cases e with
  | serial => exact ⟨_, rfl⟩
  | parallel => exact ⟨_, Interleave.serial ts⟩

theorem Schedule.perm {α : Type u} {e : ExecKind} {ts : List (List α)} {l : List α}
    (h : Schedule e ts l) : l.Perm ts.flatten := h.interleave.perm

/-- Two actions commute from every state. -/
def ActsCommute {σ : Type u} {α : Type v} (step : σ → α → Res σ) (a b : α) : Prop :=
  ∀ s, (step s a >>= fun s => step s b) = (step s b >>= fun s => step s a)

theorem ActsCommute.symm {σ : Type u} {α : Type v} {step : σ → α → Res σ} {a b : α}
    (h : ActsCommute step a b) : ActsCommute step b a := fun s => (h s).symm

theorem ActsCommute.runActs {σ : Type u} {α : Type v} {step : σ → α → Res σ} {a : α} :
    ∀ (l : List α), (∀ b ∈ l, ActsCommute step a b) → ∀ s,
      (step s a >>= fun s => runActs step s l) = (runActs step s l >>= fun s => step s a)
  | [], _, s => by cases h : step s a <;> simp [h]
  | b :: l, h, s => by
    have ih := ActsCommute.runActs l (fun c hc => h c (List.mem_cons_of_mem _ hc))
    have hb := h b (by simp)
    have e1 : (step s a >>= fun s => NeoFOAM.runActs step s (b :: l))
        = (step s a >>= fun s => step s b) >>= fun s => NeoFOAM.runActs step s l := by
      cases step s a <;> simp
    rw [e1, hb s]
    simp only [runActs_cons]
    cases hsb : step s b <;> simp
    exact ih _

/-- Threads whose actions commute with those of every other thread. -/
def ThreadsCommute {σ : Type u} {α : Type v} (step : σ → α → Res σ) (ts : List (List α)) : Prop :=
  ts.Pairwise fun t u => ∀ a ∈ t, ∀ b ∈ u, ActsCommute step a b

/-- **Schedule independence.** If actions of different threads commute, every interleaving has the
same outcome as running the threads one after another. -/
theorem Interleave.run_eq_serial {σ : Type u} {α : Type v} (step : σ → α → Res σ)
    {ts : List (List α)} {l : List α} (h : Interleave ts l) (hc : ThreadsCommute step ts) :
    ∀ s, runActs step s l = runActs step s ts.flatten := by
  induction h with
  | done ts h => intro s; rw [flatten_eq_nil_of h]
  | step pre a t post l _ ih =>
    intro s
    unfold ThreadsCommute at hc
    have hc' : ThreadsCommute step (pre ++ t :: post) := by
      unfold ThreadsCommute
      rw [List.pairwise_append] at hc ⊢
      obtain ⟨h1, h2, h3⟩ := hc
      rw [List.pairwise_cons] at h2 ⊢
      refine ⟨h1, ⟨fun u hu x hx y hy => h2.1 u hu x (List.mem_cons_of_mem _ hx) y hy, h2.2⟩, ?_⟩
      intro u hu v hv x hx y hy
      rcases List.mem_cons.1 hv with rfl | hv
      · exact h3 u hu (a :: v) (by simp) x hx y (List.mem_cons_of_mem _ hy)
      · exact h3 u hu v (by simp [hv]) x hx y hy
    have hpre : ∀ b ∈ pre.flatten, ActsCommute step a b := by
      intro b hb
      rw [List.mem_flatten] at hb
      obtain ⟨u, hu, hbu⟩ := hb
      rw [List.pairwise_append] at hc
      exact (hc.2.2 u hu (a :: t) (by simp) b hbu a (by simp)).symm
    have e1 : (pre ++ (a :: t) :: post).flatten = pre.flatten ++ a :: (t ++ post.flatten) := by simp
    have e2 : (pre ++ t :: post).flatten = pre.flatten ++ (t ++ post.flatten) := by simp
    rw [e1, runActs_cons, runActs_append]
    have := ActsCommute.runActs pre.flatten hpre s
    have e3 : (runActs step s pre.flatten >>= fun s' => runActs step s' (a :: (t ++ post.flatten)))
        = (runActs step s pre.flatten >>= fun s => step s a) >>=
            fun s' => runActs step s' (t ++ post.flatten) := by
      cases runActs step s pre.flatten <;> simp
    rw [e3, ← this]
    cases hsa : step s a with
    | ok s1 =>
      simp only [Res.ok_bind]
      rw [ih hc' s1, e2, runActs_append]
    | throw e => simp
    | abort => simp
    | ub => simp

theorem Schedule.run_eq_serial {σ : Type u} {α : Type v} (step : σ → α → Res σ) {e : ExecKind}
    {ts : List (List α)} {l : List α} (h : Schedule e ts l) (hc : ThreadsCommute step ts) (s : σ) :
    runActs step s l = runActs step s ts.flatten :=
  h.interleave.run_eq_serial step hc s

end NeoFOAM
