import Verif.Model.MpiInit
import Mathlib.Data.List.Basic

/-!
# C102 – starting and stopping MPI
-/
namespace NeoFOAM

/-- A program has run to its end: every object has been destroyed. -/
def Completes (required provided : Bool) (ops : List InitOp) : Prop :=
  ∃ w, initRun required provided .start ops = .ok w ∧ ∀ i, w.alive i = false

variable {required provided : Bool}

theorem initRun_cons {w w' : InitWorld} {op : InitOp} {ops : List InitOp} (h : initRun required provided w (op :: ops) = .ok w') :
    ∃ v, op.run required provided w = .ok v ∧ initRun required provided v ops = .ok w' := by
  change (op.run required provided w >>= fun w => initRun required provided w ops) = .ok w' at h
  cases hv : op.run required provided w with
  | ok v => rw [hv] at h; exact ⟨v, rfl, h⟩
  | throw _ => rw [hv] at h; cases h
  | abort => rw [hv] at h; cases h
  | ub => rw [hv] at h; cases h

theorem initRun_append (ops ops' : List InitOp) (w : InitWorld) :
    initRun required provided w (ops ++ ops') = (initRun required provided w ops >>= fun v => initRun required provided v ops') := by
  induction ops generalizing w with
  | nil => rfl
  | cons op ops ih =>
    change (op.run required provided w >>= fun v => initRun required provided v (ops ++ ops')) =
      ((op.run required provided w >>= fun v => initRun required provided v ops) >>= fun v => initRun required provided v ops')
    cases op.run required provided w with
    | ok v => exact ih v
    | throw _ => rfl
    | abort => rfl
    | ub => rfl

/-- After `MPI_Finalize` nothing can be destroyed. -/
theorem finished_run {w w' : InitWorld} (hp : w.phase = .finished) {ops : List InitOp} (h : initRun required provided w ops = .ok w') (he : ∀ i, w'.alive i = false) :
    ops = [] ∧ ∀ i, w.alive i = false := by
  induction ops generalizing w with
  | nil => cases h; exact ⟨rfl, he⟩
  | cons op ops ih =>
    obtain ⟨v, h1, h2⟩ := initRun_cons h
    cases op with
    | construct i => simp [InitOp.run, hp] at h1
    | destroy i => simp [InitOp.run, hp] at h1
    | call => simp [InitOp.run, hp] at h1
    | copy i j =>
      simp only [InitOp.run] at h1
      split at h1
      · cases h1
        have := (ih (by exact hp) h2).2 j
        simp at this
      · cases h1

/-- While MPI is active: calls, then the end of the only object. -/
theorem active_run {w w' : InitWorld} (hp : w.phase = .active) {i : Nat} (hi : w.alive i = true) {ops : List InitOp} (h : initRun required provided w ops = .ok w')
    (he : ∀ i, w'.alive i = false) : (∃ n, ops = List.replicate n .call ++ [.destroy i]) ∧ ∀ k, w.alive k = true → k = i := by
  induction ops generalizing w i with
  | nil => cases h; rw [he i] at hi; cases hi
  | cons op ops ih =>
    obtain ⟨v, h1, h2⟩ := initRun_cons h
    cases op with
    | construct j => simp [InitOp.run, hp] at h1
    | call =>
      simp only [InitOp.run, hp, if_true] at h1
      cases h1
      obtain ⟨⟨n, rfl⟩, hk⟩ := ih hp hi h2
      exact ⟨⟨n + 1, rfl⟩, hk⟩
    | copy j k =>
      simp only [InitOp.run] at h1
      split at h1
      · rename_i hc
        simp only [Bool.and_eq_true, Bool.not_eq_true'] at hc
        cases h1
        have h3 := (ih (i := j) (by exact hp) (by simp [hc.1]) h2).2 k (by simp)
        rw [h3, hc.1] at hc
        cases hc.2
      · cases h1
    | destroy j =>
      simp only [InitOp.run, hp, ne_eq, not_true_eq_false, if_false] at h1
      split at h1
      · cases h1
      · cases h1
        obtain ⟨rfl, ha⟩ := finished_run rfl h2 he
        have hall : ∀ k, w.alive k = true → k = j := fun k hk => by
          by_contra hne
          have := ha k
          simp [hne, hk] at this
        obtain rfl := hall i hi
        exact ⟨⟨0, rfl⟩, hall⟩

/-- **C102**: the programs that start, use and stop MPI as its standard allows, with all objects destroyed at the end, are exactly these: none of it at all; or one
`MPIInit` is constructed – by a library with full thread support if the build requires that –, then any number of MPI calls are made, and then it is destroyed. -/
theorem C102_programs (ops : List InitOp) : Completes required provided ops ↔
    ops = [] ∨ (required = true → provided = true) ∧ ∃ i n, ops = .construct i :: List.replicate n .call ++ [.destroy i] := by
  constructor
  · rintro ⟨w, h, he⟩
    cases ops with
    | nil => exact .inl rfl
    | cons op ops =>
      obtain ⟨v, h1, h2⟩ := initRun_cons h
      cases op with
      | copy i j => simp [InitOp.run, InitWorld.start] at h1
      | destroy i => simp [InitOp.run, InitWorld.start] at h1
      | call => simp [InitOp.run, InitWorld.start] at h1
      | construct i =>
        simp only [InitOp.run, InitWorld.start, Bool.false_eq_true, if_false, ne_eq, not_true_eq_false] at h1
        split at h1
        · cases h1
        · rename_i hr
          cases h1
          obtain ⟨⟨n, rfl⟩, -⟩ := active_run (i := i) rfl (by simp) h2 he
          exact .inr ⟨fun hq => by simpa [hq] using hr, i, n, rfl⟩
  · rintro (rfl | ⟨hr, i, n, rfl⟩)
    · exact ⟨_, rfl, fun _ => rfl⟩
    · have hr' : (required && !provided) = false := by cases required <;> cases provided <;> simp at hr ⊢
      have hc : ∀ n (w : InitWorld), w.phase = .active → initRun required provided w (List.replicate n .call) = .ok w := by
        intro n
        induction n with
        | zero => intro w _; rfl
        | succ n ih =>
          intro w hw
          change (InitOp.call.run required provided w >>= fun v => initRun required provided v (List.replicate n .call)) = _
          simp only [InitOp.run, hw, if_true]
          exact ih w hw
      refine ⟨⟨.finished, fun k => if k = i then false else if k = i then true else false⟩, ?_, fun k => by by_cases hk : k = i <;> simp [hk]⟩
      change (InitOp.run required provided .start (.construct i) >>= fun v => initRun required provided v (List.replicate n .call ++ [.destroy i])) = _
      simp only [InitOp.run, InitWorld.start, Bool.false_eq_true, if_false, ne_eq, not_true_eq_false, hr']
      change initRun required provided _ _ = _
      rw [initRun_append, hc n _ rfl]
      change (InitOp.run required provided _ (.destroy i) >>= fun v => .ok v) = _
      simp [InitOp.run]

/-- **C102, copies**: a program that copies an `MPIInit` (or moves it) never ends well. -/
theorem C102_copy {ops : List InitOp} {i j : Nat} (h : .copy i j ∈ ops) : ¬ Completes required provided ops := by
  rw [C102_programs]
  rintro (rfl | ⟨-, k, n, rfl⟩)
  · cases h
  · simp at h

/-- **C102, threads**: if the build requires threads and the library does not provide them, constructing the first `MPIInit` stops the program. -/
theorem C102_threads (i : Nat) (ops : List InitOp) : initRun true false .start (.construct i :: ops) = .abort := rfl

/-- A program with calls; and a copy ends it badly. -/
example : Completes false false [.construct 0, .call, .call, .destroy 0] := (C102_programs _).2 (.inr ⟨by simp, 0, 2, rfl⟩)
example : initRun false true .start [.construct 0, .copy 0 1, .call, .destroy 1, .destroy 0] = .ub := rfl

end NeoFOAM
