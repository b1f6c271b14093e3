import Verif.Model.View

/-!
# C40 – debug views report every out-of-bounds access
-/
namespace NeoFOAM

/-- The first index of a sequence that is outside a view of the given size. -/
def firstOutside (size : Nat) (l : List Nat) : Option Nat := l.find? fun i => decide (size ≤ i)

/-- **C40 (aborting views).** With `abort` set, which is the default, a sequence of accesses stops the program exactly when one of
the accesses is out of range; otherwise the view is unchanged. -/
theorem C40_abort (v : DebugView) (l : List Nat) (ha : v.abort = true) :
    v.accesses l = if ∃ i ∈ l, v.size ≤ i then .abort else .ok v := by
  induction l with
  | nil => simp [DebugView.accesses]
  | cons i l ih =>
    unfold DebugView.accesses at ih ⊢
    rw [List.foldlM_cons]
    by_cases h : v.size ≤ i
    · simp [DebugView.access, h, ha]
    · rw [show v.access i = .ok v by simp [DebugView.access, h], Res.ok_bind, ih]
      simp [h]

/-- **C40 (recording views; partial: views with at least one element, used directly).** With `abort` off, after any sequence of accesses
through a fresh view `failureIndex` is the index of the first access that was out of range, which is not zero, and zero if there was
none. Missing: empty views (`C40_violation_empty`) and accesses from kernels (`C40_violation_kernel`). -/
theorem C40_record_partial (v : DebugView) (l : List Nat) (ha : v.abort = false) (hf : v.failureIndex = 0) (hs : 0 < v.size) :
    ∃ v', v.accesses l = .ok v' ∧ v'.failureIndex = (firstOutside v.size l).getD 0 ∧ v'.size = v.size ∧
      (v'.failureIndex ≠ 0 ↔ ∃ i ∈ l, v.size ≤ i) := by
  have stay : ∀ (l : List Nat) (w : DebugView), w.abort = false → w.failureIndex ≠ 0 → w.accesses l = .ok w := by
    intro l
    induction l with
    | nil => intro w _ _; rfl
    | cons i l ih =>
      intro w h1 h2
      unfold DebugView.accesses at ih ⊢
      rw [List.foldlM_cons, show w.access i = .ok w by simp [DebugView.access, h1, h2], Res.ok_bind, ih w h1 h2]
  induction l with
  | nil => exact ⟨v, rfl, by simp [firstOutside, hf], rfl, by simp [hf]⟩
  | cons i l ih =>
    by_cases h : v.size ≤ i
    · refine ⟨{ v with failureIndex := i }, ?_, by simp [firstOutside, h], rfl, ?_⟩
      · have := stay l { v with failureIndex := i } ha (by simp; omega)
        unfold DebugView.accesses at this ⊢
        rw [List.foldlM_cons, show v.access i = .ok { v with failureIndex := i } by simp [DebugView.access, h, ha, hf], Res.ok_bind, this]
      · simp only [ne_eq]
        exact ⟨fun _ => ⟨i, by simp, h⟩, fun _ => by omega⟩
    · obtain ⟨v', e, h1, h2, h3⟩ := ih
      refine ⟨v', ?_, by rw [h1]; simp [firstOutside, h], h2, by rw [h3]; simp [h]⟩
      unfold DebugView.accesses at e ⊢
      rw [List.foldlM_cons, show v.access i = .ok v by simp [DebugView.access, h], Res.ok_bind, e]

/-- **C40 violated on empty views.** Access to element 0 of an empty view that does not abort is not recorded: the view is as if nothing
had happened. (The comment in the code says so: "assumes a span has at least a size of 1".) -/
theorem C40_violation_empty :
    ∃ v : DebugView, v.size = 0 ∧ v.abort = false ∧ v.failureIndex = 0 ∧ v.accesses [0] = .ok v :=
  ⟨⟨0, false, 0⟩, rfl, rfl, rfl, rfl⟩

/-- **C40 violated in kernels.** A kernel works on a copy of the view, so out-of-range accesses made in a `parallelFor` are never
recorded in the caller's view. -/
theorem C40_violation_kernel (v : DebugView) (l : List Nat) (ha : v.abort = false) : v.inKernel l = .ok v := by
  have : ∀ (l : List Nat) (w : DebugView), w.abort = false → ∃ w', w.accesses l = .ok w' := by
    intro l
    induction l with
    | nil => exact fun w _ => ⟨w, rfl⟩
    | cons i l ih =>
      intro w hw
      unfold DebugView.accesses at ih ⊢
      rw [List.foldlM_cons]
      by_cases h : w.size ≤ i
      · by_cases h0 : w.failureIndex = 0
        · rw [show w.access i = .ok { w with failureIndex := i } by simp [DebugView.access, h, hw, h0], Res.ok_bind]
          exact ih _ hw
        · rw [show w.access i = .ok w by simp [DebugView.access, h, hw, h0], Res.ok_bind]
          exact ih _ hw
      · rw [show w.access i = .ok w by simp [DebugView.access, h], Res.ok_bind]
        exact ih _ hw
  obtain ⟨w, hw⟩ := this l v ha
  simp [DebugView.inKernel, hw]

example : firstOutside 5 [0, 4, 7, 2, 9] = some 7 := by decide
example : ∃ v, (⟨5, false, 0⟩ : DebugView).accesses [0, 4, 7, 2, 9] = .ok v ∧ v.failureIndex = 7 := ⟨⟨5, false, 7⟩, rfl, rfl⟩

end NeoFOAM
