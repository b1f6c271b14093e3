import Verif.Model.Copies

/-!
# C54 – `equal` decides equality of fields

For every element type with a lawful `!=`, all sizes and all pairs of executors.
-/
namespace NeoFOAM
variable {α : Type} [BEq α] [LawfulBEq α]

private theorem equalLoop_spec (a : List α) (b : Nat → Res α) (f : Nat → α) (hb : ∀ i, i < a.length → b i = .ok (f i)) :
    ∀ n i, i + n = a.length → ∃ r, equalLoop a b n i = .ok r ∧ (r = true ↔ ∀ j, i ≤ j → ∀ h : j < a.length, a[j] = f j) := by
  intro n
  induction n with
  | zero => intro i h; exact ⟨true, rfl, by simp; omega⟩
  | succ n ih =>
    intro i h
    have hi : i < a.length := by omega
    have e : equalLoop a b (n + 1) i = if a[i] != f i then .ok false else equalLoop a b n (i + 1) := by
      rw [equalLoop, rd_ok hi, hb i hi]
      rfl
    rw [e]
    by_cases hx : a[i] = f i
    · obtain ⟨r, hr, hr'⟩ := ih (i + 1) (by omega)
      refine ⟨r, by simp [hx, hr], hr'.trans ⟨fun H j hj hl => ?_, fun H j hj hl => H j (by omega) hl⟩⟩
      by_cases hji : j = i
      · subst hji; exact hx
      · exact H j (by omega) hl
    · exact ⟨false, by simp [hx], by simp; exact ⟨i, Nat.le_refl i, hi, hx⟩⟩

/-- `equal(f, g)` always returns, and returns true exactly when the fields have the same size and elements, wherever they live. -/
theorem C54_field (f g : Arr α) : ∃ r, equalField f g = .ok r ∧ (r = true ↔ f.data = g.data) := by
  unfold equalField
  have hf : f.copyToHost.data = f.data := by unfold Arr.copyToHost Arr.copyTo; split <;> rfl
  have hg : g.copyToHost.data = g.data := by unfold Arr.copyToHost Arr.copyTo; split <;> rfl
  simp only [hf, hg]
  by_cases h : f.data.length = g.data.length
  · rw [if_neg (by simpa using h)]
    cases hn : g.data with
    | nil =>
      have : f.data = [] := by rw [hn] at h; simpa using h
      rw [this]
      exact ⟨true, rfl, by simp⟩
    | cons d t =>
      rw [← hn]
      obtain ⟨r, hr, hr'⟩ := equalLoop_spec f.data (fun i => rd g.data i) (fun i => g.data.getD i d) (fun i hi => rd_getD d (by omega))
        f.data.length 0 (by omega)
      refine ⟨r, hr, hr'.trans ⟨fun H => ?_, fun H j _ hl => ?_⟩⟩
      · apply List.ext_getElem h
        intro i h1 h2
        rw [H i (Nat.zero_le i) h1, List.getD_eq_getElem?_getD, List.getElem?_eq_getElem h2]
        rfl
      · rw [List.getD_eq_getElem?_getD, List.getElem?_eq_getElem (by omega)]
        simp [H]
  · rw [if_pos (by simpa using h)]
    exact ⟨false, rfl, by simp; exact fun H => h (by rw [H])⟩

/-- `equal(f, value)` always returns, and returns true exactly when every element is the value. -/
theorem C54_value (f : Arr α) (v : α) : ∃ r, equalValue f v = .ok r ∧ (r = true ↔ ∀ x ∈ f.data, x = v) := by
  unfold equalValue
  have hf : f.copyToHost.data = f.data := by unfold Arr.copyToHost Arr.copyTo; split <;> rfl
  simp only [hf]
  obtain ⟨r, hr, hr'⟩ := equalLoop_spec f.data (fun _ => .ok v) (fun _ => v) (fun _ _ => rfl) f.data.length 0 (by omega)
  refine ⟨r, hr, hr'.trans ⟨fun H x hx => ?_, fun H j _ hl => H _ (List.getElem_mem hl)⟩⟩
  obtain ⟨i, hi, rfl⟩ := List.getElem_of_mem hx
  exact H i (Nat.zero_le i) hi

/-- Comparisons across executors, of different sizes and of empty fields. -/
example : equalField (⟨.gpu, [1, 2]⟩ : Arr Int) ⟨.serial, [1, 2]⟩ = .ok true ∧ equalField (⟨.cpu, [1, 2]⟩ : Arr Int) ⟨.cpu, [1, 2, 3]⟩ = .ok false ∧
    equalField (⟨.cpu, [1, 2]⟩ : Arr Int) ⟨.cpu, [1, 3]⟩ = .ok false ∧ equalValue (⟨.gpu, []⟩ : Arr Int) 5 = .ok true :=
  ⟨rfl, rfl, rfl, rfl⟩

end NeoFOAM
