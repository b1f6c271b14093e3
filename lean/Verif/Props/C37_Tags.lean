import Verif.Model.Comm
import Mathlib.Data.Fintype.Pigeonhole
import Mathlib.Data.Fintype.EquivFin
import Mathlib.Data.Set.Finite.Basic
import Mathlib.Data.Finset.Card
import Mathlib.Order.Interval.Finset.Nat
import Mathlib.Data.List.Nodup

/-!
# C37 – communication tags
-/
namespace NeoFOAM

/-- **C37 (partial: the range).** Whatever the hash function, the tag of every name is at least 10 (the tags below are reserved)
and at most 32766, so within the range 0…32767 every MPI implementation supports; and it is never the −1 that marks a
buffer as not initialised. Missing: different names can share a tag, see `C37_violation`. -/
theorem C37_range_partial (hash : String → Nat) (s : String) :
    10 ≤ bufferHash hash s ∧ bufferHash hash s ≤ 32766 ∧ bufferHash hash s ≠ -1 := by
  have h : bufferHash hash s = ((hash s % 2 ^ 31 % (32767 - 10) + 10 : Nat) : Int) := rfl
  have hlt := Nat.mod_lt (hash s % 2 ^ 31) (show 0 < 32767 - 10 by decide)
  rw [h]
  generalize hash s % 2 ^ 31 % (32767 - 10) = x at hlt
  omega

/-- **C37 violated.** For every hash function, among any 32758 different names two share a tag. -/
theorem C37_violation (hash : String → Nat) (names : List String) (hn : names.Nodup) (hl : 32758 ≤ names.length) :
    ∃ a ∈ names, ∃ b ∈ names, a ≠ b ∧ bufferHash hash a = bufferHash hash b := by
  have hcard : (Finset.range 32757).card < names.toFinset.card := by
    rw [List.toFinset_card_of_nodup hn, Finset.card_range]; omega
  obtain ⟨a, ha, b, hb, hab, h⟩ := Finset.exists_ne_map_eq_of_card_lt_of_maps_to hcard
    (f := fun s => hash s % 2 ^ 31 % 32757) (by
      intro s _
      simp only [Finset.coe_range, Set.mem_Iio]
      exact Nat.mod_lt _ (by decide))
  refine ⟨a, List.mem_toFinset.1 ha, b, List.mem_toFinset.1 hb, hab, ?_⟩
  unfold bufferHash
  have h' : hash a % 2 ^ 31 % (32767 - 10) = hash b % 2 ^ 31 % (32767 - 10) := h
  simp only [h']

/-- The names `""`, `"a"`, `"aa"`, … are different, so there are enough of them for any hash function to collide. -/
def aNames (n : Nat) : List String := (List.range n).map fun k => String.ofList (List.replicate k 'a')

theorem aNames_nodup (n : Nat) : (aNames n).Nodup := by
  refine List.Nodup.map ?_ List.nodup_range
  intro i j h
  have := congrArg (fun s => s.toList.length) h
  simpa using this

/-- The hypotheses of `C37_violation` are met, for every hash function. -/
theorem C37_violation_exists (hash : String → Nat) :
    ∃ a b : String, a ≠ b ∧ bufferHash hash a = bufferHash hash b := by
  obtain ⟨a, _, b, _, h⟩ := C37_violation hash (aNames 32758) (aNames_nodup _) (by simp [aNames])
  exact ⟨a, b, h⟩

end NeoFOAM
