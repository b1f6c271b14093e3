import Verif.Model.Reduce
import Mathlib.Algebra.BigOperators.Intervals
import Mathlib.Algebra.Group.Int.Defs

/-!
# C11 – `parallelReduce` gives the reduction of the kernel contributions

For sums over any commutative monoid. Proved when the variable starts at the neutral value; the full
claim ("on top of the same starting value on every executor") fails, because Kokkos overwrites the
variable while the serial executor accumulates onto it: `C11_violation`.
-/
namespace NeoFOAM
variable {K : Type u}

theorem Bracket.sum [AddCommMonoid K] {l : List K} {v : K} (h : Bracket (· + ·) 0 l v) : v = l.sum := by
  induction h with
  | empty => simp
  | leaf x => simp
  | node _ _ h1 h2 => rw [List.sum_append, ← h1, ← h2]

theorem foldl_add [AddCommMonoid K] (c : Nat → K) : ∀ (l : List Nat) (u : K),
    l.foldl (fun acc i => acc + c i) u = u + (l.map c).sum
  | [], u => by simp
  | i :: l, u => by simp [foldl_add c l, add_assoc]

theorem Bracket.exists (join : K → K → K) (init : K) : ∀ l : List K, ∃ v, Bracket join init l v
  | [] => ⟨_, .empty⟩
  | x :: l => by
    obtain ⟨v, hv⟩ := Bracket.exists join init l
    exact ⟨_, Bracket.node (Bracket.leaf x) hv⟩

theorem sum_range'_eq [AddCommMonoid K] (c : Nat → K) (start stop : Nat) :
    ((List.range' start (stop - start)).map c).sum = ∑ i ∈ Finset.Ico start stop, c i := by
  rw [← List.sum_toFinset c List.nodup_range']
  congr 1
  ext i
  simp [List.mem_range'_1]
  omega

/-- **C11, Kokkos executors**: whatever the starting value, distribution of indices and order of
joining, the result is the sum of the contributions. -/
theorem C11_parallel [AddCommMonoid K] (c : Nat → K) (start stop : Nat) (value v : K)
    (h : parallelReduce .parallel (fun i acc => acc + c i) (· + ·) 0 start stop value v) :
    v = ∑ i ∈ Finset.Ico start stop, c i := by
  obtain ⟨chunks, hp, hb⟩ := h
  rw [hb.sum, ← sum_range'_eq, ← (hp.map c).sum_eq]
  clear hp hb
  induction chunks with
  | nil => simp
  | cons x xs ih =>
    rw [List.map_cons, List.sum_cons, ih, List.flatten_cons, List.map_append, List.sum_append]
    simp [foldl_add c]

/-- **C11, serial executor**: the contributions are added onto the starting value. -/
theorem C11_serial [AddCommMonoid K] (c : Nat → K) (start stop : Nat) (value v : K) :
    parallelReduce .serial (fun i acc => acc + c i) (· + ·) 0 start stop value v ↔
      v = value + ∑ i ∈ Finset.Ico start stop, c i := by
  simp only [parallelReduce, foldl_add c, sum_range'_eq]

/-- **C11 for a variable that starts at zero**: every executor and every distribution gives the sum. -/
theorem C11_sum_partial [AddCommMonoid K] (e : ExecKind) (c : Nat → K) (start stop : Nat) (v : K) :
    parallelReduce e (fun i acc => acc + c i) (· + ·) 0 start stop 0 v ↔
      v = ∑ i ∈ Finset.Ico start stop, c i := by
  cases e with
  | serial => rw [C11_serial]; simp
  | parallel =>
    constructor
    · exact C11_parallel c start stop 0 v
    · rintro rfl
      refine ⟨[List.range' start (stop - start)], by simp, ?_⟩
      have := Bracket.leaf (join := (· + · : K → K → K)) (init := 0)
        (∑ i ∈ Finset.Ico start stop, c i)
      simpa [foldl_add c, sum_range'_eq] using this

/-- **The full claim fails**: with a non-zero starting value the serial and the Kokkos executors give
different results, for every kernel and range. -/
theorem C11_violation [AddCommGroup K] (c : Nat → K) (start stop : Nat) (value : K) (hv : value ≠ 0)
    (v₁ v₂ : K) (h₁ : parallelReduce .serial (fun i acc => acc + c i) (· + ·) 0 start stop value v₁)
    (h₂ : parallelReduce .parallel (fun i acc => acc + c i) (· + ·) 0 start stop value v₂) :
    v₁ ≠ v₂ := by
  rw [C11_serial] at h₁
  rw [h₁, C11_parallel c start stop value v₂ h₂]
  simpa using hv

/-- **C11 for `SumKernel`**: the sum of the field on every executor. -/
theorem C11_sumField [AddCommMonoid K] (x : List K) (v : K) : sumField x v → v = x.sum := by
  intro h
  have := C11_parallel (fun i => x.getD i 0) 0 x.length 0 v (by
    obtain ⟨chunks, hp, hb⟩ := h
    refine ⟨chunks, hp, ?_⟩
    have e : (fun (i : ℕ) (acc : K) => acc + x.getD i 0) =
        (fun i acc => match x[i]? with | some y => acc + y | none => acc) := by
      funext i acc
      simp only [List.getD]
      cases x[i]? <;> simp
    rw [e]; exact hb)
  rw [this]
  clear this h
  rw [Nat.Ico_zero_eq_range]
  induction x with
  | nil => simp
  | cons a l ih => rw [List.length_cons, Finset.sum_range_succ']; simp only [List.getD_eq_getElem?_getD] at ih ⊢; simp [ih, add_comm]

/-- The hypotheses of the violation are met: with kernel `1` over three indices and starting value 5,
the serial executor gives 8 and a Kokkos executor can (and always does) give 3. -/
example : parallelReduce .serial (fun _ acc => acc + 1) (· + ·) 0 0 3 (5 : ℤ) 8 ∧
    parallelReduce .parallel (fun _ acc => acc + 1) (· + ·) 0 0 3 (5 : ℤ) 3 := by
  refine ⟨by rw [C11_serial]; decide, [[2], [0, 1]], by decide, ?_⟩
  exact Bracket.node (Bracket.leaf (1 : ℤ)) (Bracket.leaf 2)
example (e : ExecKind) : parallelReduce e (fun i acc => acc + (i : ℤ)) (· + ·) 0 1 4 0 6 := by
  rw [C11_sum_partial]; decide

end NeoFOAM
