import Verif.Model.Copies
import Verif.Props.C26_Interpolation

/-!
# C53 – converting a matrix for the linear solver keeps every entry

For every matrix, whatever the converted arrays held before, on every executor and schedule.
-/
namespace NeoFOAM
variable {K : Type}

theorem u32ToInt_small {n : Nat} (h : n < 2 ^ 31) : u32ToInt n = n := by
  unfold u32ToInt
  rw [Nat.mod_eq_of_lt (by omega), if_pos h]

private theorem convert_loop {α β : Type} (e : ExecKind) (l : List α) (a : List β) (h : a.length = l.length) (g : α → β) (out : Res (List β)) :
    elemKernel e 0 l.length (fun i => do
      let c ← rd l i
      return fun _ => g c) a out ↔ out = .ok (l.map g) := by
  cases l with
  | nil =>
    have : a = [] := by simpa using h
    subst this
    exact (elemKernel_det e 0 0 _ (fun _ x => x) [] (by simp) (fun i _ hi => by omega) out).trans (by simp)
  | cons d t =>
    refine (elemKernel_list e (d :: t).length _ (fun i => g ((d :: t).getD i d)) a h
      (fun i hi => by rw [rd_getD d hi]; rfl) out).trans ?_
    have : (List.range (d :: t).length).map (fun i => g ((d :: t).getD i d)) = (d :: t).map g := by
      apply List.ext_getElem
      · simp
      · intro i h1 h2
        simp only [List.length_map] at h2
        simp only [List.getElem_map, List.getElem_range, List.getD_eq_getElem?_getD, List.getElem?_eq_getElem h2, Option.getD_some]
    rw [this]

/-- The outcome is the same on every executor and schedule and does not depend on what the new arrays held. -/
theorem C53_det (e : ExecKind) (gc gr : Nat → Int) (A : CSR K) (out : Res (CsrInt K)) :
    csrConvert e gc gr A out ↔ out = .ok ⟨A.values, A.colIdxs.map u32ToInt, A.rowOffs.map u32ToInt⟩ := by
  have h1 := convert_loop e A.colIdxs ((List.range A.colIdxs.length).map gc) (by simp) u32ToInt
  have h2 := convert_loop e A.rowOffs ((List.range A.rowOffs.length).map gr) (by simp) u32ToInt
  have h3 := convert_loop e A.values A.values rfl id
  unfold csrConvert
  constructor
  · rintro ⟨r1, k1, k⟩
    obtain rfl := (h1 r1).1 k1
    obtain ⟨r2, k2, k⟩ := k
    obtain rfl := (h2 r2).1 k2
    obtain ⟨r3, k3, k⟩ := k
    obtain rfl := (h3 r3).1 k3
    simpa using k
  · rintro rfl
    exact ⟨_, (h1 _).2 rfl, _, (h2 _).2 rfl, _, (h3 _).2 rfl, by simp⟩

/-- The entries of a matrix at row `r`, column `c`, in storage order, read from offsets `rows` and columns `cols`: the
definition of compressed row storage. -/
def storedAt (rows cols : List Int) (values : List K) (r : Nat) (c : Int) : List K :=
  (List.range values.length).filterMap fun p : Nat =>
    if rows.getD r 0 ≤ (p : Int) ∧ (p : Int) < rows.getD (r + 1) 0 ∧ cols[p]? = some c then values[p]? else none

/-- A matrix whose indices fit into `int` is converted exactly: every row holds the same entries in the same columns. -/
theorem C53_preserves (e : ExecKind) (gc gr : Nat → Int) (A : CSR K) (hc : ∀ c ∈ A.colIdxs, c < 2 ^ 31) (hr : ∀ r ∈ A.rowOffs, r < 2 ^ 31) :
    (∃ B, csrConvert e gc gr A (.ok B)) ∧ ∀ out, csrConvert e gc gr A out → ∃ B, out = .ok B ∧ B.values = A.values ∧
      B.colIdxs = A.colIdxs.map (fun c : Nat => (c : Int)) ∧ B.rowOffs = A.rowOffs.map (fun r : Nat => (r : Int)) ∧
      ∀ r c, storedAt B.rowOffs B.colIdxs B.values r c =
        storedAt (A.rowOffs.map fun r : Nat => (r : Int)) (A.colIdxs.map fun c : Nat => (c : Int)) A.values r c := by
  have e1 : A.colIdxs.map u32ToInt = A.colIdxs.map (fun c : Nat => (c : Int)) := List.map_congr_left fun c h => u32ToInt_small (hc c h)
  have e2 : A.rowOffs.map u32ToInt = A.rowOffs.map (fun r : Nat => (r : Int)) := List.map_congr_left fun c h => u32ToInt_small (hr c h)
  refine ⟨⟨_, (C53_det e gc gr A _).2 rfl⟩, fun out h => ⟨_, (C53_det e gc gr A out).1 h, rfl, e1, e2, fun r c => ?_⟩⟩
  rw [e1, e2]

/-- Indices of 2^31 and above become negative. -/
theorem C53_violation (e : ExecKind) (gc gr : Nat → Int) (A : CSR K) (c : Nat) (h : c ∈ A.colIdxs) (h1 : 2 ^ 31 ≤ c) (h2 : c < 2 ^ 32)
    (B : CsrInt K) (hB : csrConvert e gc gr A (.ok B)) : ∃ d ∈ B.colIdxs, d < 0 := by
  have := (C53_det e gc gr A _).1 hB
  cases this
  refine ⟨u32ToInt c, List.mem_map_of_mem h, ?_⟩
  unfold u32ToInt
  rw [Nat.mod_eq_of_lt h2, if_neg (by omega)]
  omega

/-- The hypotheses can be met: the matrix [[2,1],[0,3]]. -/
example : ∃ B, csrConvert .parallel (fun _ => 99) (fun i => i) (CSR.mk [2, 1, 3] [0, 1, 1] [0, 2, 3] : CSR Int) (.ok B) ∧
    storedAt B.rowOffs B.colIdxs B.values 0 1 = [1] ∧ storedAt B.rowOffs B.colIdxs B.values 1 0 = [] :=
  ⟨_, (C53_det ..).2 rfl, rfl, rfl⟩

end NeoFOAM
