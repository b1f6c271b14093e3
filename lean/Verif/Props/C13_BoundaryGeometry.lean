import Verif.Spec.BoundaryGeometry
import Verif.Props.C13_UniformMesh

/-!
# C13 – the boundary arrays of the created meshes
-/
namespace NeoFOAM
variable {K : Type}

/-- **C13, boundary geometry**: for every number of cells, the boundary arrays of the uniform mesh agree with its face and cell arrays, if the norm of a vector along x is
the absolute value of its component. -/
theorem C13_boundary_agrees [Field K] [LinearOrder K] [IsStrictOrderedRing K] (e : ExecKind) (mag : Vec K → K) (hmag : ∀ x, mag (x, 0, 0) = |x|) (junk : Nat → Nat) (n : Nat)
    (h1 : 1 ≤ n) (m : Mesh K) (h : create1DUniformMesh e mag junk n (.ok m)) : BoundaryAgrees m ∧ BoundaryCentresAgree m := by
  rw [create1D_closed e mag junk n h1, Res.ok.injEq] at h
  subst h
  have hn : (0 : K) < n := by exact_mod_cast h1
  have hcast : ((n - 1 : Nat) : K) = (n : K) - 1 := by rw [Nat.cast_sub h1]; simp
  have e1 : (0 : K) - (1 / 2 * ((1 - 0) / (n : K)) + (1 - 0) / (n : K) * ((0 : Nat) : K)) = -(1 / (2 * n)) := by
    simp only [Nat.cast_zero]
    field_simp
    ring
  have e2 : (1 : K) - (1 / 2 * ((1 - 0) / (n : K)) + (1 - 0) / (n : K) * ((n - 1 : Nat) : K)) = 1 / (2 * n) := by
    rw [hcast]
    field_simp
    ring
  have hb : ∀ b < 2, b = 0 ∨ b = 1 := fun b hb => by omega
  constructor
  · intro b hb'
    rcases hb b hb' with rfl | rfl
    · refine ⟨0, (0, 0, 0), (-1, 0, 0), (-1, 0, 0), (0 - (1 / 2 * ((1 - 0) / (n : K)) + (1 - 0) / (n : K) * ((0 : Nat) : K)), 0, 0),
        (1 / 2 * ((1 - 0) / (n : K)) + (1 - 0) / (n : K) * ((0 : Nat) : K), 0, 0), 1,
        1 / mag (0 - (1 / 2 * ((1 - 0) / (n : K)) + (1 - 0) / (n : K) * ((0 : Nat) : K)), 0, 0),
        ⟨rfl, ?_⟩, ⟨rfl, ?_⟩, ⟨rfl, ?_⟩, ⟨rfl, ?_⟩, rfl, rfl, rfl, rfl, ?_, ?_, ⟨?_, ?_⟩, ?_, ?_⟩
      · simp [mesh1D]
      · simp [mesh1D]
      · simp [mesh1D]
      · simp [mesh1D]
      · simp [mesh1D, List.getElem?_range (show 0 < n by omega), List.getElem?_range (show n - 1 < n by omega)]
      · simp [normSq, vdot]
      · simp [normSq, vdot]
      · simp
      · simp
      · rw [hmag, e1, abs_neg, abs_of_pos (by positivity)]
        simp only [normSq, vdot]
        field_simp
        ring
    · have hn' : n - 1 + 1 = n := by omega
      have hlt : ¬ n < n - 1 := by omega
      have hne : ¬ n = n - 1 := by omega
      refine ⟨n - 1, (1, 0, 0), (1, 0, 0), (1, 0, 0), (1 - (1 / 2 * ((1 - 0) / (n : K)) + (1 - 0) / (n : K) * ((n - 1 : Nat) : K)), 0, 0),
        (1 / 2 * ((1 - 0) / (n : K)) + (1 - 0) / (n : K) * ((n - 1 : Nat) : K), 0, 0), 1,
        1 / mag (1 - (1 / 2 * ((1 - 0) / (n : K)) + (1 - 0) / (n : K) * ((n - 1 : Nat) : K)), 0, 0),
        ⟨rfl, ?_⟩, ⟨rfl, ?_⟩, ⟨rfl, ?_⟩, ⟨rfl, ?_⟩, rfl, rfl, rfl, rfl, ?_, ?_, ⟨?_, ?_⟩, ?_, ?_⟩
      · simp [mesh1D, hn', hlt, hne]
      · simp [mesh1D, hn', hlt, hne]
      · simp [mesh1D, hn', hne]
      · simp [mesh1D, hn']
      · simp [mesh1D, List.getElem?_range (show 0 < n by omega), List.getElem?_range (show n - 1 < n by omega)]
      · simp [normSq, vdot]
      · simp [normSq, vdot]
      · simp
      · simp
      · rw [hmag, e2, abs_of_pos (by positivity)]
        simp only [normSq, vdot]
        field_simp
        ring
  · intro b hb'
    rcases hb b hb' with rfl | rfl
    · refine ⟨0, (1 / 2 * ((1 - 0) / (n : K)) + (1 - 0) / (n : K) * ((0 : Nat) : K), 0, 0), rfl, ?_, rfl⟩
      simp [mesh1D, List.getElem?_range (show 0 < n by omega), List.getElem?_range (show n - 1 < n by omega)]
    · refine ⟨n - 1, (1 / 2 * ((1 - 0) / (n : K)) + (1 - 0) / (n : K) * ((n - 1 : Nat) : K), 0, 0), rfl, ?_, rfl⟩
      simp [mesh1D, List.getElem?_range (show 0 < n by omega), List.getElem?_range (show n - 1 < n by omega)]

/-- **C13, the single cell**: its boundary arrays agree with its face and cell arrays. -/
theorem C13_single_agrees [Field K] [CharZero K] : BoundaryAgrees (createSingleCellMesh K) := by
  have h4 : ∀ b < 4, b = 0 ∨ b = 1 ∨ b = 2 ∨ b = 3 := fun b hb => by omega
  intro b hb
  rcases h4 b hb with rfl | rfl | rfl | rfl
  all_goals
    refine ⟨0, _, _, _, _, (1/2, 1/2, 0), 1, 2, ⟨rfl, rfl⟩, ⟨rfl, rfl⟩, ⟨rfl, rfl⟩, ⟨rfl, rfl⟩, rfl, rfl, rfl, rfl, rfl, ?_, ⟨?_, ?_⟩, ?_, ?_⟩ <;>
      simp [normSq, vdot] <;> norm_num

/-- **C13, the single cell deviates**: what its boundary mesh stores as the centres of the adjacent cells (`cn`) are the area vectors of the faces. -/
theorem C13_single_cn [Field K] [CharZero K] : ¬ BoundaryCentresAgree (createSingleCellMesh K) ∧ (createSingleCellMesh K).bnd.cn = (createSingleCellMesh K).faceAreas := by
  refine ⟨fun h => ?_, rfl⟩
  obtain ⟨cell, centre, h1, h2, h3⟩ := h 0 (show 0 < 4 by decide)
  simp only [createSingleCellMesh, List.getElem?_cons_zero, Option.some.injEq] at h1 h2 h3
  subst h1
  simp only [List.getElem?_cons_zero, Option.some.injEq] at h2
  rw [← h2] at h3
  simp at h3

end NeoFOAM
