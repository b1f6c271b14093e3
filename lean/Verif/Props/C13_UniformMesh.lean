import Verif.Spec.Mesh
import Verif.Proofs.ParElem
import Mathlib.Tactic.FieldSimp
import Mathlib.Tactic.Linarith
import Mathlib.Tactic.IntervalCases
import Mathlib.Tactic.Positivity
import Mathlib.Algebra.BigOperators.Ring.List
import Mathlib.Analysis.SpecialFunctions.Pow.Real

/-!
# C13 – `create1DUniformMesh` builds a valid mesh for every number of cells
-/
namespace NeoFOAM
open Finset
variable {K : Type}

section closed
variable [Field K]

/-- The mesh that comes out, in closed form (proof side). -/
def mesh1D (mag : Vec K → K) (n : Nat) : Mesh K :=
  let h : K := (1 - 0) / (n : K)
  let ctr : Nat → Vec K := fun i => (1 / 2 * h + h * (i : K), 0, 0)
  let pts : List (Vec K) := (List.range (n + 1)).map fun i =>
    if i < n - 1 then (0 + ((i + 1 : Nat) : K) * h, 0, 0) else if i = n - 1 then (0, 0, 0) else (1, 0, 0)
  let d0 : Vec K := (0 - (ctr 0).1, 0, 0)
  let d1 : Vec K := (1 - (ctr (n - 1)).1, 0, 0)
  { points := pts
    cellVolumes := List.replicate n h
    cellCentres := (List.range n).map ctr
    faceAreas := (List.range (n + 1)).map fun i => if i = n - 1 then (-1, 0, 0) else (1, 0, 0)
    faceCentres := pts
    magFaceAreas := List.replicate (n + 1) 1
    owner := (List.range (n + 1)).map fun i => if i < n - 1 then i else if i = n - 1 then 0 else n - 1
    neighbour := (List.range (n - 1)).map fun i => i + 1
    nCells := n
    nInternalFaces := n - 1
    nBoundaryFaces := 2
    nBoundaries := 2
    nFaces := n + 1
    bnd := {
      faceCells := [0, n - 1]
      cf := [(0, 0, 0), (1, 0, 0)]
      cn := [ctr 0, ctr (n - 1)]
      sf := [(-1, 0, 0), (1, 0, 0)]
      magSf := [1, 1]
      nf := [(-1, 0, 0), (1, 0, 0)]
      delta := [d0, d1]
      weights := [1, 1]
      deltaCoeffs := [1 / mag d0, 1 / mag d1]
      offset := [0, 1, 2] } }

theorem szSub_one {n : Nat} (h1 : 1 ≤ n) : szSub n 1 = n - 1 := by
  unfold szSub
  rw [if_pos h1]

theorem create1D_closed (e : ExecKind) (mag : Vec K → K) (junk : Nat → Nat) (n : Nat) (h1 : 1 ≤ n)
    (out : Res (Mesh K)) :
    create1DUniformMesh e mag junk n out ↔ out = .ok (mesh1D mag n) := by
  have hsz := szSub_one h1
  have hw1 : (do let p ← wr (List.replicate (n + 1) ((0, 0, 0) : Vec K)) (n - 1) (0, 0, 0)
                 wr p n (1, 0, 0)) = Res.ok (((List.replicate (n + 1) ((0, 0, 0) : Vec K)).set (n - 1)
                  (0, 0, 0)).set n (1, 0, 0)) := by
    rw [wr_ok (by simp), Res.ok_bind, wr_ok (by simp)]
  have hpts : (((List.replicate (n + 1) ((0, 0, 0) : Vec K)).set (n - 1) (0, 0, 0)).set n (1, 0, 0)).mapIdx
      (fun i x => if 0 ≤ i ∧ i < n - 1 then
        ((0 : K) + ((i + 1 : Nat) : K) * ((1 - 0) / (n : K)), x.2) else x) = (mesh1D mag n).points := by
    apply List.ext_getElem?
    intro i
    simp only [mesh1D, List.getElem?_mapIdx, List.getElem?_set, List.getElem?_replicate, List.getElem?_map,
      List.length_set, List.length_replicate]
    by_cases hi : i < n + 1
    · rw [List.getElem?_range hi]
      by_cases ha : i < n - 1
      · have : ¬ n - 1 = i ∧ ¬ n = i := by omega
        simp [ha, this, hi]
      · by_cases hb : i = n - 1
        · have : ¬ n = i := by omega
          subst hb; simp [this]
        · have : i = n := by omega
          subst this
          simp [ha, hb]
    · have : ¬ n - 1 = i ∧ ¬ n = i := by omega
      rw [List.getElem?_eq_none (by simp; omega)]
      simp [hi, this]
  have hctr : ((List.replicate n ((0, 0, 0) : Vec K)).mapIdx (fun i x => if 0 ≤ i ∧ i < n then
      (1 / 2 * ((1 - 0) / (n : K)) + ((1 - 0) / (n : K)) * (i : K), x.2) else x))
      = (mesh1D mag n).cellCentres := by
    apply List.ext_getElem?
    intro i
    simp only [mesh1D, List.getElem?_mapIdx, List.getElem?_replicate, List.getElem?_map]
    by_cases hi : i < n
    · rw [List.getElem?_range hi]; simp [hi]
    · rw [List.getElem?_eq_none (by simp; omega)]; simp [hi]
  have hfa : ((List.replicate (n + 1) ((1, 0, 0) : Vec K)).set (n - 1) (-1, 0, 0))
      = (mesh1D mag n).faceAreas := by
    apply List.ext_getElem?
    intro i
    simp only [mesh1D, List.getElem?_set, List.getElem?_replicate, List.getElem?_map,
      List.length_replicate]
    by_cases hi : i < n + 1
    · rw [List.getElem?_range hi]
      by_cases hb : i = n - 1
      · subst hb; simp
      · have : ¬ n - 1 = i := by omega
        simp [hb, this, hi]
    · have : ¬ n - 1 = i := by omega
      rw [List.getElem?_eq_none (by simp; omega)]
      simp [hi, this]
  have hown : (((((List.range (n + 1)).map junk).set (n - 1) 0).set n (n - 1)).mapIdx
      fun i x => if i < n - 1 then i else x) = (mesh1D mag n).owner := by
    apply List.ext_getElem?
    intro i
    simp only [mesh1D, List.getElem?_mapIdx, List.getElem?_set, List.getElem?_map,
      List.length_set, List.length_map, List.length_range]
    by_cases hi : i < n + 1
    · rw [List.getElem?_range hi]
      by_cases ha : i < n - 1
      · have : ¬ n - 1 = i ∧ ¬ n = i := by omega
        simp [ha, this]
      · by_cases hb : i = n - 1
        · have : ¬ n = i := by omega
          subst hb; simp [this]
        · have : i = n := by omega
          subst this
          simp [ha, hb]
    · have : ¬ n - 1 = i ∧ ¬ n = i := by omega
      rw [List.getElem?_eq_none (by simp; omega)]
      simp [this]
  have hnbr : ((((List.range (n - 1)).map junk)).mapIdx fun i x => if i < n - 1 then i + 1 else x)
      = (mesh1D mag n).neighbour := by
    apply List.ext_getElem?
    intro i
    simp only [mesh1D, List.getElem?_mapIdx, List.getElem?_map]
    by_cases hi : i < n - 1
    · rw [List.getElem?_range hi]; simp [hi]
    · rw [List.getElem?_eq_none (by simp; omega)]; simp
  have hc0 : rd (mesh1D mag n).cellCentres 0 = .ok (1 / 2 * ((1 - 0) / (n : K)) +
      ((1 - 0) / (n : K)) * ((0 : Nat) : K), 0, 0) := by
    rw [rd_eq_ok_iff]; simp [mesh1D, List.getElem?_range h1]
  have hcn : rd (mesh1D mag n).cellCentres (n - 1) = .ok (1 / 2 * ((1 - 0) / (n : K)) +
      ((1 - 0) / (n : K)) * ((n - 1 : Nat) : K), 0, 0) := by
    rw [rd_eq_ok_iff]; simp [mesh1D, List.getElem?_range (show n - 1 < n by omega)]
  have hmid : (do let fa ← wr (List.replicate (n + 1) ((1, 0, 0) : Vec K)) (n - 1) (-1, 0, 0)
                  let o ← wr ((List.range (n + 1)).map junk) (n - 1) 0
                  let o ← wr o n (n - 1)
                  let c0 ← rd (mesh1D mag n).cellCentres 0
                  let cn ← rd (mesh1D mag n).cellCentres (n - 1)
                  return (fa, o, c0, cn)) = Res.ok ((mesh1D mag n).faceAreas,
        ((((List.range (n + 1)).map junk).set (n - 1) 0).set n (n - 1)),
        ((1 / 2 * ((1 - 0) / (n : K)) + ((1 - 0) / (n : K)) * ((0 : Nat) : K), 0, 0) : Vec K),
        ((1 / 2 * ((1 - 0) / (n : K)) + ((1 - 0) / (n : K)) * ((n - 1 : Nat) : K), 0, 0) : Vec K)) := by
    rw [wr_ok (by simp), Res.ok_bind, wr_ok (by simp), Res.ok_bind, wr_ok (by simp),
      Res.ok_bind, hc0, Res.ok_bind, hcn, Res.ok_bind, hfa]
    rfl
  have hP1 : ∀ o, ParElem e (((List.replicate (n + 1) ((0, 0, 0) : Vec K)).set (n - 1)
      (0, 0, 0)).set n (1, 0, 0)) 0 (n - 1) (fun i p => ((0 : K) + ((i + 1 : Nat) : K) *
        ((1 - 0) / (n : K)), p.2)) o ↔ o = .ok (mesh1D mag n).points := by
    intro o
    rw [parElem_det e _ 0 (n - 1) _ (by simp; omega), hpts]
  have hP2 : ∀ o, ParElem e (List.replicate n ((0, 0, 0) : Vec K)) 0 n (fun i p =>
      (1 / 2 * ((1 - 0) / (n : K)) + ((1 - 0) / (n : K)) * (i : K), p.2)) o ↔
      o = .ok (mesh1D mag n).cellCentres := by
    intro o
    rw [parElem_det e _ 0 n _ (by simp), hctr]
  have hP3 : ∀ o, ParElem2 e ((((List.range (n + 1)).map junk).set (n - 1) 0).set n (n - 1))
      ((List.range (n - 1)).map junk) 0 (n - 1) (fun i => i) (fun i => i + 1) o ↔
      o = .ok ((mesh1D mag n).owner, (mesh1D mag n).neighbour) := by
    intro o
    rw [parElem2_det e _ _ (n - 1) _ _ (by simp; omega) (by simp), hown, hnbr]
  unfold create1DUniformMesh
  simp only [hsz, hw1, hP1, hP2, exists_eq_left, hmid, hP3]
  rfl

end closed

section getters
variable [Field K] (mag : Vec K → K) (n : Nat)

theorem mesh1D_own (f : Nat) (h : f < n + 1) : (mesh1D mag n).own f =
    if f < n - 1 then f else if f = n - 1 then 0 else n - 1 := by
  simp [Mesh.own, mesh1D, List.getD, List.getElem?_range h]

theorem mesh1D_nbr (f : Nat) (h : f < n - 1) : (mesh1D mag n).nbr f = f + 1 := by
  simp [Mesh.nbr, mesh1D, List.getD, List.getElem?_range h]

theorem mesh1D_fc0 : (mesh1D mag n).fc 0 = 0 := rfl
theorem mesh1D_fc1 : (mesh1D mag n).fc 1 = n - 1 := rfl

theorem mesh1D_area (f : Nat) (h : f < n + 1) : (mesh1D mag n).faceAreas.getD f 0 =
    if f = n - 1 then (-1, 0, 0) else (1, 0, 0) := by
  simp [mesh1D, List.getD, List.getElem?_range h]

theorem mesh1D_centre (c : Nat) (h : c < n) : (mesh1D mag n).cellCentres[c]? =
    some (1 / 2 * ((1 - 0) / (n : K)) + (1 - 0) / (n : K) * (c : K), 0, 0) := by
  simp [mesh1D, List.getElem?_range h]

theorem mesh1D_wf (h1 : 1 ≤ n) : (mesh1D mag n).WF where
  faces := by simp [mesh1D]; omega
  ownLen := by simp [mesh1D]
  nbrLen := by simp [mesh1D]
  fcLen := by simp [mesh1D]
  volLen := by simp [mesh1D]
  ctrLen := by simp [mesh1D]
  areaLen := by simp [mesh1D]
  fctrLen := by simp [mesh1D]
  magLen := by simp [mesh1D]
  bcfLen := by simp [mesh1D]
  bsfLen := by simp [mesh1D]
  bmagLen := by simp [mesh1D]
  bdcLen := by simp [mesh1D]
  bwLen := by simp [mesh1D]
  own_lt := by
    intro f hf
    rw [mesh1D_own mag n f hf]
    change _ < n
    split
    · omega
    · split <;> omega
  nbr_lt := by
    intro f hf
    have hf' : f < n - 1 := hf
    rw [mesh1D_nbr mag n f hf]
    change _ < n
    omega
  fc_lt := by
    intro b hb
    have hb' : b < 2 := hb
    change _ < n
    interval_cases b
    · rw [mesh1D_fc0]; omega
    · rw [mesh1D_fc1]; omega
  ne := by
    intro f hf
    have hf' : f < n - 1 := hf
    rw [mesh1D_nbr mag n f hf, mesh1D_own mag n f (by omega), if_pos hf']
    omega
  bown := by
    intro b hb
    have hb' : b < 2 := hb
    have hi : (mesh1D mag n).nInternalFaces = n - 1 := rfl
    rw [hi]
    interval_cases b
    · rw [mesh1D_fc0, mesh1D_own mag n _ (by omega), if_neg (by omega), if_pos (by omega)]
    · rw [mesh1D_fc1, mesh1D_own mag n _ (by omega), if_neg (by omega), if_neg (by omega)]

theorem mesh1D_closed (h1 : 1 ≤ n) : (mesh1D mag n).Closed := by
  intro c hc
  have hc' : c < n := hc
  unfold Mesh.netOutflow
  have hi : (mesh1D mag n).nInternalFaces = n - 1 := rfl
  have hb : (mesh1D mag n).nBoundaryFaces = 2 := rfl
  rw [hi, hb]
  have e1 : (∑ f ∈ range (n - 1), if (mesh1D mag n).own f = c then (mesh1D mag n).faceAreas.getD f 0
      else 0) = if c < n - 1 then ((1, 0, 0) : Vec K) else 0 := by
    rw [Finset.sum_congr rfl (g := fun f => if f = c then ((1, 0, 0) : Vec K) else 0)]
    · rw [Finset.sum_ite_eq']; simp
    · intro f hf
      rw [mem_range] at hf
      rw [mesh1D_own mag n f (by omega), mesh1D_area mag n f (by omega), if_pos hf,
        if_neg (show ¬ f = n - 1 by omega)]
  have e2 : (∑ f ∈ range (n - 1), if (mesh1D mag n).nbr f = c then (mesh1D mag n).faceAreas.getD f 0
      else 0) = if 1 ≤ c then ((1, 0, 0) : Vec K) else 0 := by
    rw [Finset.sum_congr rfl (g := fun f => if f + 1 = c then ((1, 0, 0) : Vec K) else 0)]
    · cases c with
      | zero => simp
      | succ c =>
        simp only [Nat.add_right_cancel_iff]
        rw [Finset.sum_ite_eq', if_pos (by rw [mem_range]; omega)]; simp
    · intro f hf
      rw [mem_range] at hf
      rw [mesh1D_nbr mag n f (by omega), mesh1D_area mag n f (by omega),
        if_neg (show ¬ f = n - 1 by omega)]
  rw [e1, e2, Finset.sum_range_succ, Finset.sum_range_one, mesh1D_fc0, mesh1D_fc1]
  beta_reduce
  rw [mesh1D_area mag n _ (by omega), mesh1D_area mag n _ (by omega)]
  by_cases ha : c = 0
  · subst ha
    by_cases hb : n = 1
    · subst hb; simp
    · have h3 : 0 < n - 1 := by omega
      have h4 : ¬ n - 1 = 0 := by omega
      simp [h3, h4]
  · by_cases hb : c = n - 1
    · subst hb
      have : 1 ≤ n - 1 := by omega
      have h4 : ¬ 0 = n - 1 := by omega
      simp [this, h4]
    · have h3 : c < n - 1 := by omega
      have h4 : ¬ 0 = c := by omega
      have h5 : ¬ n - 1 = c := by omega
      have h6 : 1 ≤ c := by omega
      simp [h3, h4, h5, h6]

end getters

/-- **C13**: for every number of cells from one on, every executor and schedule and whatever fresh
memory contains, the call ends normally with a mesh that has the stated numbers of cells and faces,
valid connectivity with owner below neighbour, closed cells, positive volumes adding up to one, and cell
centres increasing by the spacing `1/nCells`. -/
theorem C13_create1DUniformMesh [Field K] [LinearOrder K] [IsStrictOrderedRing K] (e : ExecKind)
    (mag : Vec K → K) (junk : Nat → Nat) (n : Nat) (h1 : 1 ≤ n) (out : Res (Mesh K))
    (h : create1DUniformMesh e mag junk n out) :
    ∃ m, out = .ok m ∧ m.nCells = n ∧ m.nInternalFaces = n - 1 ∧ m.nBoundaryFaces = 2 ∧
      m.WF ∧ m.Closed ∧ (∀ f < m.nInternalFaces, m.own f < m.nbr f) ∧
      (∀ c < n, 0 < m.vol c) ∧ m.cellVolumes.sum = 1 ∧
      (∀ c, c + 1 < n → ∃ x y, m.cellCentres[c]? = some (x, 0, 0) ∧
        m.cellCentres[c + 1]? = some (y, 0, 0) ∧ y = x + 1 / (n : K)) ∧
      ValidOffsets m.bnd.offset m.nBoundaryFaces := by
  rw [create1D_closed e mag junk n h1] at h
  refine ⟨mesh1D mag n, h, rfl, rfl, rfl, mesh1D_wf mag n h1, mesh1D_closed mag n h1, ?_, ?_, ?_, ?_, ?_⟩
  · intro f hf
    have hf' : f < n - 1 := hf
    rw [mesh1D_nbr mag n f hf, mesh1D_own mag n f (by omega), if_pos hf']
    omega
  · intro c hc
    have : (0 : K) < n := by exact_mod_cast h1
    simp only [Mesh.vol, mesh1D, List.getD_eq_getElem?_getD, List.getElem?_replicate, hc, if_true,
      Option.getD_some]
    simpa using this
  · have : (n : K) ≠ 0 := by
      have : (0 : K) < n := by exact_mod_cast h1
      exact this.ne'
    simp only [mesh1D, List.sum_replicate, nsmul_eq_mul]
    field_simp
    simp
  · intro c hc
    refine ⟨_, _, mesh1D_centre mag n c (by omega), mesh1D_centre mag n (c + 1) hc, ?_⟩
    push_cast
    ring
  · refine ⟨by simp [mesh1D], by simp [mesh1D], rfl, rfl⟩

/-- **C13, every run ends**: there is an outcome. -/
theorem C13_terminates [Field K] (e : ExecKind) (mag : Vec K → K) (junk : Nat → Nat) (n : Nat)
    (h1 : 1 ≤ n) : ∃ out, create1DUniformMesh e mag junk n out :=
  ⟨_, (create1D_closed e mag junk n h1 _).2 rfl⟩

/-- **C13, boundary distances**: the inverse distance of both boundary faces is `2 nCells`, if the norm
of a vector along x is the absolute value of its component. -/
theorem C13_boundary_coefficients [Field K] [LinearOrder K] [IsStrictOrderedRing K] (e : ExecKind)
    (mag : Vec K → K) (hmag : ∀ x, mag (x, 0, 0) = |x|) (junk : Nat → Nat) (n : Nat) (h1 : 1 ≤ n)
    (m : Mesh K) (h : create1DUniformMesh e mag junk n (.ok m)) :
    m.bnd.deltaCoeffs = [2 * (n : K), 2 * (n : K)] := by
  rw [create1D_closed e mag junk n h1, Res.ok.injEq] at h
  subst h
  have hn : (0 : K) < n := by exact_mod_cast h1
  have hcast : ((n - 1 : Nat) : K) = (n : K) - 1 := by rw [Nat.cast_sub h1]; simp
  simp only [mesh1D, hmag, hcast, List.cons.injEq, and_true]
  have e1 : (0 : K) - (1 / 2 * ((1 - 0) / (n : K)) + (1 - 0) / (n : K) * ((0 : Nat) : K)) =
      -(1 / (2 * n)) := by
    field_simp; simp
  have e2 : (1 : K) - (1 / 2 * ((1 - 0) / (n : K)) + (1 - 0) / (n : K) * ((n : K) - 1)) =
      1 / (2 * n) := by
    field_simp; ring
  rw [e1, e2, abs_neg, abs_of_pos (by positivity)]
  constructor <;> field_simp

/-- **No cells at all is undefined**: the index of the left boundary point wraps around. -/
theorem C13_zero_cells [Field K] (e : ExecKind) (mag : Vec K → K) (junk : Nat → Nat)
    (out : Res (Mesh K)) : create1DUniformMesh e mag junk 0 out ↔ out = .ub := by
  have : wr (List.replicate (0 + 1) ((0, 0, 0) : Vec K)) (szSub 0 1) (0, 0, 0) = .ub := by
    simp [wr, szSub]
  unfold create1DUniformMesh
  simp only [this, Res.ub_bind]

/-- **C13, the single-cell mesh is valid and closed.** -/
theorem C13_singleCell [Field K] : (createSingleCellMesh K).WF ∧ (createSingleCellMesh K).Closed ∧
    ValidOffsets (createSingleCellMesh K).bnd.offset 4 := by
  refine ⟨?_, ?_, ?_⟩
  · constructor <;> first | rfl | (intro f hf; simp only [createSingleCellMesh] at hf ⊢; first | omega | (interval_cases f <;> simp [Mesh.own, Mesh.fc]))
  · intro c hc
    have : c = 0 := by simp only [createSingleCellMesh] at hc; omega
    subst this
    simp [Mesh.netOutflow, createSingleCellMesh, Mesh.fc, Finset.sum_range_succ]
  · exact ⟨by simp [createSingleCellMesh], by simp [createSingleCellMesh], rfl, rfl⟩

/-- The Euclidean norm meets the hypothesis of `C13_boundary_coefficients`. -/
example (x : ℝ) : Real.sqrt (x * x + (0 : ℝ) * 0 + 0 * 0) = |x| := by
  simp [Real.sqrt_mul_self_eq_abs]
/-- A mesh with three cells. -/
example : ∃ m : Mesh ℚ, create1DUniformMesh .parallel (fun v => |v.1|) (fun _ => 42) 3 (.ok m) ∧
    m.owner = [0, 1, 0, 2] ∧ m.neighbour = [1, 2] := by
  refine ⟨_, (create1D_closed _ _ _ _ (by decide) _).2 rfl, rfl, rfl⟩

end NeoFOAM
