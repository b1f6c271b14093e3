import Verif.Proofs.Laplace

/-!
# C25 – Gauss-Green gradient
-/
namespace NeoFOAM
open Finset
variable {K : Type} [Field K]

/-- The Gauss-Green gradient of `φ` in cell `c`. -/
def Mesh.gaussGrad (m : Mesh K) (w : Nat → K) (φ : VolField K K) (c : Nat) : Vec K :=
  (1 / m.vol c) • m.netOutflow (fun f => m.linearFace w φ f • ix m.faceAreas f) c

section proofs

theorem linearFace_comb (m : Mesh K) (w : Nat → K) (φ ψ χ : VolField K K) (a b : K)
    (hc : ∀ c, χ.cell c = a * φ.cell c + b * ψ.cell c) (hb : ∀ i, χ.bnd i = a * φ.bnd i + b * ψ.bnd i) (f : Nat) :
    m.linearFace w χ f = a * m.linearFace w φ f + b * m.linearFace w ψ f := by
  simp only [Mesh.linearFace, smul_eq_mul]
  split
  · rw [hc, hc]; ring
  · rw [hb]; ring

omit [Field K] in
theorem netOutflow_add {G : Type} [AddCommGroup G] (m : Mesh K) (φ ψ : Nat → G) (c : Nat) :
    m.netOutflow (fun f => φ f + ψ f) c = m.netOutflow φ c + m.netOutflow ψ c := by
  have key : ∀ (n : Nat) (p : Nat → Prop) [DecidablePred p] (x y : Nat → G),
      (∑ f ∈ range n, if p f then x f + y f else 0)
        = (∑ f ∈ range n, if p f then x f else 0) + ∑ f ∈ range n, if p f then y f else 0 := by
    intro n p _ x y
    rw [← Finset.sum_add_distrib]
    refine Finset.sum_congr rfl (fun f _ => ?_)
    split <;> simp
  unfold Mesh.netOutflow
  rw [key, key, key m.nBoundaryFaces (fun b => m.fc b = c) (fun b => φ (m.nInternalFaces + b))
    (fun b => ψ (m.nInternalFaces + b))]
  abel

theorem netOutflow_smul {V : Type} [AddCommGroup V] [Module K V] (m : Mesh K) (k : K) (φ : Nat → V) (c : Nat) :
    m.netOutflow (fun f => k • φ f) c = k • m.netOutflow φ c := by
  have key : ∀ (n : Nat) (p : Nat → Prop) [DecidablePred p] (x : Nat → V),
      (∑ f ∈ range n, if p f then k • x f else 0) = k • ∑ f ∈ range n, if p f then x f else 0 := by
    intro n p _ x
    rw [Finset.smul_sum]
    refine Finset.sum_congr rfl (fun f _ => ?_)
    split <;> simp
  unfold Mesh.netOutflow
  rw [key, key, key m.nBoundaryFaces (fun b => m.fc b = c) (fun b => φ (m.nInternalFaces + b)),
    smul_add, smul_sub]

end proofs

/-- **C25, what grad(phi) returns**: on every executor, schedule and content of fresh memory the only outcome is
the Gauss-Green gradient. -/
theorem C25_grad {m : Mesh K} (h : m.WF) {φ : VolField K K} (hφ : φ.On m) {w : List K} (hw : w.length = m.nFaces)
    (e : ExecKind) (junk : Nat → K) (junkV : Nat → Vec K) (out : Res (List (Vec K))) :
    grad e m w junk junkV φ out ↔ out = .ok ((List.range m.nCells).map (m.gaussGrad (ix w) φ)) := by
  unfold grad
  rw [NR.bind_iff (fun o => elemKernel_list e m.nCells _ (fun _ => (0 : Vec K)) _ (by simp) (fun _ _ => rfl) o)]
  rw [computeGrad_det h hφ hw e junk _ (by simp)]
  have : ((List.range m.nCells).map fun c => (1 / m.vol c) • (((List.range m.nCells).map fun _ => (0 : Vec K)).getD c 0
      + m.netOutflow (fun f => m.linearFace (ix w) φ f • ix m.faceAreas f) c))
      = (List.range m.nCells).map (m.gaussGrad (ix w) φ) := by
    apply List.map_congr_left
    intro c hc
    rw [getD_range_map _ _ _ (List.mem_range.1 hc), zero_add, Mesh.gaussGrad]
  rw [this]

/-- **C25, constants**: on closed cells the gradient of a constant field whose boundary values are that constant,
with boundary weights one, is zero in every cell. -/
theorem C25_constant {m : Mesh K} (h : m.WF) (hcl : m.Closed) {φ : VolField K K} (hφ : φ.On m) {w : List K}
    (hw : w.length = m.nFaces) (hw1 : ∀ b < m.nBoundaryFaces, ix w (m.nInternalFaces + b) = 1) (k : K)
    (hc : ∀ c < m.nCells, φ.cell c = k) (hb : ∀ b < m.nBoundaryFaces, φ.bnd b = k)
    (e : ExecKind) (junk : Nat → K) (junkV : Nat → Vec K) (out : Res (List (Vec K))) :
    grad e m w junk junkV φ out ↔ out = .ok (List.replicate m.nCells 0) := by
  rw [C25_grad h hφ hw]
  have hfa := h.faces
  have hface : ∀ f < m.nFaces, m.linearFace (ix w) φ f = k := by
    intro f hf
    unfold Mesh.linearFace
    split
    · rename_i hi
      rw [hc _ (h.own_lt_int hi), hc _ (h.nbr_lt f hi), ← add_smul]
      simp
    · rename_i hi
      have hb' : f - m.nInternalFaces < m.nBoundaryFaces := by omega
      have := hw1 _ hb'
      rw [show m.nInternalFaces + (f - m.nInternalFaces) = f by omega] at this
      rw [this, hb _ hb', one_smul]
  have : (List.range m.nCells).map (m.gaussGrad (ix w) φ) = List.replicate m.nCells 0 := by
    rw [List.map_congr_left (g := fun _ => (0 : Vec K))]
    · simp
    · intro c hcm
      have hlt := List.mem_range.1 hcm
      have e1 : m.netOutflow (fun f => m.linearFace (ix w) φ f • ix m.faceAreas f) c
          = m.netOutflow (fun f => k • ix m.faceAreas f) c :=
        netOutflow_congr h (fun f hf => by rw [hface f hf]) c
      rw [Mesh.gaussGrad, e1, netOutflow_smul]
      have := hcl c hlt
      rw [show m.netOutflow (ix m.faceAreas) c = 0 from this, smul_zero, smul_zero]
  rw [this]

/-- **C25, linearity**: if χ = a φ + b ψ in cells and on the boundary, the returned gradients satisfy the same
relation in every cell. -/
theorem C25_linear {m : Mesh K} (h : m.WF) {φ ψ χ : VolField K K} (hφ : φ.On m) (hψ : ψ.On m) (hχ : χ.On m)
    {w : List K} (hw : w.length = m.nFaces) (a b : K) (hc : ∀ c, χ.cell c = a * φ.cell c + b * ψ.cell c)
    (hb : ∀ i, χ.bnd i = a * φ.bnd i + b * ψ.bnd i) (e : ExecKind) (junk : Nat → K) (junkV : Nat → Vec K)
    (gφ gψ gχ : List (Vec K)) (r1 : grad e m w junk junkV φ (.ok gφ)) (r2 : grad e m w junk junkV ψ (.ok gψ))
    (r3 : grad e m w junk junkV χ (.ok gχ)) :
    ∀ c < m.nCells, gχ.getD c 0 = a • gφ.getD c 0 + b • gψ.getD c 0 := by
  rw [C25_grad h hφ hw] at r1
  rw [C25_grad h hψ hw] at r2
  rw [C25_grad h hχ hw] at r3
  cases r1; cases r2; cases r3
  intro c hlt
  rw [getD_range_map _ _ _ hlt, getD_range_map _ _ _ hlt, getD_range_map _ _ _ hlt]
  simp only [Mesh.gaussGrad]
  have : m.netOutflow (fun f => m.linearFace (ix w) χ f • ix m.faceAreas f) c
      = m.netOutflow (fun f => a • (m.linearFace (ix w) φ f • ix m.faceAreas f)
          + b • (m.linearFace (ix w) ψ f • ix m.faceAreas f)) c := by
    apply netOutflow_congr h
    intro f _
    rw [linearFace_comb m (ix w) φ ψ χ a b hc hb, add_smul, smul_smul, smul_smul]
  rw [this, netOutflow_add, netOutflow_smul, netOutflow_smul, smul_add]
  rw [smul_comm (1 / m.vol c) a, smul_comm (1 / m.vol c) b]

/-- **C25 for the overload that writes into a given field** holds only if that field is zero beforehand. -/
theorem C25_into_partial {m : Mesh K} (h : m.WF) {φ : VolField K K} (hφ : φ.On m) {w : List K}
    (hw : w.length = m.nFaces) (e : ExecKind) (junk : Nat → K) (out : Res (List (Vec K))) :
    gradInto e m w junk φ (List.replicate m.nCells 0) out
      ↔ out = .ok ((List.range m.nCells).map (m.gaussGrad (ix w) φ)) := by
  unfold gradInto
  rw [computeGrad_det h hφ hw e junk _ (by simp)]
  simp only [replicate_getD (V := Vec K), zero_add]
  rfl

/-- **C25 is violated** by that overload: the result depends on the output's previous contents. -/
theorem C25_into_violation : ∃ (m : Mesh ℚ), m.WF ∧ ∃ φ : VolField ℚ ℚ, φ.On m ∧ ∃ w, w.length = m.nFaces ∧
    ∃ (a b : List (Vec ℚ)), a.length = m.nCells ∧ b.length = m.nCells ∧ ∃ ra rb, ra ≠ rb ∧
      gradInto .serial m w (fun _ => 0) φ a (.ok ra) ∧ gradInto .serial m w (fun _ => 0) φ b (.ok rb) := by
  refine ⟨row3, row3_wf, row3Field, row3Field_on, [1, 1, 1, 1], rfl, List.replicate 3 0, List.replicate 3 (1, 0, 0),
    rfl, rfl, _, _, ?_, (computeGrad_det row3_wf row3Field_on rfl .serial _ _ rfl _).2 rfl,
    (computeGrad_det row3_wf row3Field_on rfl .serial _ _ rfl _).2 rfl⟩
  intro heq
  have := congrArg (fun l => (l.getD 0 0).1) heq
  simp only [getD_range_map _ _ 0 (show 0 < row3.nCells by decide)] at this
  simp [row3, topoMesh, Mesh.vol] at this

/-- The hypotheses of C25_constant can be met: a field that is 5 everywhere on the closed single-cell mesh (the
uniform 1D meshes are closed as well, see C13). -/
example : (createSingleCellMesh ℚ).WF ∧ (createSingleCellMesh ℚ).Closed ∧
    (⟨[5], [5, 5, 5, 5], [5, 5, 5, 5], [1, 1, 1, 1], [0, 0, 0, 0]⟩ : VolField ℚ ℚ).On (createSingleCellMesh ℚ) := by
  refine ⟨?_, ?_, ⟨rfl, rfl, rfl, rfl, rfl⟩⟩
  · constructor <;> first | rfl | decide | (intro f hf; exact absurd hf (Nat.not_lt_zero _))
  · intro c hc
    have : c = 0 := Nat.lt_one_iff.1 hc
    subst this
    simp [Mesh.netOutflow, createSingleCellMesh, Mesh.fc, Finset.sum_range_succ]

end NeoFOAM
