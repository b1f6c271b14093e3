import Verif.Props.C43_Transport
import Verif.Props.C25_Gradient
import Verif.Props.C72_Numbering

/-!
# C73 – explicit operators are linear in the field, and solutions superpose
-/
namespace NeoFOAM
open Finset
variable {K V : Type} [Field K] [AddCommGroup V] [Module K V]

/-- In the first `n` places `z` is `a x + b y`. -/
def CombOn (n : Nat) (a b : K) (x y z : Nat → V) : Prop := ∀ i < n, z i = a • x i + b • y i

/-- `χ` is `a φ + b ψ` in the cells and on the boundary. -/
structure VolField.Comb (m : Mesh K) (a b : K) (φ ψ χ : VolField K V) : Prop where
  cells : CombOn m.nCells a b φ.cell ψ.cell χ.cell
  bnd : CombOn m.nBoundaryFaces a b φ.bnd ψ.bnd χ.bnd

/-- The condition for `a φ + b ψ` when φ and ψ have the first two. -/
def VolBCKind.Comb (a b : K) : VolBCKind V → VolBCKind V → VolBCKind V → Prop
  | .fixedValue x, .fixedValue y, .fixedValue z => z = a • x + b • y
  | .fixedGradient x, .fixedGradient y, .fixedGradient z => z = a • x + b • y
  | .extrapolated, .extrapolated, .extrapolated => True
  | .calculated, .calculated, .calculated => True
  | .empty, .empty, .empty => True
  | _, _, _ => False

/-- Conditions on the same patches in the same order, of which the third ones belong to `a φ + b ψ`. -/
inductive CombConditions (a b : K) : List (VolumeBoundary V) → List (VolumeBoundary V) → List (VolumeBoundary V) → Prop
  | nil : CombConditions a b [] [] []
  | cons {p : Patch} {k1 k2 k3 : VolBCKind V} {l1 l2 l3} : VolBCKind.Comb a b k1 k2 k3 → CombConditions a b l1 l2 l3 →
      CombConditions a b (⟨p, k1⟩ :: l1) (⟨p, k2⟩ :: l2) (⟨p, k3⟩ :: l3)

section proofs
variable {m : Mesh K} {a b : K} {φ ψ χ : VolField K V}

theorem netOutflow_comb {G : Type} [AddCommGroup G] [Module K G] (h : m.WF) {F1 F2 F3 : Nat → G} (hF : CombOn m.nFaces a b F1 F2 F3) (c : Nat) :
    m.netOutflow F3 c = a • m.netOutflow F1 c + b • m.netOutflow F2 c := by
  rw [netOutflow_congr h (ψ := fun f => a • F1 f + b • F2 f) hF c, netOutflow_add, netOutflow_smul, netOutflow_smul]

theorem CombOn.smul {n : Nat} {F1 F2 F3 : Nat → V} (h : CombOn n a b F1 F2 F3) (k : Nat → K) :
    CombOn n a b (fun i => k i • F1 i) (fun i => k i • F2 i) (fun i => k i • F3 i) := by
  intro i hi
  simp only
  rw [h i hi, smul_add, smul_comm (k i) a, smul_comm (k i) b]

theorem schemeFace_comb [LinearOrder K] (h : m.WF) (hc : VolField.Comb m a b φ ψ χ) (sch : InterpScheme) (w flux : Nat → K) :
    CombOn m.nFaces a b (Mesh.schemeFace sch m w flux φ) (Mesh.schemeFace sch m w flux ψ) (Mesh.schemeFace sch m w flux χ) := by
  have hfa := h.faces
  refine forall_faces h (fun f hf => ?_) (fun i hi => ?_)
  · have e1 := hc.cells _ (h.own_lt_int hf)
    have e2 := hc.cells _ (h.nbr_lt f hf)
    cases sch with
    | linear =>
      simp only [Mesh.schemeFace, Mesh.linearFace, hf, if_true, e1, e2, smul_add, smul_comm (w f) a, smul_comm (w f) b,
        smul_comm (1 - w f) a, smul_comm (1 - w f) b]
      abel
    | upwind =>
      simp only [Mesh.schemeFace, Mesh.upwindFace, hf, if_true]
      split
      · exact e1
      · exact e2
  · rw [C26_boundary, C26_boundary, C26_boundary, hc.bnd i hi, smul_add, smul_comm _ a, smul_comm _ b]

theorem fnGrad_comb (h : m.WF) (hc : VolField.Comb m a b φ ψ χ) (δ : Nat → K) :
    CombOn m.nFaces a b (m.fnGrad δ φ) (m.fnGrad δ ψ) (m.fnGrad δ χ) := by
  have hfa := h.faces
  refine forall_faces h (fun f hf => ?_) (fun i hi => ?_)
  · have e1 := hc.cells _ (h.own_lt_int hf)
    have e2 := hc.cells _ (h.nbr_lt f hf)
    simp only [Mesh.fnGrad, hf, if_true, e1, e2, smul_add, smul_sub, smul_comm (δ f) a, smul_comm (δ f) b]
    abel
  · have e1 := hc.cells _ (h.fc_lt i hi)
    have e2 := hc.bnd i hi
    simp only [Mesh.fnGrad, show ¬ m.nInternalFaces + i < m.nInternalFaces by omega, if_false, Nat.add_sub_cancel_left, e1, e2, smul_add, smul_sub,
      smul_comm (δ (m.nInternalFaces + i)) a, smul_comm (δ (m.nInternalFaces + i)) b]
    abel

/-- Three runs of operators that add `v1`, `v2` and `a v1 + b v2`. -/
theorem AddsTo.comb {n : Nat} {o1 o2 o3 : List V → NR (List V)} {v1 v2 v3 : Nat → V} (h1 : AddsTo n o1 v1) (h2 : AddsTo n o2 v2) (h3 : AddsTo n o3 v3)
    (hv : CombOn n a b v1 v2 v3) {s1 s2 s3 r1 r2 r3 : List V} (l1 : s1.length = n) (l2 : s2.length = n) (l3 : s3.length = n)
    (hs : CombOn n a b (ix s1) (ix s2) (ix s3)) (g1 : o1 s1 (.ok r1)) (g2 : o2 s2 (.ok r2)) (g3 : o3 s3 (.ok r3)) :
    CombOn n a b (ix r1) (ix r2) (ix r3) := by
  rw [h1 s1 l1] at g1
  rw [h2 s2 l2] at g2
  rw [h3 s3 l3] at g3
  cases g1; cases g2; cases g3
  intro i hi
  rw [ix_map_range _ hi, ix_map_range _ hi, ix_map_range _ hi, hv i hi]
  have := hs i hi
  unfold ix at this
  rw [this]
  simp only [smul_add]
  abel

end proofs

variable {m : Mesh K} {a b : K} {φ ψ χ : VolField K V} {s : Coeff K} {v : Nat → K}

/-- **C73, divergence**: if the field and the target are `a ⬝ first + b ⬝ second`, so is the result, with both schemes, any coefficient and any executors. -/
theorem C73_div [LinearOrder K] (h : m.WF) (o1 : φ.On m) (o2 : ψ.On m) (o3 : χ.On m) (hc : VolField.Comb m a b φ ψ χ) {w flux : List K}
    (hw : w.length = m.nFaces) (hfl : flux.length = m.nFaces) (sch : InterpScheme) (hs : s.On m.nCells v) (e1 e2 e3 : ExecKind) (j1 j2 j3 : Nat → V)
    {s1 s2 s3 r1 r2 r3 : List V} (l1 : s1.length = m.nCells) (l2 : s2.length = m.nCells) (l3 : s3.length = m.nCells)
    (hsrc : CombOn m.nCells a b (ix s1) (ix s2) (ix s3)) (g1 : divExplicit e1 m (some sch) w j1 flux φ s s1 (.ok r1))
    (g2 : divExplicit e2 m (some sch) w j2 flux ψ s s2 (.ok r2)) (g3 : divExplicit e3 m (some sch) w j3 flux χ s s3 (.ok r3)) :
    CombOn m.nCells a b (ix r1) (ix r2) (ix r3) := by
  obtain ⟨v1, h1, k1⟩ := C44_div h o1 hw hfl sch hs
  obtain ⟨v2, h2, k2⟩ := C44_div h o2 hw hfl sch hs
  obtain ⟨v3, h3, k3⟩ := C44_div h o3 hw hfl sch hs
  refine AddsTo.comb (k1 e1 j1) (k2 e2 j2) (k3 e3 j3) (fun c _ => ?_) l1 l2 l3 hsrc g1 g2 g3
  rw [h1, h2, h3, netOutflow_comb h ((schemeFace_comb h hc sch (ix w) (ix flux)).smul (ix flux)), smul_add, smul_comm _ a, smul_comm _ b]

/-- **C73, Laplacian**. -/
theorem C73_laplacian (h : m.WF) (o1 : φ.On m) (o2 : ψ.On m) (o3 : χ.On m) (hc : VolField.Comb m a b φ ψ χ) {δ gamma : List K}
    (hδ : δ.length = m.nFaces) (hs : s.On m.nCells v) (e1 e2 e3 : ExecKind) (j1 j2 j3 : Nat → V)
    {s1 s2 s3 r1 r2 r3 : List V} (l1 : s1.length = m.nCells) (l2 : s2.length = m.nCells) (l3 : s3.length = m.nCells)
    (hsrc : CombOn m.nCells a b (ix s1) (ix s2) (ix s3)) (g1 : laplacianExplicit e1 m true δ j1 gamma φ s s1 (.ok r1))
    (g2 : laplacianExplicit e2 m true δ j2 gamma ψ s s2 (.ok r2)) (g3 : laplacianExplicit e3 m true δ j3 gamma χ s s3 (.ok r3)) :
    CombOn m.nCells a b (ix r1) (ix r2) (ix r3) := by
  obtain ⟨v1, h1, k1⟩ := C44_laplacian (gamma := gamma) h o1 hδ hs
  obtain ⟨v2, h2, k2⟩ := C44_laplacian (gamma := gamma) h o2 hδ hs
  obtain ⟨v3, h3, k3⟩ := C44_laplacian (gamma := gamma) h o3 hδ hs
  refine AddsTo.comb (k1 e1 j1) (k2 e2 j2) (k3 e3 j3) (fun c _ => ?_) l1 l2 l3 hsrc g1 g2 g3
  rw [h1, h2, h3, netOutflow_comb h ((fnGrad_comb h hc (ix δ)).smul (ix m.magFaceAreas)), smul_add, smul_comm _ a, smul_comm _ b]

/-- **C73, surface integral**: linear in the face field. -/
theorem C73_surfaceIntegrate (h : m.WF) {f1 f2 f3 : List V} (o1 : f1.length = m.nFaces) (o2 : f2.length = m.nFaces) (o3 : f3.length = m.nFaces)
    (hc : CombOn m.nFaces a b (ix f1) (ix f2) (ix f3)) (hs : s.On m.nCells v) (e1 e2 e3 : ExecKind)
    {s1 s2 s3 r1 r2 r3 : List V} (l1 : s1.length = m.nCells) (l2 : s2.length = m.nCells) (l3 : s3.length = m.nCells)
    (hsrc : CombOn m.nCells a b (ix s1) (ix s2) (ix s3)) (g1 : surfaceIntegrateExplicit e1 m f1 s s1 (.ok r1))
    (g2 : surfaceIntegrateExplicit e2 m f2 s s2 (.ok r2)) (g3 : surfaceIntegrateExplicit e3 m f3 s s3 (.ok r3)) :
    CombOn m.nCells a b (ix r1) (ix r2) (ix r3) := by
  obtain ⟨v1, h1, k1⟩ := C44_surfaceIntegrate h o1 hs
  obtain ⟨v2, h2, k2⟩ := C44_surfaceIntegrate h o2 hs
  obtain ⟨v3, h3, k3⟩ := C44_surfaceIntegrate h o3 hs
  refine AddsTo.comb (k1 e1) (k2 e2) (k3 e3) (fun c _ => ?_) l1 l2 l3 hsrc g1 g2 g3
  rw [h1, h2, h3, netOutflow_comb h hc, smul_add, smul_comm _ a, smul_comm _ b]

/-- **C73, source term**. -/
theorem C73_source (o1 : φ.On m) (o2 : ψ.On m) (o3 : χ.On m) (hc : VolField.Comb m a b φ ψ χ) {k : List K} (hk : k.length = m.nCells)
    (hs : s.On m.nCells v) (e1 e2 e3 : ExecKind)
    {s1 s2 s3 r1 r2 r3 : List V} (l1 : s1.length = m.nCells) (l2 : s2.length = m.nCells) (l3 : s3.length = m.nCells)
    (hsrc : CombOn m.nCells a b (ix s1) (ix s2) (ix s3)) (g1 : sourceExplicit e1 k φ s s1 (.ok r1))
    (g2 : sourceExplicit e2 k ψ s s2 (.ok r2)) (g3 : sourceExplicit e3 k χ s s3 (.ok r3)) :
    CombOn m.nCells a b (ix r1) (ix r2) (ix r3) := by
  obtain ⟨v1, h1, k1⟩ := C44_source o1 hk hs
  obtain ⟨v2, h2, k2⟩ := C44_source o2 hk hs
  obtain ⟨v3, h3, k3⟩ := C44_source o3 hk hs
  refine AddsTo.comb (k1 e1) (k2 e2) (k3 e3) (fun c hcc => ?_) l1 l2 l3 hsrc g1 g2 g3
  rw [h1, h2, h3, hc.cells c hcc, smul_add, smul_comm _ a, smul_comm _ b]

/-- **C73, the flux of the linear scheme**: with linear interpolation the divergence is linear in the flux, too. -/
theorem C73_flux_linear [LinearOrder K] (h : m.WF) (o : φ.On m) {w f1 f2 f3 : List K} (hw : w.length = m.nFaces) (o1 : f1.length = m.nFaces)
    (o2 : f2.length = m.nFaces) (o3 : f3.length = m.nFaces) (hc : CombOn m.nFaces a b (ix f1) (ix f2) (ix f3)) (hs : s.On m.nCells v)
    (e1 e2 e3 : ExecKind) (j1 j2 j3 : Nat → V)
    {s1 s2 s3 r1 r2 r3 : List V} (l1 : s1.length = m.nCells) (l2 : s2.length = m.nCells) (l3 : s3.length = m.nCells)
    (hsrc : CombOn m.nCells a b (ix s1) (ix s2) (ix s3)) (g1 : divExplicit e1 m (some .linear) w j1 f1 φ s s1 (.ok r1))
    (g2 : divExplicit e2 m (some .linear) w j2 f2 φ s s2 (.ok r2)) (g3 : divExplicit e3 m (some .linear) w j3 f3 φ s s3 (.ok r3)) :
    CombOn m.nCells a b (ix r1) (ix r2) (ix r3) := by
  obtain ⟨v1, h1, k1⟩ := C44_div h o hw o1 .linear hs
  obtain ⟨v2, h2, k2⟩ := C44_div h o hw o2 .linear hs
  obtain ⟨v3, h3, k3⟩ := C44_div h o hw o3 .linear hs
  refine AddsTo.comb (k1 e1 j1) (k2 e2 j2) (k3 e3 j3) (fun c _ => ?_) l1 l2 l3 hsrc g1 g2 g3
  have : CombOn m.nFaces a b (fun f => ix f1 f • Mesh.schemeFace .linear m (ix w) (ix f1) φ f)
      (fun f => ix f2 f • Mesh.schemeFace .linear m (ix w) (ix f2) φ f) (fun f => ix f3 f • Mesh.schemeFace .linear m (ix w) (ix f3) φ f) := by
    intro f hf
    simp only [Mesh.schemeFace]
    rw [hc f hf, add_smul, smul_eq_mul, smul_eq_mul, mul_smul, mul_smul]
  rw [h1, h2, h3, netOutflow_comb h this, smul_add, smul_comm _ a, smul_comm _ b]

/-- **C73, the flux of the upwind scheme**: it is homogeneous for factors that do not turn the flow round. -/
theorem C73_flux_upwind [LinearOrder K] [IsStrictOrderedRing K] (h : m.WF) (o : φ.On m) {w f1 f2 : List K} (hw : w.length = m.nFaces) (o1 : f1.length = m.nFaces)
    (o2 : f2.length = m.nFaces) {k : K} (hk : 0 ≤ k) (hc : ∀ f < m.nFaces, ix f2 f = k * ix f1 f) (hs : s.On m.nCells v)
    (e1 e2 : ExecKind) (j1 j2 : Nat → V) {r1 r2 : List V}
    (g1 : divExplicit e1 m (some .upwind) w j1 f1 φ s (List.replicate m.nCells 0) (.ok r1))
    (g2 : divExplicit e2 m (some .upwind) w j2 f2 φ s (List.replicate m.nCells 0) (.ok r2)) :
    ∀ c < m.nCells, ix r2 c = k • ix r1 c := by
  rw [C18_div h o hw o1 .upwind hs e1 j1 _ (by simp)] at g1
  rw [C18_div h o hw o2 .upwind hs e2 j2 _ (by simp)] at g2
  cases g1; cases g2
  intro c hcc
  have hfa := h.faces
  rw [ix_map_range _ hcc, ix_map_range _ hcc, replicate_getD, zero_add, zero_add]
  have : ∀ f < m.nFaces, ix f2 f • Mesh.schemeFace .upwind m (ix w) (ix f2) φ f = k • (ix f1 f • Mesh.schemeFace .upwind m (ix w) (ix f1) φ f) := by
    intro f hf
    rw [hc f hf, mul_smul]
    rcases hk.eq_or_lt with rfl | hk
    · simp
    · simp only [Mesh.schemeFace, Mesh.upwindFace, hc f hf, mul_nonneg_iff_of_pos_left hk]
  rw [netOutflow_congr h (ψ := fun f => k • (ix f1 f • Mesh.schemeFace .upwind m (ix w) (ix f1) φ f)) this, netOutflow_smul, smul_comm]

/-- **C73, the divergence of a flux**: where the field is one everywhere, `div(flux, u)` is `div(flux)`, the surface integral of the flux. -/
theorem C73_one [LinearOrder K] (h : m.WF) {φ : VolField K K} (o : φ.On m) {w flux : List K} (hw : w.length = m.nFaces) (hfl : flux.length = m.nFaces)
    (hw1 : ∀ i < m.nBoundaryFaces, ix w (m.nInternalFaces + i) = 1) (hc : ∀ c < m.nCells, φ.cell c = 1) (hb : ∀ i < m.nBoundaryFaces, φ.bnd i = 1)
    (sch : InterpScheme) (hs : s.On m.nCells v) (e e' : ExecKind) (junk : Nat → K) (src : List K) (hl : src.length = m.nCells) (out) :
    divExplicit e m (some sch) w junk flux φ s src out ↔ surfaceIntegrateExplicit e' m flux s src out := by
  have hfa := h.faces
  rw [C18_div h o hw hfl sch hs e junk src hl, C18_surfaceIntegrate h hfl hs e' src hl]
  have : ∀ f < m.nFaces, ix flux f • Mesh.schemeFace sch m (ix w) (ix flux) φ f = ix flux f := by
    refine forall_faces h (fun f hf => ?_) (fun i hi => ?_)
    · have a1 := hc _ (h.own_lt_int hf)
      have a2 := hc _ (h.nbr_lt f hf)
      cases sch <;> simp [Mesh.schemeFace, Mesh.linearFace, Mesh.upwindFace, hf, a1, a2]
    · rw [C26_boundary, hw1 i hi, hb i hi]; simp
  have : ∀ c, m.netOutflow (fun f => ix flux f • Mesh.schemeFace sch m (ix w) (ix flux) φ f) c = m.netOutflow (ix flux) c :=
    fun c => netOutflow_congr h this c
  simp only [this]

theorem VolBCKind.Comb.writes {k1 k2 k3 : VolBCKind V} (h : VolBCKind.Comb a b k1 k2 k3) : (k2.Writes ↔ k1.Writes) ∧ (k3.Writes ↔ k1.Writes) := by
  cases k1 <;> cases k2 <;> first | exact h.elim | (cases k3 <;> first | exact h.elim | exact ⟨Iff.rfl, Iff.rfl⟩)

/-- Either no condition stores into the face in any of the lists, or the last one that does is the same condition in all of them. -/
theorem CombConditions.last {B1 B2 B3 : List (VolumeBoundary V)} (h : CombConditions a b B1 B2 B3) (i : Nat) :
    ((∀ c ∈ B1, c.kind.Writes → ¬ c.patch.Has i) ∧ (∀ c ∈ B2, c.kind.Writes → ¬ c.patch.Has i) ∧ ∀ c ∈ B3, c.kind.Writes → ¬ c.patch.Has i) ∨
    ∃ p k1 k2 k3 pre1 post1 pre2 post2 pre3 post3, B1 = pre1 ++ ⟨p, k1⟩ :: post1 ∧ B2 = pre2 ++ ⟨p, k2⟩ :: post2 ∧ B3 = pre3 ++ ⟨p, k3⟩ :: post3 ∧
      VolBCKind.Comb a b k1 k2 k3 ∧ k1.Writes ∧ p.Has i ∧ (∀ d ∈ post1, d.kind.Writes → ¬ d.patch.Has i) ∧
      (∀ d ∈ post2, d.kind.Writes → ¬ d.patch.Has i) ∧ ∀ d ∈ post3, d.kind.Writes → ¬ d.patch.Has i := by
  induction h with
  | nil => exact .inl ⟨by simp, by simp, by simp⟩
  | @cons p k1 k2 k3 l1 l2 l3 hk _ ih =>
    rcases ih with ⟨n1, n2, n3⟩ | ⟨q, j1, j2, j3, pre1, post1, pre2, post2, pre3, post3, rfl, rfl, rfl, rest⟩
    · by_cases hw : k1.Writes ∧ p.Has i
      · exact .inr ⟨p, k1, k2, k3, [], l1, [], l2, [], l3, rfl, rfl, rfl, hk, hw.1, hw.2, n1, n2, n3⟩
      · have e2 : k2.Writes → k1.Writes := hk.writes.1.1
        have e3 : k3.Writes → k1.Writes := hk.writes.2.1
        refine .inl ⟨?_, ?_, ?_⟩ <;> intro d hd
        · rcases List.mem_cons.1 hd with rfl | hd
          · exact fun x y => hw ⟨x, y⟩
          · exact n1 d hd
        · rcases List.mem_cons.1 hd with rfl | hd
          · exact fun x y => hw ⟨e2 x, y⟩
          · exact n2 d hd
        · rcases List.mem_cons.1 hd with rfl | hd
          · exact fun x y => hw ⟨e3 x, y⟩
          · exact n3 d hd
    · exact .inr ⟨q, j1, j2, j3, ⟨p, k1⟩ :: pre1, post1, ⟨p, k2⟩ :: pre2, post2, ⟨p, k3⟩ :: pre3, post3, rfl, rfl, rfl, rest⟩

/-- **C73, an explicit Euler step** of a linear term keeps the superposition, if the conditions superpose. -/
theorem EulerStep.comb (h : m.WF) {B1 B2 B3 : List (VolumeBoundary V)} (hB : CombConditions a b B1 B2 B3) {f : VolField K V → Nat → V}
    {φ1 φ2 φ3 ψ1 ψ2 ψ3 : VolField K V} (hφ : VolField.Comb m a b φ1 φ2 φ3) (hf : CombOn m.nCells a b (f φ1) (f φ2) (f φ3)) {dt : K}
    (h1 : EulerStep m B1 f dt φ1 ψ1) (h2 : EulerStep m B2 f dt φ2 ψ2) (h3 : EulerStep m B3 f dt φ3 ψ3) : VolField.Comb m a b ψ1 ψ2 ψ3 := by
  have hcell : CombOn m.nCells a b ψ1.cell ψ2.cell ψ3.cell := by
    intro c hc
    rw [h1.cells c hc, h2.cells c hc, h3.cells c hc, hφ.cells c hc, hf c hc]
    simp only [smul_add, smul_sub, smul_comm dt a, smul_comm dt b]
    abel
  refine ⟨hcell, fun i hi => ?_⟩
  rcases hB.last i with ⟨n1, n2, n3⟩ | ⟨p, k1, k2, k3, pre1, post1, pre2, post2, pre3, post3, r1, r2, r3, hk, hw, hp, n1, n2, n3⟩
  · have a1 := congrArg (·.value) (h1.keep i hi n1)
    have a2 := congrArg (·.value) (h2.keep i hi n2)
    have a3 := congrArg (·.value) (h3.keep i hi n3)
    have a4 := hφ.bnd i hi
    simp only [VolField.entry] at a1 a2 a3
    simp only [VolField.bnd] at a4 ⊢
    rw [a1, a2, a3]
    exact a4
  · have w2 : k2.Writes := hk.writes.1.2 hw
    have w3 : k3.Writes := hk.writes.2.2 hw
    have a1 := h1.bnd i hi _ _ _ r1 hw hp n1
    have a2 := h2.bnd i hi _ _ _ r2 w2 hp n2
    have a3 := h3.bnd i hi _ _ _ r3 w3 hp n3
    have g : ∀ (ξ : VolField K V), ξ.bnd i = (ξ.entry i).value := fun _ => rfl
    rw [g, g, g]
    have hcf := hcell _ (h.fc_lt i hi)
    cases k1 <;> cases k2 <;> first | exact hk.elim | (cases k3 <;> first | exact hk.elim | exact hw.elim | skip)
    · have hk : _ = _ := hk
      rw [a1.1, a2.1, a3.1, hk]
    · have hk : _ = _ := hk
      rw [a1.1, a2.1, a3.1, hk, hcf]
      simp only [smul_add, smul_comm _ a, smul_comm _ b]
      abel
    · rw [a1.1, a2.1, a3.1, hcf]

/-- **C73, superposition**: for every mesh, flux, scheme, weights, number of steps and time steps, on any executors, if the third initial field and the third
boundary conditions are `a ⬝ first + b ⬝ second`, then after `n` calls of `dsl::solve` on `ddt(u) + div(flux, u)` with forwardEuler the third solution is
`a ⬝ first + b ⬝ second` in every cell and boundary face, and no other outcome is possible. -/
theorem C73_transport [LinearOrder K] [IsStrictOrderedRing K] (h : m.WF) {B1 B2 B3 : List (VolumeBoundary K)} (hB : CombConditions a b B1 B2 B3)
    (hb1 : ∀ c ∈ B1, c.patch.end_ ≤ m.nBoundaryFaces) (hb2 : ∀ c ∈ B2, c.patch.end_ ≤ m.nBoundaryFaces) (hb3 : ∀ c ∈ B3, c.patch.end_ ≤ m.nBoundaryFaces)
    (sch : InterpScheme) (e1 e2 e3 : ExecKind) (sp : SparsityPattern) (j1 j2 j3 : Nat → K) {w flux : List K} (hw : w.length = m.nFaces)
    (hfl : flux.length = m.nFaces) (eq1 eq2 eq3 : Expr) (ops1 ops2 ops3 : OpsOf K K)
    (hbuild1 : ∀ st, transportTree.build (transportOps e1 m sp sch w j1 flux st) = .ok (eq1, ops1 st))
    (hbuild2 : ∀ st, transportTree.build (transportOps e2 m sp sch w j2 flux st) = .ok (eq2, ops2 st))
    (hbuild3 : ∀ st, transportTree.build (transportOps e3 m sp sch w j3 flux st) = .ok (eq3, ops3 st))
    (table : SolverTable K) {fvSchemes : Dict} (fvSolution : Dict) (hd : AsksFor fvSchemes "forwardEuler")
    (st1 st2 st3 : TimeState K K) (o1 : st1.sol.On m) (o2 : st2.sol.On m) (o3 : st3.sol.On m) (y1 : st1.Synced) (y2 : st2.Synced) (y3 : st3.Synced)
    (hst : VolField.Comb m a b st1.sol st2.sol st3.sol) (t : K) (dt : Nat → K) :
    ∃ u1 u2 u3 : Nat → TimeState K K,
      (∀ k out, timeLoop (fun d st => dslSolve e1 m B1 table fvSchemes fvSolution ops1 eq1 st t d) dt k st1 out ↔ out = .ok (u1 k)) ∧
      (∀ k out, timeLoop (fun d st => dslSolve e2 m B2 table fvSchemes fvSolution ops2 eq2 st t d) dt k st2 out ↔ out = .ok (u2 k)) ∧
      (∀ k out, timeLoop (fun d st => dslSolve e3 m B3 table fvSchemes fvSolution ops3 eq3 st t d) dt k st3 out ↔ out = .ok (u3 k)) ∧
      ∀ k, VolField.Comb m a b (u1 k).sol (u2 k).sol (u3 k).sol := by
  obtain ⟨u1, p0, p1, p2⟩ := transport_steps e1 h B1 hb1 sp sch w hw j1 flux hfl eq1 ops1 hbuild1 table fvSolution hd st1 o1 y1 t dt
  obtain ⟨u2, q0, q1, q2⟩ := transport_steps e2 h B2 hb2 sp sch w hw j2 flux hfl eq2 ops2 hbuild2 table fvSolution hd st2 o2 y2 t dt
  obtain ⟨u3, r0, r1, r2⟩ := transport_steps e3 h B3 hb3 sp sch w hw j3 flux hfl eq3 ops3 hbuild3 table fvSolution hd st3 o3 y3 t dt
  refine ⟨u1, u2, u3, p1, q1, r1, fun k => ?_⟩
  induction k with
  | zero => rw [p0, q0, r0]; exact hst
  | succ k ih =>
    refine EulerStep.comb h hB ih (fun c _ => ?_) (p2 k) (q2 k) (r2 k)
    have hn := netOutflow_comb h ((schemeFace_comb h ih sch (ix w) (ix flux)).smul (ix flux)) c
    simp only [smul_eq_mul] at hn ⊢
    rw [hn]
    ring

/-! ### The hypotheses can be met; the upwind flux is not linear -/

/-- A second field, a combination, and conditions for the three. -/
example : VolField.Comb row3 2 (-1) row3Field ⟨[0, 1, 3], [1, 2], [1, 2], [1, 1], [0, 0]⟩ ⟨[2, 9, 1], [13, 16], [0, 0], [1, 1], [0, 0]⟩ ∧
    CombConditions (2 : ℚ) (-1) [⟨⟨0, 0, 1⟩, .fixedValue (7 : ℚ)⟩, ⟨⟨1, 1, 2⟩, .extrapolated⟩] [⟨⟨0, 0, 1⟩, .fixedValue 1⟩, ⟨⟨1, 1, 2⟩, .extrapolated⟩]
      [⟨⟨0, 0, 1⟩, .fixedValue 13⟩, ⟨⟨1, 1, 2⟩, .extrapolated⟩] := by
  refine ⟨⟨?_, ?_⟩, .cons ?_ (.cons trivial .nil)⟩
  · intro c hc
    have hc : c < 3 := hc
    interval_cases c <;> norm_num [VolField.cell, row3Field]
  · intro c hc
    have hc : c < 2 := hc
    interval_cases c <;> norm_num [VolField.bnd, row3Field]
  · norm_num [VolBCKind.Comb]

end NeoFOAM
