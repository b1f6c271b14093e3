import Verif.Spec.Renumber
import Verif.Props.C18_Divergence
import Verif.Props.C19_ImplicitDiv
import Verif.Props.C20_ImplicitLaplacian
import Verif.Props.C23_Ddt
import Verif.Props.C24_Source
import Verif.Props.C25_Gradient
import Verif.Props.C27_Geometry
import Verif.Props.C29_Courant

/-!
# C72 – results do not depend on the numbering of cells and faces or on the orientation of internal faces
-/
namespace NeoFOAM
open Finset
variable {K V : Type} [Field K] [AddCommGroup V] [Module K V]

section proofs

theorem Permutes.sum {G : Type} [AddCommMonoid G] {n : Nat} {p : Nat → Nat} (h : Permutes n p) (F : Nat → G) :
    ∑ i ∈ range n, F i = ∑ i ∈ range n, F (p i) := by
  symm
  have hm : ∀ i ∈ range n, p i ∈ range n := fun i hi => by simpa using h.1 i (by simpa using hi)
  have hi : Set.InjOn p (range n) := fun i hi j hj e => h.2 i (by simpa using hi) j (by simpa using hj) e
  exact Finset.sum_nbij p hm hi (Finset.surjOn_of_injOn_of_card_le p hm hi le_rfl) (fun _ _ => rfl)

theorem Permutes.surj {n : Nat} {p : Nat → Nat} (h : Permutes n p) {j : Nat} (hj : j < n) : ∃ i < n, p i = j := by
  have hm : ∀ i ∈ range n, p i ∈ range n := fun i hi => by simpa using h.1 i (by simpa using hi)
  have hi : Set.InjOn p (range n) := fun i hi j hj e => h.2 i (by simpa using hi) j (by simpa using hj) e
  obtain ⟨i, hi, e⟩ := Finset.surjOn_of_injOn_of_card_le p hm hi le_rfl (show j ∈ (range n : Set Nat) by simpa using hj)
  exact ⟨i, by simpa using hi, e⟩

variable {r : Renumbering} {m m' : Mesh K}

theorem Renumbering.Of.nFaces (hr : r.Of m m') (h : m.WF) (h' : m'.WF) : m'.nFaces = m.nFaces := by
  rw [h.faces, h'.faces, hr.nInternal, hr.nBoundary]

theorem Renumbering.num_int {f : Nat} (hf : f < m.nInternalFaces) : r.num m f = r.face f := by
  simp [Renumbering.num, hf]

theorem Renumbering.num_bnd (b : Nat) : r.num m (m.nInternalFaces + b) = m.nInternalFaces + r.bface b := by
  simp [Renumbering.num]

/-- The net outflow of face data that changes sign with the orientation. -/
theorem netOutflow_renumber {G : Type} [AddCommGroup G] (hr : r.Of m m') (h : m.WF) {F F' : Nat → G} (hF : r.Odd m F F') {c : Nat}
    (hc : c < m.nCells) : m'.netOutflow F' (r.cell c) = m.netOutflow F c := by
  have hfa := h.faces
  unfold Mesh.netOutflow
  rw [hr.nInternal, hr.nBoundary, ← Finset.sum_sub_distrib, ← Finset.sum_sub_distrib, hr.face.sum, hr.bface.sum]
  have inj : ∀ d < m.nCells, (r.cell d = r.cell c ↔ d = c) := fun d hd => ⟨hr.cell.2 d hd c hc, fun e => by rw [e]⟩
  congr 1
  · refine Finset.sum_congr rfl (fun f hf => ?_)
    rw [mem_range] at hf
    have e1 := hF f (by omega)
    rw [Renumbering.num_int hf] at e1
    have i1 := inj _ (h.own_lt_int hf)
    have i2 := inj _ (h.nbr_lt f hf)
    cases ht : r.turned f with
    | false =>
      obtain ⟨a, b⟩ := hr.kept f hf ht
      rw [if_neg (by simp [Renumbering.turns, ht])] at e1
      simp only [a, b, i1, i2, e1]
    | true =>
      obtain ⟨a, b⟩ := hr.turned f hf ht
      rw [if_pos ⟨hf, ht⟩] at e1
      simp only [a, b, i1, i2, e1]
      split <;> split <;> simp
  · refine Finset.sum_congr rfl (fun b hb => ?_)
    rw [mem_range] at hb
    have e1 := hF (m.nInternalFaces + b) (by omega)
    rw [Renumbering.num_bnd, if_neg (by simp [Renumbering.turns])] at e1
    simp only [hr.bnd b hb, inj _ (h.fc_lt b hb), e1]

/-- A value at every face follows from internal and boundary faces. -/
theorem forall_faces (h : m.WF) {P : Nat → Prop} (h1 : ∀ f < m.nInternalFaces, P f) (h2 : ∀ b < m.nBoundaryFaces, P (m.nInternalFaces + b)) :
    ∀ f < m.nFaces, P f := by
  intro f hf
  have hfa := h.faces
  by_cases hi : f < m.nInternalFaces
  · exact h1 f hi
  · have := h2 (f - m.nInternalFaces) (by omega)
    rwa [show m.nInternalFaces + (f - m.nInternalFaces) = f by omega] at this

theorem not_turns_bnd (b : Nat) : ¬ r.turns m (m.nInternalFaces + b) := by simp [Renumbering.turns]

theorem Renumbering.Same.values {φ φ' : VolField K V} (hφ : r.Same m φ φ') : r.Values m φ φ' :=
  ⟨hφ.cells, fun b hb => congrArg (·.value) (hφ.bnd b hb)⟩

theorem linearFace_renumber (hr : r.Of m m') (h : m.WF) {φ φ' : VolField K V} (hφ : r.Values m φ φ') {w w' : Nat → K} (hw : r.Weights m w w') :
    r.Even m (m.linearFace w φ) (m'.linearFace w' φ') := by
  have hfa := h.faces
  refine forall_faces h (fun f hf => ?_) (fun b hb => ?_)
  · have e1 := hw f (by omega)
    rw [Renumbering.num_int hf] at e1 ⊢
    have c1 := hφ.cells _ (h.own_lt_int hf)
    have c2 := hφ.cells _ (h.nbr_lt f hf)
    unfold Mesh.linearFace
    rw [if_pos (by rw [hr.nInternal]; exact hr.face.1 f hf), if_pos hf, e1]
    cases ht : r.turned f with
    | false =>
      obtain ⟨a, b⟩ := hr.kept f hf ht
      rw [if_neg (by simp [Renumbering.turns, ht]), a, b, c1, c2]
    | true =>
      obtain ⟨a, b⟩ := hr.turned f hf ht
      rw [if_pos ⟨hf, ht⟩, a, b, c1, c2, sub_sub_cancel, add_comm]
  · have e1 := hw (m.nInternalFaces + b) (by omega)
    rw [if_neg (not_turns_bnd b)] at e1
    rw [Renumbering.num_bnd] at e1 ⊢
    unfold Mesh.linearFace
    rw [hr.nInternal, if_neg (by omega), if_neg (by omega), e1]
    simp only [Nat.add_sub_cancel_left]
    rw [hφ.bnd b hb]

theorem fluxFace_renumber [LinearOrder K] [IsStrictOrderedRing K] (hr : r.Of m m') (h : m.WF) {φ φ' : VolField K V} (hφ : r.Values m φ φ')
    {w w' flux flux' : Nat → K} (hw : r.Weights m w w') (hfl : r.Odd m flux flux') (sch : InterpScheme) :
    r.Odd m (fun f => flux f • Mesh.schemeFace sch m w flux φ f) (fun f => flux' f • Mesh.schemeFace sch m' w' flux' φ' f) := by
  have hfa := h.faces
  cases sch with
  | linear =>
    intro f hf
    simp only [Mesh.schemeFace]
    rw [hfl f hf, linearFace_renumber hr h hφ hw f hf]
    split <;> simp
  | upwind =>
    refine forall_faces h (fun f hf => ?_) (fun b hb => ?_)
    · have e1 := hfl f (by omega)
      rw [Renumbering.num_int hf] at e1 ⊢
      have c1 := hφ.cells _ (h.own_lt_int hf)
      have c2 := hφ.cells _ (h.nbr_lt f hf)
      simp only [Mesh.schemeFace, Mesh.upwindFace]
      rw [if_pos (by rw [hr.nInternal]; exact hr.face.1 f hf), if_pos hf]
      cases ht : r.turned f with
      | false =>
        obtain ⟨a, b⟩ := hr.kept f hf ht
        rw [if_neg (by simp [Renumbering.turns, ht])] at e1
        rw [if_neg (show ¬ r.turns m f by simp [Renumbering.turns, ht]), a, b, c1, c2, e1]
      | true =>
        obtain ⟨a, b⟩ := hr.turned f hf ht
        rw [if_pos ⟨hf, ht⟩] at e1
        rw [if_pos (show r.turns m f from ⟨hf, ht⟩), a, b, c1, c2, e1]
        rcases lt_trichotomy (flux f) 0 with g | g | g
        · rw [if_pos (by linarith), if_neg (by linarith), neg_smul]
        · rw [g]; simp
        · rw [if_neg (by linarith), if_pos g.le, neg_smul]
    · have e1 := hfl (m.nInternalFaces + b) (by omega)
      have e2 := hw (m.nInternalFaces + b) (by omega)
      rw [if_neg (not_turns_bnd b)] at e1 e2 ⊢
      rw [Renumbering.num_bnd] at e1 e2 ⊢
      simp only [Mesh.schemeFace, Mesh.upwindFace]
      rw [hr.nInternal, if_neg (by omega), if_neg (by omega), e1, e2]
      simp only [Nat.add_sub_cancel_left]
      rw [hφ.bnd b hb]

theorem fnGrad_renumber (hr : r.Of m m') (h : m.WF) {φ φ' : VolField K V} (hφ : r.Values m φ φ') {δ δ' : Nat → K} (hδ : r.Even m δ δ') :
    r.Odd m (m.fnGrad δ φ) (m'.fnGrad δ' φ') := by
  have hfa := h.faces
  refine forall_faces h (fun f hf => ?_) (fun b hb => ?_)
  · have e1 := hδ f (by omega)
    rw [Renumbering.num_int hf] at e1 ⊢
    have c1 := hφ.cells _ (h.own_lt_int hf)
    have c2 := hφ.cells _ (h.nbr_lt f hf)
    unfold Mesh.fnGrad
    rw [if_pos (by rw [hr.nInternal]; exact hr.face.1 f hf), if_pos hf, e1]
    cases ht : r.turned f with
    | false =>
      obtain ⟨a, b⟩ := hr.kept f hf ht
      rw [if_neg (by simp [Renumbering.turns, ht]), a, b, c1, c2]
    | true =>
      obtain ⟨a, b⟩ := hr.turned f hf ht
      rw [if_pos ⟨hf, ht⟩, a, b, c1, c2, ← smul_neg, neg_sub]
  · have e1 := hδ (m.nInternalFaces + b) (by omega)
    rw [if_neg (not_turns_bnd b)]
    rw [Renumbering.num_bnd] at e1 ⊢
    unfold Mesh.fnGrad
    rw [hr.nInternal, if_neg (by omega), if_neg (by omega), e1]
    simp only [Nat.add_sub_cancel_left]
    rw [hφ.bnd b hb, hr.bnd b hb, hφ.cells _ (h.fc_lt b hb)]

theorem Renumbering.Even.smul_odd {G : Type} [AddCommGroup G] [Module K G] {x x' : Nat → K} {y y' : Nat → G} (hx : r.Even m x x') (hy : r.Odd m y y') :
    r.Odd m (fun f => x f • y f) (fun f => x' f • y' f) := by
  intro f hf
  simp only
  rw [hx f hf, hy f hf]
  split <;> simp

theorem ix_map_range {G : Type} [Zero G] {n c : Nat} (g : Nat → G) (hc : c < n) : ix ((List.range n).map g) c = g c := getD_range_map _ _ _ hc

theorem impFace_renumber [LinearOrder K] [IsStrictOrderedRing K] (hr : r.Of m m') (h : m.WF) {φ φ' : VolField K K} (hφ : r.Same m φ φ')
    {flux flux' x x' : Nat → K} (hfl : r.Odd m flux flux') (hx : r.Cells m x x') :
    r.Odd m (fun f => flux f * φ.impFace m flux x f) (fun f => flux' f * φ'.impFace m' flux' x' f) := by
  have hfa := h.faces
  refine forall_faces h (fun f hf => ?_) (fun b hb => ?_)
  · have e1 := hfl f (by omega)
    rw [Renumbering.num_int hf] at e1 ⊢
    have c1 := hx _ (h.own_lt_int hf)
    have c2 := hx _ (h.nbr_lt f hf)
    simp only [VolField.impFace]
    rw [if_pos (by rw [hr.nInternal]; exact hr.face.1 f hf), if_pos hf]
    cases ht : r.turned f with
    | false =>
      obtain ⟨a, b⟩ := hr.kept f hf ht
      rw [if_neg (by simp [Renumbering.turns, ht])] at e1
      rw [if_neg (show ¬ r.turns m f by simp [Renumbering.turns, ht]), a, b, c1, c2, e1]
    | true =>
      obtain ⟨a, b⟩ := hr.turned f hf ht
      rw [if_pos ⟨hf, ht⟩] at e1
      rw [if_pos (show r.turns m f from ⟨hf, ht⟩), a, b, c1, c2, e1]
      rcases lt_trichotomy (flux f) 0 with g | g | g
      · rw [if_pos (by linarith), if_neg (by linarith), neg_mul]
      · rw [g]; simp
      · rw [if_neg (by linarith), if_pos g.le, neg_mul]
  · have e1 := hfl (m.nInternalFaces + b) (by omega)
    rw [if_neg (not_turns_bnd b)] at e1 ⊢
    rw [Renumbering.num_bnd] at e1 ⊢
    have g1 : ix φ'.bVF (r.bface b) = ix φ.bVF b := congrArg (·.fraction) (hφ.bnd b hb)
    have g2 : ix φ'.bRefValue (r.bface b) = ix φ.bRefValue b := congrArg (·.refValue) (hφ.bnd b hb)
    simp only [VolField.impFace]
    rw [hr.nInternal, if_neg (by omega), if_neg (by omega), e1]
    simp only [Nat.add_sub_cancel_left]
    rw [g1, g2, hr.bnd b hb, hx _ (h.fc_lt b hb)]

theorem impGrad_renumber (hr : r.Of m m') (h : m.WF) {φ φ' : VolField K K} (hφ : r.Same m φ φ') {δ δ' x x' : Nat → K}
    (hδ : r.Even m δ δ') (hx : r.Cells m x x') : r.Odd m (φ.impGrad m δ x) (φ'.impGrad m' δ' x') := by
  have hfa := h.faces
  refine forall_faces h (fun f hf => ?_) (fun b hb => ?_)
  · have e1 := hδ f (by omega)
    rw [Renumbering.num_int hf] at e1 ⊢
    have c1 := hx _ (h.own_lt_int hf)
    have c2 := hx _ (h.nbr_lt f hf)
    unfold VolField.impGrad
    rw [if_pos (by rw [hr.nInternal]; exact hr.face.1 f hf), if_pos hf, e1]
    cases ht : r.turned f with
    | false =>
      obtain ⟨a, b⟩ := hr.kept f hf ht
      rw [if_neg (by simp [Renumbering.turns, ht]), a, b, c1, c2]
    | true =>
      obtain ⟨a, b⟩ := hr.turned f hf ht
      rw [if_pos ⟨hf, ht⟩, a, b, c1, c2, ← mul_neg, neg_sub]
  · have e1 := hδ (m.nInternalFaces + b) (by omega)
    rw [if_neg (not_turns_bnd b)]
    rw [Renumbering.num_bnd] at e1 ⊢
    have g1 : ix φ'.bVF (r.bface b) = ix φ.bVF b := congrArg (·.fraction) (hφ.bnd b hb)
    have g2 : ix φ'.bRefValue (r.bface b) = ix φ.bRefValue b := congrArg (·.refValue) (hφ.bnd b hb)
    have g3 : ix φ'.bRefGrad (r.bface b) = ix φ.bRefGrad b := congrArg (·.refGrad) (hφ.bnd b hb)
    unfold VolField.impGrad
    rw [hr.nInternal, if_neg (by omega), if_neg (by omega), e1]
    simp only [Nat.add_sub_cancel_left]
    rw [g1, g2, g3, hr.bnd b hb, hx _ (h.fc_lt b hb)]

end proofs

variable {r : Renumbering} {m m' : Mesh K}

/-- **C72, divergence**: for every renumbering and every choice of turned faces, with both schemes, on any executors: the operator on
the renumbered mesh adds to the renumbered cell what the operator on the original mesh adds to the cell. `v`, `v'`: the coefficient. -/
theorem C72_div [LinearOrder K] [IsStrictOrderedRing K] (hr : r.Of m m') (h : m.WF) (h' : m'.WF) {φ φ' : VolField K V} (ho : φ.On m) (ho' : φ'.On m') (hφ : r.Values m φ φ')
    {w w' flux flux' : List K} (hwl : w.length = m.nFaces) (hwl' : w'.length = m'.nFaces) (hfl : flux.length = m.nFaces) (hfl' : flux'.length = m'.nFaces)
    (hw : r.Weights m (ix w) (ix w')) (hf : r.Odd m (ix flux) (ix flux')) (sch : InterpScheme)
    {s s' : Coeff K} {v v' : Nat → K} (hs : s.On m.nCells v) (hs' : s'.On m'.nCells v') (hv : r.Cells m v v')
    (e e' : ExecKind) (junk junk' : Nat → V) (src src' res res' : List V) (hl : src.length = m.nCells) (hl' : src'.length = m'.nCells)
    (hsrc : r.Cells m (ix src) (ix src'))
    (h1 : divExplicit e m (some sch) w junk flux φ s src (.ok res)) (h2 : divExplicit e' m' (some sch) w' junk' flux' φ' s' src' (.ok res')) :
    r.Cells m (ix res) (ix res') := by
  rw [C18_div h ho hwl hfl sch hs e junk src hl] at h1
  rw [C18_div h' ho' hwl' hfl' sch hs' e' junk' src' hl'] at h2
  cases h1; cases h2
  intro c hc
  have hc' : r.cell c < m'.nCells := by rw [hr.nCells]; exact hr.cell.1 c hc
  rw [ix_map_range _ hc', ix_map_range _ hc, netOutflow_renumber hr h (fluxFace_renumber hr h hφ hw hf sch) hc, hv c hc, hr.vol c hc]
  congr 1
  exact hsrc c hc

/-- **C72, surface integral**. -/
theorem C72_surfaceIntegrate (hr : r.Of m m') (h : m.WF) (h' : m'.WF) {flux flux' : List V} (hfl : flux.length = m.nFaces)
    (hfl' : flux'.length = m'.nFaces) (hf : r.Odd m (ix flux) (ix flux'))
    {s s' : Coeff K} {v v' : Nat → K} (hs : s.On m.nCells v) (hs' : s'.On m'.nCells v') (hv : r.Cells m v v')
    (e e' : ExecKind) (src src' res res' : List V) (hl : src.length = m.nCells) (hl' : src'.length = m'.nCells)
    (hsrc : r.Cells m (ix src) (ix src'))
    (h1 : surfaceIntegrateExplicit e m flux s src (.ok res)) (h2 : surfaceIntegrateExplicit e' m' flux' s' src' (.ok res')) :
    r.Cells m (ix res) (ix res') := by
  rw [C18_surfaceIntegrate h hfl hs e src hl] at h1
  rw [C18_surfaceIntegrate h' hfl' hs' e' src' hl'] at h2
  cases h1; cases h2
  intro c hc
  have hc' : r.cell c < m'.nCells := by rw [hr.nCells]; exact hr.cell.1 c hc
  have := netOutflow_renumber hr h hf hc
  unfold ix at this ⊢
  rw [getD_range_map _ _ _ hc', getD_range_map _ _ _ hc, this, hv c hc, hr.vol c hc]
  congr 1
  exact hsrc c hc

/-- **C72, Laplacian**. -/
theorem C72_laplacian (hr : r.Of m m') (h : m.WF) (h' : m'.WF) {φ φ' : VolField K V} (ho : φ.On m) (ho' : φ'.On m') (hφ : r.Values m φ φ')
    {δ δ' gamma gamma' : List K} (hδl : δ.length = m.nFaces) (hδl' : δ'.length = m'.nFaces) (hδ : r.Even m (ix δ) (ix δ'))
    (hmag : r.Even m (ix m.magFaceAreas) (ix m'.magFaceAreas))
    {s s' : Coeff K} {v v' : Nat → K} (hs : s.On m.nCells v) (hs' : s'.On m'.nCells v') (hv : r.Cells m v v')
    (e e' : ExecKind) (junk junk' : Nat → V) (src src' res res' : List V) (hl : src.length = m.nCells) (hl' : src'.length = m'.nCells)
    (hsrc : r.Cells m (ix src) (ix src'))
    (h1 : laplacianExplicit e m true δ junk gamma φ s src (.ok res)) (h2 : laplacianExplicit e' m' true δ' junk' gamma' φ' s' src' (.ok res')) :
    r.Cells m (ix res) (ix res') := by
  obtain ⟨a, ha, ha2⟩ := C44_laplacian (gamma := gamma) h ho hδl hs
  obtain ⟨a', ha', ha2'⟩ := C44_laplacian (gamma := gamma') h' ho' hδl' hs'
  rw [ha2 e junk src hl] at h1
  rw [ha2' e' junk' src' hl'] at h2
  cases h1; cases h2
  intro c hc
  have hc' : r.cell c < m'.nCells := by rw [hr.nCells]; exact hr.cell.1 c hc
  have := netOutflow_renumber hr h (hmag.smul_odd (fnGrad_renumber hr h hφ hδ)) hc
  unfold ix at this hsrc ⊢
  rw [getD_range_map _ _ _ hc', getD_range_map _ _ _ hc, ha, ha']
  unfold ix
  rw [this, hv c hc, hr.vol c hc]
  congr 1
  exact hsrc c hc

/-- **C72, gradient**. -/
theorem C72_grad (hr : r.Of m m') (h : m.WF) (h' : m'.WF) {φ φ' : VolField K K} (ho : φ.On m) (ho' : φ'.On m') (hφ : r.Values m φ φ')
    {w w' : List K} (hwl : w.length = m.nFaces) (hwl' : w'.length = m'.nFaces) (hw : r.Weights m (ix w) (ix w'))
    (hsf : r.Odd m m.sf m'.sf) (e e' : ExecKind) (junk junk' : Nat → K) (junkV junkV' : Nat → Vec K) (res res' : List (Vec K))
    (h1 : grad e m w junk junkV φ (.ok res)) (h2 : grad e' m' w' junk' junkV' φ' (.ok res')) : r.Cells m (ix res) (ix res') := by
  rw [C25_grad h ho hwl] at h1
  rw [C25_grad h' ho' hwl'] at h2
  cases h1; cases h2
  intro c hc
  have hc' : r.cell c < m'.nCells := by rw [hr.nCells]; exact hr.cell.1 c hc
  have := netOutflow_renumber hr h ((linearFace_renumber hr h hφ hw).smul_odd (y := ix m.faceAreas) (y' := ix m'.faceAreas) hsf) hc
  rw [ix_map_range _ hc', ix_map_range _ hc]
  unfold Mesh.gaussGrad
  rw [this, hr.vol c hc]

/-- **C72, Courant number**: the renumbered mesh has the same one, and the same mean. -/
theorem C72_courant [LinearOrder K] [IsStrictOrderedRing K] (hr : r.Of m m') (h : m.WF) (h' : m'.WF) (hv : ∀ c < m.nCells, 0 < m.vol c) (hn : 0 < m.nCells)
    (e e' : ExecKind) {sqrt : K → K} (hs : IsSqrt sqrt) (lowest : K) (hlow : lowest ≤ 0) {flux flux' : List K} (hfl : flux.length = m.nFaces)
    (hfl' : flux'.length = m'.nFaces) (hf : r.Odd m (ix flux) (ix flux')) (dt : K) (out) :
    computeCoNum e m sqrt lowest flux dt out ↔ computeCoNum e' m' sqrt lowest flux' dt out := by
  have hfa := h.faces
  have habs : ∀ c < m.nCells, m'.absFlux (ix flux') (r.cell c) = m.absFlux (ix flux) c := by
    intro c hc
    have inj : ∀ d < m.nCells, (r.cell d = r.cell c ↔ d = c) := fun d hd => ⟨hr.cell.2 d hd c hc, fun e => by rw [e]⟩
    unfold Mesh.absFlux
    rw [hr.nInternal, hr.nBoundary, hr.face.sum, hr.bface.sum]
    congr 1
    · refine Finset.sum_congr rfl (fun f hf' => ?_)
      rw [mem_range] at hf'
      have e1 := hf f (by omega)
      rw [Renumbering.num_int hf'] at e1
      have i1 := inj _ (h.own_lt_int hf')
      have i2 := inj _ (h.nbr_lt f hf')
      cases ht : r.turned f with
      | false =>
        obtain ⟨a, b⟩ := hr.kept f hf' ht
        rw [if_neg (by simp [Renumbering.turns, ht])] at e1
        simp only [a, b, i1, i2, e1]
      | true =>
        obtain ⟨a, b⟩ := hr.turned f hf' ht
        rw [if_pos ⟨hf', ht⟩] at e1
        simp only [a, b, i1, i2, e1, abs_neg]
        rw [add_comm]
    · refine Finset.sum_congr rfl (fun b hb => ?_)
      rw [mem_range] at hb
      have e1 := hf (m.nInternalFaces + b) (by omega)
      rw [Renumbering.num_bnd, if_neg (not_turns_bnd b)] at e1
      simp only [hr.bnd b hb, inj _ (h.fc_lt b hb), e1]
  have hv' : ∀ c < m'.nCells, 0 < m'.vol c := by
    intro c hc
    rw [hr.nCells] at hc
    obtain ⟨d, hd, rfl⟩ := hr.cell.surj hc
    rw [hr.vol d hd]; exact hv d hd
  obtain ⟨M, g1, -, g2⟩ := C29_courant h hv hn e hs lowest hlow hfl dt
  obtain ⟨M', k1, -, k2⟩ := C29_courant h' hv' (by rw [hr.nCells]; exact hn) e' hs lowest hlow hfl' dt
  have hset : {x | ∃ c < m'.nCells, x = m'.absFlux (ix flux') c / m'.vol c} = {x | ∃ c < m.nCells, x = m.absFlux (ix flux) c / m.vol c} := by
    ext x
    constructor
    · rintro ⟨c, hc, rfl⟩
      rw [hr.nCells] at hc
      obtain ⟨d, hd, rfl⟩ := hr.cell.surj hc
      exact ⟨d, hd, by rw [habs d hd, hr.vol d hd]⟩
    · rintro ⟨c, hc, rfl⟩
      exact ⟨r.cell c, by rw [hr.nCells]; exact hr.cell.1 c hc, by rw [habs c hc, hr.vol c hc]⟩
  rw [hset] at k1
  rw [g2, k2, k1.unique g1, hr.nCells, hr.cell.sum (fun c => m'.absFlux (ix flux') c), hr.cell.sum (fun c => m'.vol c),
    Finset.sum_congr rfl (fun c hc => habs c (mem_range.1 hc)), Finset.sum_congr rfl (fun c hc => hr.vol c (mem_range.1 hc))]

/-- **C72, geometry scheme**: weights and both kinds of delta coefficients of the renumbered mesh are the renumbered ones; the weights of a
turned face change sides. -/
theorem C72_geometry [LinearOrder K] [IsStrictOrderedRing K] (hr : r.Of m m') (hg : r.Geometry m m') (h : m.WF) (h' : m'.WF)
    (e e' : ExecKind) (tiny : K) (ht0 : 0 ≤ tiny) (sqrt : K → K) (junk junk' : Nat → K) (g g' : Geometry K)
    (h1 : geometryScheme e m tiny sqrt junk (.ok g)) (h2 : geometryScheme e' m' tiny sqrt junk' (.ok g')) :
    r.Weights m (ix g.weights) (ix g'.weights) ∧ r.Even m (ix g.deltaCoeffs) (ix g'.deltaCoeffs) ∧
      r.Even m (ix g.nonOrthDeltaCoeffs) (ix g'.nonOrthDeltaCoeffs) := by
  have hfa := h.faces
  rw [geometryScheme_det h] at h1
  rw [geometryScheme_det h'] at h2
  cases h1; cases h2
  have hn : ∀ f < m.nFaces, r.num m f < m'.nFaces := by
    rw [hr.nFaces h h']
    refine forall_faces h (fun f hf => ?_) (fun b hb => ?_)
    · rw [Renumbering.num_int hf]; have := hr.face.1 f hf; omega
    · rw [Renumbering.num_bnd]; have := hr.bface.1 b hb; omega
  have neg_dot : ∀ a b : Vec K, vdot (-a) (-b) = vdot a b := by
    intro a b; simp only [vdot, Prod.fst_neg, Prod.snd_neg]; ring
  have neg_mag : ∀ a : Vec K, vmag sqrt (-a) = vmag sqrt a := by
    intro a; rw [vmag_eq, vmag_eq]; simp only [normSq, neg_dot]
  have hspan : r.Odd m m.span m'.span := by
    refine forall_faces h (fun f hf => ?_) (fun b hb => ?_)
    · rw [Renumbering.num_int hf]
      have c1 := hg.ctr _ (h.own_lt_int hf)
      have c2 := hg.ctr _ (h.nbr_lt f hf)
      unfold Mesh.span
      rw [if_pos (by rw [hr.nInternal]; exact hr.face.1 f hf), if_pos hf]
      cases ht : r.turned f with
      | false =>
        obtain ⟨a, b⟩ := hr.kept f hf ht
        rw [if_neg (by simp [Renumbering.turns, ht]), a, b, c1, c2]
      | true =>
        obtain ⟨a, b⟩ := hr.turned f hf ht
        rw [if_pos ⟨hf, ht⟩, a, b, c1, c2, neg_sub]
    · have e1 := hg.fctr (m.nInternalFaces + b) (by omega)
      rw [if_neg (not_turns_bnd b)]
      rw [Renumbering.num_bnd] at e1 ⊢
      unfold Mesh.span
      rw [hr.nInternal, if_neg (by omega), if_neg (by omega), e1]
      simp only [Nat.add_sub_cancel_left]
      rw [hr.bnd b hb, hg.ctr _ (h.fc_lt b hb)]
  refine ⟨?_, ?_, ?_⟩
  · refine forall_faces h (fun f hf => ?_) (fun b hb => ?_)
    · simp only
      rw [ix_map_range _ (hn f (by omega)), ix_map_range _ (show f < m.nFaces by omega), Renumbering.num_int hf,
        if_pos (by rw [hr.nInternal]; exact hr.face.1 f hf), if_pos hf]
      have c1 := hg.ctr _ (h.own_lt_int hf)
      have c2 := hg.ctr _ (h.nbr_lt f hf)
      have e1 := hg.fctr f (by omega)
      have e2 := hg.sf f (by omega)
      rw [Renumbering.num_int hf] at e1 e2
      unfold Mesh.wgt
      cases ht : r.turned f with
      | false =>
        obtain ⟨a, b⟩ := hr.kept f hf ht
        rw [if_neg (by simp [Renumbering.turns, ht])] at e2
        rw [if_neg (show ¬ r.turns m f by simp [Renumbering.turns, ht]), a, b, c1, c2, e1, e2]
      | true =>
        obtain ⟨a, b⟩ := hr.turned f hf ht
        rw [if_pos ⟨hf, ht⟩] at e2
        rw [if_pos (show r.turns m f from ⟨hf, ht⟩), a, b, c1, c2, e1, e2]
        have d1 : vdot (-m.sf f) (m.fctr f - m.ctr (m.nbr f)) = vdot (m.sf f) (m.ctr (m.nbr f) - m.fctr f) := by
          rw [← neg_dot (m.sf f), neg_sub]
        have d2 : vdot (-m.sf f) (m.ctr (m.own f) - m.fctr f) = vdot (m.sf f) (m.fctr f - m.ctr (m.own f)) := by
          rw [← neg_dot (m.sf f), neg_sub]
        simp only [d1, d2]
        set o := |vdot (m.sf f) (m.fctr f - m.ctr (m.own f))|
        set n := |vdot (m.sf f) (m.ctr (m.nbr f) - m.fctr f)|
        rw [add_comm n o]
        split
        · next hlt =>
          have : o + n ≠ 0 := by
            intro h0; rw [h0, abs_zero] at hlt; linarith
          field_simp
          ring
        · norm_num
    · simp only
      rw [ix_map_range _ (hn _ (by omega)), ix_map_range _ (show m.nInternalFaces + b < m.nFaces by omega), Renumbering.num_bnd,
        if_neg (not_turns_bnd b), if_neg (by rw [hr.nInternal]; omega), if_neg (by omega)]
  · intro f hf
    simp only
    rw [ix_map_range _ (hn f hf), ix_map_range _ hf, hspan f hf]
    split
    · rw [neg_mag]
    · rfl
  · intro f hf
    simp only
    rw [ix_map_range _ (hn f hf), ix_map_range _ hf]
    unfold Mesh.nonOrth
    have := hg.mag f hf
    simp only at this
    rw [hspan f hf, hg.sf f hf, this]
    split
    · rw [neg_mag, smul_neg, neg_dot]
    · rfl

/-- Assembling has the same effect on the equations of the two meshes: for the same values of the unknowns, what it adds to the equation
of the renumbered cell is what it adds to the equation of the cell. -/
def Renumbering.SameTerm (r : Renumbering) (m : Mesh K) (ls0 ls1 ls0' ls1' : LinearSystem K) : Prop :=
  ∀ x x' : Nat → K, r.Cells m x x' → ∀ c < m.nCells,
    ls1'.residual x' (r.cell c) - ls0'.residual x' (r.cell c) = ls1.residual x c - ls0.residual x c

/-- **C72, implicit divergence** (with the sparsity pattern of each mesh). -/
theorem C72_implicit_div_partial [LinearOrder K] [IsStrictOrderedRing K] (hr : r.Of m m') (h : m.WF) (h' : m'.WF) {sp sp' : SparsityPattern} (hp : sp.For m)
    (hp' : sp'.For m') {φ φ' : VolField K K} (ho : φ.On m) (ho' : φ'.On m') (hφ : r.Same m φ φ') {flux flux' : List K} (hfl : flux.length = m.nFaces)
    (hfl' : flux'.length = m'.nFaces) (hf : r.Odd m (ix flux) (ix flux')) {s s' : Coeff K} {v v' : Nat → K} (hs : s.On m.nCells v)
    (hs' : s'.On m'.nCells v') (hv : r.Cells m v v') (e e' : ExecKind) (he : e = .serial ∨ m.BndDistinct) (he' : e' = .serial ∨ m'.BndDistinct)
    (ls0 ls1 ls0' ls1' : LinearSystem K) (hl : ls0.On sp m) (hl' : ls0'.On sp' m')
    (h1 : computeDivImp e m sp flux φ s ls0 (.ok ls1)) (h2 : computeDivImp e' m' sp' flux' φ' s' ls0' (.ok ls1')) :
    r.SameTerm m ls0 ls1 ls0' ls1' := by
  obtain ⟨l1, q1, -, a⟩ := C19_system_partial h hp ho hfl hs e he ls0 hl _ h1
  obtain ⟨l2, q2, -, a'⟩ := C19_system_partial h' hp' ho' hfl' hs' e' he' ls0' hl' _ h2
  cases q1; cases q2
  intro x x' hx c hc
  have hc' : r.cell c < m'.nCells := by rw [hr.nCells]; exact hr.cell.1 c hc
  rw [a x c hc, a' x' _ hc', netOutflow_renumber hr h (impFace_renumber hr h hφ hf hx) hc, hv c hc]
  ring

/-- **C72, implicit Laplacian**. -/
theorem C72_implicit_laplacian_partial (hr : r.Of m m') (h : m.WF) (h' : m'.WF) {sp sp' : SparsityPattern} (hp : sp.For m)
    (hp' : sp'.For m') {φ φ' : VolField K K} (ho : φ.On m) (ho' : φ'.On m') (hφ : r.Same m φ φ') {δ δ' gamma gamma' : List K} (hδl : δ.length = m.nFaces)
    (hδl' : δ'.length = m'.nFaces) (hg : gamma.length = m.nFaces) (hg' : gamma'.length = m'.nFaces) (hδ : r.Even m (ix δ) (ix δ'))
    (hga : r.Even m (ix gamma) (ix gamma')) (hmag : r.Even m (ix m.magFaceAreas) (ix m'.magFaceAreas))
    {s s' : Coeff K} {v v' : Nat → K} (hs : s.On m.nCells v)
    (hs' : s'.On m'.nCells v') (hv : r.Cells m v v') (e e' : ExecKind) (he : e = .serial ∨ m.BndDistinct) (he' : e' = .serial ∨ m'.BndDistinct)
    (ls0 ls1 ls0' ls1' : LinearSystem K) (hl : ls0.On sp m) (hl' : ls0'.On sp' m')
    (h1 : computeLaplacianImpl e m sp δ gamma φ s ls0 (.ok ls1)) (h2 : computeLaplacianImpl e' m' sp' δ' gamma' φ' s' ls0' (.ok ls1')) :
    r.SameTerm m ls0 ls1 ls0' ls1' := by
  obtain ⟨l1, q1, -, a⟩ := C20_system_partial h hp ho hδl hg hs e he ls0 hl _ h1
  obtain ⟨l2, q2, -, a'⟩ := C20_system_partial h' hp' ho' hδl' hg' hs' e' he' ls0' hl' _ h2
  cases q1; cases q2
  intro x x' hx c hc
  have hc' : r.cell c < m'.nCells := by rw [hr.nCells]; exact hr.cell.1 c hc
  have hodd : r.Odd m (fun f => ix gamma f * ix m.magFaceAreas f * φ.impGrad m (ix δ) x f)
      (fun f => ix gamma' f * ix m'.magFaceAreas f * φ'.impGrad m' (ix δ') x' f) :=
    Renumbering.Even.smul_odd (x := fun f => ix gamma f * ix m.magFaceAreas f) (x' := fun f => ix gamma' f * ix m'.magFaceAreas f)
      (fun f hf => by simp only; rw [hga f hf, hmag f hf]) (impGrad_renumber hr h hφ hδ hx)
  rw [a x c hc, a' x' _ hc', netOutflow_renumber hr h hodd hc, hv c hc]
  ring

/-- **C72, implicit time derivative**. -/
theorem C72_implicit_ddt (hr : r.Of m m') (h : m.WF) (h' : m'.WF) {sp sp' : SparsityPattern} (hp : sp.For m) (hp' : sp'.For m')
    {old old' : List K} (ho : old.length = m.nCells) (ho' : old'.length = m'.nCells) (hold : r.Cells m (ix old) (ix old'))
    {s s' : Coeff K} {v v' : Nat → K} (hs : s.On m.nCells v) (hs' : s'.On m'.nCells v') (hv : r.Cells m v v') (dt : K) (e e' : ExecKind)
    (ls0 ls1 ls0' ls1' : LinearSystem K) (hl : ls0.On sp m) (hl' : ls0'.On sp' m')
    (h1 : ddtImplicit e m sp old s dt ls0 (.ok ls1)) (h2 : ddtImplicit e' m' sp' old' s' dt ls0' (.ok ls1')) :
    r.SameTerm m ls0 ls1 ls0' ls1' := by
  obtain ⟨l1, q1, -, -, -, -, a⟩ := C23_implicit h hp ho hs dt e ls0 hl
  obtain ⟨l2, q2, -, -, -, -, a'⟩ := C23_implicit h' hp' ho' hs' dt e' ls0' hl'
  cases (q1 _).1 h1; cases (q2 _).1 h2
  intro x x' hx c hc
  have hc' : r.cell c < m'.nCells := by rw [hr.nCells]; exact hr.cell.1 c hc
  have := hold c hc
  unfold ix at this
  rw [a x c hc, a' x' _ hc', this, hv c hc, hr.vol c hc, hx c hc]
  ring

/-- **C72, implicit source**. -/
theorem C72_implicit_source (hr : r.Of m m') (h : m.WF) (h' : m'.WF) {sp sp' : SparsityPattern} (hp : sp.For m) (hp' : sp'.For m')
    {k k' : List K} (ho : k.length = m.nCells) (ho' : k'.length = m'.nCells) (hk : r.Cells m (ix k) (ix k'))
    {s s' : Coeff K} {v v' : Nat → K} (hs : s.On m.nCells v) (hs' : s'.On m'.nCells v') (hv : r.Cells m v v') (e e' : ExecKind)
    (ls0 ls1 ls0' ls1' : LinearSystem K) (hl : ls0.On sp m) (hl' : ls0'.On sp' m')
    (h1 : sourceImplicit e m sp k s ls0 (.ok ls1)) (h2 : sourceImplicit e' m' sp' k' s' ls0' (.ok ls1')) :
    r.SameTerm m ls0 ls1 ls0' ls1' := by
  obtain ⟨l1, q1, -, -, -, -, a⟩ := C24_implicit h hp ho hs e ls0 hl
  obtain ⟨l2, q2, -, -, -, -, a'⟩ := C24_implicit h' hp' ho' hs' e' ls0' hl'
  cases (q1 _).1 h1; cases (q2 _).1 h2
  intro x x' hx c hc
  have hc' : r.cell c < m'.nCells := by rw [hr.nCells]; exact hr.cell.1 c hc
  have := hk c hc
  unfold ix at this
  rw [a x c hc, a' x' _ hc', this, hv c hc, hr.vol c hc, hx c hc]
  ring

end NeoFOAM
