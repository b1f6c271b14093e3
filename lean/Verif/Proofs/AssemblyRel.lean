import Verif.Proofs.Implicit
import Verif.Base.RelAt

/-! # Assembly beside an assembly of additive quantities (proof side)

An assembly over numbers whose addition need not obey any law runs beside one over a commutative group, whose outcome is known. -/
namespace NeoFOAM
open Finset
variable {F G : Type} {m : Mesh F} {sp : SparsityPattern}

/-- Two systems related entry by entry. -/
structure SysRel (R : LSArr → Nat → F → G → Prop) (a : LinearSystem F) (b : LinearSystem G) : Prop where
  cols : b.matrix.colIdxs = a.matrix.colIdxs
  rows : b.matrix.rowOffs = a.matrix.rowOffs
  vals : ListRel (R .values) a.matrix.values b.matrix.values
  rhs : ListRel (R .rhs) a.rhs b.rhs

theorem launchLS_relAt {R : LSArr → Nat → F → G → Prop} (e : ExecKind) (start stop : Nat) {body : Nat → Res (List (Act LSArr F))} {body' : Nat → Res (List (Act LSArr G))}
    (hb : ∀ i, start ≤ i → i < stop → Res.Rel (ThreadRel R i none) (body i) (body' i)) {a : LinearSystem F} {b : LinearSystem G} (hab : SysRel R a b) :
    NR.Rel (SysRel R) (launchLS e start stop body a) (launchLS e start stop body' b) := by
  refine NR.Rel.bind (launch_relAt e start stop hb (fun x => ?_)) fun f g hfg => NR.Rel.pure ⟨hab.cols, hab.rows, hfg .values, hfg .rhs⟩
  cases x
  · exact hab.vals
  · exact hab.rhs

variable [Zero F]

theorem SysRel.on {R : LSArr → Nat → F → G → Prop} {a : LinearSystem F} {b : LinearSystem G} (h : SysRel R a b) (ha : a.On sp m) : b.On sp m :=
  ⟨h.cols.trans ha.cols, h.rows.trans ha.rowsEq, h.vals.1.trans ha.vals, h.rhs.1.trans ha.rhsLen⟩

theorem SysRel.on' {R : LSArr → Nat → F → G → Prop} {a : LinearSystem F} {b : LinearSystem G} (h : SysRel R a b) (hb : b.On sp m) : a.On sp m :=
  ⟨h.cols.symm.trans hb.cols, h.rows.symm.trans hb.rowsEq, h.vals.1.symm.trans hb.vals, h.rhs.1.symm.trans hb.rhsLen⟩

section face
variable [Add F] [Sub F] [AddCommGroup G] {R : LSArr → Nat → F → G → Prop}

/-- The loop over internal faces. -/
theorem faceLoop_rel (h : m.WF) (hp : sp.For m) (e : ExecKind) (body : Nat → Res (List (Act LSArr F))) (lo up sOwn sNei : Nat → F)
    (hb : ∀ f < m.nInternalFaces, body f = .ok (Act.plain f .values (sp.addr m (.lower f)) (· + lo f)
      ++ [Act.atomicSub .values (sp.addr m (.diag (m.own f))) (sOwn f)]
      ++ Act.plain f .values (sp.addr m (.upper f)) (· + up f)
      ++ [Act.atomicSub .values (sp.addr m (.diag (m.nbr f))) (sNei f)]))
    (glo gup gOwn gNei : Nat → G)
    (h1 : ∀ f < m.nInternalFaces, ∀ x g, R .values (sp.addr m (.lower f)) x g → R .values (sp.addr m (.lower f)) (x + lo f) (g + glo f))
    (h2 : ∀ f < m.nInternalFaces, ∀ x g, R .values (sp.addr m (.upper f)) x g → R .values (sp.addr m (.upper f)) (x + up f) (g + gup f))
    (h3 : ∀ f < m.nInternalFaces, ∀ x g, R .values (sp.addr m (.diag (m.own f))) x g → R .values (sp.addr m (.diag (m.own f))) (x - sOwn f) (g + gOwn f))
    (h4 : ∀ f < m.nInternalFaces, ∀ x g, R .values (sp.addr m (.diag (m.nbr f))) x g → R .values (sp.addr m (.diag (m.nbr f))) (x - sNei f) (g + gNei f))
    {a : LinearSystem F} {b : LinearSystem G} (hab : SysRel R a b) (ho : b.On sp m) :
    (launchLS e 0 m.nInternalFaces body a).Ok (fun a' => ∃ b', SysRel R a' b' ∧ Assembles m sp b b' (faceDelta m glo gup gOwn gNei) (fun _ => 0)) := by
  have rel := launchLS_relAt (R := R) e 0 m.nInternalFaces (body := body) (body' := fun f => .ok (Act.plain f .values (sp.addr m (.lower f)) (· + glo f)
      ++ [Act.atomicSub .values (sp.addr m (.diag (m.own f))) (-gOwn f)]
      ++ Act.plain f .values (sp.addr m (.upper f)) (· + gup f)
      ++ [Act.atomicSub .values (sp.addr m (.diag (m.nbr f))) (-gNei f)])) (fun f _ hf => ?_) hab
  · refine (rel.ok_left (faceLoop_ok h hp e _ glo gup (fun f => -gOwn f) (fun f => -gNei f) b ho fun f hf => rfl)).mono ?_
    rintro a' ⟨b', hab', hb'⟩
    refine ⟨b', hab', hb'.congr (fun s _ => ?_) fun _ _ => rfl⟩
    simp only [neg_neg]
  · rw [hb f hf]
    refine Res.Rel.ok ((((ThreadRel.plain (h1 f hf)).append (.rmw (fun x g hx => ?_) (.nil _))).append (ThreadRel.plain (h2 f hf))).append (.rmw (fun x g hx => ?_) (.nil _)))
    · have := h3 f hf x g hx
      rwa [← sub_neg_eq_add] at this
    · have := h4 f hf x g hx
      rwa [← sub_neg_eq_add] at this

omit [Add F] [Sub F] in
/-- A loop over boundary faces or cells. -/
theorem diagLoop_rel (h : m.WF) (hp : sp.For m) (e : ExecKind) (start stop : Nat) (cell : Nat → Nat) (body : Nat → Res (List (Act LSArr F)))
    (fd fr : Nat → F → F) (hcell : ∀ i, start ≤ i → i < stop → cell i < m.nCells)
    (hb : ∀ i, start ≤ i → i < stop → body i = .ok (Act.plain i .values (sp.addr m (.diag (cell i))) (fd i) ++ Act.plain i .rhs (cell i) (fr i)))
    (hc : e = .serial ∨ ∀ i j, start ≤ i → i < stop → start ≤ j → j < stop → cell i = cell j → i = j) (dg rh : Nat → G)
    (h1 : ∀ i, start ≤ i → i < stop → ∀ x g, R .values (sp.addr m (.diag (cell i))) x g → R .values (sp.addr m (.diag (cell i))) (fd i x) (g + dg i))
    (h2 : ∀ i, start ≤ i → i < stop → ∀ x g, R .rhs (cell i) x g → R .rhs (cell i) (fr i x) (g + rh i))
    {a : LinearSystem F} {b : LinearSystem G} (hab : SysRel R a b) (ho : b.On sp m) :
    (launchLS e start stop body a).Ok (fun a' => ∃ b', SysRel R a' b' ∧ Assembles m sp b b'
      (diagDelta fun c => ∑ k ∈ range (stop - start), if cell (start + k) = c then dg (start + k) else 0)
      (fun c => ∑ k ∈ range (stop - start), if cell (start + k) = c then rh (start + k) else 0)) := by
  have rel := launchLS_relAt (R := R) e start stop (body := body) (body' := fun i => .ok (Act.plain i .values (sp.addr m (.diag (cell i))) (· + dg i)
      ++ Act.plain i .rhs (cell i) (· + rh i))) (fun i hi hi' => ?_) hab
  · exact (rel.ok_left (diagLoop_ok h hp e start stop cell _ dg rh (fun i => (· + dg i)) (fun i => (· + rh i)) b ho hcell (fun _ _ => rfl) (fun _ _ => rfl)
      (fun _ _ _ => rfl) hc)).mono fun a' ⟨b', h1, h2⟩ => ⟨b', h1, h2⟩
  · rw [hb i hi hi']
    exact Res.Rel.ok ((ThreadRel.plain (h1 i hi hi')).append (ThreadRel.plain (h2 i hi hi')))

omit [Add F] [Sub F] in
/-- A loop over cells that writes the diagonal only. -/
theorem diagOnly_rel (h : m.WF) (hp : sp.For m) (e : ExecKind) (body : Nat → Res (List (Act LSArr F))) (fd : Nat → F → F)
    (hb : ∀ i < m.nCells, body i = .ok (Act.plain i .values (sp.addr m (.diag i)) (fd i))) (dg : Nat → G)
    (h1 : ∀ i < m.nCells, ∀ x g, R .values (sp.addr m (.diag i)) x g → R .values (sp.addr m (.diag i)) (fd i x) (g + dg i))
    {a : LinearSystem F} {b : LinearSystem G} (hab : SysRel R a b) (ho : b.On sp m) :
    (launchLS e 0 m.nCells body a).Ok (fun a' => ∃ b', SysRel R a' b' ∧ Assembles m sp b b' (diagDelta dg) (fun _ => 0)) := by
  have rel := launchLS_relAt (R := R) e 0 m.nCells (body := body) (body' := fun i => .ok (Act.plain i .values (sp.addr m (.diag i)) (· + dg i)))
    (fun i _ hi' => ?_) hab
  · exact (rel.ok_left (diagOnly_ok h hp e _ dg (fun i => (· + dg i)) b ho (fun _ _ => rfl) (fun _ _ => rfl))).mono fun a' ⟨b', h1, h2⟩ => ⟨b', h1, h2⟩
  · rw [hb i hi']
    exact Res.Rel.ok (ThreadRel.plain (h1 i hi'))

end face

/-! ### What the kernels do, without any law of arithmetic -/

section acts
variable [Add F] [Sub F] [Mul F] [Div F] [Neg F] [One F]

omit [Add F] [Sub F] [Mul F] [Div F] [Neg F] [One F] [Zero F] in
theorem rd_rows (hp : sp.For m) {rowOffs : List Nat} (ho : rowOffs = sp.rowPtrs) {c : Nat} (hc : c < m.nCells) : rd rowOffs c = .ok (sp.rowPtrs.getD c 0) := by
  rw [ho]; exact rd_getD 0 (by rw [hp.rows.len]; omega)

theorem lapImpInternal_acts (h : m.WF) (hp : sp.For m) {δ gamma : List F} (hδ : δ.length = m.nFaces) (hg : gamma.length = m.nFaces) {scal : Coeff F} {s : Nat → F}
    (hs : scal.On m.nCells s) {rowOffs : List Nat} (ho : rowOffs = sp.rowPtrs) (f : Nat) (hf : f < m.nInternalFaces) :
    lapImpInternal m sp rowOffs δ gamma scal f = .ok (Act.plain f .values (sp.addr m (.lower f)) (· + ix δ f * ix gamma f * ix m.magFaceAreas f * s (m.nbr f))
      ++ [Act.atomicSub .values (sp.addr m (.diag (m.own f))) (ix δ f * ix gamma f * ix m.magFaceAreas f * s (m.own f))]
      ++ Act.plain f .values (sp.addr m (.upper f)) (· + ix δ f * ix gamma f * ix m.magFaceAreas f * s (m.own f))
      ++ [Act.atomicSub .values (sp.addr m (.diag (m.nbr f))) (ix δ f * ix gamma f * ix m.magFaceAreas f * s (m.nbr f))]) := by
  have hfa := h.faces
  have r1 : rd δ f = .ok (ix δ f) := rd_getD 0 (by omega)
  have r1' : rd gamma f = .ok (ix gamma f) := rd_getD 0 (by omega)
  have r1'' : rd m.magFaceAreas f = .ok (ix m.magFaceAreas f) := rd_getD 0 (by rw [h.magLen]; omega)
  have r2 : rd sp.neighbourOffset f = .ok (sp.neighbourOffset.getD f 0) := rd_getD 0 (by rw [hp.nlen]; exact hf)
  have r3 : rd sp.ownerOffset f = .ok (sp.ownerOffset.getD f 0) := rd_getD 0 (by rw [hp.olen]; exact hf)
  have r4 : ∀ c < m.nCells, rd sp.diagOffset c = .ok (sp.diagOffset.getD c 0) := fun c hc => rd_getD 0 (by rw [hp.dlen]; exact hc)
  have o1 := h.own_lt_int hf
  have o2 := h.nbr_lt f hf
  simp [lapImpInternal, r1, r1', r1'', r2, r3, r4 _ o1, r4 _ o2, h.rd_owner_int hf, h.rd_nbr hf, rd_rows hp ho o1,
    rd_rows hp ho o2, hs _ o1, hs _ o2, SparsityPattern.addr]

theorem lapImpBoundary_acts (h : m.WF) (hp : sp.For m) {φ : VolField F F} (hφ : φ.On m) {δ gamma : List F} (hδ : δ.length = m.nFaces) (hg : gamma.length = m.nFaces)
    {scal : Coeff F} {s : Nat → F} (hs : scal.On m.nCells s) {rowOffs : List Nat} (ho : rowOffs = sp.rowPtrs) (f : Nat) (h1 : m.nInternalFaces ≤ f) (h2 : f < m.nFaces) :
    lapImpBoundary m sp rowOffs δ gamma φ scal f = .ok (Act.plain f .values (sp.addr m (.diag (m.fc (f - m.nInternalFaces))))
        (· - ix gamma f * ix m.magFaceAreas f * s (m.fc (f - m.nInternalFaces)) * ix φ.bVF (f - m.nInternalFaces) * ix δ f)
      ++ Act.plain f .rhs (m.fc (f - m.nInternalFaces)) (· - ix gamma f * ix m.magFaceAreas f * s (m.fc (f - m.nInternalFaces)) *
        (ix φ.bVF (f - m.nInternalFaces) * ix δ f * ix φ.bRefValue (f - m.nInternalFaces) +
          (1 - ix φ.bVF (f - m.nInternalFaces)) * ix φ.bRefGrad (f - m.nInternalFaces)))) := by
  have hfa := h.faces
  have hb : f - m.nInternalFaces < m.nBoundaryFaces := by omega
  have r1 : rd δ f = .ok (ix δ f) := rd_getD 0 (by omega)
  have r1' : rd gamma f = .ok (ix gamma f) := rd_getD 0 (by omega)
  have r1'' : rd m.magFaceAreas f = .ok (ix m.magFaceAreas f) := rd_getD 0 (by rw [h.magLen]; omega)
  have r2 : rd φ.bVF (f - m.nInternalFaces) = .ok (ix φ.bVF (f - m.nInternalFaces)) := rd_getD 0 (by rw [hφ.vf]; exact hb)
  have r3 : rd φ.bRefValue (f - m.nInternalFaces) = .ok (ix φ.bRefValue (f - m.nInternalFaces)) := rd_getD 0 (by rw [hφ.ref]; exact hb)
  have r5 : rd φ.bRefGrad (f - m.nInternalFaces) = .ok (ix φ.bRefGrad (f - m.nInternalFaces)) := rd_getD 0 (by rw [hφ.grad]; exact hb)
  have o := h.fc_lt _ hb
  have r4 : rd sp.diagOffset (m.fc (f - m.nInternalFaces)) = .ok (sp.diagOffset.getD (m.fc (f - m.nInternalFaces)) 0) :=
    rd_getD 0 (by rw [hp.dlen]; exact o)
  simp [lapImpBoundary, r1, r1', r1'', r2, r3, r4, r5, h.rd_fc hb, rd_rows hp ho o, hs _ o, SparsityPattern.addr]

theorem divImpInternal_acts [LinearOrder F] (h : m.WF) (hp : sp.For m) {flux : List F} (hfl : flux.length = m.nFaces) {scal : Coeff F} {s : Nat → F}
    (hs : scal.On m.nCells s) {rowOffs : List Nat} (ho : rowOffs = sp.rowPtrs) (f : Nat) (hf : f < m.nInternalFaces) :
    divImpInternal m sp rowOffs flux scal f = .ok (Act.plain f .values (sp.addr m (.lower f)) (· + -(if 0 ≤ ix flux f then (1 : F) else 0) * ix flux f * s (m.nbr f))
      ++ [Act.atomicSub .values (sp.addr m (.diag (m.own f))) (-(if 0 ≤ ix flux f then (1 : F) else 0) * ix flux f * s (m.own f))]
      ++ Act.plain f .values (sp.addr m (.upper f)) (· + ix flux f * (1 - (if 0 ≤ ix flux f then (1 : F) else 0)) * s (m.own f))
      ++ [Act.atomicSub .values (sp.addr m (.diag (m.nbr f))) (ix flux f * (1 - (if 0 ≤ ix flux f then (1 : F) else 0)) * s (m.nbr f))]) := by
  have hfa := h.faces
  have r1 : rd flux f = .ok (ix flux f) := rd_getD 0 (by omega)
  have r2 : rd sp.neighbourOffset f = .ok (sp.neighbourOffset.getD f 0) := rd_getD 0 (by rw [hp.nlen]; exact hf)
  have r3 : rd sp.ownerOffset f = .ok (sp.ownerOffset.getD f 0) := rd_getD 0 (by rw [hp.olen]; exact hf)
  have r4 : ∀ c < m.nCells, rd sp.diagOffset c = .ok (sp.diagOffset.getD c 0) := fun c hc => rd_getD 0 (by rw [hp.dlen]; exact hc)
  have o1 := h.own_lt_int hf
  have o2 := h.nbr_lt f hf
  simp [divImpInternal, r1, r2, r3, r4 _ o1, r4 _ o2, h.rd_owner_int hf, h.rd_nbr hf, rd_rows hp ho o1, rd_rows hp ho o2, hs _ o1, hs _ o2, SparsityPattern.addr]

theorem divImpBoundary_acts (h : m.WF) (hp : sp.For m) {φ : VolField F F} (hφ : φ.On m) {flux : List F} (hfl : flux.length = m.nFaces) {scal : Coeff F} {s : Nat → F}
    (hs : scal.On m.nCells s) {rowOffs : List Nat} (ho : rowOffs = sp.rowPtrs) (f : Nat) (h1 : m.nInternalFaces ≤ f) (h2 : f < m.nFaces) :
    divImpBoundary m sp rowOffs flux φ scal f = .ok (Act.plain f .values (sp.addr m (.diag (m.fc (f - m.nInternalFaces))))
        (· + ix flux f * s (m.fc (f - m.nInternalFaces)) * (1 - ix φ.bVF (f - m.nInternalFaces)))
      ++ Act.plain f .rhs (m.fc (f - m.nInternalFaces)) (· - ix flux f * s (m.fc (f - m.nInternalFaces)) *
        (ix φ.bVF (f - m.nInternalFaces) * ix φ.bRefValue (f - m.nInternalFaces)))) := by
  have hfa := h.faces
  have hb : f - m.nInternalFaces < m.nBoundaryFaces := by omega
  have r1 : rd flux f = .ok (ix flux f) := rd_getD 0 (by omega)
  have r2 : rd φ.bVF (f - m.nInternalFaces) = .ok (ix φ.bVF (f - m.nInternalFaces)) := rd_getD 0 (by rw [hφ.vf]; exact hb)
  have r3 : rd φ.bRefValue (f - m.nInternalFaces) = .ok (ix φ.bRefValue (f - m.nInternalFaces)) := rd_getD 0 (by rw [hφ.ref]; exact hb)
  have o := h.fc_lt _ hb
  have r4 : rd sp.diagOffset (m.fc (f - m.nInternalFaces)) = .ok (sp.diagOffset.getD (m.fc (f - m.nInternalFaces)) 0) :=
    rd_getD 0 (by rw [hp.dlen]; exact o)
  simp [divImpBoundary, r1, r2, r3, r4, h.rd_fc hb, rd_rows hp ho o, hs _ o, SparsityPattern.addr]

theorem ddtImpBody_acts (h : m.WF) (hp : sp.For m) {old : List F} (hold : old.length = m.nCells) {scal : Coeff F} {s : Nat → F} (hs : scal.On m.nCells s)
    {rowOffs : List Nat} (ho : rowOffs = sp.rowPtrs) (k : F) (c : Nat) (hc : c < m.nCells) :
    ddtImpBody m sp rowOffs old scal k c = .ok (Act.plain c .values (sp.addr m (.diag c)) (· + s c * m.vol c * k) ++ Act.plain c .rhs c (· + s c * m.vol c * k * ix old c)) := by
  have r1 : rd old c = .ok (ix old c) := rd_getD 0 (by omega)
  have r2 : rd m.cellVolumes c = .ok (m.vol c) := rd_getD 0 (by rw [h.volLen]; exact hc)
  have r4 : rd sp.diagOffset c = .ok (sp.diagOffset.getD c 0) := rd_getD 0 (by rw [hp.dlen]; exact hc)
  simp [ddtImpBody, r1, r2, r4, rd_rows hp ho hc, hs c hc, SparsityPattern.addr]

theorem sourceImpBody_acts (h : m.WF) (hp : sp.For m) {k : List F} (hk : k.length = m.nCells) {scal : Coeff F} {s : Nat → F} (hs : scal.On m.nCells s)
    {rowOffs : List Nat} (ho : rowOffs = sp.rowPtrs) (c : Nat) (hc : c < m.nCells) :
    sourceImpBody m sp rowOffs k scal c = .ok (Act.plain c .values (sp.addr m (.diag c)) (· + s c * ix k c * m.vol c)) := by
  have r1 : rd k c = .ok (ix k c) := rd_getD 0 (by omega)
  have r2 : rd m.cellVolumes c = .ok (m.vol c) := rd_getD 0 (by rw [h.volLen]; exact hc)
  have r4 : rd sp.diagOffset c = .ok (sp.diagOffset.getD c 0) := rd_getD 0 (by rw [hp.dlen]; exact hc)
  simp [sourceImpBody, r1, r2, r4, rd_rows hp ho hc, hs c hc, SparsityPattern.addr]

end acts

end NeoFOAM
