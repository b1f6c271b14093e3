import Verif.Proofs.Float
import Verif.Spec.BinFloat
import Verif.Props.C44_Accumulate
import Verif.Props.C23_Ddt
import Verif.Props.C25_Gradient
import Verif.Props.C78_Components

/-!
# C81 – rounding errors of the explicit operators
-/
namespace NeoFOAM
open Finset
variable {F K : Type} [Add F] [Sub F] [Mul F] [Div F] [Neg F] [Zero F] [One F] [LinearOrder F] [Field K] [LinearOrder K] [IsStrictOrderedRing K]
variable {val : F → K} {u : K}

section proofs

theorem FloatArith.nonneg_iff (hF : FloatArith F val u) (a : F) : 0 ≤ a ↔ 0 ≤ val a := by rw [hF.le, hF.zero]

theorem FloatArith.cell (hF : FloatArith F val u) (φ : VolField F F) (c : Nat) : (φ.exact val).cell c = val (φ.cell c) := getD_val hF.zero φ.internal c
theorem FloatArith.bnd (hF : FloatArith F val u) (φ : VolField F F) (b : Nat) : (φ.exact val).bnd b = val (φ.bnd b) := getD_val hF.zero φ.bValue b
theorem FloatArith.vol (hF : FloatArith F val u) (m : Mesh F) (c : Nat) : (m.exact val).vol c = val (m.vol c) := getD_val hF.zero m.cellVolumes c

/-- An interpolated face value carries three roundings at most. -/
theorem schemeFace_approx (hF : FloatArith F val u) (sch : InterpScheme) (m : Mesh F) (w flux : List F) (φ : VolField F F) (f : Nat) :
    Approx u 3 (val (Mesh.schemeFace sch m (ix w) (ix flux) φ f)) (Mesh.schemeFace sch (m.exact val) (ix (w.map val)) (ix (flux.map val)) (φ.exact val) f)
      (Mesh.faceSize sch (m.exact val) (ix (w.map val)) (ix (flux.map val)) (φ.exact val) f) := by
  have hb : ¬ f < m.nInternalFaces → Approx u 3 (val (ix w f * φ.bnd (f - m.nInternalFaces))) (val (ix w f) * val (φ.bnd (f - m.nInternalFaces)))
      (|val (ix w f)| * |val (φ.bnd (f - m.nInternalFaces))|) := fun _ =>
    (hF.approx_mul (hF.approx 0 _) (hF.approx 0 _)).mono hF.roundoff (by omega) le_rfl
  cases sch with
  | linear =>
    simp only [Mesh.schemeFace, Mesh.linearFace, Mesh.faceSize, smul_eq_mul, hF.cell, hF.bnd, ix_val hF.zero]
    by_cases hi : f < m.nInternalFaces
    · have hi' : f < (m.exact val).nInternalFaces := hi
      rw [if_pos hi, if_pos hi', if_pos hi']
      have h1 := hF.approx_sub (hF.approx 0 1) (hF.approx 0 (ix w f)) le_rfl le_rfl
      have h2 : Approx u 1 (val (1 - ix w f)) (1 - val (ix w f)) |1 - val (ix w f)| := by
        have := (Approx.exact hF.roundoff 0 (1 - val (ix w f))).round hF.roundoff (c := val (1 - ix w f)) (by
          have := hF.sub 1 (ix w f)
          rwa [hF.one] at this)
        exact this
      have h3 := hF.approx_mul h2 (hF.approx 0 (φ.cell (m.nbr f)))
      have h4 := hF.approx_mul (hF.approx 0 (ix w f)) (hF.approx 0 (φ.cell (m.own f)))
      exact hF.approx_add h4 h3 (by omega) le_rfl
    · have hi' : ¬ f < (m.exact val).nInternalFaces := hi
      rw [if_neg hi, if_neg hi', if_neg hi']
      exact hb hi
  | upwind =>
    simp only [Mesh.schemeFace, Mesh.upwindFace, Mesh.faceSize, smul_eq_mul, hF.cell, hF.bnd, ix_val hF.zero, hF.nonneg_iff]
    by_cases hi : f < m.nInternalFaces
    · have hi' : f < (m.exact val).nInternalFaces := hi
      rw [if_pos hi, if_pos hi', if_pos hi']
      by_cases h0 : 0 ≤ val (ix flux f)
      · rw [if_pos h0, if_pos h0, if_pos h0]
        exact hF.approx 3 _
      · rw [if_neg h0, if_neg h0, if_neg h0]
        exact hF.approx 3 _
    · have hi' : ¬ f < (m.exact val).nInternalFaces := hi
      rw [if_neg hi, if_neg hi', if_neg hi']
      exact hb hi

/-- A coefficient can be read in floating point where it can be read exactly, with one rounding. -/
theorem coeff_approx (hF : FloatArith F val u) {s : Coeff F} {n : Nat} {v : Nat → K} (hs : (s.exact val).On n v) :
    ∃ vF : Nat → F, s.On n vF ∧ ∀ c < n, Approx u 1 (val (vF c)) (v c) |v c| := by
  unfold Coeff.On Coeff.get Coeff.exact at hs
  unfold Coeff.On Coeff.get
  cases hv : s.hasView with
  | false =>
    refine ⟨fun _ => s.coeff, fun c _ => by simp, fun c hc => ?_⟩
    have := hs c hc
    rw [hv] at this
    simp only [Bool.false_eq_true, if_false] at this
    rw [← Res.ok.inj this]
    exact hF.approx 1 _
  | true =>
    refine ⟨fun c => ix s.view c * s.coeff, fun c hc => ?_, fun c hc => ?_⟩
    all_goals
      have := hs c hc
      rw [hv] at this
      simp only [if_true] at this
      have hl : c < s.view.length := by
        by_contra hn
        rw [rd_ub (by simpa using hn)] at this
        cases this
    · simp only [if_true]
      rw [rd_getD 0 hl]
      rfl
    · rw [rd_getD 0 (by simpa using hl)] at this
      have hv' : val (ix s.view c) * val s.coeff = v c := by
        rw [← ix_val hF.zero]
        exact Res.ok.inj this
      rw [← hv']
      exact (Approx.exact hF.roundoff 0 _).round hF.roundoff (hF.mul _ _)

/-- `res[celli] *= s / v`: three roundings. -/
theorem scale_approx (hF : FloatArith F val u) {m : Mesh F} (h : m.WF) (hv : ∀ c < m.nCells, val (m.vol c) ≠ 0) {s : Coeff F} {v : Nat → K}
    (hs : (s.exact val).On m.nCells v) (e : ExecKind) (n : Nat) (hn : n = m.nCells) {r : List F} (hr : r.length = m.nCells) {j : Nat → Nat} {x A : Nat → K}
    (hx : ∀ c < m.nCells, Approx u (j c) (val (ix r c)) (x c) (A c)) :
    (elemKernel e 0 n (scaleBody s m.cellVolumes) r).Ok (fun r' => ∃ g : Nat → F, r' = (List.range m.nCells).map g ∧
      ∀ c < m.nCells, Approx u (j c + 3) (val (g c)) (v c / val (m.vol c) * x c) (|v c| / |val (m.vol c)| * A c)) := by
  subst hn
  obtain ⟨vF, hs1, hs2⟩ := coeff_approx hF hs
  refine (elemKernel_ok e m.nCells _ (fun c y => (vF c / m.vol c) • y) r hr.symm (fun c hc => ?_)).mono ?_
  · have : rd m.cellVolumes c = .ok (m.vol c) := rd_getD 0 (by rw [h.volLen]; exact hc)
    simp [scaleBody, hs1 c hc, this]
  · rintro r' rfl
    refine ⟨fun c => (vF c / m.vol c) * ix r c, ?_, fun c hc => ?_⟩
    · apply List.ext_getElem
      · simp [hr]
      · intro i h1 h2
        simp at h1
        simp [ix, List.getD, h1]
    · have := hF.approx_mul (hF.approx_div (hs2 c hc) (hv c hc)) (hx c hc)
      rwa [show 1 + 1 + j c + 1 = j c + 3 by omega] at this

/-- `a += b`. -/
theorem addAssign_approx (hF : FloatArith F val u) (e : ExecKind) {n : Nat} {a : List F} (ha : a.length = n) {g : Nat → F} {i : Nat → Nat} {x A y B : Nat → K} (l : Nat → Nat)
    (hl : ∀ c, i c ≤ l c) {j : Nat → Nat} (hj : ∀ c, j c ≤ l c)
    (hx : ∀ c < n, Approx u (i c) (val (ix a c)) (x c) (A c)) (hy : ∀ c < n, Approx u (j c) (val (g c)) (y c) (B c)) :
    (addAssign e a ((List.range n).map g)).Ok (fun r => r.length = n ∧ ∀ c < n, Approx u (l c + 1) (val (ix r c)) (x c + y c) (A c + B c)) := by
  intro out ho
  refine ⟨_, (addAssign_det e n g a ha out).1 ho, by simp, fun c hc => ?_⟩
  rw [ix_range_map _ _ _ hc]
  exact hF.approx_add (hx c hc) (hy c hc) (hl c) (hj c)

omit [Sub F] [Mul F] [Div F] [Neg F] [One F] [LinearOrder F] [Add F] in
theorem ix_replicate (n c : Nat) : ix (List.replicate n (0 : F)) c = 0 := replicate_getD n c

omit [Add F] [Sub F] [Mul F] [Div F] [Neg F] [Zero F] [One F] [LinearOrder F] [Field K] [LinearOrder K] [IsStrictOrderedRing K] in
theorem faceSum_exact {G : Type} [AddCommMonoid G] (m : Mesh F) (φ : Nat → G) (c : Nat) : (m.exact val).faceSum φ c = m.faceSum φ c := rfl
omit [Add F] [Sub F] [Mul F] [Div F] [Neg F] [Zero F] [One F] [LinearOrder F] [Field K] [LinearOrder K] [IsStrictOrderedRing K] in
theorem netOutflow_exact {G : Type} [AddCommGroup G] (m : Mesh F) (φ : Nat → G) (c : Nat) : (m.exact val).netOutflow φ c = m.netOutflow φ c := rfl

/-- The divergence operator of floating-point fields. -/
theorem div_approx (hF : FloatArith F val u) {m : Mesh F} (h : m.WF) (hv : ∀ c < m.nCells, val (m.vol c) ≠ 0) {φ : VolField F F} (hφ : φ.On m) {w flux : List F}
    (hw : w.length = m.nFaces) (hfl : flux.length = m.nFaces) (sch : InterpScheme) {s : Coeff F} {v : Nat → K} (hs : (s.exact val).On m.nCells v) (e : ExecKind)
    (junk : Nat → F) (src : List F) (ha : src.length = m.nCells) {i l : Nat → Nat} {x0 A0 : Nat → K} (h0 : ∀ c < m.nCells, Approx u (i c) (val (ix src c)) (x0 c) (A0 c))
    (hl : ∀ c, i c ≤ l c) (hl' : ∀ c, m.faceCount c + 7 ≤ l c) :
    (divExplicit e m (some sch) w junk flux φ s src).Ok (fun r => r.length = m.nCells ∧ ∀ c < m.nCells, Approx u (l c + 1) (val (ix r c))
      (x0 c + v c / val (m.vol c) * (m.exact val).netOutflow (fun f => ix (flux.map val) f *
        Mesh.schemeFace sch (m.exact val) (ix (w.map val)) (ix (flux.map val)) (φ.exact val) f) c)
      (A0 c + |v c| / |val (m.vol c)| * (m.exact val).faceSum (fun f => |ix (flux.map val) f| *
        Mesh.faceSize sch (m.exact val) (ix (w.map val)) (ix (flux.map val)) (φ.exact val) f) c)) := by
  have hfa := h.faces
  show (computeDivExp e m sch w junk flux φ s (List.replicate src.length 0) >>= fun tmp => addAssign e src tmp).Ok _
  have key : (computeDivExp e m sch w junk flux φ s (List.replicate src.length 0)).Ok (fun r' => ∃ g : Nat → F, r' = (List.range m.nCells).map g ∧
      ∀ c < m.nCells, Approx u (m.faceCount c + 7) (val (g c)) (v c / val (m.vol c) * (m.exact val).netOutflow (fun f => ix (flux.map val) f *
        Mesh.schemeFace sch (m.exact val) (ix (w.map val)) (ix (flux.map val)) (φ.exact val) f) c)
        (|v c| / |val (m.vol c)| * (m.exact val).faceSum (fun f => |ix (flux.map val) f| *
        Mesh.faceSize sch (m.exact val) (ix (w.map val)) (ix (flux.map val)) (φ.exact val) f) c)) := by
    unfold computeDivExp
    refine NR.Ok.bind (NR.Ok.of_iff fun o => (C26_scheme h hφ hw hfl sch e _ (by simp) o).1) ?_
    rintro phif rfl
    have hflx : ∀ f < m.nFaces, (do
        let a ← rd flux f
        let b ← rd ((List.range m.nFaces).map (Mesh.schemeFace sch m (ix w) (ix flux) φ)) f
        return a • b : Res F) = .ok (ix flux f * Mesh.schemeFace sch m (ix w) (ix flux) φ f) := by
      intro f hlt
      have r1 : rd flux f = .ok (ix flux f) := rd_getD 0 (by omega)
      have r2 : rd ((List.range m.nFaces).map (Mesh.schemeFace sch m (ix w) (ix flux) φ)) f = .ok (Mesh.schemeFace sch m (ix w) (ix flux) φ f) := by
        rw [rd_getD 0 (by simpa using hlt), getD_range_map _ _ _ hlt]
      simp [r1, r2]
    have hx : ∀ f < m.nFaces, Approx u 4 (val (ix flux f * Mesh.schemeFace sch m (ix w) (ix flux) φ f))
        (ix (flux.map val) f * Mesh.schemeFace sch (m.exact val) (ix (w.map val)) (ix (flux.map val)) (φ.exact val) f)
        (|ix (flux.map val) f| * Mesh.faceSize sch (m.exact val) (ix (w.map val)) (ix (flux.map val)) (φ.exact val) f) := by
      intro f _
      have := hF.approx_mul (hF.approx 0 (ix flux f)) (schemeFace_approx hF sch m w flux φ f)
      rwa [← ix_val hF.zero] at this
    have hz : ∀ c < m.nCells, Approx u 4 (val (ix (List.replicate src.length (0 : F)) c)) 0 0 := fun c _ => by
      rw [ix_replicate]; exact hF.approx_zero 4
    have fin : ∀ (n : Nat) (hn : n = m.nCells) (r : List F), (r.length = m.nCells ∧ ∀ c < m.nCells, Approx u (4 + m.faceCount c) (val (ix r c))
        (0 + m.netOutflow (fun f => ix (flux.map val) f * Mesh.schemeFace sch (m.exact val) (ix (w.map val)) (ix (flux.map val)) (φ.exact val) f) c)
        (0 + m.faceSum (fun f => |ix (flux.map val) f| * Mesh.faceSize sch (m.exact val) (ix (w.map val)) (ix (flux.map val)) (φ.exact val) f) c)) → _ :=
      fun n hn r hr => scale_approx hF h hv hs e n hn hr.1 hr.2
    have post : ∀ {g : Nat → F}, (∀ c < m.nCells, Approx u (4 + m.faceCount c + 3) (val (g c))
        (v c / val (m.vol c) * (0 + m.netOutflow (fun f => ix (flux.map val) f * Mesh.schemeFace sch (m.exact val) (ix (w.map val)) (ix (flux.map val)) (φ.exact val) f) c))
        (|v c| / |val (m.vol c)| * (0 + m.faceSum (fun f => |ix (flux.map val) f| * Mesh.faceSize sch (m.exact val) (ix (w.map val)) (ix (flux.map val)) (φ.exact val) f) c))) →
        ∀ c < m.nCells, Approx u (m.faceCount c + 7) (val (g c)) (v c / val (m.vol c) * (m.exact val).netOutflow (fun f => ix (flux.map val) f *
        Mesh.schemeFace sch (m.exact val) (ix (w.map val)) (ix (flux.map val)) (φ.exact val) f) c)
        (|v c| / |val (m.vol c)| * (m.exact val).faceSum (fun f => |ix (flux.map val) f| *
        Mesh.faceSize sch (m.exact val) (ix (w.map val)) (ix (flux.map val)) (φ.exact val) f) c) := by
      intro g hg c hc
      have := hg c hc
      rw [zero_add, zero_add, show 4 + m.faceCount c + 3 = m.faceCount c + 7 by omega] at this
      exact this
    cases e with
    | serial =>
      have := NR.Ok.bind (gaussSumPlain_approx hF h _ _ hflx hx (List.replicate src.length 0) (by simpa using ha) hz) (fin _ h.volLen)
      rw [NR.bind_assoc'] at this
      exact this.mono fun r' ⟨g, hg, h1⟩ => ⟨g, hg, post h1⟩
    | parallel =>
      have := NR.Ok.bind (gaussSum_approx hF h .parallel _ _ hflx hx (List.replicate src.length 0) (by simpa using ha) hz _ rfl) (fin _ h.volLen)
      rw [NR.bind_assoc'] at this
      exact this.mono fun r' ⟨g, hg, h1⟩ => ⟨g, hg, post h1⟩
  refine NR.Ok.bind key ?_
  rintro r' ⟨g, rfl, hg⟩
  exact addAssign_approx hF e ha l hl hl' h0 hg

/-- A face-normal gradient carries two roundings. -/
theorem fnGrad_approx (hF : FloatArith F val u) (m : Mesh F) (δ : List F) (φ : VolField F F) (f : Nat) :
    Approx u 2 (val (m.fnGrad (ix δ) φ f)) ((m.exact val).fnGrad (ix (δ.map val)) (φ.exact val) f)
      ((m.exact val).fnGradSize (ix (δ.map val)) (φ.exact val) f) := by
  have key : ∀ a b : F, Approx u 2 (val (ix δ f * (a - b))) (val (ix δ f) * (val a - val b)) (|val (ix δ f)| * (|val a| + |val b|)) := fun a b => by
    have := hF.approx_mul (hF.approx 0 (ix δ f)) (hF.approx_sub (hF.approx 0 a) (hF.approx 0 b) le_rfl le_rfl)
    exact this
  simp only [Mesh.fnGrad, Mesh.fnGradSize, smul_eq_mul, hF.cell, hF.bnd, ix_val hF.zero]
  by_cases hi : f < m.nInternalFaces
  · have hi' : f < (m.exact val).nInternalFaces := hi
    rw [if_pos hi, if_pos hi', if_pos hi']
    exact key _ _
  · have hi' : ¬ f < (m.exact val).nInternalFaces := hi
    rw [if_neg hi, if_neg hi', if_neg hi']
    exact key _ _

/-- The Laplacian operator of floating-point fields. -/
theorem laplacian_approx (hF : FloatArith F val u) {m : Mesh F} (h : m.WF) (hv : ∀ c < m.nCells, val (m.vol c) ≠ 0) {φ : VolField F F} (hφ : φ.On m) {δ gamma : List F}
    (hδ : δ.length = m.nFaces) {s : Coeff F} {v : Nat → K} (hs : (s.exact val).On m.nCells v) (e : ExecKind)
    (junk : Nat → F) (src : List F) (ha : src.length = m.nCells) {i l : Nat → Nat} {x0 A0 : Nat → K} (h0 : ∀ c < m.nCells, Approx u (i c) (val (ix src c)) (x0 c) (A0 c))
    (hl : ∀ c, i c ≤ l c) (hl' : ∀ c, m.faceCount c + 6 ≤ l c) :
    (laplacianExplicit e m true δ junk gamma φ s src).Ok (fun r => r.length = m.nCells ∧ ∀ c < m.nCells, Approx u (l c + 1) (val (ix r c))
      (x0 c + v c / val (m.vol c) * (m.exact val).netOutflow (fun f => ix (m.magFaceAreas.map val) f *
        (m.exact val).fnGrad (ix (δ.map val)) (φ.exact val) f) c)
      (A0 c + |v c| / |val (m.vol c)| * (m.exact val).faceSum (fun f => |ix (m.magFaceAreas.map val) f| *
        (m.exact val).fnGradSize (ix (δ.map val)) (φ.exact val) f) c)) := by
  have hfa := h.faces
  show (computeLaplacianExp e m δ junk gamma φ s (List.replicate src.length 0) >>= fun tmp => addAssign e src tmp).Ok _
  have key : (computeLaplacianExp e m δ junk gamma φ s (List.replicate src.length 0)).Ok (fun r' => ∃ g : Nat → F, r' = (List.range m.nCells).map g ∧
      ∀ c < m.nCells, Approx u (m.faceCount c + 6) (val (g c)) (v c / val (m.vol c) * (m.exact val).netOutflow (fun f => ix (m.magFaceAreas.map val) f *
        (m.exact val).fnGrad (ix (δ.map val)) (φ.exact val) f) c)
        (|v c| / |val (m.vol c)| * (m.exact val).faceSum (fun f => |ix (m.magFaceAreas.map val) f| *
        (m.exact val).fnGradSize (ix (δ.map val)) (φ.exact val) f) c)) := by
    unfold computeLaplacianExp
    refine NR.Ok.bind (NR.Ok.of_iff fun o => fng_det h hφ hδ e _ (by simp) o) ?_
    rintro fn rfl
    have hflx : ∀ f < m.nFaces, (do
        let a ← rd m.magFaceAreas f
        let b ← rd ((List.range m.nFaces).map (m.fnGrad (ix δ) φ)) f
        return a • b : Res F) = .ok (ix m.magFaceAreas f * m.fnGrad (ix δ) φ f) := by
      intro f hlt
      have r1 : rd m.magFaceAreas f = .ok (ix m.magFaceAreas f) := rd_getD 0 (by rw [h.magLen]; exact hlt)
      have r2 : rd ((List.range m.nFaces).map (m.fnGrad (ix δ) φ)) f = .ok (m.fnGrad (ix δ) φ f) := by
        rw [rd_getD 0 (by simpa using hlt), getD_range_map _ _ _ hlt]
      simp [r1, r2]
    have hx : ∀ f < m.nFaces, Approx u 3 (val (ix m.magFaceAreas f * m.fnGrad (ix δ) φ f))
        (ix (m.magFaceAreas.map val) f * (m.exact val).fnGrad (ix (δ.map val)) (φ.exact val) f)
        (|ix (m.magFaceAreas.map val) f| * (m.exact val).fnGradSize (ix (δ.map val)) (φ.exact val) f) := by
      intro f _
      have := hF.approx_mul (hF.approx 0 (ix m.magFaceAreas f)) (fnGrad_approx hF m δ φ f)
      rwa [← ix_val hF.zero] at this
    have hz : ∀ c < m.nCells, Approx u 3 (val (ix (List.replicate src.length (0 : F)) c)) 0 0 := fun c _ => by
      rw [ix_replicate]; exact hF.approx_zero 3
    have := NR.Ok.bind (gaussSum_approx hF h e _ _ hflx hx (List.replicate src.length 0) (by simpa using ha) hz
      ((List.range m.nFaces).map (m.fnGrad (ix δ) φ)).length (by simp [hfa])) (fun r hr => scale_approx hF h hv hs e m.nCells rfl hr.1 hr.2)
    rw [NR.bind_assoc'] at this
    refine this.mono fun r' ⟨g, hg, h1⟩ => ⟨g, hg, fun c hc => ?_⟩
    have := h1 c hc
    rw [zero_add, zero_add, show 3 + m.faceCount c + 3 = m.faceCount c + 6 by omega] at this
    exact this
  refine NR.Ok.bind key ?_
  rintro r' ⟨g, rfl, hg⟩
  exact addAssign_approx hF e ha l hl hl' h0 hg

/-- The surface integral of floating-point fluxes. -/
theorem surfaceIntegrate_approx (hF : FloatArith F val u) {m : Mesh F} (h : m.WF) (hv : ∀ c < m.nCells, val (m.vol c) ≠ 0) {flux : List F} (hfl : flux.length = m.nFaces)
    {s : Coeff F} {v : Nat → K} (hs : (s.exact val).On m.nCells v) (e : ExecKind)
    (src : List F) (ha : src.length = m.nCells) {i l : Nat → Nat} {x0 A0 : Nat → K} (h0 : ∀ c < m.nCells, Approx u (i c) (val (ix src c)) (x0 c) (A0 c))
    (hl : ∀ c, i c ≤ l c) (hl' : ∀ c, m.faceCount c + 3 ≤ l c) :
    (surfaceIntegrateExplicit e m flux s src).Ok (fun r => r.length = m.nCells ∧ ∀ c < m.nCells, Approx u (l c + 1) (val (ix r c))
      (x0 c + v c / val (m.vol c) * (m.exact val).netOutflow (ix (flux.map val)) c)
      (A0 c + |v c| / |val (m.vol c)| * (m.exact val).faceSum (fun f => |ix (flux.map val) f|) c)) := by
  have hfa := h.faces
  show (surfaceIntegrate e m flux s (List.replicate src.length 0) >>= fun tmp => addAssign e src tmp).Ok _
  have key : (surfaceIntegrate e m flux s (List.replicate src.length 0)).Ok (fun r' => ∃ g : Nat → F, r' = (List.range m.nCells).map g ∧
      ∀ c < m.nCells, Approx u (m.faceCount c + 3) (val (g c)) (v c / val (m.vol c) * (m.exact val).netOutflow (ix (flux.map val)) c)
        (|v c| / |val (m.vol c)| * (m.exact val).faceSum (fun f => |ix (flux.map val) f|) c)) := by
    unfold surfaceIntegrate
    have hflx : ∀ f < m.nFaces, rd flux f = .ok (ix flux f) := fun f hlt => rd_getD 0 (by omega)
    have hx : ∀ f < m.nFaces, Approx u 0 (val (ix flux f)) (ix (flux.map val) f) |ix (flux.map val) f| := fun f _ => by
      rw [ix_val hF.zero]; exact hF.approx 0 _
    have hz : ∀ c < m.nCells, Approx u 0 (val (ix (List.replicate src.length (0 : F)) c)) 0 0 := fun c _ => by
      rw [ix_replicate]; exact hF.approx_zero 0
    have := NR.Ok.bind (gaussSum_approx hF h e _ _ hflx hx (List.replicate src.length 0) (by simpa using ha) hz
      (m.nInternalFaces + m.bnd.faceCells.length) (by simp [h.fcLen])) (fun r hr => scale_approx hF h hv hs e m.cellVolumes.length h.volLen hr.1 hr.2)
    rw [NR.bind_assoc'] at this
    refine this.mono fun r' ⟨g, hg, h1⟩ => ⟨g, hg, fun c hc => ?_⟩
    have := h1 c hc
    simp only [zero_add] at this
    exact this
  refine NR.Ok.bind key ?_
  rintro r' ⟨g, rfl, hg⟩
  exact addAssign_approx hF e ha l hl hl' h0 hg

/-- An elementwise update of all entries. -/
theorem elem_update (e : ExecKind) {n : Nat} (body : Nat → Res (F → F)) (g : Nat → F → F) (src : List F) (ha : src.length = n) (hb : ∀ c < n, body c = .ok (g c))
    {P : Nat → F → Prop} (hP : ∀ c < n, P c (g c (ix src c))) : (elemKernel e 0 src.length body src).Ok (fun r => r.length = n ∧ ∀ c < n, P c (ix r c)) := by
  subst ha
  refine (elemKernel_ok e _ _ g src rfl hb).mono ?_
  rintro r rfl
  refine ⟨by simp, fun c hc => ?_⟩
  have : ix (src.mapIdx fun i x => g i x) c = g c (ix src c) := by simp [ix, List.getD, hc]
  rw [this]
  exact hP c hc

/-- The source operator of floating-point fields. -/
theorem source_approx (hF : FloatArith F val u) {m : Mesh F} {φ : VolField F F} (hφ : φ.On m) {k : List F} (hk : k.length = m.nCells)
    {s : Coeff F} {v : Nat → K} (hs : (s.exact val).On m.nCells v) (e : ExecKind)
    (src : List F) (ha : src.length = m.nCells) {i l : Nat → Nat} {x0 A0 : Nat → K} (h0 : ∀ c < m.nCells, Approx u (i c) (val (ix src c)) (x0 c) (A0 c))
    (hl : ∀ c, i c ≤ l c) (hl' : ∀ c, 3 ≤ l c) :
    (sourceExplicit e k φ s src).Ok (fun r => r.length = m.nCells ∧ ∀ c < m.nCells, Approx u (l c + 1) (val (ix r c))
      (x0 c + v c * ix (k.map val) c * (φ.exact val).cell c) (A0 c + |v c| * |ix (k.map val) c| * |(φ.exact val).cell c|)) := by
  obtain ⟨vF, hs1, hs2⟩ := coeff_approx hF hs
  refine elem_update e _ (fun c y => y + (vF c * ix k c) * φ.cell c) src ha (fun c hc => ?_)
    (P := fun c y => Approx u (l c + 1) (val y) (x0 c + v c * ix (k.map val) c * (φ.exact val).cell c) (A0 c + |v c| * |ix (k.map val) c| * |(φ.exact val).cell c|)) fun c hc => ?_
  · have r1 : rd k c = .ok (ix k c) := rd_getD 0 (by omega)
    have r2 : rd φ.internal c = .ok (φ.cell c) := rd_getD 0 (by rw [hφ.int]; omega)
    simp [hs1 c hc, r1, r2]
  · rw [hF.cell, ix_val hF.zero]
    exact hF.approx_add (h0 c hc) (hF.approx_mul (hF.approx_mul (hs2 c hc) (hF.approx 0 (ix k c))) (hF.approx 0 (φ.cell c))) (hl c) (hl' c)

/-- The time derivative of floating-point fields. -/
theorem ddt_approx (hF : FloatArith F val u) {m : Mesh F} (h : m.WF) {φ : VolField F F} (hφ : φ.On m) {old : List F} (ho : old.length = m.nCells) {dt : F} (hdt : val dt ≠ 0)
    (s : Coeff F) (e : ExecKind) (src : List F) (ha : src.length = m.nCells) {i l : Nat → Nat} {x0 A0 : Nat → K}
    (h0 : ∀ c < m.nCells, Approx u (i c) (val (ix src c)) (x0 c) (A0 c)) (hl : ∀ c, i c ≤ l c) (hl' : ∀ c, 4 ≤ l c) :
    (ddtExplicit e m φ old s dt src).Ok (fun r => r.length = m.nCells ∧ ∀ c < m.nCells, Approx u (l c + 1) (val (ix r c))
      (x0 c + val (m.vol c) * (1 / val dt * ((φ.exact val).cell c - ix (old.map val) c)))
      (A0 c + |val (m.vol c)| * (1 / |val dt| * (|(φ.exact val).cell c| + |ix (old.map val) c|)))) := by
  refine elem_update e _ (fun c y => y + m.vol c * ((1 / dt) * (φ.cell c - ix old c))) src ha (fun c hc => ?_)
    (P := fun c y => Approx u (l c + 1) (val y) (x0 c + val (m.vol c) * (1 / val dt * ((φ.exact val).cell c - ix (old.map val) c)))
      (A0 c + |val (m.vol c)| * (1 / |val dt| * (|(φ.exact val).cell c| + |ix (old.map val) c|)))) fun c hc => ?_
  · have r1 : rd old c = .ok (ix old c) := rd_getD 0 (by omega)
    have r2 : rd φ.internal c = .ok (φ.cell c) := rd_getD 0 (by rw [hφ.int]; omega)
    have r3 : rd m.cellVolumes c = .ok (m.vol c) := rd_getD 0 (by rw [h.volLen]; exact hc)
    simp [r1, r2, r3]
  · rw [hF.cell, ix_val hF.zero]
    have h1 : Approx u 1 (val (1 / dt)) (1 / val dt) (1 / |val dt|) := by
      have := hF.approx_div (hF.approx 0 1) hdt
      rwa [hF.one, abs_one] at this
    exact hF.approx_add (h0 c hc) (hF.approx_mul (hF.approx 0 (m.vol c)) (hF.approx_mul h1 (hF.approx_sub (hF.approx 0 (φ.cell c)) (hF.approx 0 (ix old c)) le_rfl le_rfl))) (hl c)
      (by have := hl' c; omega)

/-- The gradient of a floating-point field, component by component. -/
theorem grad_approx (hF : FloatArith F val u) {m : Mesh F} (h : m.WF) (hv : ∀ c < m.nCells, val (m.vol c) ≠ 0) {φ : VolField F F} (hφ : φ.On m) {w : List F}
    (hw : w.length = m.nFaces) (e : ExecKind) (junk : Nat → F) (junkV : Nat → Vec F) :
    (grad e m w junk junkV φ).Ok (fun r => r.length = m.nCells ∧ ∀ c < m.nCells, ∀ i : Fin 3, Approx u (m.faceCount c + 6) (val (vecComp i (ix r c)))
      (1 / val (m.vol c) * (m.exact val).netOutflow (fun f => (m.exact val).linearFace (ix (w.map val)) (φ.exact val) f * val (vecComp i (ix m.faceAreas f))) c)
      (1 / |val (m.vol c)| * (m.exact val).faceSum (fun f => Mesh.faceSize .linear (m.exact val) (ix (w.map val)) (ix ([] : List K)) (φ.exact val) f * |val (vecComp i (ix m.faceAreas f))|) c)) := by
  have hfa := h.faces
  unfold grad
  refine NR.Ok.bind (elemKernel_ok e m.nCells _ (fun _ _ => (0 : Vec F)) _ (by simp) (fun _ _ => rfl)) ?_
  rintro g0 rfl
  have e0 : (((List.range m.nCells).map junkV).mapIdx fun _ _ => (0 : Vec F)) = List.replicate m.nCells 0 := by
    apply List.ext_getElem <;> simp
  rw [e0]
  unfold computeGrad interpolate
  refine NR.Ok.bind (NR.Ok.of_iff fun o => C26_linear h hφ hw e _ (by simp) o) ?_
  rintro phif rfl
  set flux : Nat → Res (Vec F) := fun i => do
    let a ← rd m.faceAreas i
    let b ← rd ((List.range m.nFaces).map (m.linearFace (ix w) φ)) i
    return b • a with hflux
  have hlen : ((List.range m.nFaces).map (m.linearFace (ix w) φ)).length = m.nInternalFaces + m.nBoundaryFaces := by simp [hfa]
  rw [hlen]
  have hfl : ∀ f < m.nFaces, flux f = .ok (m.linearFace (ix w) φ f • ix m.faceAreas f) := by
    intro f hf
    have r1 : rd m.faceAreas f = .ok (ix m.faceAreas f) := rd_getD 0 (by rw [h.areaLen]; exact hf)
    have r2 : rd ((List.range m.nFaces).map (m.linearFace (ix w) φ)) f = .ok (m.linearFace (ix w) φ f) := by
      rw [rd_getD 0 (by simpa using hf), getD_range_map _ _ _ hf]
    simp [hflux, r1, r2]
  -- one component of the face sum
  have comp : ∀ i : Fin 3, (do
      let r ← launch1 e 0 m.nInternalFaces (gaussInternal m flux) (List.replicate m.nCells 0)
      launch1 e m.nInternalFaces (m.nInternalFaces + m.nBoundaryFaces) (gaussBoundary m flux) r : NR (List (Vec F))).Ok (fun r => r.length = m.nCells ∧
        ∀ c < m.nCells, Approx u (4 + m.faceCount c) (val (vecComp i (ix r c)))
          (0 + m.netOutflow (fun f => (m.exact val).linearFace (ix (w.map val)) (φ.exact val) f * val (vecComp i (ix m.faceAreas f))) c)
          (0 + m.faceSum (fun f => Mesh.faceSize .linear (m.exact val) (ix (w.map val)) (ix ([] : List K)) (φ.exact val) f * |val (vecComp i (ix m.faceAreas f))|) c)) := by
    intro i
    let fl' : Nat → Res F := fun f => (flux f).bind fun x => .ok (vecComp i x)
    have H : ∀ f, Res.Rel (Img (vecComp i)) (flux f) (fl' f) := by
      intro f
      show Res.Rel _ _ ((flux f).bind fun x => .ok (vecComp i x))
      cases flux f <;> first | rfl | trivial
    have rel : NR.Rel (List.Forall₂ (Img (vecComp i))) (do
        let r ← launch1 e 0 m.nInternalFaces (gaussInternal m flux) (List.replicate m.nCells 0)
        launch1 e m.nInternalFaces (m.nInternalFaces + m.nBoundaryFaces) (gaussBoundary m flux) r : NR (List (Vec F)))
        (do
        let r ← launch1 e 0 m.nInternalFaces (gaussInternal m fl') (List.replicate m.nCells 0)
        launch1 e m.nInternalFaces (m.nInternalFaces + m.nBoundaryFaces) (gaussBoundary m fl') r : NR (List F)) :=
      NR.Rel.bind (launch1_rel _ _ _ (fun j _ _ => gaussInternal_rel (vecCompL i) m H j) (zero_rel (vecCompL (K := F) i) m.nCells)) fun _ _ h1 =>
        launch1_rel _ _ _ (fun j _ _ => gaussBoundary_rel (vecCompL i) m H j) h1
    have hfl' : ∀ f < m.nFaces, fl' f = .ok (m.linearFace (ix w) φ f * vecComp i (ix m.faceAreas f)) := by
      intro f hf
      show (flux f).bind _ = _
      rw [hfl f hf]
      exact congrArg Res.ok ((vecCompL (K := F) i).map_smul _ _)
    have hx : ∀ f < m.nFaces, Approx u 4 (val (m.linearFace (ix w) φ f * vecComp i (ix m.faceAreas f)))
        ((m.exact val).linearFace (ix (w.map val)) (φ.exact val) f * val (vecComp i (ix m.faceAreas f)))
        (Mesh.faceSize .linear (m.exact val) (ix (w.map val)) (ix ([] : List K)) (φ.exact val) f * |val (vecComp i (ix m.faceAreas f))|) := fun f _ =>
      hF.approx_mul (schemeFace_approx hF .linear m w [] φ f) (hF.approx 0 _)
    refine (rel.ok_left (gaussSum_approx hF h e fl' _ hfl' hx (List.replicate m.nCells 0) (by simp) (x0 := fun _ => 0) (A0 := fun _ => 0)
      (fun c _ => by rw [ix_replicate]; exact hF.approx_zero 4) _ rfl)).mono ?_
    rintro r ⟨r', hr, hl, hc⟩
    refine ⟨by rw [hr.length_eq, hl], fun c hc' => ?_⟩
    have e1 : ix r' c = vecComp i (ix r c) := by
      rw [img_map hr]
      have : c < r.length := by rw [hr.length_eq, hl]; exact hc'
      simp [ix, List.getD, this]
    rw [← e1]
    exact hc c hc'
  have all : (do
      let r ← launch1 e 0 m.nInternalFaces (gaussInternal m flux) (List.replicate m.nCells 0)
      launch1 e m.nInternalFaces (m.nInternalFaces + m.nBoundaryFaces) (gaussBoundary m flux) r : NR (List (Vec F))).Ok (fun r => r.length = m.nCells ∧
        ∀ c < m.nCells, ∀ i : Fin 3, Approx u (4 + m.faceCount c) (val (vecComp i (ix r c)))
          (0 + m.netOutflow (fun f => (m.exact val).linearFace (ix (w.map val)) (φ.exact val) f * val (vecComp i (ix m.faceAreas f))) c)
          (0 + m.faceSum (fun f => Mesh.faceSize .linear (m.exact val) (ix (w.map val)) (ix ([] : List K)) (φ.exact val) f * |val (vecComp i (ix m.faceAreas f))|) c)) := by
    intro o ho
    obtain ⟨r, rfl, hl, -⟩ := comp 0 o ho
    refine ⟨r, rfl, hl, fun c hc i => ?_⟩
    obtain ⟨r', h1, -, h2⟩ := comp i _ ho
    cases h1
    exact h2 c hc
  have fin : ((launch1 e 0 m.nInternalFaces (gaussInternal m flux) (List.replicate m.nCells 0) >>= fun r =>
      launch1 e m.nInternalFaces (m.nInternalFaces + m.nBoundaryFaces) (gaussBoundary m flux) r) >>= fun r =>
        elemKernel e 0 m.nCells (gradScaleBody m.cellVolumes) r : NR (List (Vec F))).Ok (fun r => r.length = m.nCells ∧ ∀ c < m.nCells, ∀ i : Fin 3, Approx u (m.faceCount c + 6) (val (vecComp i (ix r c)))
      (1 / val (m.vol c) * (m.exact val).netOutflow (fun f => (m.exact val).linearFace (ix (w.map val)) (φ.exact val) f * val (vecComp i (ix m.faceAreas f))) c)
      (1 / |val (m.vol c)| * (m.exact val).faceSum (fun f => Mesh.faceSize .linear (m.exact val) (ix (w.map val)) (ix ([] : List K)) (φ.exact val) f * |val (vecComp i (ix m.faceAreas f))|) c)) := by
    refine NR.Ok.bind all fun r hr => ?_
    refine (elemKernel_ok e m.nCells _ (fun c y => ((1 : F) / m.vol c) • y) r hr.1.symm (fun c hc => ?_)).mono ?_
    · have : rd m.cellVolumes c = .ok (m.vol c) := rd_getD 0 (by rw [h.volLen]; exact hc)
      simp [gradScaleBody, this]
    · rintro r' rfl
      refine ⟨by simp [hr.1], fun c hc i => ?_⟩
      have e1 : vecComp i (ix (r.mapIdx fun c y => ((1 : F) / m.vol c) • y) c) = 1 / m.vol c * vecComp i (ix r c) := by
        have : c < r.length := by rw [hr.1]; exact hc
        have e2 : ix (r.mapIdx fun c y => ((1 : F) / m.vol c) • y) c = ((1 : F) / m.vol c) • ix r c := by simp [ix, List.getD, this]
        rw [e2]
        exact (vecCompL (K := F) i).map_smul _ _
      rw [e1]
      have h1 : Approx u 1 (val (1 / m.vol c)) (1 / val (m.vol c)) (1 / |val (m.vol c)|) := by
        have := hF.approx_div (hF.approx 0 1) (hv c hc)
        rwa [hF.one, abs_one] at this
      have h2 := hF.approx_mul h1 (hr.2 c hc i)
      rw [zero_add, zero_add, show 1 + (4 + m.faceCount c) + 1 = m.faceCount c + 6 by omega] at h2
      exact h2
  rw [NR.bind_assoc'] at fin
  exact fin

omit [LinearOrder K] [IsStrictOrderedRing K] in
theorem netOutflow_comp (m : Mesh K) (φ : Nat → Vec K) (c : Nat) (i : Fin 3) : vecComp i (m.netOutflow φ c) = m.netOutflow (fun f => vecComp i (φ f)) c := by
  let L : Vec K →+ K := ⟨⟨vecComp i, by fin_cases i <;> rfl⟩, fun x y => by fin_cases i <;> rfl⟩
  have hL : ∀ v, vecComp i v = L v := fun _ => rfl
  simp only [hL, Mesh.netOutflow, map_add, map_sub, map_sum, apply_ite L, map_zero]

end proofs

/-- **C81, divergence**: whatever executor and schedule computes it, the divergence operator on floating-point numbers gives in each cell the result of exact
arithmetic up to `((1+u)^(faces + 8) - 1)` times the size of the terms that are summed there. -/
theorem C81_div (hF : FloatArith F val u) {m : Mesh F} (h : m.WF) (hv : ∀ c < m.nCells, val (m.vol c) ≠ 0) {φ : VolField F F} (hφ : φ.On m) {w flux : List F}
    (hw : w.length = m.nFaces) (hfl : flux.length = m.nFaces) (sch : InterpScheme) {s : Coeff F} {v : Nat → K} (hs : (s.exact val).On m.nCells v)
    (src : List F) (ha : src.length = m.nCells) :
    ∃ y : List K, (∀ e junk out, divExplicit e (m.exact val) (some sch) (w.map val) junk (flux.map val) (φ.exact val) (s.exact val) (src.map val) out ↔ out = .ok y) ∧
      ∀ e junk, (divExplicit e m (some sch) w junk flux φ s src).Ok (fun r => r.length = m.nCells ∧ ∀ c < m.nCells,
        |val (ix r c) - ix y c| ≤ ((1 + u) ^ (m.faceCount c + 8) - 1) * (|val (ix src c)| + |v c| / |val (m.vol c)| *
          (m.exact val).faceSum (fun f => |ix (flux.map val) f| * Mesh.faceSize sch (m.exact val) (ix (w.map val)) (ix (flux.map val)) (φ.exact val) f) c)) := by
  refine ⟨_, fun e junk out => C18_div (exact_wf h) (exact_on hφ) (List.length_map val |>.trans hw) (List.length_map val |>.trans hfl) sch hs e junk _ (List.length_map val |>.trans ha) out, fun e junk => ?_⟩
  refine (div_approx hF h hv hφ hw hfl sch hs e junk src ha (i := fun _ => 0) (l := fun c => m.faceCount c + 7) (fun c _ => hF.approx 0 (ix src c)) (fun _ => by omega)
    (fun _ => le_rfl)).mono fun r hr => ⟨hr.1, fun c hc => ?_⟩
  rw [ix_range_map (m.exact val).nCells _ c hc, show (src.map val).getD c 0 = val (ix src c) from getD_val hF.zero src c, hF.vol]
  exact (hr.2 c hc).1

/-- **C81, Laplacian**. -/
theorem C81_laplacian (hF : FloatArith F val u) {m : Mesh F} (h : m.WF) (hv : ∀ c < m.nCells, val (m.vol c) ≠ 0) {φ : VolField F F} (hφ : φ.On m) {δ gamma : List F}
    (hδ : δ.length = m.nFaces) {s : Coeff F} {v : Nat → K} (hs : (s.exact val).On m.nCells v) (src : List F) (ha : src.length = m.nCells) :
    ∃ y : List K, (∀ e junk out, laplacianExplicit e (m.exact val) true (δ.map val) junk (gamma.map val) (φ.exact val) (s.exact val) (src.map val) out ↔ out = .ok y) ∧
      ∀ e junk, (laplacianExplicit e m true δ junk gamma φ s src).Ok (fun r => r.length = m.nCells ∧ ∀ c < m.nCells,
        |val (ix r c) - ix y c| ≤ ((1 + u) ^ (m.faceCount c + 7) - 1) * (|val (ix src c)| + |v c| / |val (m.vol c)| *
          (m.exact val).faceSum (fun f => |ix (m.magFaceAreas.map val) f| * (m.exact val).fnGradSize (ix (δ.map val)) (φ.exact val) f) c)) := by
  obtain ⟨g, hg, hd⟩ := C44_laplacian (gamma := gamma.map val) (exact_wf (val := val) h) (exact_on (val := val) hφ) (δ := δ.map val) (List.length_map val |>.trans hδ) hs
  refine ⟨_, fun e junk out => hd e junk _ (List.length_map val |>.trans ha) out, fun e junk => ?_⟩
  refine (laplacian_approx (gamma := gamma) hF h hv hφ hδ hs e junk src ha (i := fun _ => 0) (l := fun c => m.faceCount c + 6) (fun c _ => hF.approx 0 (ix src c)) (fun _ => by omega)
    (fun _ => le_rfl)).mono fun r hr => ⟨hr.1, fun c hc => ?_⟩
  rw [ix_range_map (m.exact val).nCells _ c hc, show (src.map val).getD c 0 = val (ix src c) from getD_val hF.zero src c, hg, hF.vol]
  exact (hr.2 c hc).1

/-- **C81, surface integral**. -/
theorem C81_surfaceIntegrate (hF : FloatArith F val u) {m : Mesh F} (h : m.WF) (hv : ∀ c < m.nCells, val (m.vol c) ≠ 0) {flux : List F}
    (hfl : flux.length = m.nFaces) {s : Coeff F} {v : Nat → K} (hs : (s.exact val).On m.nCells v) (src : List F) (ha : src.length = m.nCells) :
    ∃ y : List K, (∀ e out, surfaceIntegrateExplicit e (m.exact val) (flux.map val) (s.exact val) (src.map val) out ↔ out = .ok y) ∧
      ∀ e, (surfaceIntegrateExplicit e m flux s src).Ok (fun r => r.length = m.nCells ∧ ∀ c < m.nCells,
        |val (ix r c) - ix y c| ≤ ((1 + u) ^ (m.faceCount c + 4) - 1) * (|val (ix src c)| + |v c| / |val (m.vol c)| *
          (m.exact val).faceSum (fun f => |ix (flux.map val) f|) c)) := by
  refine ⟨_, fun e out => C18_surfaceIntegrate (m := m.exact val) (flux := flux.map val) (exact_wf h) (List.length_map val |>.trans hfl) hs e _ (List.length_map val |>.trans ha) out, fun e => ?_⟩
  refine (surfaceIntegrate_approx hF h hv hfl hs e src ha (i := fun _ => 0) (l := fun c => m.faceCount c + 3) (fun c _ => hF.approx 0 (ix src c)) (fun _ => by omega)
    (fun _ => le_rfl)).mono fun r hr => ⟨hr.1, fun c hc => ?_⟩
  rw [ix_range_map (m.exact val).nCells _ c hc, show (src.map val).getD c 0 = val (ix src c) from getD_val hF.zero src c, hF.vol]
  exact (hr.2 c hc).1

/-- **C81, source term**: four roundings. -/
theorem C81_source (hF : FloatArith F val u) {m : Mesh F} {φ : VolField F F} (hφ : φ.On m) {k : List F} (hk : k.length = m.nCells)
    {s : Coeff F} {v : Nat → K} (hs : (s.exact val).On m.nCells v) (src : List F) (ha : src.length = m.nCells) :
    ∃ y : List K, (∀ e out, sourceExplicit e (k.map val) (φ.exact val) (s.exact val) (src.map val) out ↔ out = .ok y) ∧
      ∀ e, (sourceExplicit e k φ s src).Ok (fun r => r.length = m.nCells ∧ ∀ c < m.nCells,
        |val (ix r c) - ix y c| ≤ ((1 + u) ^ 4 - 1) * (|val (ix src c)| + |v c| * |ix (k.map val) c| * |(φ.exact val).cell c|)) := by
  obtain ⟨g, hg, hd⟩ := C44_source (m := m.exact val) (exact_on hφ) (k := k.map val) (List.length_map val |>.trans hk) hs
  refine ⟨_, fun e out => hd e _ (List.length_map val |>.trans ha) out, fun e => ?_⟩
  refine (source_approx hF hφ hk hs e src ha (i := fun _ => 0) (l := fun c => 3) (fun c _ => hF.approx 0 (ix src c)) (fun _ => by omega)
    (fun _ => le_rfl)).mono fun r hr => ⟨hr.1, fun c hc => ?_⟩
  rw [ix_range_map (m.exact val).nCells _ c hc, show (src.map val).getD c 0 = val (ix src c) from getD_val hF.zero src c, hg]
  exact (hr.2 c hc).1

/-- **C81, time derivative**: five roundings. -/
theorem C81_ddt (hF : FloatArith F val u) {m : Mesh F} (h : m.WF) {φ : VolField F F} (hφ : φ.On m) {old : List F} (ho : old.length = m.nCells) {dt : F} (hdt : val dt ≠ 0)
    (s : Coeff F) (src : List F) (ha : src.length = m.nCells) :
    ∃ y : List K, (∀ e out, ddtExplicit e (m.exact val) (φ.exact val) (old.map val) (s.exact val) (val dt) (src.map val) out ↔ out = .ok y) ∧
      ∀ e, (ddtExplicit e m φ old s dt src).Ok (fun r => r.length = m.nCells ∧ ∀ c < m.nCells,
        |val (ix r c) - ix y c| ≤ ((1 + u) ^ 5 - 1) * (|val (ix src c)| + |val (m.vol c)| * (1 / |val dt| * (|(φ.exact val).cell c| + |ix (old.map val) c|)))) := by
  refine ⟨_, fun e out => C23_explicit_partial (exact_wf h) (exact_on hφ) (List.length_map val |>.trans ho) _ _ e _ (List.length_map val |>.trans ha) out, fun e => ?_⟩
  refine (ddt_approx hF h hφ ho hdt s e src ha (i := fun _ => 0) (l := fun c => 4) (fun c _ => hF.approx 0 (ix src c)) (fun _ => by omega)
    (fun _ => le_rfl)).mono fun r hr => ⟨hr.1, fun c hc => ?_⟩
  rw [ix_range_map (m.exact val).nCells _ c hc, show (src.map val).getD c 0 = val (ix src c) from getD_val hF.zero src c, hF.vol]
  exact (hr.2 c hc).1

/-- **C81, gradient**: each component. -/
theorem C81_gradient (hF : FloatArith F val u) {m : Mesh F} (h : m.WF) (hv : ∀ c < m.nCells, val (m.vol c) ≠ 0) {φ : VolField F F} (hφ : φ.On m) {w : List F}
    (hw : w.length = m.nFaces) :
    ∃ y : List (Vec K), (∀ e junk junkV out, grad e (m.exact val) (w.map val) junk junkV (φ.exact val) out ↔ out = .ok y) ∧
      ∀ e junk junkV, (grad e m w junk junkV φ).Ok (fun r => r.length = m.nCells ∧ ∀ c < m.nCells, ∀ i : Fin 3,
        |val (vecComp i (ix r c)) - vecComp i (ix y c)| ≤ ((1 + u) ^ (m.faceCount c + 6) - 1) * (1 / |val (m.vol c)| *
          (m.exact val).faceSum (fun f => Mesh.faceSize .linear (m.exact val) (ix (w.map val)) (fun _ => 0) (φ.exact val) f * |val (vecComp i (ix m.faceAreas f))|) c)) := by
  refine ⟨_, fun e junk junkV out => C25_grad (exact_wf h) (exact_on hφ) (List.length_map val |>.trans hw) e junk junkV out, fun e junk junkV => ?_⟩
  refine (grad_approx hF h hv hφ hw e junk junkV).mono fun r hr => ⟨hr.1, fun c hc i => ?_⟩
  have hcomp : ∀ f, vecComp i (ix (m.exact val).faceAreas f) = val (vecComp i (ix m.faceAreas f)) := fun f => by
    have : ix (m.exact val).faceAreas f = vecVal val (ix m.faceAreas f) := by
      show (m.faceAreas.map (vecVal val)).getD f 0 = vecVal val (m.faceAreas.getD f 0)
      rw [show (0 : Vec K) = vecVal val 0 by simp only [vecVal, Prod.fst_zero, Prod.snd_zero, hF.zero]; rfl, List.getD_map]
    rw [this]
    fin_cases i <;> rfl
  have e1 : vecComp i (ix ((List.range (m.exact val).nCells).map ((m.exact val).gaussGrad (ix (w.map val)) (φ.exact val))) c) =
      1 / val (m.vol c) * (m.exact val).netOutflow (fun f => (m.exact val).linearFace (ix (w.map val)) (φ.exact val) f * val (vecComp i (ix m.faceAreas f))) c := by
    rw [ix_range_map (m.exact val).nCells _ c hc, Mesh.gaussGrad, hF.vol]
    have e2 := (vecCompL (K := K) i).map_smul (1 / val (m.vol c)) ((m.exact val).netOutflow (fun f => (m.exact val).linearFace (ix (w.map val)) (φ.exact val) f • ix (m.exact val).faceAreas f) c)
    refine e2.trans ?_
    rw [smul_eq_mul]
    congr 1
    rw [show (vecCompL (K := K) i).toFun ((m.exact val).netOutflow (fun f => (m.exact val).linearFace (ix (w.map val)) (φ.exact val) f • ix (m.exact val).faceAreas f) c) =
      (m.exact val).netOutflow (fun f => vecComp i ((m.exact val).linearFace (ix (w.map val)) (φ.exact val) f • ix (m.exact val).faceAreas f)) c from netOutflow_comp _ _ _ _]
    congr 1
    funext f
    rw [← hcomp]
    exact (vecCompL (K := K) i).map_smul _ _
  rw [e1]
  have := (hr.2 c hc i).1
  rw [show (ix ([] : List K)) = fun _ => 0 from funext fun i => by simp [ix]] at this
  exact this

/-- **C81, two runs**: any two runs of the divergence operator – on whatever executors, in whatever schedules – differ by at most twice that amount. -/
theorem C81_two_runs (hF : FloatArith F val u) {m : Mesh F} (h : m.WF) (hv : ∀ c < m.nCells, val (m.vol c) ≠ 0) {φ : VolField F F} (hφ : φ.On m) {w flux : List F}
    (hw : w.length = m.nFaces) (hfl : flux.length = m.nFaces) (sch : InterpScheme) {s : Coeff F} {v : Nat → K} (hs : (s.exact val).On m.nCells v)
    (src : List F) (ha : src.length = m.nCells) (e e' : ExecKind) (junk junk' : Nat → F) {r r' : List F} (hr : divExplicit e m (some sch) w junk flux φ s src (.ok r))
    (hr' : divExplicit e' m (some sch) w junk' flux φ s src (.ok r')) (c : Nat) (hc : c < m.nCells) :
    |val (ix r c) - val (ix r' c)| ≤ 2 * (((1 + u) ^ (m.faceCount c + 8) - 1) * (|val (ix src c)| + |v c| / |val (m.vol c)| *
          (m.exact val).faceSum (fun f => |ix (flux.map val) f| * Mesh.faceSize sch (m.exact val) (ix (w.map val)) (ix (flux.map val)) (φ.exact val) f) c)) := by
  obtain ⟨y, -, hy⟩ := C81_div hF h hv hφ hw hfl sch hs src ha
  obtain ⟨_, h1, -, h2⟩ := hy e junk _ hr
  obtain ⟨_, h1', -, h2'⟩ := hy e' junk' _ hr'
  cases h1
  cases h1'
  have a := h2 c hc
  have b := h2' c hc
  rw [abs_sub_comm] at b
  have := abs_sub_le (val (ix r c)) (ix y c) (val (ix r' c))
  linarith

/-- Three cells in a row, in the code's `double`. -/
def floatRow : Mesh (BinFloat 53) := row3.exact fun x => if x = 0 then 0 else 1
theorem floatRow_wf : floatRow.WF := exact_wf row3_wf
/-- One third, as `double` has it. -/
def third : BinFloat 53 := 1 / (1 + 1 + 1)
def floatRowField : VolField (BinFloat 53) (BinFloat 53) := ⟨[third, 1, third + 1], [1, third], [1, third], [1, 1], [0, 0]⟩
theorem floatRowField_on : floatRowField.On floatRow := ⟨rfl, rfl, rfl, rfl, rfl⟩
theorem floatRow_vol : ∀ c < floatRow.nCells, BinFloat.val 53 (floatRow.vol c) ≠ 0 := by
  intro c hc
  have h3 : c < 3 := hc
  have : floatRow.vol c = 1 := by
    simp only [floatRow, Mesh.vol, Mesh.exact, row3, topoMesh, List.map_replicate, List.getD_replicate _ h3]
    rfl
  rw [this]
  exact one_ne_zero

/-- The hypotheses can be met: the divergence of a field of `double`s in three cells. -/
example (e : ExecKind) : ∃ y : List ℚ, (divExplicit e floatRow (some .linear) [third, third, 1, 1] (fun _ => 0) [1, third, -1, third] floatRowField (Coeff.ofScalar third) [0, 1, 0]).Ok
    (fun r => r.length = 3 ∧ |BinFloat.val 53 (ix r 1) - ix y 1| ≤ ((1 + 1 / 2 ^ 53) ^ (floatRow.faceCount 1 + 8) - 1) *
      (|BinFloat.val 53 (ix [0, 1, 0] 1)| + |BinFloat.val 53 third| / |BinFloat.val 53 (floatRow.vol 1)| * (floatRow.exact (BinFloat.val 53)).faceSum (fun f =>
        |ix ([1, third, -1, third].map (BinFloat.val 53)) f| * Mesh.faceSize .linear (floatRow.exact (BinFloat.val 53)) (ix ([third, third, 1, 1].map (BinFloat.val 53)))
          (ix ([1, third, -1, third].map (BinFloat.val 53))) (floatRowField.exact (BinFloat.val 53)) f) 1)) := by
  obtain ⟨y, -, hy⟩ := C81_div (binFloat_arith 53) floatRow_wf floatRow_vol floatRowField_on (w := [third, third, 1, 1]) (flux := [1, third, -1, third]) rfl rfl .linear
    (s := Coeff.ofScalar third) (v := fun _ => BinFloat.val 53 third) (fun _ _ => rfl) [0, 1, 0] rfl
  exact ⟨y, (hy e _).mono fun r hr => ⟨hr.1, hr.2 1 (by decide)⟩⟩

/-- The middle cell has two faces. -/
example : floatRow.faceCount 1 = 2 := by decide

end NeoFOAM
