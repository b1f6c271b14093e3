import Verif.Spec.Geometry
import Verif.Spec.Witness
import Verif.Proofs.Elem
import Verif.Props.C26_Interpolation
import Mathlib.Tactic.Linarith
import Mathlib.Tactic.FieldSimp
import Mathlib.Tactic.NormNum
import Mathlib.Tactic.Positivity
import Mathlib.Analysis.Real.Sqrt

/-!
# C27 – weights and delta coefficients of the geometry scheme
-/
namespace NeoFOAM
variable {K : Type}

/-- Two loops that together store every element. -/
theorem splitKernel_det {α : Type} [Zero α] (e : ExecKind) (n N : Nat) (hn : n ≤ N) (b1 b2 : Nat → Res (α → α))
    (g1 g2 : Nat → α) (h1 : ∀ i < n, b1 i = .ok (fun _ => g1 i))
    (h2 : ∀ i, n ≤ i → i < N → b2 i = .ok (fun _ => g2 i)) (a : List α) (ha : a.length = N) (out : Res (List α)) :
    (do
      let x ← elemKernel e 0 n b1 a
      elemKernel e n x.length b2 x : NR (List α)) out ↔
      out = .ok ((List.range N).map fun f => if f < n then g1 f else g2 f) := by
  refine Iff.trans (NR.bind_iff (fun o => elemKernel_det e 0 n b1 (fun i _ => g1 i) a (by omega)
    (fun i _ hi => h1 i hi) o) out) ?_
  rw [elemKernel_det e n _ b2 (fun i _ => g2 i) _ le_rfl
    (fun i hi hi2 => h2 i hi (by simpa [ha] using hi2)) out]
  have : ((a.mapIdx fun i x => if 0 ≤ i ∧ i < n then g1 i else x).mapIdx fun i x =>
      if n ≤ i ∧ i < (a.mapIdx fun i x => if 0 ≤ i ∧ i < n then g1 i else x).length then g2 i else x)
      = (List.range N).map fun f => if f < n then g1 f else g2 f := by
    apply List.ext_getElem
    · simp [ha]
    · intro i hi1 hi2
      simp only [List.length_mapIdx] at hi1
      by_cases h : i < n
      · simp [h]
      · simp [h, hi1, Nat.le_of_not_lt h]
  rw [this]

section bare
variable [Add K] [Sub K] [Mul K] [Div K] [Neg K] [Zero K] [One K] [LinearOrder K]

omit [Add K] [Sub K] [Mul K] [Div K] [Neg K] [One K] [LinearOrder K] in
theorem Mesh.WF.rd_ctr {m : Mesh K} (h : m.WF) {c : Nat} (hc : c < m.nCells) :
    rd m.cellCentres c = .ok (m.ctr c) := rd_getD 0 (by rw [h.ctrLen]; exact hc)
omit [Add K] [Sub K] [Mul K] [Div K] [Neg K] [One K] [LinearOrder K] in
theorem Mesh.WF.rd_fctr {m : Mesh K} (h : m.WF) {f : Nat} (hf : f < m.nFaces) :
    rd m.faceCentres f = .ok (m.fctr f) := rd_getD 0 (by rw [h.fctrLen]; exact hf)
omit [Add K] [Sub K] [Mul K] [Div K] [Neg K] [One K] [LinearOrder K] in
theorem Mesh.WF.rd_sf {m : Mesh K} (h : m.WF) {f : Nat} (hf : f < m.nFaces) :
    rd m.faceAreas f = .ok (m.sf f) := rd_getD 0 (by rw [h.areaLen]; exact hf)

omit [Add K] [Mul K] [Div K] [Neg K] [One K] [LinearOrder K] in
theorem cellToCell_ok {m : Mesh K} (h : m.WF) {f : Nat} (hf : f < m.nInternalFaces) :
    cellToCell m f = .ok (m.span f) := by
  unfold cellToCell
  simp only [h.rd_owner_int hf, h.rd_ctr (h.own_lt_int hf), h.rd_nbr hf, h.rd_ctr (h.nbr_lt f hf), Res.ok_bind]
  simp [Mesh.span, hf]

omit [Add K] [Mul K] [Div K] [Neg K] [One K] [LinearOrder K] in
theorem cellToFace_ok {m : Mesh K} (h : m.WF) {f : Nat} (h1 : m.nInternalFaces ≤ f) (hf : f < m.nFaces) :
    cellToFace m f = .ok (m.span f) := by
  have hfaces := h.faces
  have hb : f - m.nInternalFaces < m.nBoundaryFaces := by omega
  unfold cellToFace
  simp only [h.rd_fc hb, h.rd_fctr hf, h.rd_ctr (h.fc_lt _ hb), Res.ok_bind]
  simp [Mesh.span, Nat.not_lt.2 h1]

theorem updateDeltaCoeffs_det {m : Mesh K} (h : m.WF) (e : ExecKind) (sqrt : K → K) (a : List K)
    (ha : a.length = m.nFaces) (out : Res (List K)) : updateDeltaCoeffs e m sqrt a out ↔
      out = .ok ((List.range m.nFaces).map fun f => 1 / vmag sqrt (m.span f)) := by
  have hfaces := h.faces
  refine (splitKernel_det e m.nInternalFaces m.nFaces (by omega) _ _ (fun f => 1 / vmag sqrt (m.span f))
    (fun f => 1 / vmag sqrt (m.span f)) ?_ ?_ a ha out).trans ?_
  · intro f hf; simp [deltaBody, cellToCell_ok h hf]
  · intro f h1 hf; simp [deltaBody, cellToFace_ok h h1 hf]
  · simp

end bare

section
variable [Field K] [LinearOrder K] [IsStrictOrderedRing K]

/-- Interpolation weight of an internal face (used in proofs only). -/
def Mesh.wgt (m : Mesh K) (tiny : K) (f : Nat) : K :=
  let o := |vdot (m.sf f) (m.fctr f - m.ctr (m.own f))|
  let n := |vdot (m.sf f) (m.ctr (m.nbr f) - m.fctr f)|
  if tiny < |o + n| then n / (o + n) else 1 / 2

omit [IsStrictOrderedRing K] in
theorem updateWeights_det {m : Mesh K} (h : m.WF) (e : ExecKind) (tiny : K) (a : List K) (ha : a.length = m.nFaces)
    (out : Res (List K)) : updateWeights e m tiny a out ↔
      out = .ok ((List.range m.nFaces).map fun f => if f < m.nInternalFaces then m.wgt tiny f else 1) := by
  have hfaces := h.faces
  refine splitKernel_det e m.nInternalFaces m.nFaces (by omega) _ _ (m.wgt tiny) (fun _ => 1) ?_
    (fun i _ _ => rfl) a ha out
  intro f hf
  unfold weightsBody
  simp only [h.rd_sf (show f < m.nFaces by omega), h.rd_fctr (show f < m.nFaces by omega), h.rd_owner_int hf,
    h.rd_ctr (h.own_lt_int hf), h.rd_nbr hf, h.rd_ctr (h.nbr_lt f hf), Res.ok_bind, absOf_eq, half_eq]
  rfl

/-- Non-orthogonal coefficient of a face (used in proofs only). -/
def Mesh.nonOrth (m : Mesh K) (sqrt : K → K) (f : Nat) : K :=
  1 / max (vdot ((1 / m.magFaceAreas.getD f 0) • m.sf f) (m.span f)) (5 / 100 * vmag sqrt (m.span f))

omit [IsStrictOrderedRing K] in
theorem updateNonOrth_det {m : Mesh K} (h : m.WF) (e : ExecKind) (sqrt : K → K) (a : List K)
    (ha : a.length = m.nFaces) (out : Res (List K)) : updateNonOrthDeltaCoeffs e m sqrt a out ↔
      out = .ok ((List.range m.nFaces).map (m.nonOrth sqrt)) := by
  have hfaces := h.faces
  have hmag : ∀ f < m.nFaces, rd m.magFaceAreas f = .ok (m.magFaceAreas.getD f 0) :=
    fun f hf => rd_getD 0 (by rw [h.magLen]; exact hf)
  refine Iff.trans (NR.bind_iff (fun o => elemKernel_det e 0 a.length _ (fun _ _ => 0) a le_rfl
    (fun i _ _ => rfl) o) out) ?_
  refine (splitKernel_det e m.nInternalFaces m.nFaces (by omega) _ _ (m.nonOrth sqrt) (m.nonOrth sqrt)
    ?_ ?_ _ (by simp [ha]) out).trans ?_
  · intro f hf
    simp [nonOrthBody, cellToCell_ok h hf, hmag f (by omega), h.rd_sf (show f < m.nFaces by omega), Mesh.nonOrth, twentieth_eq]
  · intro f h1 hf
    simp [nonOrthBody, cellToFace_ok h h1 hf, hmag f hf, h.rd_sf hf, Mesh.nonOrth, twentieth_eq]
  · simp

omit [IsStrictOrderedRing K] in
theorem geometryScheme_det {m : Mesh K} (h : m.WF) (e : ExecKind) (tiny : K) (sqrt : K → K) (junk : Nat → K)
    (out : Res (Geometry K)) : geometryScheme e m tiny sqrt junk out ↔ out = .ok
      ⟨(List.range m.nFaces).map fun f => if f < m.nInternalFaces then m.wgt tiny f else 1,
        (List.range m.nFaces).map fun f => 1 / vmag sqrt (m.span f),
        (List.range m.nFaces).map (m.nonOrth sqrt)⟩ := by
  unfold geometryScheme
  refine Iff.trans (NR.bind_iff (fun o => updateWeights_det h e tiny _ (by simp) o) out) ?_
  refine Iff.trans (NR.bind_iff (fun o => updateDeltaCoeffs_det h e sqrt _ (by simp) o) out) ?_
  refine Iff.trans (NR.bind_iff (fun o => updateNonOrth_det h e sqrt _ (by simp) o) out) ?_
  exact Iff.rfl

theorem normSq_nonneg (a : Vec K) : 0 ≤ normSq a := by
  unfold normSq vdot
  nlinarith [mul_self_nonneg a.1, mul_self_nonneg a.2.1, mul_self_nonneg a.2.2]

theorem normSq_pos {a : Vec K} (h : a ≠ 0) : 0 < normSq a := by
  rcases lt_or_eq_of_le (normSq_nonneg a) with h1 | h1
  · exact h1
  · exfalso
    apply h
    unfold normSq vdot at h1
    have a1 := mul_self_nonneg a.1
    have a2 := mul_self_nonneg a.2.1
    have a3 := mul_self_nonneg a.2.2
    have e1 : a.1 = 0 := mul_self_eq_zero.1 (by linarith)
    have e2 : a.2.1 = 0 := mul_self_eq_zero.1 (by linarith)
    have e3 : a.2.2 = 0 := mul_self_eq_zero.1 (by linarith)
    ext <;> simp [e1, e2, e3]

omit [IsStrictOrderedRing K] in
theorem vmag_eq (sqrt : K → K) (a : Vec K) : vmag sqrt a = sqrt (normSq a) := rfl

theorem vmag_pos {sqrt : K → K} (hs : IsSqrt sqrt) {a : Vec K} (h : a ≠ 0) : 0 < vmag sqrt a := by
  obtain ⟨h1, h2⟩ := hs _ (normSq_nonneg a)
  rw [vmag_eq]
  rcases lt_or_eq_of_le h1 with h3 | h3
  · exact h3
  · rw [← h3] at h2
    have := normSq_pos h
    simp at h2
    linarith

/-- Cauchy–Schwarz. -/
theorem vdot_sq_le (a b : Vec K) : vdot a b * vdot a b ≤ normSq a * normSq b := by
  unfold vdot normSq vdot
  nlinarith [mul_self_nonneg (a.1 * b.2.1 - a.2.1 * b.1), mul_self_nonneg (a.1 * b.2.2 - a.2.2 * b.1),
    mul_self_nonneg (a.2.1 * b.2.2 - a.2.2 * b.2.1)]

theorem vdot_le_vmag {sqrt : K → K} (hs : IsSqrt sqrt) {n d : Vec K} (hn : normSq n = 1) :
    vdot n d ≤ vmag sqrt d := by
  obtain ⟨h1, h2⟩ := hs _ (normSq_nonneg d)
  rw [← vmag_eq sqrt] at h1 h2
  have := vdot_sq_le n d
  rw [hn, one_mul, ← h2] at this
  exact abs_le_of_sq_le_sq' (by nlinarith) h1 |>.2

/-- **C27**: for every mesh with valid connectivity, whatever its geometry, the geometry scheme always returns,
on every executor and schedule, the same coefficients, one per face. Weights lie in [0,1] and are 1 on the
boundary; delta coefficients are the inverse of the distance between the two points; the non-orthogonal
coefficients are positive and at most twenty times as large, and never smaller when the stored face area is the
length of the area vector. -/
theorem C27_geometry {m : Mesh K} (h : m.WF) (e : ExecKind) (tiny : K) (ht : 0 ≤ tiny) (sqrt : K → K)
    (hs : IsSqrt sqrt) (junk : Nat → K) :
    ∃ g, (∀ out, geometryScheme e m tiny sqrt junk out ↔ out = .ok g) ∧
      g.weights.length = m.nFaces ∧ g.deltaCoeffs.length = m.nFaces ∧ g.nonOrthDeltaCoeffs.length = m.nFaces ∧
      (∀ f < m.nFaces, 0 ≤ ix g.weights f ∧ ix g.weights f ≤ 1) ∧
      (∀ f < m.nFaces, m.nInternalFaces ≤ f → ix g.weights f = 1) ∧
      ∀ f < m.nFaces, m.span f ≠ 0 →
        0 < ix g.deltaCoeffs f ∧ ix g.deltaCoeffs f * ix g.deltaCoeffs f * normSq (m.span f) = 1 ∧
        0 < ix g.nonOrthDeltaCoeffs f ∧ ix g.nonOrthDeltaCoeffs f ≤ 20 * ix g.deltaCoeffs f ∧
        (m.magFaceAreas.getD f 0 * m.magFaceAreas.getD f 0 = normSq (m.sf f) → m.sf f ≠ 0 →
          ix g.deltaCoeffs f ≤ ix g.nonOrthDeltaCoeffs f) := by
  refine ⟨_, geometryScheme_det h e tiny sqrt junk, by simp, by simp, by simp, ?_, ?_, ?_⟩
  · intro f hf
    simp only [ix]
    rw [getD_range_map _ _ _ hf]
    by_cases hi : f < m.nInternalFaces
    · simp only [hi, if_true, Mesh.wgt]
      set o := |vdot (m.sf f) (m.fctr f - m.ctr (m.own f))|
      set n := |vdot (m.sf f) (m.ctr (m.nbr f) - m.fctr f)|
      have ho : 0 ≤ o := abs_nonneg _
      have hn : 0 ≤ n := abs_nonneg _
      by_cases hc : tiny < |o + n|
      · rw [if_pos hc]
        have hpos : 0 < o + n := by
          rw [abs_of_nonneg (by linarith)] at hc; linarith
        exact ⟨div_nonneg hn hpos.le, (div_le_one hpos).2 (by linarith)⟩
      · rw [if_neg hc]; constructor <;> norm_num
    · simp [hi]
  · intro f hf hb
    simp only [ix]
    rw [getD_range_map _ _ _ hf, if_neg (by omega)]
  · intro f hf hne
    simp only [ix]
    rw [getD_range_map _ _ _ hf, getD_range_map _ _ _ hf]
    have hd := vmag_pos hs hne
    have h2 := (hs _ (normSq_nonneg (m.span f))).2
    rw [← vmag_eq sqrt] at h2
    have h20 : 0 < 5 / 100 * vmag sqrt (m.span f) := by positivity
    have hmax : 0 < max (vdot ((1 / m.magFaceAreas.getD f 0) • m.sf f) (m.span f))
        (5 / 100 * vmag sqrt (m.span f)) := lt_max_of_lt_right h20
    refine ⟨by positivity, ?_, ?_, ?_, ?_⟩
    · rw [← h2]; field_simp
    · exact one_div_pos.2 hmax
    · have : m.nonOrth sqrt f ≤ 1 / (5 / 100 * vmag sqrt (m.span f)) :=
        one_div_le_one_div_of_le h20 (le_max_right _ _)
      refine this.trans (le_of_eq ?_)
      field_simp
      norm_num
    · intro hm hsf
      have hmag : m.magFaceAreas.getD f 0 ≠ 0 := by
        intro h0
        rw [h0] at hm
        have := normSq_pos hsf
        simp at hm
        linarith
      have hn : normSq ((1 / m.magFaceAreas.getD f 0) • m.sf f) = 1 := by
        have : normSq ((1 / m.magFaceAreas.getD f 0) • m.sf f)
            = (1 / m.magFaceAreas.getD f 0) * (1 / m.magFaceAreas.getD f 0) * normSq (m.sf f) := by
          simp only [normSq, vdot, Prod.smul_fst, Prod.smul_snd, smul_eq_mul]; ring
        rw [this, ← hm]
        field_simp
      apply one_div_le_one_div_of_le hmax
      apply max_le (vdot_le_vmag hs hn)
      linarith

/-- **C27, orthogonal faces**: where the area vector points along the line between the two points, the
non-orthogonal coefficient is the plain one. -/
theorem C27_orthogonal {m : Mesh K} (h : m.WF) (e : ExecKind) (tiny : K) (sqrt : K → K)
    (hs : IsSqrt sqrt) (junk : Nat → K) (g : Geometry K)
    (hg : geometryScheme e m tiny sqrt junk (.ok g)) (f : Nat) (hf : f < m.nFaces) (hne : m.span f ≠ 0)
    (s : K) (hpos : 0 < s) (hsf : m.sf f = s • m.span f)
    (hmag : 0 ≤ m.magFaceAreas.getD f 0)
    (hm : m.magFaceAreas.getD f 0 * m.magFaceAreas.getD f 0 = normSq (m.sf f)) :
    ix g.nonOrthDeltaCoeffs f = ix g.deltaCoeffs f := by
  rw [geometryScheme_det h] at hg
  cases hg
  simp only [ix]
  rw [getD_range_map _ _ _ hf, getD_range_map _ _ _ hf]
  unfold Mesh.nonOrth
  have hd := vmag_pos hs hne
  have h2 := (hs _ (normSq_nonneg (m.span f))).2
  rw [← vmag_eq sqrt] at h2
  have hA : m.magFaceAreas.getD f 0 = s * vmag sqrt (m.span f) := by
    have e1 : normSq (m.sf f) = (s * vmag sqrt (m.span f)) * (s * vmag sqrt (m.span f)) := by
      rw [hsf]
      have : normSq (s • m.span f) = s * s * normSq (m.span f) := by
        simp only [normSq, vdot, Prod.smul_fst, Prod.smul_snd, smul_eq_mul]; ring
      rw [this, ← h2]; ring
    rw [e1] at hm
    exact (mul_self_inj hmag (by positivity)).1 hm
  have hdot : vdot ((1 / m.magFaceAreas.getD f 0) • m.sf f) (m.span f) = vmag sqrt (m.span f) := by
    rw [hA, hsf]
    have : vdot ((1 / (s * vmag sqrt (m.span f))) • s • m.span f) (m.span f)
        = (1 / (s * vmag sqrt (m.span f))) * s * normSq (m.span f) := by
      simp only [normSq, vdot, Prod.smul_fst, Prod.smul_snd, smul_eq_mul]; ring
    rw [this, ← h2]
    field_simp
  rw [hdot, max_eq_left (by linarith)]

/-- **C27, direction of the weights**: where the face lies between the two cell centres (seen along its area
vector), the weights reproduce the position of the face: linear interpolation of the cell centres gives the
face centre in the direction of the area vector. -/
theorem C27_linear {m : Mesh K} (h : m.WF) (e : ExecKind) (tiny : K) (sqrt : K → K) (junk : Nat → K)
    (ht : 0 ≤ tiny) (g : Geometry K) (hg : geometryScheme e m tiny sqrt junk (.ok g)) (f : Nat) (hf : f < m.nInternalFaces)
    (h1 : 0 ≤ vdot (m.sf f) (m.fctr f - m.ctr (m.own f)))
    (h2 : 0 ≤ vdot (m.sf f) (m.ctr (m.nbr f) - m.fctr f))
    (h3 : tiny < vdot (m.sf f) (m.span f)) :
    ix g.weights f * vdot (m.sf f) (m.ctr (m.own f)) + (1 - ix g.weights f) * vdot (m.sf f) (m.ctr (m.nbr f))
      = vdot (m.sf f) (m.fctr f) := by
  have hfaces := h.faces
  rw [geometryScheme_det h] at hg
  cases hg
  simp only [ix]
  rw [getD_range_map _ _ _ (show f < m.nFaces by omega), if_pos hf]
  unfold Mesh.wgt
  rw [abs_of_nonneg h1, abs_of_nonneg h2]
  have hsub : ∀ a b : Vec K, vdot (m.sf f) (a - b) = vdot (m.sf f) a - vdot (m.sf f) b := by
    intro a b; simp only [vdot, Prod.fst_sub, Prod.snd_sub]; ring
  have hspan : m.span f = m.ctr (m.nbr f) - m.ctr (m.own f) := by simp [Mesh.span, hf]
  rw [hspan, hsub] at h3
  simp only [hsub] at *
  set o := vdot (m.sf f) (m.ctr (m.own f))
  set n := vdot (m.sf f) (m.ctr (m.nbr f))
  set c := vdot (m.sf f) (m.fctr f)
  have hsum : c - o + (n - c) = n - o := by ring
  rw [hsum, abs_of_nonneg (by linarith), if_pos h3]
  have : n - o ≠ 0 := by intro h0; linarith
  field_simp
  ring

/-- **C27 and C26**: linear interpolation with the weights of the geometry scheme stays between the two cell
values, on every mesh. -/
theorem C27_interpolation {m : Mesh K} (h : m.WF) (e : ExecKind) (tiny : K) (ht : 0 ≤ tiny) (sqrt : K → K)
    (hs : IsSqrt sqrt) (junk : Nat → K) (g : Geometry K) (hg : geometryScheme e m tiny sqrt junk (.ok g))
    (φ : VolField K K) (f : Nat) (hf : f < m.nInternalFaces) :
    min (φ.cell (m.own f)) (φ.cell (m.nbr f)) ≤ m.linearFace (ix g.weights) φ f ∧
      m.linearFace (ix g.weights) φ f ≤ max (φ.cell (m.own f)) (φ.cell (m.nbr f)) := by
  have hfaces := h.faces
  obtain ⟨g', hd, -, -, -, hw, -⟩ := C27_geometry h e tiny ht sqrt hs junk
  cases (hd _).1 hg
  obtain ⟨h0, h1⟩ := hw f (by omega)
  simp only [Mesh.linearFace, hf, if_true, smul_eq_mul]
  have a1 := min_le_left (φ.cell (m.own f)) (φ.cell (m.nbr f))
  have a2 := min_le_right (φ.cell (m.own f)) (φ.cell (m.nbr f))
  have b1 := le_max_left (φ.cell (m.own f)) (φ.cell (m.nbr f))
  have b2 := le_max_right (φ.cell (m.own f)) (φ.cell (m.nbr f))
  constructor <;> nlinarith

end

/-! ### Concrete cases -/

/-- Over the real numbers the usual square root meets the hypothesis. -/
theorem isSqrt_real : IsSqrt Real.sqrt := fun x hx => ⟨Real.sqrt_nonneg x, Real.mul_self_sqrt hx⟩

/-- A real mesh of two unit cells in a row with one internal face. -/
noncomputable def twoCells : Mesh ℝ where
  points := []
  cellVolumes := [1, 1]
  cellCentres := [(0, 0, 0), (1, 0, 0)]
  faceAreas := [(1, 0, 0), (-1, 0, 0)]
  faceCentres := [(1/4, 0, 0), (-1, 0, 0)]
  magFaceAreas := [1, 1]
  owner := [0, 0]
  neighbour := [1]
  nCells := 2
  nInternalFaces := 1
  nBoundaryFaces := 1
  nBoundaries := 1
  nFaces := 2
  bnd := {
    faceCells := [0]
    cf := [(-1, 0, 0)]
    cn := [(0, 0, 0)]
    sf := [(-1, 0, 0)]
    magSf := [1]
    nf := [(-1, 0, 0)]
    delta := [(-1, 0, 0)]
    weights := [1]
    deltaCoeffs := [1]
    offset := [0, 1] }

theorem twoCells_wf : twoCells.WF := by
  constructor <;> first | rfl | (intro f hf; have : f = 0 ∨ f = 1 := by simp [twoCells] at hf; omega
                                 rcases this with rfl | rfl <;> simp_all [twoCells, Mesh.own, Mesh.nbr, Mesh.fc])

/-- The hypotheses of the theorems above hold on that mesh, and its weight is 3/4. -/
example : twoCells.WF ∧ twoCells.span 0 ≠ 0 ∧ twoCells.span 1 ≠ 0 ∧
    twoCells.sf 0 = (1 : ℝ) • twoCells.span 0 ∧ twoCells.wgt (1/1000) 0 = 3/4 := by
  refine ⟨twoCells_wf, ?_, ?_, ?_, ?_⟩
  · simp [Mesh.span, twoCells, Mesh.ctr, Mesh.own, Mesh.nbr]
  · simp [Mesh.span, twoCells, Mesh.ctr, Mesh.fc, Mesh.fctr]
  · simp [Mesh.span, twoCells, Mesh.ctr, Mesh.own, Mesh.nbr, Mesh.sf]
  · simp [Mesh.wgt, twoCells, Mesh.ctr, Mesh.own, Mesh.nbr, Mesh.sf, Mesh.fctr, vdot]
    norm_num [abs_of_nonneg]

end NeoFOAM
