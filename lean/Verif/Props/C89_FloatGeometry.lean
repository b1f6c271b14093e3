import Verif.Proofs.FloatGeometry
import Verif.Proofs.BinFloatRoot
import Verif.Props.C83_FloatTransport

/-!
# C89, C90 – the geometry scheme and the Courant number in floating point
-/
namespace NeoFOAM
open Finset
variable {F K : Type}

section
variable [Add F] [Sub F] [Mul F] [Div F] [Neg F] [Zero F] [One F] [LinearOrder F] [Field K] [LinearOrder K] [IsStrictOrderedRing K]
variable {val : F → K} {u : K}

theorem FloatArith.val_max (hF : FloatArith F val u) (a b : F) : val (max a b) = max (val a) (val b) := by
  rcases le_total a b with h | h
  · rw [max_eq_right h, max_eq_right ((hF.le a b).1 h)]
  · rw [max_eq_left h, max_eq_left ((hF.le b a).1 h)]

/-- The cap of the non-orthogonal coefficient. -/
theorem cap_near (hF : FloatArith F val u) (hu : u < 1) {root : F → F} (hr : FloatRoot val u root) (m : Mesh F) (f : Nat) :
    RelNear u 23 (val (twentieth * vmag root (m.span f)) * val (twentieth * vmag root (m.span f))) (normSq ((m.exact val).span f) / 400) := by
  have hu0 := hF.roundoff
  obtain ⟨h1, _⟩ := vmag_near hF hu hr m f
  have h2 := hF.near_twentieth hu
  have h3 : RelNear u 21 ((val (twentieth : F) * val (vmag root (m.span f))) * (val (twentieth : F) * val (vmag root (m.span f)))) (normSq ((m.exact val).span f) / 400) := by
    have := (h2.times hu h2).times hu h1
    rw [show (1 / 20 * (1 / 20) * normSq ((m.exact val).span f) : K) = normSq ((m.exact val).span f) / 400 by ring] at this
    refine ⟨this.1, this.2.1.trans (le_of_eq (by ring)), le_trans (le_of_eq (by ring)) this.2.2⟩
  have h4 := RelNear.ofSq hu0 hu (hF.mul (twentieth : F) (vmag root (m.span f)))
  have hp := pow_u_pos hu 2
  have hq := pow_u_pos hu 21
  refine ⟨h3.1, ?_, ?_⟩
  · calc _ = normSq ((m.exact val).span f) / 400 * (1 - u) ^ 21 * (1 - u) ^ 2 := by ring
      _ ≤ _ := (mul_le_mul_of_nonneg_right h3.2.1 hp.le).trans h4.2.1
  · calc _ = val (twentieth * vmag root (m.span f)) * val (twentieth * vmag root (m.span f)) * (1 - u) ^ 2 * (1 - u) ^ 21 := by ring
      _ ≤ _ := (mul_le_mul_of_nonneg_right h4.2.2 hq.le).trans h3.2.2

/-- **C89**: the geometry scheme in floating point with faithful rounding, for every mesh with valid connectivity, whatever its geometry: on every executor
and schedule it returns the same coefficients, one per face. The weights lie between 0 and 1, exactly, and are exactly 1 on the boundary. Where the two
points of a face differ, the delta coefficient is positive and its square is that of the inverse distance up to 9 roundings; the non-orthogonal
coefficient is positive and at most twenty times the inverse distance up to 13 roundings (25 for the squares). -/
theorem C89_geometry (hF : FloatArith F val u) (hR : Faithful F val) (hu : u < 1) {root : F → F} (hr : FloatRoot val u root) {m : Mesh F} (h : m.WF)
    (tiny : F) (ht : 0 ≤ val tiny) :
    ∃ g, (∀ (e : ExecKind) (junk : Nat → F) out, geometryScheme e m tiny root junk out ↔ out = .ok g) ∧
      g.weights.length = m.nFaces ∧ g.deltaCoeffs.length = m.nFaces ∧ g.nonOrthDeltaCoeffs.length = m.nFaces ∧
      (∀ f < m.nFaces, 0 ≤ val (ix g.weights f) ∧ val (ix g.weights f) ≤ 1) ∧
      (∀ f < m.nFaces, m.nInternalFaces ≤ f → val (ix g.weights f) = 1) ∧
      ∀ f < m.nFaces, (m.exact val).span f ≠ 0 →
        0 < val (ix g.deltaCoeffs f) ∧ RelNear u 9 (val (ix g.deltaCoeffs f) * val (ix g.deltaCoeffs f)) (1 / normSq ((m.exact val).span f)) ∧
        0 < val (ix g.nonOrthDeltaCoeffs f) ∧
        val (ix g.nonOrthDeltaCoeffs f) * val (ix g.nonOrthDeltaCoeffs f) * normSq ((m.exact val).span f) * (1 - u) ^ 25 ≤ 400 := by
  have hu0 := hF.roundoff
  refine ⟨_, fun e junk => geometryScheme_detF h e tiny root junk, by simp, by simp, by simp, ?_, ?_, ?_⟩
  · intro f hf
    simp only [ix]
    rw [getD_range_map _ _ _ hf]
    by_cases hi : f < m.nInternalFaces
    · rw [if_pos hi]; exact wgtF_bounds hF hR ht f
    · rw [if_neg hi, hF.one]; exact ⟨zero_le_one, le_rfl⟩
  · intro f hf hb
    simp only [ix]
    rw [getD_range_map _ _ _ hf, if_neg (by omega), hF.one]
  · intro f hf hne
    simp only [ix]
    rw [getD_range_map _ _ _ hf, getD_range_map _ _ _ hf]
    have hd := normSq_pos hne
    obtain ⟨h1, h0⟩ := vmag_near hF hu hr m f
    set r := vmag root (m.span f) with hrdef
    have hrpos : 0 < val r := by
      have := h1.pos hu hd
      rcases h0.eq_or_lt with hz | hz
      · rw [← hz] at this; simp at this
      · exact hz
    have hdiv := hF.div 1 r hrpos.ne'
    rw [hF.one] at hdiv
    have hsq := RelNear.ofSq hu0 hu hdiv
    have hinv := h1.inv hu hd
    have hcap := cap_near hF hu hr m f
    rw [← hrdef] at hcap
    have hcpos : 0 < val (twentieth * r) := by
      have := (RelNear.times hu (hF.near_twentieth hu) (RelNear.refl hu0 hu 0 h0)).round hu0 hu (hF.mul _ _)
      exact this.pos hu (by positivity)
    have hq : val (twentieth * r) ≤ val (max (vdot ((1 / m.magFaceAreas.getD f 0) • m.sf f) (m.span f)) (twentieth * r)) := by
      rw [hF.val_max]; exact le_max_right _ _
    have hpos : ∀ q : F, 0 < val q → 0 < val (1 / q) := fun q hq =>
      (hF.near_inv hu (RelNear.refl hu0 hu 0 hq.le) hq).pos hu (by positivity)
    refine ⟨hpos r hrpos, ?_, hpos _ (hcpos.trans_le hq), ?_⟩
    · have hp := pow_u_pos hu 2
      have hp7 := pow_u_pos hu 7
      have e1 : 1 / val r * (1 / val r) = 1 / (val r * val r) := by rw [one_div_mul_one_div]
      rw [e1] at hsq
      refine ⟨hinv.1, ?_, ?_⟩
      · calc _ = 1 / normSq ((m.exact val).span f) * (1 - u) ^ 7 * (1 - u) ^ 2 := by ring
          _ ≤ _ := (mul_le_mul_of_nonneg_right hinv.2.1 hp.le).trans hsq.2.1
      · calc _ = val (1 / r) * val (1 / r) * (1 - u) ^ 2 * (1 - u) ^ 7 := by ring
          _ ≤ _ := (mul_le_mul_of_nonneg_right hsq.2.2 hp7.le).trans hinv.2.2
    · unfold Mesh.nonOrthF
      rw [← hrdef]
      set q := max (vdot ((1 / m.magFaceAreas.getD f 0) • m.sf f) (m.span f)) (twentieth * r)
      have hqpos := hcpos.trans_le hq
      have hdq := hF.div 1 q hqpos.ne'
      rw [hF.one] at hdq
      have hs := (RelNear.ofSq hu0 hu hdq).2.2
      have hle : normSq ((m.exact val).span f) * (1 - u) ^ 23 ≤ 400 * (val q * val q) := by
        have h5 := hcap.2.1
        have h6 : val (twentieth * r) * val (twentieth * r) ≤ val q * val q := mul_le_mul hq hq hcpos.le hqpos.le
        rw [div_mul_eq_mul_div, div_le_iff₀ (by norm_num)] at h5
        linarith
      have h7 : 0 ≤ normSq ((m.exact val).span f) * (1 - u) ^ 23 := mul_nonneg hd.le (pow_u_pos hu 23).le
      calc _ = val (1 / q) * val (1 / q) * (1 - u) ^ 2 * (normSq ((m.exact val).span f) * (1 - u) ^ 23) := by ring
        _ ≤ 1 / val q * (1 / val q) * (400 * (val q * val q)) := mul_le_mul hs hle h7 (by positivity)
        _ = 400 := by field_simp

/-! ### The non-orthogonal coefficient from below -/

theorem abs_dot_sq_le (a b : Vec K) :
    (|a.1| * |b.1| + |a.2.1| * |b.2.1| + |a.2.2| * |b.2.2|) * (|a.1| * |b.1| + |a.2.1| * |b.2.1| + |a.2.2| * |b.2.2|) ≤ normSq a * normSq b := by
  have := vdot_sq_le ((|a.1|, |a.2.1|, |a.2.2|) : Vec K) (|b.1|, |b.2.1|, |b.2.2|)
  simpa [vdot, normSq, abs_mul_abs_self] using this

/-- **C89, the other direction**: where the stored face area is the length of the area vector (up to `j` roundings of the squares), the non-orthogonal
coefficient is not smaller than the inverse distance, up to roundings. -/
theorem C89_nonOrthogonal (hF : FloatArith F val u) (hu : u < 1) {root : F → F} (hr : FloatRoot val u root) {m : Mesh F} (h : m.WF)
    (e : ExecKind) (tiny : F) (junk : Nat → F) (g : Geometry F) (hg : geometryScheme e m tiny root junk (.ok g)) (f : Nat) (hf : f < m.nFaces)
    (hne : (m.exact val).span f ≠ 0) (j : Nat) (hsf : (m.exact val).sf f ≠ 0)
    (hmag : RelNear u j (val (ix m.magFaceAreas f) * val (ix m.magFaceAreas f)) (normSq ((m.exact val).sf f))) :
    (1 - u) ^ (25 + j) ≤ val (ix g.nonOrthDeltaCoeffs f) * val (ix g.nonOrthDeltaCoeffs f) * normSq ((m.exact val).span f) := by
  have hu0 := hF.roundoff
  rw [geometryScheme_detF h] at hg
  cases hg
  simp only [ix]
  rw [getD_range_map _ _ _ hf]
  simp only [ix] at hmag
  unfold Mesh.nonOrthF
  set A := m.magFaceAreas.getD f 0 with hA
  set r := vmag root (m.span f) with hrdef
  have hd := normSq_pos hne
  have hs := normSq_pos hsf
  set D := normSq ((m.exact val).span f) with hD
  have hA2 := hmag.pos hu hs
  have hA0 : val A ≠ 0 := by rintro hz; rw [hz] at hA2; simp at hA2
  -- the cap
  have hcap := cap_near hF hu hr m f
  rw [← hrdef, ← hD] at hcap
  obtain ⟨_, h0⟩ := vmag_near hF hu hr m f
  rw [← hrdef] at h0
  have hrpos : 0 < val r := by
    have := (vmag_near hF hu hr m f).1.pos hu hd
    rw [← hrdef] at this
    rcases h0.eq_or_lt with hz | hz
    · rw [← hz] at this; simp at this
    · exact hz
  have hcpos : 0 < val (twentieth * r) := by
    have := (RelNear.times hu (hF.near_twentieth hu) (RelNear.refl hu0 hu 0 h0)).round hu0 hu (hF.mul _ _)
    exact this.pos hu (by positivity)
  -- the projection
  obtain ⟨s1, s2, s3⟩ := span_near hF m f
  have esf : (m.exact val).sf f = vecVal val (m.sf f) := vecVal_getD hF.zero _ _
  have a0 : Approx u 1 (val (1 / A)) (1 / val A) (1 / |val A|) := by
    have := hF.approx_div (hF.approx 0 1) hA0
    rwa [hF.one, abs_one] at this
  have comp : ∀ (s d : F) (x : K), |val d - x| ≤ u * |x| → Approx u 4 (val (1 / A * s * d)) (1 / val A * val s * x) (1 / |val A| * |val s| * |x|) := by
    intro s d x hx
    exact hF.approx_mul (hF.approx_mul a0 (hF.approx 0 s)) ((Approx.exact hu0 0 x).round hu0 hx)
  have t := hF.approx_add (hF.approx_add (comp (m.sf f).1 _ _ s1) (comp (m.sf f).2.1 _ _ s2) le_rfl le_rfl) (comp (m.sf f).2.2 _ _ s3) le_rfl (by omega)
  have habs := t.abs_le
  set v := vdot ((1 / A) • m.sf f) (m.span f) with hv
  have hvle : |val v| ≤ (1 + u) ^ 6 * (1 / |val A| * |val (m.sf f).1| * |((m.exact val).span f).1| + 1 / |val A| * |val (m.sf f).2.1| * |((m.exact val).span f).2.1| +
      1 / |val A| * |val (m.sf f).2.2| * |((m.exact val).span f).2.2|) := habs
  set T := |val (m.sf f).1| * |((m.exact val).span f).1| + |val (m.sf f).2.1| * |((m.exact val).span f).2.1| + |val (m.sf f).2.2| * |((m.exact val).span f).2.2| with hT
  have hTT : T * T ≤ normSq ((m.exact val).sf f) * D := by
    have := abs_dot_sq_le ((m.exact val).sf f) ((m.exact val).span f)
    rw [esf] at this ⊢
    exact this
  have hT0 : 0 ≤ T := by positivity
  have hvle2 : |val v| * |val A| ≤ (1 + u) ^ 6 * T := by
    have hAp := abs_pos.2 hA0
    have := mul_le_mul_of_nonneg_right hvle hAp.le
    refine this.trans (le_of_eq ?_)
    rw [hT]; field_simp
  have hone : (1 + u) ^ 6 * (1 - u) ^ 6 ≤ 1 := by
    rw [← mul_pow]; exact pow_le_one₀ (by nlinarith) (by nlinarith)
  have hvT : |val v| * |val A| * (1 - u) ^ 6 ≤ T := by
    have h6 := pow_u_pos hu 6
    calc _ ≤ (1 + u) ^ 6 * T * (1 - u) ^ 6 := mul_le_mul_of_nonneg_right hvle2 h6.le
      _ = (1 + u) ^ 6 * (1 - u) ^ 6 * T := by ring
      _ ≤ 1 * T := mul_le_mul_of_nonneg_right hone hT0
      _ = T := one_mul T
  have hv2 : val v * val v * (1 - u) ^ (12 + j) ≤ D := by
    have h6 := pow_u_pos hu 6
    have hj := pow_u_pos hu j
    have h1 : (|val v| * |val A| * (1 - u) ^ 6) * (|val v| * |val A| * (1 - u) ^ 6) ≤ T * T := mul_le_mul hvT hvT (by positivity) hT0
    have h2 : val v * val v * (1 - u) ^ 12 * (val A * val A) ≤ normSq ((m.exact val).sf f) * D := by
      refine le_trans (le_of_eq ?_) (h1.trans hTT)
      rw [← abs_mul_abs_self (val v), ← abs_mul_abs_self (val A)]; ring
    have h3 := hmag.2.1
    have h4 : val v * val v * (1 - u) ^ 12 * (normSq ((m.exact val).sf f) * (1 - u) ^ j) ≤ normSq ((m.exact val).sf f) * D :=
      (mul_le_mul_of_nonneg_left h3 (mul_nonneg (mul_self_nonneg _) (pow_u_pos hu 12).le)).trans h2
    have h5 : normSq ((m.exact val).sf f) * (val v * val v * (1 - u) ^ (12 + j)) ≤ normSq ((m.exact val).sf f) * D := by
      refine le_trans (le_of_eq ?_) h4; ring
    exact le_of_mul_le_mul_left h5 hs
  -- the larger of the two
  set q := max v (twentieth * r) with hq
  have hqv : val q = max (val v) (val (twentieth * r)) := hF.val_max _ _
  have hqpos : 0 < val q := by rw [hqv]; exact lt_max_of_lt_right hcpos
  have hq2 : val q * val q * (1 - u) ^ (23 + j) ≤ D := by
    have hqq := mul_self_nonneg (val q)
    rcases max_choice (val v) (val (twentieth * r)) with hc | hc
    · rw [hqv, hc]
      exact (mul_le_mul_of_nonneg_left (pow_u_le hu0 hu (by omega)) (mul_self_nonneg _)).trans hv2
    · rw [hqv, hc]
      refine (mul_le_mul_of_nonneg_left (pow_u_le hu0 hu (show 23 ≤ 23 + j by omega)) (mul_self_nonneg _)).trans (hcap.2.2.trans ?_)
      linarith
  have hdq := hF.div 1 q hqpos.ne'
  rw [hF.one] at hdq
  have hs' := (RelNear.ofSq hu0 hu hdq).2.1
  have hq0 : 0 < val q * val q := mul_pos hqpos hqpos
  calc (1 - u) ^ (25 + j) = 1 / val q * (1 / val q) * (1 - u) ^ 2 * (val q * val q * (1 - u) ^ (23 + j)) := by field_simp; ring
    _ ≤ val (1 / q) * val (1 / q) * D := mul_le_mul hs' hq2 (mul_nonneg hq0.le (pow_u_pos hu _).le) (mul_self_nonneg _)

/-! ### The Courant number -/

/-- **C90**: the Courant number in floating point: for every valid mesh with positive volumes and at least one cell, none with more than `N` faces, every
face flux and time step, on every executor and in whatever order the threads add, `computeCoNum` returns, and the number it returns is half the time step
times the maximum over the cells of the summed flux magnitudes over the volume, up to `N + 7` roundings. -/
theorem C90_courant (hF : FloatArith F val u) (hu : u < 1) {root : F → F} (hr : FloatRoot val u root) {m : Mesh F} (h : m.WF)
    (hv : ∀ c < m.nCells, 0 < val (m.vol c)) (hn : 0 < m.nCells) (N : Nat) (hN : ∀ c < m.nCells, m.faceCount c ≤ N) (lowest : F) (hlow : val lowest ≤ 0)
    {flux : List F} (hfl : flux.length = m.nFaces) (dt : F) (hdt : 0 ≤ val dt) :
    ∃ M, IsGreatest {x | ∃ c < m.nCells, x = (m.exact val).absFlux (ix (flux.map val)) c / (m.exact val).vol c} M ∧
      ∀ e : ExecKind, (∃ out, computeCoNum e m root lowest flux dt out) ∧
        (computeCoNum e m root lowest flux dt).Ok (fun r => RelNear u (N + 7) (val r.1) (1 / 2 * val dt * M)) := by
  have hu0 := hF.roundoff
  have hvol : ∀ c, (m.exact val).vol c = val (m.vol c) := fun c => getD_val hF.zero _ _
  set x : Nat → K := fun c => (m.exact val).absFlux (ix (flux.map val)) c / (m.exact val).vol c with hx
  obtain ⟨c0, hc0, hmax⟩ := Finset.exists_max_image (range m.nCells) x ⟨0, by simpa using hn⟩
  rw [mem_range] at hc0
  refine ⟨x c0, ⟨⟨c0, hc0, rfl⟩, ?_⟩, fun e => ?_⟩
  · rintro y ⟨c, hc, rfl⟩
    exact hmax c (by simpa using hc)
  have hrdv : ∀ c < m.nCells, rd m.cellVolumes c = .ok (m.vol c) := fun c hc => rd_getD 0 (by rw [h.volLen]; exact hc)
  have hruns : (computeCoNum e m root lowest flux dt).Runs := by
    have hred : ∀ (kernel : Nat → Res (F → F)) (join : F → F → F) (i v : F), (reduceKernel e kernel join i 0 m.nCells v).Runs := by
      intro kernel join i v
      refine NR.Runs.bind (NR.Runs.lift _) fun fs _ => ?_
      obtain ⟨w, hw⟩ := parallelReduce_exists e (fun i acc => fs.getD (i - 0) id acc) join i m.nCells v
      exact ⟨_, w, hw, rfl⟩
    unfold computeCoNum
    exact NR.Runs.bind (launch1_runs _ _ _ _ _) fun _ _ => NR.Runs.bind (launch1_runs _ _ _ _ _) fun _ _ => NR.Runs.bind (hred _ _ _ _) fun _ _ =>
      NR.Runs.bind (hred _ _ _ _) fun _ _ => NR.Runs.bind (hred _ _ _ _) fun _ _ => NR.Runs.pure _
  refine ⟨hruns, ?_⟩
  have hassoc : computeCoNum e m root lowest flux dt = ((do
        let phi ← launch1 e 0 m.nInternalFaces (coInternal m root flux) (List.replicate m.nCells 0)
        launch1 e m.nInternalFaces flux.length (coBoundary m root flux) phi : NR (List F)) >>= fun phi => do
      let mx ← reduceKernel e (coMaxBody phi m.cellVolumes) max lowest 0 m.nCells 0
      let sp ← reduceKernel e (coSumBody phi) (· + ·) 0 0 m.nCells 0
      let sv ← reduceKernel e (coSumBody m.cellVolumes) (· + ·) 0 0 m.nCells 0
      return (mx * half * dt, half * (sp / sv) * dt)) := by
    rw [NR.bind_assoc']; rfl
  rw [hassoc]
  refine NR.Ok.bind (coPhi_near hF hu hr h e hfl) ?_
  rintro phi ⟨hl, hphi⟩
  have hrdp : ∀ c < m.nCells, rd phi c = .ok (ix phi c) := fun c hc => rd_getD 0 (by omega)
  have hq : ∀ c < m.nCells, RelNear u (N + 3) (val (ix phi c / m.vol c)) (x c) := by
    intro c hc
    have h1 := hphi c hc
    have hpos := hv c hc
    have h2 : RelNear u (2 + m.faceCount c) (val (ix phi c) / val (m.vol c)) (x c) := by
      rw [hx]; simp only []
      rw [hvol, div_eq_mul_inv, div_eq_mul_inv]
      have hi : 0 ≤ (val (m.vol c))⁻¹ := by positivity
      exact ⟨mul_nonneg h1.1 hi, by nlinarith [mul_le_mul_of_nonneg_right h1.2.1 hi], by nlinarith [mul_le_mul_of_nonneg_right h1.2.2 hi]⟩
    exact (h2.round hu0 hu (hF.div _ _ hpos.ne')).mono hu0 hu (by have := hN c hc; omega)
  have hmx : (reduceKernel e (coMaxBody phi m.cellVolumes) max lowest 0 m.nCells 0).Ok (fun v => RelNear u (N + 3) (val v) (x c0)) := by
    intro o ho
    rw [reduceKernel_iff e _ (fun c lmax => if lmax < ix phi c / m.vol c then ix phi c / m.vol c else lmax) max lowest m.nCells 0
      (fun c hc => by simp [coMaxBody, hrdp c hc, hrdv c hc]) o] at ho
    obtain ⟨v, hv', rfl⟩ := ho
    refine ⟨v, rfl, ?_⟩
    have hle := reduceMax_le e (fun c => ix phi c / m.vol c) lowest 0 m.nCells v hv'
    obtain ⟨c1, hc1, hmax1⟩ := Finset.exists_max_image (range m.nCells) (fun c => val (ix phi c / m.vol c)) ⟨0, by simpa using hn⟩
    rw [mem_range] at hc1
    have h1 : v ≤ ix phi c1 / m.vol c1 := by
      rw [hle]
      refine ⟨?_, fun c hc => (hF.le _ _).2 (hmax1 c (by simpa using hc))⟩
      have h0 := (hq c1 hc1).nonneg hu
      rw [hF.le]
      split
      · rw [hF.zero]; exact h0
      · exact hlow.trans h0
    have h2 : ix phi c0 / m.vol c0 ≤ v := ((hle v).1 le_rfl).2 c0 hc0
    rw [hF.le] at h1 h2
    have hp := pow_u_pos hu (N + 3)
    refine ⟨(hq c0 hc0).1, (hq c0 hc0).2.1.trans h2, ?_⟩
    exact (mul_le_mul_of_nonneg_right h1 hp.le).trans ((hq c1 hc1).2.2.trans (hmax c1 (by simpa using hc1)))
  refine NR.Ok.bind hmx fun v hv' => ?_
  have hred : ∀ (a : List F), a.length = m.nCells → (reduceKernel e (coSumBody a) (· + ·) 0 0 m.nCells 0).Ok (fun _ => True) := by
    intro a ha o ho
    rw [reduceKernel_iff e _ (fun c lsum => lsum + ix a c) (· + ·) 0 m.nCells 0
      (fun c hc => by simp [coSumBody, show rd a c = .ok (ix a c) from rd_getD 0 (by omega)]) o] at ho
    obtain ⟨w, _, rfl⟩ := ho
    exact ⟨w, rfl, trivial⟩
  refine NR.Ok.bind (hred phi hl) fun sp _ => NR.Ok.bind (hred m.cellVolumes h.volLen) fun sv _ => NR.Ok.pure ?_
  have h1 := hF.near_mul hu (hF.near_mul hu hv' (hF.near_half hu)) (RelNear.refl hu0 hu 0 hdt)
  rw [show x c0 * (1 / 2) * val dt = 1 / 2 * val dt * x c0 by ring] at h1
  exact h1.mono hu0 hu (by omega)

/-- **C90, using the computed number**: a time step whose computed Courant number is at most `(1 - u)^(N+7)` has an exact Courant number of at most
1 in every cell, which is what the bounds on explicit transport (C42, C83) ask for. -/
theorem C90_limit (hF : FloatArith F val u) (hu : u < 1) {root : F → F} (hr : FloatRoot val u root) {m : Mesh F} (h : m.WF)
    (hv : ∀ c < m.nCells, 0 < val (m.vol c)) (N : Nat) (hN : ∀ c < m.nCells, m.faceCount c ≤ N) (lowest : F) (hlow : val lowest ≤ 0)
    {flux : List F} (hfl : flux.length = m.nFaces) (dt : F) (hdt : 0 ≤ val dt) (e : ExecKind) (r : F × F) (hrun : computeCoNum e m root lowest flux dt (.ok r))
    (hco : val r.1 ≤ (1 - u) ^ (N + 7)) : SmallCourant (m.exact val) (ix (flux.map val)) (val dt) := by
  intro c hc
  have hc : c < m.nCells := hc
  obtain ⟨M, hM, hall⟩ := C90_courant hF hu hr h hv (by omega) N hN lowest hlow hfl dt hdt
  obtain ⟨r', hr', hnear⟩ := (hall e).2 _ hrun
  cases hr'
  have hp := pow_u_pos hu (N + 7)
  have h1 : 1 / 2 * val dt * M ≤ 1 := by
    have := hnear.2.1.trans hco
    exact le_of_mul_le_mul_right (by linarith) hp
  refine le_trans (mul_le_mul_of_nonneg_left (hM.2 ⟨c, hc, rfl⟩) (by positivity)) h1

end

/-! ### Three cells of `double`s -/

/-- The hypotheses of C89 and C90 can be met: `double`s with round-to-nearest and a rounded root; the three cells of `floatRow` with their centres at 0, 1 and 3. -/
def floatLine : Mesh (BinFloat 53) :=
  { floatRow with
    cellCentres := [0, (1, 0, 0), (1 + 1 + 1, 0, 0)]
    faceAreas := [(1, 0, 0), (1, 0, 0), (-1, 0, 0), (1, 0, 0)]
    faceCentres := [(third, 0, 0), (1 + 1, 0, 0), (-third, 0, 0), (1 + 1 + 1 + third, 0, 0)] }
theorem floatLine_wf : floatLine.WF where
  faces := floatRow_wf.faces
  ownLen := floatRow_wf.ownLen
  nbrLen := floatRow_wf.nbrLen
  fcLen := floatRow_wf.fcLen
  volLen := floatRow_wf.volLen
  ctrLen := rfl
  areaLen := rfl
  fctrLen := rfl
  magLen := floatRow_wf.magLen
  bcfLen := floatRow_wf.bcfLen
  bsfLen := floatRow_wf.bsfLen
  bmagLen := floatRow_wf.bmagLen
  bdcLen := floatRow_wf.bdcLen
  bwLen := floatRow_wf.bwLen
  own_lt := floatRow_wf.own_lt
  nbr_lt := floatRow_wf.nbr_lt
  fc_lt := floatRow_wf.fc_lt
  ne := floatRow_wf.ne
  bown := floatRow_wf.bown

example : FloatArith (BinFloat 53) (BinFloat.val 53) (1 / 2 ^ 53) ∧ Faithful (BinFloat 53) (BinFloat.val 53) ∧ (1 / 2 ^ 53 : ℚ) < 1 ∧
    FloatRoot (BinFloat.val 53) (1 / 2 ^ 53) (BinFloat.root (p := 53) (by norm_num)) ∧ floatLine.WF ∧ (floatLine.exact (BinFloat.val 53)).span 0 = (1, 0, 0) ∧
    (floatLine.exact (BinFloat.val 53)).sf 0 = (1, 0, 0) ∧
    RelNear (1 / 2 ^ 53 : ℚ) 0 (BinFloat.val 53 (ix floatLine.magFaceAreas 0) * BinFloat.val 53 (ix floatLine.magFaceAreas 0)) (normSq ((floatLine.exact (BinFloat.val 53)).sf 0)) := by
  have h1 : BinFloat.val 53 1 = 1 := rfl
  have h0 : BinFloat.val 53 0 = 0 := rfl
  have hs : (floatLine.exact (BinFloat.val 53)).sf 0 = (1, 0, 0) := rfl
  refine ⟨binFloat_arith 53, binFloat_faithful (by norm_num), by norm_num, binFloat_root _, floatLine_wf, ?_, hs, ?_⟩
  · show ((1 : ℚ) - 0, (0 : ℚ) - 0, (0 : ℚ) - 0) = _
    simp
  · have : BinFloat.val 53 (ix floatLine.magFaceAreas 0) = 1 := by
      have : ix floatLine.magFaceAreas 0 = 1 := rfl
      rw [this, h1]
    rw [this, hs]
    simp [RelNear, normSq, vdot]

example (e : ExecKind) : ∃ M, (computeCoNum e floatRow (BinFloat.root (p := 53) (by norm_num)) (-1) [third, third, -third, third] 1).Ok
    (fun r => RelNear (1 / 2 ^ 53 : ℚ) (2 + 7) (BinFloat.val 53 r.1) (1 / 2 * 1 * M)) := by
  have hc : ∀ c < floatRow.nCells, floatRow.faceCount c ≤ 2 := by
    intro c hc
    have h3 : c < 3 := hc
    interval_cases c <;> decide
  obtain ⟨M, _, h⟩ := C90_courant (binFloat_arith 53) (by norm_num) (binFloat_root (p := 53) (by norm_num)) floatRow_wf (by
      intro c hc
      have h3 : c < 3 := hc
      have : floatRow.vol c = 1 := by
        simp only [floatRow, Mesh.vol, Mesh.exact, row3, topoMesh, List.map_replicate, List.getD_replicate _ h3]
        rfl
      rw [this]; exact one_pos) (by decide) 2 hc (-1) (show (-1 : ℚ) ≤ 0 by norm_num) (flux := [third, third, -third, third]) rfl 1 (show (0 : ℚ) ≤ 1 by norm_num)
  exact ⟨M, (h e).2⟩

end NeoFOAM
