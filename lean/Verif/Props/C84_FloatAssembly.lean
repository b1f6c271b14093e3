import Verif.Proofs.FloatAssembly
import Verif.Props.C22_AssemblySchedules

/-!
# C84 – linear systems assembled in floating point
-/
namespace NeoFOAM
open Finset
variable {F K : Type} [Add F] [Sub F] [Mul F] [Div F] [Neg F] [Zero F] [One F] [LinearOrder F] [Field K] [LinearOrder K] [IsStrictOrderedRing K]
variable {val : F → K} {u : K} {m : Mesh F} {sp : SparsityPattern}

section proofs

omit [Add F] [Sub F] [Mul F] [Div F] [Neg F] [Zero F] [One F] [LinearOrder F] [Field K] [LinearOrder K] [IsStrictOrderedRing K] in
theorem exact_valid (s : Slot) : s.Valid (m.exact val) = s.Valid m := by cases s <;> rfl
omit [Add F] [Sub F] [Mul F] [Div F] [Neg F] [Zero F] [One F] [LinearOrder F] [Field K] [LinearOrder K] [IsStrictOrderedRing K] in
theorem exact_addr (s : Slot) : sp.addr (m.exact val) s = sp.addr m s := by cases s <;> rfl
omit [Add F] [Sub F] [Mul F] [Div F] [Neg F] [Zero F] [One F] [LinearOrder F] [Field K] [LinearOrder K] [IsStrictOrderedRing K] in
theorem exact_row (s : Slot) : s.row (m.exact val) = s.row m := by cases s <;> rfl
omit [Add F] [Sub F] [Mul F] [Div F] [Neg F] [Zero F] [One F] [LinearOrder F] [Field K] [LinearOrder K] [IsStrictOrderedRing K] in
theorem exact_col (s : Slot) : s.col (m.exact val) = s.col m := by cases s <;> rfl
omit [Add F] [Sub F] [Mul F] [Div F] [Neg F] [Zero F] [One F] [LinearOrder F] [Field K] [LinearOrder K] [IsStrictOrderedRing K] in
theorem exact_for (hp : sp.For m) : sp.For (m.exact val) where
  rows := ⟨hp.rows.len, hp.rows.nnz, hp.rows.first, hp.rows.last, hp.rows.size⟩
  adr := by
    refine ⟨fun s => ?_, fun s => ?_, fun s t => ?_, fun p hlt => ?_⟩
    · rw [exact_valid, exact_addr, exact_row]; exact hp.adr.inRow s
    · rw [exact_valid, exact_addr, exact_col]; exact hp.adr.column s
    · rw [exact_valid, exact_valid, exact_addr, exact_addr]; exact hp.adr.inj s t
    · obtain ⟨s, h1, h2⟩ := hp.adr.surj p hlt
      exact ⟨s, by rw [exact_valid]; exact h1, by rw [exact_addr]; exact h2⟩
  olen := hp.olen
  nlen := hp.nlen
  dlen := hp.dlen

omit [Add F] [Sub F] [Mul F] [Div F] [Neg F] [Zero F] [One F] [LinearOrder F] [LinearOrder K] [IsStrictOrderedRing K] in
theorem Assembles.of_exact {E E' : LinearSystem K} {dv : Slot → K} {dr : Nat → K} (h : Assembles (m.exact val) sp E E' dv dr) : Assembles m sp E E' dv dr where
  on := ⟨h.on.cols, h.on.rowsEq, h.on.vals, h.on.rhsLen⟩
  coef s hs := by
    have := h.coef s (by rw [exact_valid]; exact hs)
    rwa [exact_addr] at this
  rhs := h.rhs

omit [Add F] [Sub F] [Mul F] [Div F] [Neg F] [Zero F] [One F] [LinearOrder F] [Field K] [LinearOrder K] [IsStrictOrderedRing K] in
theorem exact_mag : (m.exact val).magFaceAreas = m.magFaceAreas.map val := rfl
omit [Add F] [Sub F] [Mul F] [Div F] [Neg F] [Zero F] [One F] [LinearOrder F] [Field K] [LinearOrder K] [IsStrictOrderedRing K] in
theorem exact_int : (m.exact val).nInternalFaces = m.nInternalFaces := rfl

theorem lapTerm_approx (hF : FloatArith F val u) (d g a s : F) {v : K} (hs : Approx u 1 (val s) v |v|) :
    Approx u 4 (val (d * g * a * s)) (val g * val d * val a * v) (|val g * val d * val a| * |v|) := by
  have := hF.approx_mul (hF.approx_mul (hF.approx_mul (hF.approx 0 d) (hF.approx 0 g)) (hF.approx 0 a)) hs
  rw [show val g * val d * val a * v = val d * val g * val a * v by ring, show |val g * val d * val a| = |val d| * |val g| * |val a| by
    rw [abs_mul, abs_mul]; ring]
  exact this

theorem lapBnd_approx (hF : FloatArith F val u) (g a s vf d : F) {v : K} (hs : Approx u 1 (val s) v |v|) :
    Approx u 5 (val (g * a * s * vf * d)) (val g * val d * val a * val vf * v) (|val g * val d * val a| * |val vf| * |v|) := by
  have := hF.approx_mul (hF.approx_mul (hF.approx_mul (hF.approx_mul (hF.approx 0 g) (hF.approx 0 a)) hs) (hF.approx 0 vf)) (hF.approx 0 d)
  rw [show val g * val d * val a * val vf * v = val g * val a * v * val vf * val d by ring, show |val g * val d * val a| * |val vf| * |v| =
    |val g| * |val a| * |v| * |val vf| * |val d| by rw [abs_mul, abs_mul]; ring]
  exact this

theorem one_sub_approx (hF : FloatArith F val u) (a : F) : Approx u 1 (val (1 - a)) (1 - val a) |1 - val a| :=
  (Approx.exact hF.roundoff 0 (1 - val a)).round hF.roundoff (by
    have := hF.sub 1 a
    rwa [hF.one] at this)

theorem lapBndRhs_approx (hF : FloatArith F val u) (g a s vf d r rg : F) {v : K} (hs : Approx u 1 (val s) v |v|) :
    Approx u 7 (val (g * a * s * (vf * d * r + (1 - vf) * rg))) (val g * val a * (val vf * val d * val r + (1 - val vf) * val rg) * v)
      (|val g * val a| * (|val vf * val d * val r| + |(1 - val vf) * val rg|) * |v|) := by
  have h1 := hF.approx_mul (hF.approx_mul (hF.approx 0 g) (hF.approx 0 a)) hs
  have h2 := hF.approx_mul (hF.approx_mul (hF.approx 0 vf) (hF.approx 0 d)) (hF.approx 0 r)
  have h3 := hF.approx_mul (one_sub_approx hF vf) (hF.approx 0 rg)
  have h4 := hF.approx_add h2 h3 le_rfl le_rfl
  have := hF.approx_mul h1 h4
  rw [show val g * val a * (val vf * val d * val r + (1 - val vf) * val rg) * v = val g * val a * v * (val vf * val d * val r + (1 - val vf) * val rg) by ring,
    show |val g * val a| * (|val vf * val d * val r| + |(1 - val vf) * val rg|) * |v| = |val g| * |val a| * |v| * (|val vf| * |val d| * |val r| + |1 - val vf| * |val rg|) by
      rw [abs_mul, abs_mul, abs_mul, abs_mul]; ring]
  exact this

/-- The flux out of the owner through a face. -/
def outF (x : K) : K := if 0 ≤ x then x else 0
/-- The flux into the owner through a face, with its sign. -/
def inF (x : K) : K := if 0 ≤ x then 0 else x

theorem out_approx (hF : FloatArith F val u) (fl s : F) {v : K} (hs : Approx u 1 (val s) v |v|) :
    Approx u 3 (val (-(if 0 ≤ fl then (1 : F) else 0) * fl * s)) (-outF (val fl) * v) (|outF (val fl)| * |v|) := by
  have hw : val (-(if 0 ≤ fl then (1 : F) else 0)) = -(if 0 ≤ val fl then 1 else 0) := by
    have := hF.le 0 fl
    rw [hF.zero] at this
    rw [hF.neg]
    by_cases c : 0 ≤ fl
    · rw [if_pos c, if_pos (this.1 c), hF.one]
    · rw [if_neg c, if_neg (fun h => c (this.2 h)), hF.zero]
  have := hF.approx_mul (hF.approx_mul (hF.approx 0 (-(if 0 ≤ fl then (1 : F) else 0))) (hF.approx 0 fl)) hs
  rw [hw] at this
  have e1 : -(if 0 ≤ val fl then (1 : K) else 0) * val fl = -outF (val fl) := by unfold outF; split <;> ring
  have e2 : |-(if 0 ≤ val fl then (1 : K) else 0)| * |val fl| = |outF (val fl)| := by rw [← abs_mul, e1, abs_neg]
  rwa [e1, e2] at this

theorem in_approx (hF : FloatArith F val u) (fl s : F) {v : K} (hs : Approx u 1 (val s) v |v|) :
    Approx u 4 (val (fl * (1 - (if 0 ≤ fl then (1 : F) else 0)) * s)) (inF (val fl) * v) (|inF (val fl)| * |v|) := by
  have hw : val (if 0 ≤ fl then (1 : F) else 0) = (if 0 ≤ val fl then 1 else 0) := by
    have := hF.le 0 fl
    rw [hF.zero] at this
    by_cases c : 0 ≤ fl
    · rw [if_pos c, if_pos (this.1 c), hF.one]
    · rw [if_neg c, if_neg (fun h => c (this.2 h)), hF.zero]
  have := hF.approx_mul (hF.approx_mul (hF.approx 0 fl) (one_sub_approx hF (if 0 ≤ fl then (1 : F) else 0))) hs
  rw [hw] at this
  have e1 : val fl * (1 - (if 0 ≤ val fl then (1 : K) else 0)) = inF (val fl) := by unfold inF; split <;> ring
  have e2 : |val fl| * |1 - (if 0 ≤ val fl then (1 : K) else 0)| = |inF (val fl)| := by rw [← abs_mul, e1]
  rwa [e1, e2] at this

theorem divBnd_approx (hF : FloatArith F val u) (fl s vf : F) {v : K} (hs : Approx u 1 (val s) v |v|) :
    Approx u 4 (val (fl * s * (1 - vf))) (val fl * (1 - val vf) * v) (|val fl| * |1 - val vf| * |v|) := by
  have := hF.approx_mul (hF.approx_mul (hF.approx 0 fl) hs) (one_sub_approx hF vf)
  rw [show val fl * (1 - val vf) * v = val fl * v * (1 - val vf) by ring, show |val fl| * |1 - val vf| * |v| = |val fl| * |v| * |1 - val vf| by ring]
  exact this

theorem divBndRhs_approx (hF : FloatArith F val u) (fl s vf r : F) {v : K} (hs : Approx u 1 (val s) v |v|) :
    Approx u 4 (val (fl * s * (vf * r))) (val fl * (val vf * val r) * v) (|val fl| * |val vf * val r| * |v|) := by
  have := hF.approx_mul (hF.approx_mul (hF.approx 0 fl) hs) (hF.approx_mul (hF.approx 0 vf) (hF.approx 0 r))
  rw [show val fl * (val vf * val r) * v = val fl * v * (val vf * val r) by ring, show |val fl| * |val vf * val r| * |v| = |val fl| * |v| * (|val vf| * |val r|) by
    rw [abs_mul (val vf)]; ring]
  exact this

theorem neg_outF (x : K) : |outF x| = if 0 ≤ x then |x| else 0 := by unfold outF; split; exacts [rfl, abs_zero]
theorem abs_inF (x : K) : |inF x| = if 0 ≤ x then 0 else |x| := by unfold inF; split; exacts [abs_zero, rfl]

end proofs

/-- **C84, Laplacian**: a system of floating-point numbers that stands for an exact one before the implicit Laplacian is assembled into it does so afterwards, on every
executor and schedule (parallel ones for meshes without cells with two boundary faces, C22): the exact Laplacian gives one system, and to each entry come at most as
many roundings as terms are added to it, relative to the sizes of the terms. -/
theorem C84_laplacian (hF : FloatArith F val u) (h : m.WF) (hp : sp.For m) {φ : VolField F F} (hφ : φ.On m) {δ gamma : List F} (hδ : δ.length = m.nFaces)
    (hg : gamma.length = m.nFaces) {scal : Coeff F} {v : Nat → K} (hs : (scal.exact val).On m.nCells v) {A : LinearSystem F} {E : LinearSystem K} {n : Slot → Nat} {S : Slot → K}
    {k : Nat → Nat} {T : Nat → K} (hA : SysNear val u m sp A E n S k T) (hn : ∀ s, 7 ≤ n s) (hk : ∀ c, 7 ≤ k c) (e : ExecKind) (he : e = .serial ∨ m.BndDistinct) :
    ∃ E' : LinearSystem K, (∀ out, computeLaplacianImpl e (m.exact val) sp (δ.map val) (gamma.map val) (φ.exact val) (scal.exact val) E out ↔ out = .ok E') ∧
      (computeLaplacianImpl e m sp δ gamma φ scal A).Ok (fun A' => SysNear val u m sp A' E' (fun s => n s + m.roundings s)
        (fun s => S s + lapSize (m.exact val) (ix (δ.map val)) (ix (gamma.map val)) (ix (φ.bVF.map val)) v s) (fun c => k c + m.faceCount c)
        (fun c => T c + lapRhsSize (m.exact val) (ix (δ.map val)) (ix (gamma.map val)) (ix (φ.bVF.map val)) (ix (φ.bRefValue.map val)) (ix (φ.bRefGrad.map val)) v c)) := by
  have hfa := h.faces
  obtain ⟨E', hE', hdet⟩ := Assembles.det (exact_for (val := val) hp) (computeLaplacianImpl_ok (exact_wf (val := val) h) (exact_for hp) (exact_on (val := val) hφ)
    (δ := δ.map val) (gamma := gamma.map val) ((List.length_map val).trans hδ) ((List.length_map val).trans hg) hs e he E
    ⟨hA.onE.cols, hA.onE.rowsEq, hA.onE.vals, hA.onE.rhsLen⟩) (computeLaplacianImpl_runs _ _ _ _ _ _ _ _)
  refine ⟨E', hdet, ?_⟩
  obtain ⟨b, hb1, hb2, hb3, hb4⟩ := near_start hp 7 hA (fun s _ => hn s) (fun c _ => hk c)
  obtain ⟨vF, hs1, hs2⟩ := coeff_approx hF hs
  unfold computeLaplacianImpl
  set L : Nat → K := fun f => val (ix gamma f) * val (ix δ f) * val (ix m.magFaceAreas f) with hL
  refine (faceLoop_rel h hp e _ _ _ _ _ (fun f hf => lapImpInternal_acts h hp hδ hg hs1 hA.onA.rowsEq f hf)
    (fun f => (L f * v (m.nbr f), |L f| * |v (m.nbr f)|, 1)) (fun f => (L f * v (m.own f), |L f| * |v (m.own f)|, 1))
    (fun f => (-(L f * v (m.own f)), |L f| * |v (m.own f)|, 1)) (fun f => (-(L f * v (m.nbr f)), |L f| * |v (m.nbr f)|, 1))
    (fun f hf x g hx => Tracks.plus hF (lapTerm_approx hF _ _ _ _ (hs2 _ (h.nbr_lt f hf))) (by omega) hx)
    (fun f hf x g hx => Tracks.plus hF (lapTerm_approx hF _ _ _ _ (hs2 _ (h.own_lt_int hf))) (by omega) hx)
    (fun f hf x g hx => Tracks.minus hF (lapTerm_approx hF _ _ _ _ (hs2 _ (h.own_lt_int hf))) (by omega) hx)
    (fun f hf x g hx => Tracks.minus hF (lapTerm_approx hF _ _ _ _ (hs2 _ (h.nbr_lt f hf))) (by omega) hx) hb1 hb2).bind ?_
  rintro A1 ⟨b1, hr1, ha1⟩
  have oA1 := hr1.on' ha1.on
  rw [hg]
  refine (diagLoop_rel h hp e m.nInternalFaces m.nFaces (fun f => m.fc (f - m.nInternalFaces)) _ _ _ (fun i h1 h2 => h.fc_lt _ (by omega))
    (fun f h1 h2 => lapImpBoundary_acts h hp hφ hδ hg hs1 oA1.rowsEq f h1 h2) (he.imp id (fun hb => bndCell_inj hb (by omega)))
    (fun f => (-(L f * val (ix φ.bVF (f - m.nInternalFaces)) * v (m.fc (f - m.nInternalFaces))),
      |L f| * |val (ix φ.bVF (f - m.nInternalFaces))| * |v (m.fc (f - m.nInternalFaces))|, 1))
    (fun f => (-(val (ix gamma f) * val (ix m.magFaceAreas f) * (val (ix φ.bVF (f - m.nInternalFaces)) * val (ix δ f) * val (ix φ.bRefValue (f - m.nInternalFaces)) +
        (1 - val (ix φ.bVF (f - m.nInternalFaces))) * val (ix φ.bRefGrad (f - m.nInternalFaces))) * v (m.fc (f - m.nInternalFaces))),
      |val (ix gamma f) * val (ix m.magFaceAreas f)| * (|val (ix φ.bVF (f - m.nInternalFaces)) * val (ix δ f) * val (ix φ.bRefValue (f - m.nInternalFaces))| +
        |(1 - val (ix φ.bVF (f - m.nInternalFaces))) * val (ix φ.bRefGrad (f - m.nInternalFaces))|) * |v (m.fc (f - m.nInternalFaces))|, 1))
    (fun f h1 h2 x g hx => Tracks.minus hF (lapBnd_approx hF _ _ _ _ _ (hs2 _ (h.fc_lt _ (by omega)))) (by omega) hx)
    (fun f h1 h2 x g hx => Tracks.minus hF (lapBndRhs_approx hF _ _ _ _ _ _ _ (hs2 _ (h.fc_lt _ (by omega)))) le_rfl hx) hr1 ha1.on).mono ?_
  rintro A2 ⟨b2, hr2, ha2⟩
  have hsub : m.nFaces - m.nInternalFaces = m.nBoundaryFaces := by omega
  have key := near_end (m := m) (sp := sp) (E := E) (E' := E') (n := n) (S := S) (k := k) (T := T) (j := 7) hb3 hb4 hr2 (ha1.trans ha2)
    (Assembles.of_exact hE') hp (dn := m.roundings)
    (dS := lapSize (m.exact val) (ix (δ.map val)) (ix (gamma.map val)) (ix (φ.bVF.map val)) v)
    (dk := fun c => ∑ b ∈ range m.nBoundaryFaces, if m.fc b = c then 1 else 0)
    (dT := lapRhsSize (m.exact val) (ix (δ.map val)) (ix (gamma.map val)) (ix (φ.bVF.map val)) (ix (φ.bRefValue.map val)) (ix (φ.bRefGrad.map val)) v)
    (fun s hs => ?_) (fun c hc => ?_)
  · refine key.mono hF.roundoff (fun s _ => le_rfl) (fun _ _ => le_rfl) (fun c _ => Nat.add_le_add_left ?_ _) (fun _ _ => le_rfl)
    simp only [Mesh.faceCount, Mesh.faceSum]
    omega
  · simp only [hsub, ite_triple, sum_triple, Nat.add_sub_cancel_left]
    rw [faceDelta_triple, diagDelta_triple, Prod.mk_add_mk, Prod.mk_add_mk, count_triple]
    have hz := hF.zero
    cases s with
    | diag c =>
      refine Prod.ext ?_ (Prod.ext ?_ rfl)
      · simp only [faceDelta, diagDelta, lapDelta, mul_add, Finset.mul_sum, neg_add]
        rw [← Finset.sum_neg_distrib, ← Finset.sum_neg_distrib]
        refine congrArg₂ (· + ·) (Finset.sum_congr rfl fun f _ => ?_) (Finset.sum_congr rfl fun b _ => ?_)
        · change (if m.own f = c then _ else _) + (if m.nbr f = c then _ else _) = -(v c * (if m.own f = c then _ else _) + v c * (if m.nbr f = c then _ else _))
          by_cases c1 : m.own f = c <;> by_cases c2 : m.nbr f = c <;> simp [c1, c2, lapCoef, hL, exact_mag, ix_val hz] <;> ring
        · change (if m.fc b = c then _ else _) = -(v c * (if m.fc b = c then _ else _))
          by_cases c1 : m.fc b = c <;> simp [c1, lapCoef, hL, exact_mag, exact_int, VolField.exact, ix_val hz] <;> ring
      · simp only [faceDelta, diagDelta, lapSize, Mesh.faceSum, mul_add, Finset.mul_sum]
        refine congrArg₂ (· + ·) (Finset.sum_congr rfl fun f hf => ?_) (Finset.sum_congr rfl fun b _ => ?_)
        · change (if m.own f = c then _ else _) + (if m.nbr f = c then _ else _) = (|v c| * (if m.own f = c then _ else _)) + (|v c| * (if m.nbr f = c then _ else _))
          have hf : f < m.nInternalFaces := Finset.mem_range.1 hf
          by_cases c1 : m.own f = c <;> by_cases c2 : m.nbr f = c <;> simp [c1, c2, hf, hL, exact_mag, exact_int, ix_val hz] <;> ring
        · change (if m.fc b = c then _ else _) = (|v c| * (if m.fc b = c then _ else _))
          by_cases c1 : m.fc b = c <;> simp [c1, hL, exact_mag, exact_int, ix_val hz] <;> ring
    | upper f =>
      refine Prod.ext ?_ (Prod.ext ?_ rfl)
      · change L f * v (m.own f) + 0 = lapCoef _ _ _ f * v (m.own f)
        simp [lapCoef, hL, exact_mag, ix_val hz]
      · change |L f| * |v (m.own f)| + 0 = |_| * |v (m.own f)|
        simp [hL, exact_mag, ix_val hz]
    | lower f =>
      refine Prod.ext ?_ (Prod.ext ?_ rfl)
      · change L f * v (m.nbr f) + 0 = lapCoef _ _ _ f * v (m.nbr f)
        simp [lapCoef, hL, exact_mag, ix_val hz]
      · change |L f| * |v (m.nbr f)| + 0 = |_| * |v (m.nbr f)|
        simp [hL, exact_mag, ix_val hz]
  · simp only [hsub, ite_triple, sum_triple, Nat.add_sub_cancel_left, zero_add]
    have hz := hF.zero
    refine Prod.ext ?_ (Prod.ext ?_ ?_)
    · simp only [lapRhs, Finset.mul_sum]
      rw [← Finset.sum_neg_distrib]
      refine Finset.sum_congr rfl fun b _ => ?_
      change (if m.fc b = c then _ else _) = -(v c * (if m.fc b = c then _ else _))
      by_cases c1 : m.fc b = c <;> simp [c1, exact_mag, exact_int, VolField.exact, ix_val hz] <;> ring
    · simp only [lapRhsSize, Finset.mul_sum]
      refine Finset.sum_congr rfl fun b _ => ?_
      change (if m.fc b = c then _ else _) = (|v c| * (if m.fc b = c then _ else _))
      by_cases c1 : m.fc b = c <;> simp [c1, exact_mag, exact_int, ix_val hz] <;> ring
    · push_cast
      rfl

/-- **C84, divergence**: the same for the implicit upwind divergence. -/
theorem C84_div (hF : FloatArith F val u) (h : m.WF) (hp : sp.For m) {φ : VolField F F} (hφ : φ.On m) {flux : List F} (hfl : flux.length = m.nFaces)
    {scal : Coeff F} {v : Nat → K} (hs : (scal.exact val).On m.nCells v) {A : LinearSystem F} {E : LinearSystem K} {n : Slot → Nat} {S : Slot → K}
    {k : Nat → Nat} {T : Nat → K} (hA : SysNear val u m sp A E n S k T) (hn : ∀ s, 7 ≤ n s) (hk : ∀ c, 7 ≤ k c) (e : ExecKind) (he : e = .serial ∨ m.BndDistinct) :
    ∃ E' : LinearSystem K, (∀ out, computeDivImp e (m.exact val) sp (flux.map val) (φ.exact val) (scal.exact val) E out ↔ out = .ok E') ∧
      (computeDivImp e m sp flux φ scal A).Ok (fun A' => SysNear val u m sp A' E' (fun s => n s + m.roundings s)
        (fun s => S s + divSize (m.exact val) (ix (flux.map val)) (ix (φ.bVF.map val)) v s) (fun c => k c + m.faceCount c)
        (fun c => T c + divRhsSize (m.exact val) (ix (flux.map val)) (ix (φ.bVF.map val)) (ix (φ.bRefValue.map val)) v c)) := by
  have hfa := h.faces
  obtain ⟨E', hE', hdet⟩ := Assembles.det (exact_for (val := val) hp) (computeDivImp_ok (exact_wf (val := val) h) (exact_for hp) (exact_on (val := val) hφ)
    (flux := flux.map val) ((List.length_map val).trans hfl) hs e he E
    ⟨hA.onE.cols, hA.onE.rowsEq, hA.onE.vals, hA.onE.rhsLen⟩) (computeDivImp_runs _ _ _ _ _ _ _)
  refine ⟨E', hdet, ?_⟩
  obtain ⟨b, hb1, hb2, hb3, hb4⟩ := near_start hp 7 hA (fun s _ => hn s) (fun c _ => hk c)
  obtain ⟨vF, hs1, hs2⟩ := coeff_approx hF hs
  unfold computeDivImp
  set O : Nat → K := fun f => outF (val (ix flux f)) with hO
  set I : Nat → K := fun f => inF (val (ix flux f)) with hI
  refine (faceLoop_rel h hp e _ _ _ _ _ (fun f hf => divImpInternal_acts h hp hfl hs1 hA.onA.rowsEq f hf)
    (fun f => (-O f * v (m.nbr f), |O f| * |v (m.nbr f)|, 1)) (fun f => (I f * v (m.own f), |I f| * |v (m.own f)|, 1))
    (fun f => (-(-O f * v (m.own f)), |O f| * |v (m.own f)|, 1)) (fun f => (-(I f * v (m.nbr f)), |I f| * |v (m.nbr f)|, 1))
    (fun f hf x g hx => Tracks.plus hF (out_approx hF _ _ (hs2 _ (h.nbr_lt f hf))) (by omega) hx)
    (fun f hf x g hx => Tracks.plus hF (in_approx hF _ _ (hs2 _ (h.own_lt_int hf))) (by omega) hx)
    (fun f hf x g hx => Tracks.minus hF (out_approx hF _ _ (hs2 _ (h.own_lt_int hf))) (by omega) hx)
    (fun f hf x g hx => Tracks.minus hF (in_approx hF _ _ (hs2 _ (h.nbr_lt f hf))) (by omega) hx) hb1 hb2).bind ?_
  rintro A1 ⟨b1, hr1, ha1⟩
  have oA1 := hr1.on' ha1.on
  rw [hfl]
  refine (diagLoop_rel h hp e m.nInternalFaces m.nFaces (fun f => m.fc (f - m.nInternalFaces)) _ _ _ (fun i h1 h2 => h.fc_lt _ (by omega))
    (fun f h1 h2 => divImpBoundary_acts h hp hφ hfl hs1 oA1.rowsEq f h1 h2) (he.imp id (fun hb => bndCell_inj hb (by omega)))
    (fun f => (val (ix flux f) * (1 - val (ix φ.bVF (f - m.nInternalFaces))) * v (m.fc (f - m.nInternalFaces)),
      |val (ix flux f)| * |1 - val (ix φ.bVF (f - m.nInternalFaces))| * |v (m.fc (f - m.nInternalFaces))|, 1))
    (fun f => (-(val (ix flux f) * (val (ix φ.bVF (f - m.nInternalFaces)) * val (ix φ.bRefValue (f - m.nInternalFaces))) * v (m.fc (f - m.nInternalFaces))),
      |val (ix flux f)| * |val (ix φ.bVF (f - m.nInternalFaces)) * val (ix φ.bRefValue (f - m.nInternalFaces))| * |v (m.fc (f - m.nInternalFaces))|, 1))
    (fun f h1 h2 x g hx => Tracks.plus hF (divBnd_approx hF _ _ _ (hs2 _ (h.fc_lt _ (by omega)))) (by omega) hx)
    (fun f h1 h2 x g hx => Tracks.minus hF (divBndRhs_approx hF _ _ _ _ (hs2 _ (h.fc_lt _ (by omega)))) (by omega) hx) hr1 ha1.on).mono ?_
  rintro A2 ⟨b2, hr2, ha2⟩
  have hsub : m.nFaces - m.nInternalFaces = m.nBoundaryFaces := by omega
  have hz := hF.zero
  have key := near_end (m := m) (sp := sp) (E := E) (E' := E') (n := n) (S := S) (k := k) (T := T) (j := 7) hb3 hb4 hr2 (ha1.trans ha2)
    (Assembles.of_exact hE') hp (dn := m.roundings)
    (dS := divSize (m.exact val) (ix (flux.map val)) (ix (φ.bVF.map val)) v)
    (dk := fun c => ∑ b ∈ range m.nBoundaryFaces, if m.fc b = c then 1 else 0)
    (dT := divRhsSize (m.exact val) (ix (flux.map val)) (ix (φ.bVF.map val)) (ix (φ.bRefValue.map val)) v)
    (fun s hs => ?_) (fun c hc => ?_)
  · refine key.mono hF.roundoff (fun s _ => le_rfl) (fun _ _ => le_rfl) (fun c _ => Nat.add_le_add_left ?_ _) (fun _ _ => le_rfl)
    simp only [Mesh.faceCount, Mesh.faceSum]
    omega
  · simp only [hsub, ite_triple, sum_triple, Nat.add_sub_cancel_left]
    rw [faceDelta_triple, diagDelta_triple, Prod.mk_add_mk, Prod.mk_add_mk, count_triple]
    cases s with
    | diag c =>
      refine Prod.ext ?_ (Prod.ext ?_ rfl)
      · simp only [faceDelta, diagDelta, divDelta, mul_add, Finset.mul_sum]
        refine congrArg₂ (· + ·) (Finset.sum_congr rfl fun f _ => ?_) (Finset.sum_congr rfl fun b _ => ?_)
        · change (if m.own f = c then _ else _) + (if m.nbr f = c then _ else _) = v c * ((if m.own f = c then _ else _) - (if m.nbr f = c then _ else _))
          simp only [ix_val hz]
          change (if m.own f = c then _ else _) + (if m.nbr f = c then _ else _) = v c * ((if m.own f = c then O f else _) - (if m.nbr f = c then I f else _))
          by_cases c1 : m.own f = c <;> by_cases c2 : m.nbr f = c <;> simp [c1, c2] <;> ring
        · change (if m.fc b = c then _ else _) = (v c * (if m.fc b = c then _ else _))
          by_cases c1 : m.fc b = c <;> simp [c1, exact_int, VolField.exact, ix_val hz] <;> ring
      · simp only [faceDelta, diagDelta, divSize, mul_add, Finset.mul_sum]
        refine congrArg₂ (· + ·) (Finset.sum_congr rfl fun f hf => ?_) (Finset.sum_congr rfl fun b _ => ?_)
        · change (if m.own f = c then _ else _) + (if m.nbr f = c then _ else _) = (|v c| * (if m.own f = c then _ else _)) + (|v c| * (if m.nbr f = c then _ else _))
          simp only [ix_val hz, ← neg_outF, ← abs_inF]
          by_cases c1 : m.own f = c <;> by_cases c2 : m.nbr f = c <;> simp [c1, c2, hO, hI] <;> ring
        · change (if m.fc b = c then _ else _) = (|v c| * (if m.fc b = c then _ else _))
          by_cases c1 : m.fc b = c <;> simp [c1, exact_int, ix_val hz] <;> ring
    | upper f =>
      refine Prod.ext ?_ (Prod.ext ?_ rfl)
      · change I f * v (m.own f) + 0 = inF _ * v (m.own f)
        simp [hI, ix_val hz]
      · change |I f| * |v (m.own f)| + 0 = _ * |v (m.own f)|
        simp only [ix_val hz, ← abs_inF, hI, add_zero]
    | lower f =>
      refine Prod.ext ?_ (Prod.ext ?_ rfl)
      · change -O f * v (m.nbr f) + 0 = -outF _ * v (m.nbr f)
        simp [hO, ix_val hz]
      · change |O f| * |v (m.nbr f)| + 0 = _ * |v (m.nbr f)|
        simp only [ix_val hz, ← neg_outF, hO, add_zero]
  · simp only [hsub, ite_triple, sum_triple, Nat.add_sub_cancel_left, zero_add]
    refine Prod.ext ?_ (Prod.ext ?_ ?_)
    · simp only [divRhs, Finset.mul_sum]
      rw [← Finset.sum_neg_distrib]
      refine Finset.sum_congr rfl fun b _ => ?_
      change (if m.fc b = c then _ else _) = -(v c * (if m.fc b = c then _ else _))
      by_cases c1 : m.fc b = c <;> simp [c1, exact_int, VolField.exact, ix_val hz] <;> ring
    · simp only [divRhsSize, Finset.mul_sum]
      refine Finset.sum_congr rfl fun b _ => ?_
      change (if m.fc b = c then _ else _) = (|v c| * (if m.fc b = c then _ else _))
      by_cases c1 : m.fc b = c <;> simp [c1, exact_int, ix_val hz] <;> ring
    · push_cast
      rfl

/-- **C84, time derivative**: one more rounding on the diagonal and on the right hand side. -/
theorem C84_ddt (hF : FloatArith F val u) (h : m.WF) (hp : sp.For m) {old : List F} (hold : old.length = m.nCells) {dt : F} (hdt : val dt ≠ 0)
    {scal : Coeff F} {v : Nat → K} (hs : (scal.exact val).On m.nCells v) {A : LinearSystem F} {E : LinearSystem K} {n : Slot → Nat} {S : Slot → K}
    {k : Nat → Nat} {T : Nat → K} (hA : SysNear val u m sp A E n S k T) (hn : ∀ s, 7 ≤ n s) (hk : ∀ c, 7 ≤ k c) (e : ExecKind) :
    ∃ E' : LinearSystem K, (∀ out, ddtImplicit e (m.exact val) sp (old.map val) (scal.exact val) (val dt) E out ↔ out = .ok E') ∧
      (ddtImplicit e m sp old scal dt A).Ok (fun A' => SysNear val u m sp A' E' (fun s => n s + 1)
        (fun s => S s + diagSize (fun c => |v c| * |val (m.vol c)| / |val dt|) s) (fun c => k c + 1) (fun c => T c + |v c| * |val (m.vol c)| / |val dt| * |val (ix old c)|)) := by
  obtain ⟨E', hE', hdet⟩ := Assembles.det (exact_for (val := val) hp) (ddtImplicit_ok (exact_wf (val := val) h) (exact_for hp)
    (old := old.map val) ((List.length_map val).trans hold) hs (val dt) e E
    ⟨hA.onE.cols, hA.onE.rowsEq, hA.onE.vals, hA.onE.rhsLen⟩) (launchLS_runs _ _ _ _ _)
  refine ⟨E', hdet, ?_⟩
  obtain ⟨b, hb1, hb2, hb3, hb4⟩ := near_start hp 7 hA (fun s _ => hn s) (fun c _ => hk c)
  obtain ⟨vF, hs1, hs2⟩ := coeff_approx hF hs
  have h1 : Approx u 1 (val (1 / dt)) (1 / val dt) (1 / |val dt|) := by
    have := hF.approx_div (hF.approx 0 1) hdt
    rwa [hF.one, abs_one] at this
  have hd : ∀ c < m.nCells, Approx u 4 (val (vF c * m.vol c * (1 / dt))) (v c * val (m.vol c) / val dt) (|v c| * |val (m.vol c)| / |val dt|) := by
    intro c hc
    have := hF.approx_mul (hF.approx_mul (hs2 c hc) (hF.approx 0 (m.vol c))) h1
    rwa [mul_one_div, mul_one_div] at this
  have hr : ∀ c < m.nCells, Approx u 5 (val (vF c * m.vol c * (1 / dt) * ix old c)) (v c * val (m.vol c) / val dt * val (ix old c))
      (|v c| * |val (m.vol c)| / |val dt| * |val (ix old c)|) := fun c hc => hF.approx_mul (hd c hc) (hF.approx 0 _)
  unfold ddtImplicit
  rw [hold]
  refine (diagLoop_rel h hp e 0 m.nCells (fun c => c) _ _ _ (fun i h1 h2 => h2) (fun c _ hc => ddtImpBody_acts h hp hold hs1 hA.onA.rowsEq _ c hc)
    (Or.inr fun i j _ _ _ _ hij => hij) (fun c => (v c * val (m.vol c) / val dt, |v c| * |val (m.vol c)| / |val dt|, 1))
    (fun c => (v c * val (m.vol c) / val dt * val (ix old c), |v c| * |val (m.vol c)| / |val dt| * |val (ix old c)|, 1))
    (fun c _ hc x g hx => Tracks.plus hF (hd c hc) (by omega) hx) (fun c _ hc x g hx => Tracks.plus hF (hr c hc) (by omega) hx) hb1 hb2).mono ?_
  rintro A2 ⟨b2, hr2, ha2⟩
  have hz := hF.zero
  have key := near_end (m := m) (sp := sp) (E := E) (E' := E') (n := n) (S := S) (k := k) (T := T) (j := 7) hb3 hb4 hr2 ha2
    (Assembles.of_exact hE') hp (dn := fun s => match s with | .diag _ => 1 | _ => 0) (dS := diagSize fun c => |v c| * |val (m.vol c)| / |val dt|)
    (dk := fun _ => 1) (dT := fun c => |v c| * |val (m.vol c)| / |val dt| * |val (ix old c)|) (fun s hs => ?_) (fun c hc => ?_)
  · refine key.mono hF.roundoff (fun s _ => ?_) (fun _ _ => le_rfl) (fun c _ => le_rfl) (fun _ _ => le_rfl)
    cases s <;> simp
  · cases s with
    | diag c =>
      have hc : c < m.nCells := hs
      simp only [diagDelta, Nat.sub_zero, Nat.zero_add, Finset.sum_ite_eq', Finset.mem_range, hc, if_true, hF.vol, diagSize]
      rfl
    | upper f => rfl
    | lower f => rfl
  · simp only [Nat.sub_zero, Nat.zero_add, Finset.sum_ite_eq', Finset.mem_range, hc, if_true, hF.vol, ix_val hz]
    rfl

/-- **C84, source**: one more rounding on the diagonal. -/
theorem C84_source (hF : FloatArith F val u) (h : m.WF) (hp : sp.For m) {κ : List F} (hκ : κ.length = m.nCells)
    {scal : Coeff F} {v : Nat → K} (hs : (scal.exact val).On m.nCells v) {A : LinearSystem F} {E : LinearSystem K} {n : Slot → Nat} {S : Slot → K}
    {k : Nat → Nat} {T : Nat → K} (hA : SysNear val u m sp A E n S k T) (hn : ∀ s, 7 ≤ n s) (hk : ∀ c, 7 ≤ k c) (e : ExecKind) :
    ∃ E' : LinearSystem K, (∀ out, sourceImplicit e (m.exact val) sp (κ.map val) (scal.exact val) E out ↔ out = .ok E') ∧
      (sourceImplicit e m sp κ scal A).Ok (fun A' => SysNear val u m sp A' E' (fun s => n s + 1)
        (fun s => S s + diagSize (fun c => |v c| * |val (ix κ c)| * |val (m.vol c)|) s) k T) := by
  obtain ⟨E', hE', hdet⟩ := Assembles.det (exact_for (val := val) hp) (sourceImplicit_ok (exact_wf (val := val) h) (exact_for hp)
    (k := κ.map val) ((List.length_map val).trans hκ) hs e E
    ⟨hA.onE.cols, hA.onE.rowsEq, hA.onE.vals, hA.onE.rhsLen⟩) (launchLS_runs _ _ _ _ _)
  refine ⟨E', hdet, ?_⟩
  obtain ⟨b, hb1, hb2, hb3, hb4⟩ := near_start hp 7 hA (fun s _ => hn s) (fun c _ => hk c)
  obtain ⟨vF, hs1, hs2⟩ := coeff_approx hF hs
  have hd : ∀ c < m.nCells, Approx u 3 (val (vF c * ix κ c * m.vol c)) (v c * val (ix κ c) * val (m.vol c)) (|v c| * |val (ix κ c)| * |val (m.vol c)|) :=
    fun c hc => hF.approx_mul (hF.approx_mul (hs2 c hc) (hF.approx 0 _)) (hF.approx 0 (m.vol c))
  unfold sourceImplicit
  rw [hκ]
  refine (diagOnly_rel h hp e _ _ (fun c hc => sourceImpBody_acts h hp hκ hs1 hA.onA.rowsEq c hc)
    (fun c => (v c * val (ix κ c) * val (m.vol c), |v c| * |val (ix κ c)| * |val (m.vol c)|, 1))
    (fun c hc x g hx => Tracks.plus hF (hd c hc) (by omega) hx) hb1 hb2).mono ?_
  rintro A2 ⟨b2, hr2, ha2⟩
  have hz := hF.zero
  have key := near_end (m := m) (sp := sp) (E := E) (E' := E') (n := n) (S := S) (k := k) (T := T) (j := 7) hb3 hb4 hr2 ha2
    (Assembles.of_exact hE') hp (dn := fun s => match s with | .diag _ => 1 | _ => 0) (dS := diagSize fun c => |v c| * |val (ix κ c)| * |val (m.vol c)|)
    (dk := fun _ => 0) (dT := fun _ => 0) (fun s hs => ?_) (fun c hc => rfl)
  · refine key.mono hF.roundoff (fun s _ => ?_) (fun _ _ => le_rfl) (fun c _ => le_rfl) (fun _ _ => (add_zero _).le)
    cases s <;> simp
  · cases s with
    | diag c =>
      simp only [diagDelta, hF.vol, ix_val hz, diagSize]
      rfl
    | upper f => rfl
    | lower f => rfl

omit [Add F] [Sub F] [Mul F] [Div F] [Neg F] [One F] [LinearOrder F] in
/-- **C84, start**: the empty systems a solve begins with stand for each other. -/
theorem C84_empty (hz : val 0 = 0) (hu : 0 ≤ u) (hp : sp.For m) {A : LinearSystem F} {E : LinearSystem K} (hA : createEmptyLinearSystem sp = .ok A)
    (hE : createEmptyLinearSystem sp = .ok E) (j : Nat) : SysNear val u m sp A E (fun _ => j) (fun _ => 0) (fun _ => j) (fun _ => 0) := by
  have hr : ∀ {X : Type} [Zero X], (⟨List.replicate sp.colIdxs.length (0 : X), sp.colIdxs, sp.rowPtrs⟩ : CSR X).nRows = m.nCells := by
    intro X _
    simp [CSR.nRows, hp.rows.len]
  unfold createEmptyLinearSystem LinearSystem.mk' at hA hE
  rw [if_pos (by rw [hr]; simp [hp.dlen])] at hA hE
  rw [← Res.ok.inj hA, ← Res.ok.inj hE]
  have v0 : ∀ p, val ((List.replicate sp.colIdxs.length (0 : F)).getD p 0) = 0 := by
    intro p
    rw [List.getD, List.getElem?_replicate]
    split <;> simp [hz]
  have e0 : ∀ n p, (List.replicate n (0 : K)).getD p 0 = 0 := by
    intro n p
    rw [List.getD, List.getElem?_replicate]
    split <;> simp
  have b0 : ∀ p, val ((List.replicate sp.diagOffset.length (0 : F)).getD p 0) = 0 := by
    intro p
    rw [List.getD, List.getElem?_replicate]
    split <;> simp [hz]
  refine ⟨⟨rfl, rfl, by simp, by simp [hp.dlen]⟩, ⟨rfl, rfl, by simp, by simp [hp.dlen]⟩, fun s _ => ?_, fun s _ => ?_, fun c _ => ?_, fun c _ => ?_⟩
  · simp only [CSR.val, v0, e0]; simp
  · simp only [CSR.val, e0]; simp
  · simp only [ix, b0, e0]; simp
  · simp only [ix, e0]; simp

/-- **C84, sign and relative error**: where nothing cancels in the exact system, i.e. where the sizes are those of its entries, a coefficient has a relative error only, and with
less than 100% of it also the right sign. -/
theorem C84_relative {A : LinearSystem F} {E : LinearSystem K} {n : Slot → Nat} {S : Slot → K} {k : Nat → Nat} {T : Nat → K} (hA : SysNear val u m sp A E n S k T)
    (hu : 0 ≤ u) {s : Slot} (hs : s.Valid m) (hS : S s ≤ |E.matrix.val (sp.addr m s)|) :
    |val (A.matrix.val (sp.addr m s)) - E.matrix.val (sp.addr m s)| ≤ ((1 + u) ^ n s - 1) * |E.matrix.val (sp.addr m s)| ∧
    ((1 + u) ^ n s < 2 → (0 ≤ E.matrix.val (sp.addr m s) → 0 ≤ val (A.matrix.val (sp.addr m s))) ∧ (E.matrix.val (sp.addr m s) ≤ 0 → val (A.matrix.val (sp.addr m s)) ≤ 0)) := by
  have h0 : 0 ≤ (1 + u) ^ n s - 1 := sub_nonneg.2 (one_le_pow₀ (by linarith))
  have h1 := (hA.coef s hs).trans (mul_le_mul_of_nonneg_left hS h0)
  refine ⟨h1, fun h2 => ?_⟩
  have h3 : |val (A.matrix.val (sp.addr m s)) - E.matrix.val (sp.addr m s)| ≤ |E.matrix.val (sp.addr m s)| :=
    h1.trans (mul_le_of_le_one_left (abs_nonneg _) (by linarith))
  have h4 := abs_le.1 h3
  refine ⟨fun h5 => ?_, fun h5 => ?_⟩
  · rw [abs_of_nonneg h5] at h4
    linarith [h4.1]
  · rw [abs_of_nonpos h5] at h4
    linarith [h4.2]

/-- **C84, diffusion**: the matrix of an implicit Laplacian with diffusivity, areas and delta coefficients of one sign, a coefficient field of one sign and value fractions
that are not negative, assembled from an empty system, is that of exact arithmetic up to a relative error in each entry: as many roundings as the cell has faces, and seven. So
its signs are those of exact arithmetic (C21). -/
theorem C84_diffusion (hF : FloatArith F val u) (h : m.WF) (hp : sp.For m) {φ : VolField F F} (hφ : φ.On m) {δ gamma : List F} (hδ : δ.length = m.nFaces)
    (hg : gamma.length = m.nFaces) {scal : Coeff F} {v : Nat → K} (hs : (scal.exact val).On m.nCells v)
    (hpos : ∀ f < m.nFaces, 0 ≤ val (ix gamma f) * val (ix δ f) * val (ix m.magFaceAreas f)) (hvf : ∀ b < m.nBoundaryFaces, 0 ≤ val (ix φ.bVF b))
    {A : LinearSystem F} {E : LinearSystem K} (hA : createEmptyLinearSystem sp = .ok A) (hE : createEmptyLinearSystem sp = .ok E)
    (e : ExecKind) (he : e = .serial ∨ m.BndDistinct) :
    ∃ E' : LinearSystem K, (∀ out, computeLaplacianImpl e (m.exact val) sp (δ.map val) (gamma.map val) (φ.exact val) (scal.exact val) E out ↔ out = .ok E') ∧
      (computeLaplacianImpl e m sp δ gamma φ scal A).Ok (fun A' => ∀ s : Slot, s.Valid m →
        |val (A'.matrix.val (sp.addr m s)) - E'.matrix.val (sp.addr m s)| ≤ ((1 + u) ^ (7 + m.roundings s) - 1) * |E'.matrix.val (sp.addr m s)| ∧
        ((1 + u) ^ (7 + m.roundings s) < 2 → (0 ≤ E'.matrix.val (sp.addr m s) → 0 ≤ val (A'.matrix.val (sp.addr m s))) ∧
          (E'.matrix.val (sp.addr m s) ≤ 0 → val (A'.matrix.val (sp.addr m s)) ≤ 0))) := by
  have hfa := h.faces
  have h0 := C84_empty (m := m) (u := u) hF.zero hF.roundoff hp hA hE 7
  obtain ⟨E', h1, h2⟩ := C84_laplacian hF h hp hφ hδ hg hs h0 (fun _ => le_rfl) (fun _ => le_rfl) e he
  refine ⟨E', h1, h2.mono fun A' hA' s hv => C84_relative hA' hF.roundoff hv ?_⟩
  obtain ⟨x, hx, hxa⟩ := computeLaplacianImpl_ok (exact_wf (val := val) h) (exact_for hp) (exact_on (val := val) hφ)
    (δ := δ.map val) (gamma := gamma.map val) ((List.length_map val).trans hδ) ((List.length_map val).trans hg) hs e he E
    ⟨h0.onE.cols, h0.onE.rowsEq, h0.onE.vals, h0.onE.rhsLen⟩ _ ((h1 _).2 rfl)
  cases hx
  have hz : E.matrix.val (sp.addr m s) = 0 := by
    have := h0.size s hv
    exact abs_nonpos_iff.1 this
  rw [(Assembles.of_exact hxa).coef s hv, hz, zero_add, zero_add]
  have hf0 := hF.zero
  have hpos' : ∀ f < m.nFaces, 0 ≤ ix (gamma.map val) f * ix (δ.map val) f * ix (m.exact val).magFaceAreas f := by
    intro f hf
    rw [exact_mag, ix_val hf0, ix_val hf0, ix_val hf0]
    exact hpos f hf
  cases s with
  | diag c =>
    simp only [lapDelta, lapSize, abs_neg, abs_mul (v c)]
    refine mul_le_mul_of_nonneg_left (le_of_eq ?_) (abs_nonneg _)
    rw [abs_of_nonneg]
    · simp only [Mesh.faceSum]
      refine congrArg₂ (· + ·) (Finset.sum_congr rfl fun f hf => ?_) (Finset.sum_congr rfl fun b hb => ?_)
      · have hf' : f < m.nInternalFaces := Finset.mem_range.1 hf
        simp only [if_pos (show f < (m.exact val).nInternalFaces from hf'), mul_one, abs_of_nonneg (hpos' f (by omega))]
        rfl
      · have hb' : b < m.nBoundaryFaces := Finset.mem_range.1 hb
        simp only [exact_int, Nat.add_sub_cancel_left, if_neg (show ¬ m.nInternalFaces + b < m.nInternalFaces by omega), abs_of_nonneg (hpos' (m.nInternalFaces + b) (by omega)),
          ix_val hf0 φ.bVF, abs_of_nonneg (hvf b hb')]
        show _ = if _ then lapCoef _ _ _ _ * ix (φ.bVF.map val) b else _
        rw [ix_val hf0 φ.bVF]
        rfl
    · refine add_nonneg (Finset.sum_nonneg fun f hf => add_nonneg ?_ ?_) (Finset.sum_nonneg fun b hb => ?_)
      · have hf' : f < m.nInternalFaces := Finset.mem_range.1 hf
        split
        exacts [hpos' f (by omega), le_rfl]
      · have hf' : f < m.nInternalFaces := Finset.mem_range.1 hf
        split
        exacts [hpos' f (by omega), le_rfl]
      · have hb' : b < m.nBoundaryFaces := Finset.mem_range.1 hb
        split
        · refine mul_nonneg (hpos' _ (by show m.nInternalFaces + b < _; omega)) ?_
          show 0 ≤ ix (φ.bVF.map val) b
          rw [ix_val hf0 φ.bVF]
          exact hvf b hb'
        · exact le_rfl
  | upper f => simp only [lapDelta, lapSize, lapCoef, abs_mul]; exact le_rfl
  | lower f => simp only [lapDelta, lapSize, lapCoef, abs_mul]; exact le_rfl

section witness

/-- The hypotheses can be met: a Laplacian with coefficient one third in `double`, on three cells in a row, with two threads or more. -/
example (e : ExecKind) : ∃ (sp : SparsityPattern) (A : LinearSystem (BinFloat 53)) (E E' : LinearSystem ℚ), sp.For floatRow ∧ createEmptyLinearSystem sp = .ok A ∧
    createEmptyLinearSystem sp = .ok E ∧
    (∀ out, computeLaplacianImpl e (floatRow.exact (BinFloat.val 53)) sp ([1, 1, 1, 1].map (BinFloat.val 53)) ([1, 1, 1, 1].map (BinFloat.val 53))
      (floatRowField.exact (BinFloat.val 53)) ((Coeff.ofScalar third).exact (BinFloat.val 53)) E out ↔ out = .ok E') ∧
    (computeLaplacianImpl e floatRow sp [1, 1, 1, 1] [1, 1, 1, 1] floatRowField (Coeff.ofScalar third) A).Ok (fun A' =>
      |BinFloat.val 53 (A'.matrix.val (sp.addr floatRow (.diag 1))) - E'.matrix.val (sp.addr floatRow (.diag 1))| ≤
        ((1 + 1 / 2 ^ 53) ^ (7 + 2) - 1) * |E'.matrix.val (sp.addr floatRow (.diag 1))|) := by
  obtain ⟨sp, -, hp, -⟩ := exists_system row3 row3_wf row3_deg .serial
  have hp : sp.For floatRow := exact_for (val := fun x : ℚ => if x = 0 then (0 : BinFloat 53) else 1) hp
  have hr : ∀ {X : Type} [Zero X], (⟨List.replicate sp.colIdxs.length (0 : X), sp.colIdxs, sp.rowPtrs⟩ : CSR X).nRows = floatRow.nCells := by
    intro X _
    simp [CSR.nRows, hp.rows.len]
  have hem : ∀ {X : Type} [Zero X], ∃ A : LinearSystem X, createEmptyLinearSystem sp = .ok A := by
    intro X _
    refine ⟨⟨⟨List.replicate sp.colIdxs.length 0, sp.colIdxs, sp.rowPtrs⟩, List.replicate sp.diagOffset.length 0⟩, ?_⟩
    unfold createEmptyLinearSystem LinearSystem.mk'
    rw [if_pos (by rw [hr]; simp [hp.dlen])]
  obtain ⟨A, hA⟩ := hem (X := BinFloat 53)
  obtain ⟨E, hE⟩ := hem (X := ℚ)
  have h4 : ∀ f < 4, ix ([1, 1, 1, 1] : List (BinFloat 53)) f = 1 := by
    intro f hf
    interval_cases f <;> rfl
  have ha : ∀ f < 4, ix floatRow.magFaceAreas f = 1 := by
    intro f hf
    interval_cases f <;> rfl
  have hF := binFloat_arith 53
  obtain ⟨E', h1, h2⟩ := C84_diffusion hF floatRow_wf hp floatRowField_on (δ := [1, 1, 1, 1]) (gamma := [1, 1, 1, 1]) rfl rfl (scal := Coeff.ofScalar third)
    (v := fun _ => BinFloat.val 53 third) (fun _ _ => rfl) (fun f hf => by rw [h4 f hf, ha f hf, hF.one]; norm_num)
    (fun b hb => by
      have : b < 2 := hb
      interval_cases b
      · exact hF.one.symm ▸ zero_le_one
      · exact hF.one.symm ▸ zero_le_one) hA hE e (Or.inr (by
      intro b hb b' hb' hbb
      have h3 : b < 2 := hb
      have h4 : b' < 2 := hb'
      interval_cases b <;> interval_cases b' <;> first | rfl | exact absurd hbb (by decide)))
  refine ⟨sp, A, E, E', hp, hA, hE, h1, h2.mono fun A' hA' => ?_⟩
  exact (hA' (.diag 1) (show 1 < 3 by decide)).1

end witness

end NeoFOAM
