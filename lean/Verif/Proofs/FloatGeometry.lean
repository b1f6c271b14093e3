import Verif.Spec.FloatGeometry
import Verif.Proofs.Float
import Verif.Props.C29_Courant

/-!
# Geometry and Courant number in floating point (proof side)
-/
namespace NeoFOAM
open Finset
variable {F K : Type}

section near
variable [Field K] [LinearOrder K] [IsStrictOrderedRing K] {u : K} {n k : Nat} {a b c x y : K}

theorem pow_u_pos (hu : u < 1) (n : Nat) : 0 < (1 - u) ^ n := pow_pos (by linarith) n
theorem pow_u_le (hu0 : 0 ≤ u) (hu : u < 1) (h : n ≤ k) : (1 - u) ^ k ≤ (1 - u) ^ n := pow_le_pow_of_le_one (by linarith) (by linarith) h

theorem RelNear.nonneg (hu : u < 1) (h : RelNear u n a x) : 0 ≤ a := (mul_nonneg h.1 (pow_u_pos hu n).le).trans h.2.1
theorem RelNear.pos (hu : u < 1) (h : RelNear u n a x) (hx : 0 < x) : 0 < a := (mul_pos hx (pow_u_pos hu n)).trans_le h.2.1

theorem RelNear.refl (hu0 : 0 ≤ u) (hu : u < 1) (n : Nat) (hx : 0 ≤ x) : RelNear u n x x := by
  have : (1 - u) ^ n ≤ 1 := pow_le_one₀ (by linarith) (by linarith)
  exact ⟨hx, by nlinarith, by nlinarith⟩

theorem RelNear.mono (hu0 : 0 ≤ u) (hu : u < 1) (h : RelNear u n a x) (hn : n ≤ k) : RelNear u k a x := by
  have h1 := pow_u_le hu0 hu hn
  exact ⟨h.1, (mul_le_mul_of_nonneg_left h1 h.1).trans h.2.1, (mul_le_mul_of_nonneg_left h1 (h.nonneg hu)).trans h.2.2⟩

theorem RelNear.round (hu0 : 0 ≤ u) (hu : u < 1) (h : RelNear u n a x) (hc : |c - a| ≤ u * |a|) : RelNear u (n + 1) c x := by
  have ha := h.nonneg hu
  rw [abs_of_nonneg ha] at hc
  obtain ⟨h1, h2⟩ := abs_le.1 hc
  have hp := pow_u_pos hu n
  refine ⟨h.1, ?_, ?_⟩
  · calc x * (1 - u) ^ (n + 1) = x * (1 - u) ^ n * (1 - u) := by ring
      _ ≤ a * (1 - u) := mul_le_mul_of_nonneg_right h.2.1 (by linarith)
      _ ≤ c := by linarith
  · have h3 : c * (1 - u) ≤ a := by nlinarith [mul_nonneg ha (mul_nonneg hu0 hu0)]
    calc c * (1 - u) ^ (n + 1) = c * (1 - u) * (1 - u) ^ n := by ring
      _ ≤ a * (1 - u) ^ n := mul_le_mul_of_nonneg_right h3 hp.le
      _ ≤ x := h.2.2

theorem RelNear.plus (h : RelNear u n a x) (h' : RelNear u n b y) : RelNear u n (a + b) (x + y) :=
  ⟨add_nonneg h.1 h'.1, by rw [add_mul]; linarith [h.2.1, h'.2.1], by rw [add_mul]; linarith [h.2.2, h'.2.2]⟩

theorem RelNear.times (hu : u < 1) (h : RelNear u n a x) (h' : RelNear u k b y) : RelNear u (n + k) (a * b) (x * y) := by
  have hn := pow_u_pos hu n
  have hk := pow_u_pos hu k
  refine ⟨mul_nonneg h.1 h'.1, ?_, ?_⟩
  · calc x * y * (1 - u) ^ (n + k) = x * (1 - u) ^ n * (y * (1 - u) ^ k) := by ring
      _ ≤ a * b := mul_le_mul h.2.1 h'.2.1 (mul_nonneg h'.1 hk.le) (h.nonneg hu)
  · calc a * b * (1 - u) ^ (n + k) = a * (1 - u) ^ n * (b * (1 - u) ^ k) := by ring
      _ ≤ x * y := mul_le_mul h.2.2 h'.2.2 (mul_nonneg (h'.nonneg hu) hk.le) h.1

theorem RelNear.inv (hu : u < 1) (h : RelNear u n a x) (hx : 0 < x) : RelNear u n (1 / a) (1 / x) := by
  have ha := h.pos hu hx
  refine ⟨by positivity, ?_, ?_⟩
  · rw [div_mul_eq_mul_div, one_mul, div_le_div_iff₀ hx ha]; linarith [h.2.2]
  · rw [div_mul_eq_mul_div, one_mul, div_le_div_iff₀ ha hx]; linarith [h.2.1]

/-- A number that is near another: their squares. -/
theorem RelNear.ofSq (hu0 : 0 ≤ u) (hu : u < 1) (h : |a - x| ≤ u * |x|) : RelNear u 2 (a * a) (x * x) := by
  have h1 : |a| ≤ |x| + u * |x| := by
    have : |a| ≤ |a - x| + |x| := by simpa using abs_add_le (a - x) x
    linarith
  have h2 : |x| - u * |x| ≤ |a| := by
    have : |x| ≤ |x - a| + |a| := by simpa using abs_add_le (x - a) a
    rw [abs_sub_comm] at this
    linarith
  have hx := abs_nonneg x
  have ha := abs_nonneg a
  rw [← abs_mul_abs_self a, ← abs_mul_abs_self x]
  generalize |a| = a at *
  generalize |x| = x at *
  refine ⟨mul_nonneg hx hx, ?_, ?_⟩
  · calc x * x * (1 - u) ^ 2 = (x - u * x) * (x - u * x) := by ring
      _ ≤ a * a := mul_le_mul h2 h2 (by nlinarith) ha
  · have h3 : a * (1 - u) ≤ x := by nlinarith [mul_nonneg hx (mul_nonneg hu0 hu0)]
    calc a * a * (1 - u) ^ 2 = (a * (1 - u)) * (a * (1 - u)) := by ring
      _ ≤ x * x := mul_le_mul h3 h3 (mul_nonneg ha (by linarith)) hx

end near

section ops
variable [Add F] [Sub F] [Mul F] [Div F] [Neg F] [Zero F] [One F] [LinearOrder F] [Field K] [LinearOrder K] [IsStrictOrderedRing K]
variable {val : F → K} {u : K} {n k : Nat} {a b : F} {x y : K}

theorem FloatArith.near_add (hF : FloatArith F val u) (hu : u < 1) (h : RelNear u n (val a) x) (h' : RelNear u k (val b) y) {l : Nat} (hn : n ≤ l) (hk : k ≤ l) :
    RelNear u (l + 1) (val (a + b)) (x + y) :=
  ((h.mono hF.roundoff hu hn).plus (h'.mono hF.roundoff hu hk)).round hF.roundoff hu (hF.add a b)

theorem FloatArith.near_mul (hF : FloatArith F val u) (hu : u < 1) (h : RelNear u n (val a) x) (h' : RelNear u k (val b) y) :
    RelNear u (n + k + 1) (val (a * b)) (x * y) := (h.times hu h').round hF.roundoff hu (hF.mul a b)

theorem FloatArith.near_one (hF : FloatArith F val u) (hu : u < 1) : RelNear u 0 (val (1 : F)) 1 := by
  rw [hF.one]; exact RelNear.refl hF.roundoff hu 0 zero_le_one

theorem FloatArith.near_inv (hF : FloatArith F val u) (hu : u < 1) (h : RelNear u n (val a) x) (hx : 0 < x) :
    RelNear u (n + 1) (val (1 / a)) (1 / x) := by
  refine (h.inv hu hx).round hF.roundoff hu ?_
  have := hF.div 1 a (h.pos hu hx).ne'
  rwa [hF.one] at this

theorem FloatArith.near_two (hF : FloatArith F val u) (hu : u < 1) : RelNear u 1 (val (1 + 1 : F)) 2 := by
  have := hF.near_add hu (hF.near_one hu) (hF.near_one hu) le_rfl le_rfl
  rwa [one_add_one_eq_two] at this

theorem FloatArith.near_twentieth (hF : FloatArith F val u) (hu : u < 1) : RelNear u 7 (val (twentieth : F)) (1 / 20) := by
  have h2 := hF.near_two hu
  have h4 := hF.near_add hu h2 h2 le_rfl le_rfl
  have h5 := hF.near_add hu h4 (hF.near_one hu) le_rfl (by omega)
  have h20 := hF.near_mul hu h5 h4
  have := hF.near_inv hu h20 (by norm_num)
  norm_num at this
  exact this

/-- A square root: its square. -/
theorem FloatRoot.near {root : F → F} (hr : FloatRoot val u root) (hF : FloatArith F val u) (hu : u < 1) (h : RelNear u n (val a) x) :
    RelNear u (n + 2) (val (root a) * val (root a)) x := by
  have ha := h.nonneg hu
  obtain ⟨_, h1, h2⟩ := hr a ha
  have hu0 := hF.roundoff
  have hp := pow_u_pos hu n
  refine ⟨h.1, ?_, ?_⟩
  · calc x * (1 - u) ^ (n + 2) = (1 - u) ^ 2 * (x * (1 - u) ^ n) := by ring
      _ ≤ (1 - u) ^ 2 * val a := mul_le_mul_of_nonneg_left h.2.1 (sq_nonneg _)
      _ ≤ _ := by rw [← sq]; exact h1
  · have h3 : val (root a) ^ 2 * (1 - u) ^ 2 ≤ val a := by
      have h4 : (1 + u) ^ 2 * (1 - u) ^ 2 ≤ 1 := by
        rw [← mul_pow]; exact pow_le_one₀ (by nlinarith) (by nlinarith)
      calc val (root a) ^ 2 * (1 - u) ^ 2 ≤ (1 + u) ^ 2 * val a * (1 - u) ^ 2 := mul_le_mul_of_nonneg_right h2 (sq_nonneg _)
        _ = (1 + u) ^ 2 * (1 - u) ^ 2 * val a := by ring
        _ ≤ 1 * val a := mul_le_mul_of_nonneg_right h4 ha
        _ = _ := one_mul _
    calc val (root a) * val (root a) * (1 - u) ^ (n + 2) = val (root a) ^ 2 * (1 - u) ^ 2 * (1 - u) ^ n := by ring
      _ ≤ val a * (1 - u) ^ n := mul_le_mul_of_nonneg_right h3 hp.le
      _ ≤ x := h.2.2

/-! ### The geometry scheme -/

/-- Interpolation weight of an internal face as computed (used in proofs only). -/
def Mesh.wgtF (m : Mesh F) (tiny : F) (f : Nat) : F :=
  let o := absOf (vdot (m.sf f) (m.fctr f - m.ctr (m.own f)))
  let n := absOf (vdot (m.sf f) (m.ctr (m.nbr f) - m.fctr f))
  if tiny < absOf (o + n) then n / (o + n) else half

/-- Non-orthogonal coefficient of a face as computed (used in proofs only). -/
def Mesh.nonOrthF (m : Mesh F) (root : F → F) (f : Nat) : F :=
  1 / max (vdot ((1 / m.magFaceAreas.getD f 0) • m.sf f) (m.span f)) (twentieth * vmag root (m.span f))

theorem geometryScheme_detF {m : Mesh F} (h : m.WF) (e : ExecKind) (tiny : F) (root : F → F) (junk : Nat → F)
    (out : Res (Geometry F)) : geometryScheme e m tiny root junk out ↔ out = .ok
      ⟨(List.range m.nFaces).map fun f => if f < m.nInternalFaces then m.wgtF tiny f else 1,
        (List.range m.nFaces).map fun f => 1 / vmag root (m.span f),
        (List.range m.nFaces).map (m.nonOrthF root)⟩ := by
  have hfaces := h.faces
  have hmag : ∀ f < m.nFaces, rd m.magFaceAreas f = .ok (m.magFaceAreas.getD f 0) :=
    fun f hf => rd_getD 0 (by rw [h.magLen]; exact hf)
  have hW : ∀ (a : List F), a.length = m.nFaces → ∀ o, updateWeights e m tiny a o ↔
      o = .ok ((List.range m.nFaces).map fun f => if f < m.nInternalFaces then m.wgtF tiny f else 1) := by
    intro a ha o
    refine splitKernel_det e m.nInternalFaces m.nFaces (by omega) _ _ (m.wgtF tiny) (fun _ => 1) ?_ (fun i _ _ => rfl) a ha o
    intro f hf
    unfold weightsBody
    simp only [h.rd_sf (show f < m.nFaces by omega), h.rd_fctr (show f < m.nFaces by omega), h.rd_owner_int hf,
      h.rd_ctr (h.own_lt_int hf), h.rd_nbr hf, h.rd_ctr (h.nbr_lt f hf), Res.ok_bind]
    rfl
  have hN : ∀ (a : List F), a.length = m.nFaces → ∀ o, updateNonOrthDeltaCoeffs e m root a o ↔
      o = .ok ((List.range m.nFaces).map (m.nonOrthF root)) := by
    intro a ha o
    refine Iff.trans (NR.bind_iff (fun o => elemKernel_det e 0 a.length _ (fun _ _ => 0) a le_rfl (fun i _ _ => rfl) o) o) ?_
    refine (splitKernel_det e m.nInternalFaces m.nFaces (by omega) _ _ (m.nonOrthF root) (m.nonOrthF root) ?_ ?_ _ (by simp [ha]) o).trans ?_
    · intro f hf
      simp [nonOrthBody, cellToCell_ok h hf, hmag f (by omega), h.rd_sf (show f < m.nFaces by omega), Mesh.nonOrthF]
    · intro f h1 hf
      simp [nonOrthBody, cellToFace_ok h h1 hf, hmag f hf, h.rd_sf hf, Mesh.nonOrthF]
    · simp
  unfold geometryScheme
  refine Iff.trans (NR.bind_iff (fun o => hW _ (by simp) o) out) ?_
  refine Iff.trans (NR.bind_iff (fun o => updateDeltaCoeffs_det h e root _ (by simp) o) out) ?_
  refine Iff.trans (NR.bind_iff (fun o => hN _ (by simp) o) out) ?_
  exact Iff.rfl

theorem FloatArith.val_absOf (hF : FloatArith F val u) (a : F) : val (absOf a) = |val a| := by
  unfold absOf
  rcases le_total a (-a) with h | h
  · rw [max_eq_right h, hF.neg]
    rw [hF.le, hF.neg] at h
    rw [abs_of_nonpos (by linarith)]
  · rw [max_eq_left h]
    rw [hF.le, hF.neg] at h
    rw [abs_of_nonneg (by linarith)]

theorem FloatArith.val_lt (hF : FloatArith F val u) (a b : F) : a < b ↔ val a < val b := by
  rw [← not_le, ← not_le, hF.le]

/-- Computed weights lie between 0 and 1. -/
theorem wgtF_bounds (hF : FloatArith F val u) (hR : Faithful F val) {m : Mesh F} {tiny : F} (ht : 0 ≤ val tiny) (f : Nat) :
    0 ≤ val (m.wgtF tiny f) ∧ val (m.wgtF tiny f) ≤ 1 := by
  unfold Mesh.wgtF
  simp only []
  set o := absOf (vdot (m.sf f) (m.fctr f - m.ctr (m.own f)))
  set n := absOf (vdot (m.sf f) (m.ctr (m.nbr f) - m.fctr f))
  have ho : 0 ≤ val o := by rw [hF.val_absOf]; exact abs_nonneg _
  have hn : 0 ≤ val n := by rw [hF.val_absOf]; exact abs_nonneg _
  split
  · rename_i h
    have hsum : val n ≤ val (o + n) := hR.le_add o n n (by linarith)
    have hpos : 0 < val (o + n) := by
      rw [hF.val_lt, hF.val_absOf, abs_of_nonneg (hn.trans hsum)] at h
      linarith
    constructor
    · rw [← hF.zero]
      refine hR.le_div n (o + n) 0 hpos.ne' ?_
      rw [hF.zero]; positivity
    · rw [← hF.one]
      refine hR.div_le n (o + n) 1 hpos.ne' ?_
      rw [hF.one]
      exact (div_le_one hpos).2 hsum
  · have h2 : (1 : K) ≤ val (1 + 1 : F) := by
      have := hR.le_add 1 1 1 (by rw [hF.one]; linarith [zero_le_one (α := K)])
      rwa [hF.one] at this
    unfold half
    constructor
    · rw [← hF.zero]
      refine hR.le_div 1 (1 + 1) 0 (by linarith) ?_
      rw [hF.zero, hF.one]; positivity
    · rw [← hF.one]
      refine hR.div_le 1 (1 + 1) 1 (by linarith) ?_
      rw [hF.one]
      exact (div_le_one (by linarith)).2 h2

omit [LinearOrder F] [LinearOrder K] [IsStrictOrderedRing K] [Add F] [Sub F] [Mul F] [Div F] [Neg F] [One F] in
theorem vecVal_getD (h0 : val 0 = 0) (l : List (Vec F)) (i : Nat) : (l.map (vecVal val)).getD i 0 = vecVal val (l.getD i 0) := by
  by_cases hi : i < l.length
  · simp [List.getD, hi]
  · simp [List.getD, hi, vecVal, h0]
    rfl

omit [IsStrictOrderedRing K] in
/-- Components of the computed vector between the two points of a face. -/
theorem span_near (hF : FloatArith F val u) (m : Mesh F) (f : Nat) :
    |val (m.span f).1 - ((m.exact val).span f).1| ≤ u * |((m.exact val).span f).1| ∧
    |val (m.span f).2.1 - ((m.exact val).span f).2.1| ≤ u * |((m.exact val).span f).2.1| ∧
    |val (m.span f).2.2 - ((m.exact val).span f).2.2| ≤ u * |((m.exact val).span f).2.2| := by
  have hc : ∀ c, (m.exact val).ctr c = vecVal val (m.ctr c) := fun c => vecVal_getD hF.zero _ _
  have hf : ∀ c, (m.exact val).fctr c = vecVal val (m.fctr c) := fun c => vecVal_getD hF.zero _ _
  unfold Mesh.span
  rw [hc, hc, hf]
  show _ ∧ _ ∧ _
  have e1 : (m.exact val).nInternalFaces = m.nInternalFaces := rfl
  have e2 : (m.exact val).nbr f = m.nbr f := rfl
  have e3 : (m.exact val).own f = m.own f := rfl
  have e4 : (m.exact val).fc (f - m.nInternalFaces) = m.fc (f - m.nInternalFaces) := rfl
  rw [e1, e2, e3, e4, hc]
  by_cases h : f < m.nInternalFaces
  · simp only [h, if_true]
    exact ⟨hF.sub _ _, hF.sub _ _, hF.sub _ _⟩
  · simp only [h, if_false]
    exact ⟨hF.sub _ _, hF.sub _ _, hF.sub _ _⟩

/-- The computed length of a vector: its square. -/
theorem vmag_near (hF : FloatArith F val u) (hu : u < 1) {root : F → F} (hr : FloatRoot val u root) (m : Mesh F) (f : Nat) :
    RelNear u 7 (val (vmag root (m.span f)) * val (vmag root (m.span f))) (normSq ((m.exact val).span f)) ∧ 0 ≤ val (vmag root (m.span f)) := by
  obtain ⟨h1, h2, h3⟩ := span_near hF m f
  have hu0 := hF.roundoff
  have s1 := (RelNear.ofSq hu0 hu h1).round hu0 hu (hF.mul _ _)
  have s2 := (RelNear.ofSq hu0 hu h2).round hu0 hu (hF.mul _ _)
  have s3 := (RelNear.ofSq hu0 hu h3).round hu0 hu (hF.mul _ _)
  have s := hF.near_add hu (hF.near_add hu s1 s2 le_rfl le_rfl) s3 le_rfl (by omega)
  exact ⟨hr.near hF hu s, (hr _ (s.nonneg hu)).1⟩

/-! ### The Courant number -/

theorem FloatArith.near_half (hF : FloatArith F val u) (hu : u < 1) : RelNear u 2 (val (half : F)) (1 / 2) := hF.near_inv hu (hF.near_two hu) (by norm_num)

/-- The magnitude of a flux. -/
theorem FloatRoot.mag {root : F → F} (hr : FloatRoot val u root) (hF : FloatArith F val u) (hu : u < 1) (a : F) :
    RelNear u 2 (val (root (a * a))) |val a| := by
  have hu0 := hF.roundoff
  have h1 : RelNear u 1 (val (a * a)) (val a * val a) := (RelNear.refl hu0 hu 0 (mul_self_nonneg (val a))).round hu0 hu (hF.mul a a)
  have h2 := (hr.near hF hu h1).mono hu0 hu (show 1 + 2 ≤ 4 by norm_num)
  have h0 := (hr _ (h1.nonneg hu)).1
  rw [← abs_mul_abs_self (val a)] at h2
  have hx := abs_nonneg (val a)
  generalize |val a| = x at *
  have hp := (pow_u_pos hu 2).le
  refine ⟨hx, ?_, ?_⟩
  · refine abs_le_of_sq_le_sq' ?_ h0 |>.2
    calc (x * (1 - u) ^ 2) ^ 2 = x * x * (1 - u) ^ 4 := by ring
      _ ≤ _ := h2.2.1
      _ = _ := by ring
  · refine abs_le_of_sq_le_sq' ?_ hx |>.2
    calc (val (root (a * a)) * (1 - u) ^ 2) ^ 2 = val (root (a * a)) * val (root (a * a)) * (1 - u) ^ 4 := by ring
      _ ≤ _ := h2.2.2
      _ = _ := by ring

/-- A sum of non-negative numbers and, beside it, the exact sum and the number of terms. -/
def Sums (val : F → K) (u : K) (j : Nat) (a : F) (g : K × ℤ) : Prop := ∃ n : Nat, g.2 = n ∧ j ≤ n ∧ RelNear u n (val a) g.1

theorem Sums.add (hF : FloatArith F val u) (hu : u < 1) {j : Nat} (hb : RelNear u j (val b) x) {g : K × ℤ} (h : Sums val u j a g) :
    Sums val u j (a + b) (g + (x, 1)) := by
  obtain ⟨n, h1, h2, h3⟩ := h
  exact ⟨n + 1, by simp [h1], by omega, hF.near_add hu h3 hb le_rfl h2⟩

/-- What the face loops of the Courant number leave in each cell, in whatever order the threads add. -/
theorem coPhi_near (hF : FloatArith F val u) (hu : u < 1) {root : F → F} (hr : FloatRoot val u root) {m : Mesh F} (h : m.WF) (e : ExecKind) {flux : List F}
    (hfl : flux.length = m.nFaces) :
    (do
      let phi ← launch1 e 0 m.nInternalFaces (coInternal m root flux) (List.replicate m.nCells 0)
      launch1 e m.nInternalFaces flux.length (coBoundary m root flux) phi : NR (List F)).Ok
      (fun phi => phi.length = m.nCells ∧ ∀ c < m.nCells, RelNear u (2 + m.faceCount c) (val (ix phi c)) ((m.exact val).absFlux (ix (flux.map val)) c)) := by
  have hfaces := h.faces
  have hrd : ∀ f < m.nFaces, rd flux f = .ok (ix flux f) := fun f hf => rd_getD 0 (by omega)
  have hx : ∀ f, ix (flux.map val) f = val (ix flux f) := ix_val hF.zero flux
  have rel : NR.Rel (List.Forall₂ (Sums val u 2))
      (do
        let phi ← launch1 e 0 m.nInternalFaces (coInternal m root flux) (List.replicate m.nCells 0)
        launch1 e m.nInternalFaces flux.length (coBoundary m root flux) phi : NR (List F))
      (do
        let r ← launch1 e 0 m.nInternalFaces (fun f => .ok [Act.atomicAdd () (m.own f) (|val (ix flux f)|, (1 : ℤ)),
          Act.atomicAdd () (m.nbr f) (|val (ix flux f)|, 1)]) (List.replicate m.nCells (0, 2))
        launch1 e m.nInternalFaces flux.length (fun f => .ok [Act.atomicAdd () (m.fc (f - m.nInternalFaces)) (|val (ix flux f)|, (1 : ℤ))]) r) := by
    refine NR.Rel.bind (launch1_rel e _ _ (fun f _ hf => ?_) ?_) fun r q hrq => launch1_rel e _ _ (fun f h1 hf => ?_) hrq
    · have hb : coInternal m root flux f = .ok [Act.atomicAdd () (m.own f) (root (ix flux f * ix flux f)), Act.atomicAdd () (m.nbr f) (root (ix flux f * ix flux f))] := by
        simp [coInternal, hrd f (by omega), h.rd_owner_int hf, h.rd_nbr hf]
      rw [hb]
      exact Res.Rel.ok (.cons ⟨rfl, rfl, fun y g hy => hy.add hF hu (hr.mag hF hu _)⟩ (.cons ⟨rfl, rfl, fun y g hy => hy.add hF hu (hr.mag hF hu _)⟩ .nil))
    · refine List.forall₂_iff_get.2 ⟨by simp, fun i h1 h2 => ?_⟩
      simp only [List.get_eq_getElem, List.getElem_replicate]
      exact ⟨2, rfl, le_rfl, by rw [hF.zero]; exact RelNear.refl hF.roundoff hu 2 le_rfl⟩
    · have hb : coBoundary m root flux f = .ok [Act.atomicAdd () (m.fc (f - m.nInternalFaces)) (root (ix flux f * ix flux f))] := by
        simp [coBoundary, hrd f (by omega), h.rd_fc (show f - m.nInternalFaces < m.nBoundaryFaces by omega)]
      rw [hb]
      exact Res.Rel.ok (.cons ⟨rfl, rfl, fun y g hy => hy.add hF hu (hr.mag hF hu _)⟩ .nil)
  refine (rel.ok_left (P := fun q => q.length = m.nCells ∧ ∀ c < m.nCells, q.getD c 0 = ((m.exact val).absFlux (ix (flux.map val)) c, ((2 + m.faceCount c : ℕ) : ℤ))) ?_).mono ?_
  · refine NR.Ok.bind (launch1_ok e 0 m.nInternalFaces _
      (fun f => [Act.atomicAdd () (m.own f) (|val (ix flux f)|, (1 : ℤ)), Act.atomicAdd () (m.nbr f) (|val (ix flux f)|, 1)])
      (fun f c => (if m.own f = c then (|val (ix flux f)|, (1 : ℤ)) else 0) + (if m.nbr f = c then (|val (ix flux f)|, (1 : ℤ)) else 0))
      _ (fun f _ _ => rfl) (Or.inr ?_) ?_) ?_
    · apply threadsCommute_addSub
      intro i y hy
      simp only [List.mem_cons, List.not_mem_nil, or_false] at hy
      rcases hy with rfl | rfl <;> exact Act.isAddSub_add _ _ _
    · intro f _ hf
      refine ((RunsAdd.atomicAdd (n := fun _ : Unit => (List.replicate m.nCells ((0 : K), (2 : ℤ))).length) (a := ()) (by simpa using h.own_lt_int hf)).append
        (RunsAdd.atomicAdd (a := ()) (by simpa using h.nbr_lt f hf))).congr ?_
      intro _ i _
      simp only [single, true_and, eq_comm (a := i)]
    · rintro phi ⟨h1, h2⟩
      have hl : phi.length = m.nCells := by simpa using h1
      refine (launch1_ok e m.nInternalFaces flux.length _ (fun f => [Act.atomicAdd () (m.fc (f - m.nInternalFaces)) (|val (ix flux f)|, (1 : ℤ))])
        (fun f c => if m.fc (f - m.nInternalFaces) = c then (|val (ix flux f)|, (1 : ℤ)) else 0) phi (fun f _ _ => rfl) (Or.inr ?_) ?_).mono ?_
      · apply threadsCommute_addSub
        intro i y hy
        simp only [List.mem_cons, List.not_mem_nil, or_false] at hy
        subst hy
        exact Act.isAddSub_add _ _ _
      · intro f hf1 hf
        exact runsAdd_bface (by rw [hl]; exact h.fc_lt _ (by omega))
      · rintro q ⟨g1, g2⟩
        refine ⟨g1.trans hl, fun c hc => ?_⟩
        rw [g2 c (by omega), h2 c (by simpa using hc), show flux.length - m.nInternalFaces = m.nBoundaryFaces by omega]
        have hi : ∀ (f : ℕ) (p : Prop) [Decidable p], (if p then (|val (ix flux f)|, (1 : ℤ)) else 0) = ((if p then |val (ix flux f)| else 0), (if p then 1 else 0)) := by
          intro f p _; split <;> rfl
        ext
        · simp [hi, Prod.fst_sum, List.getD, hc, Mesh.absFlux, hx, Mesh.exact, Mesh.own, Mesh.nbr, Mesh.fc, BoundaryMesh.exact]
        · simp [hi, Prod.snd_sum, List.getD, hc, Mesh.faceCount, Mesh.faceSum]
          ring
  · rintro r ⟨q, hrq, q1, q2⟩
    have hl : r.length = m.nCells := hrq.length_eq.trans q1
    refine ⟨hl, fun c hc => ?_⟩
    have h2 : Sums val u 2 (ix r c) (q.getD c 0) := by
      have := (List.forall₂_iff_get.1 hrq).2 c (by omega) (by omega)
      simpa [ix, List.getD, show c < r.length by omega, show c < q.length by omega] using this
    rw [q2 c hc] at h2
    obtain ⟨n, hn, _, h3⟩ := h2
    have : n = 2 + m.faceCount c := by
      simp only at hn
      omega
    rwa [this] at h3

end ops

end NeoFOAM
