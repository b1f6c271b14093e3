import Verif.Spec.FloatTransport
import Verif.Props.C81_Rounding
import Verif.Props.C42_Bounded
import Verif.Proofs.BinFloat

/-!
# C83 – explicit upwind transport in floating point stays bounded and close to the exact run
-/
namespace NeoFOAM
open Finset

section exactStep
variable {K : Type} [Field K] [LinearOrder K] [IsStrictOrderedRing K]

/-- A part of what leaves a cell: `p` leaves with the value `y`, `q` enters with a value of size at most `M`. -/
def Part (y M t a s : K) : Prop := ∃ p q r, 0 ≤ p ∧ 0 ≤ q ∧ t = p * y - r ∧ a = p + q ∧ s = p - q ∧ |r| ≤ q * M

theorem Part.zero (y M : K) : Part y M 0 0 0 := ⟨0, 0, 0, le_rfl, le_rfl, by simp, by simp, by simp, by simp⟩

theorem Part.add {y M t a s t' a' s' : K} (h : Part y M t a s) (h' : Part y M t' a' s') : Part y M (t + t') (a + a') (s + s') := by
  obtain ⟨p, q, r, h1, h2, rfl, rfl, rfl, h6⟩ := h
  obtain ⟨p', q', r', h1', h2', rfl, rfl, rfl, h6'⟩ := h'
  exact ⟨p + p', q + q', r + r', by linarith, by linarith, by ring, by ring, by ring, (abs_add_le r r').trans (by linarith)⟩

theorem Part.sum {y M : K} (n : Nat) {t a s : Nat → K} (h : ∀ i < n, Part y M (t i) (a i) (s i)) :
    Part y M (∑ i ∈ range n, t i) (∑ i ∈ range n, a i) (∑ i ∈ range n, s i) := by
  induction n with
  | zero => exact Part.zero y M
  | succ n ih =>
    rw [Finset.sum_range_succ, Finset.sum_range_succ, Finset.sum_range_succ]
    exact (ih fun i hi => h i (by omega)).add (h n (by omega))

theorem Part.leaves {y M f : K} (hf : 0 ≤ f) : Part y M (f * y) |f| f :=
  ⟨f, 0, 0, hf, le_rfl, by ring, by rw [abs_of_nonneg hf]; ring, by ring, by simp⟩

theorem Part.enters {y M f x : K} (hf : f ≤ 0) (hx : |x| ≤ M) : Part y M (f * x) |f| f := by
  refine ⟨0, -f, -(f * x), le_rfl, by linarith, by ring, by rw [abs_of_nonpos hf]; ring, by ring, ?_⟩
  rw [abs_neg, abs_mul, abs_of_nonpos hf]
  exact mul_le_mul_of_nonneg_left hx (by linarith)

/-- A cell with Courant number at most 1 mixes what is in it with what comes in. -/
theorem Part.step {y M t a s d η : K} (h : Part y M t a s) (hd : 0 ≤ d) (ha : d * a ≤ 2) (hs : -η ≤ d * s) (hη : 0 ≤ η) (hy : |y| ≤ M) :
    |y - d * t| ≤ (1 + η) * M := by
  obtain ⟨p, q, r, hp, hq, rfl, rfl, rfl, hr⟩ := h
  have hM : 0 ≤ M := (abs_nonneg y).trans hy
  have e1 : y - d * (p * y - r) = (1 - d * p) * y + d * r := by ring
  have h1 : |(1 - d * p) * y| ≤ |1 - d * p| * M := by rw [abs_mul]; exact mul_le_mul_of_nonneg_left hy (abs_nonneg _)
  have h2 : |d * r| ≤ d * (q * M) := by rw [abs_mul, abs_of_nonneg hd]; exact mul_le_mul_of_nonneg_left hr hd
  have h3 : |1 - d * p| + d * q ≤ 1 + η := by
    rcases le_total 0 (1 - d * p) with h | h
    · rw [abs_of_nonneg h]; linarith [mul_sub d p q]
    · rw [abs_of_nonpos h]; linarith [mul_add d p q]
  rw [e1]
  calc |(1 - d * p) * y + d * r| ≤ |1 - d * p| * M + d * (q * M) := (abs_add_le _ _).trans (add_le_add h1 h2)
    _ = (|1 - d * p| + d * q) * M := by ring
    _ ≤ (1 + η) * M := mul_le_mul_of_nonneg_right h3 hM

/-- The face values `x` that leave cell `c` are `y`, the others have size at most `M`. -/
structure Upwinded (m : Mesh K) (flux x : Nat → K) (c : Nat) (y M : K) : Prop where
  own : ∀ f < m.nInternalFaces, m.own f = c → (0 ≤ flux f → x f = y) ∧ (flux f < 0 → |x f| ≤ M)
  nbr : ∀ f < m.nInternalFaces, m.nbr f = c → (flux f < 0 → x f = y) ∧ (0 ≤ flux f → |x f| ≤ M)
  bnd : ∀ b < m.nBoundaryFaces, m.fc b = c → (0 < flux (m.nInternalFaces + b) → x (m.nInternalFaces + b) = y) ∧
    (flux (m.nInternalFaces + b) < 0 → |x (m.nInternalFaces + b)| ≤ M)

theorem Upwinded.part {m : Mesh K} {flux x : Nat → K} {c : Nat} {y M : K} (h : Upwinded m flux x c y M) :
    Part y M (m.netOutflow (fun f => flux f * x f) c) (m.absFlux flux c) (m.netOutflow flux c) := by
  have h1 : Part y M (∑ f ∈ range m.nInternalFaces, if m.own f = c then flux f * x f else 0) (∑ f ∈ range m.nInternalFaces, if m.own f = c then |flux f| else 0)
      (∑ f ∈ range m.nInternalFaces, if m.own f = c then flux f else 0) := by
    refine Part.sum _ fun f hf => ?_
    by_cases hc : m.own f = c
    · simp only [hc, if_true]
      rcases le_or_gt 0 (flux f) with h0 | h0
      · rw [(h.own f hf hc).1 h0]; exact Part.leaves h0
      · exact Part.enters h0.le ((h.own f hf hc).2 h0)
    · simp only [hc, if_false]; exact Part.zero _ _
  have h2 : Part y M (∑ f ∈ range m.nInternalFaces, if m.nbr f = c then -(flux f) * x f else 0) (∑ f ∈ range m.nInternalFaces, if m.nbr f = c then |flux f| else 0)
      (∑ f ∈ range m.nInternalFaces, if m.nbr f = c then -(flux f) else 0) := by
    refine Part.sum _ fun f hf => ?_
    by_cases hc : m.nbr f = c
    · simp only [hc, if_true]
      rw [← abs_neg (flux f)]
      rcases le_or_gt 0 (flux f) with h0 | h0
      · exact Part.enters (by linarith) ((h.nbr f hf hc).2 h0)
      · rw [(h.nbr f hf hc).1 h0]; exact Part.leaves (by linarith)
    · simp only [hc, if_false]; exact Part.zero _ _
  have h3 : Part y M (∑ b ∈ range m.nBoundaryFaces, if m.fc b = c then flux (m.nInternalFaces + b) * x (m.nInternalFaces + b) else 0)
      (∑ b ∈ range m.nBoundaryFaces, if m.fc b = c then |flux (m.nInternalFaces + b)| else 0)
      (∑ b ∈ range m.nBoundaryFaces, if m.fc b = c then flux (m.nInternalFaces + b) else 0) := by
    refine Part.sum _ fun b hb => ?_
    by_cases hc : m.fc b = c
    · simp only [hc, if_true]
      rcases lt_trichotomy 0 (flux (m.nInternalFaces + b)) with h0 | h0 | h0
      · rw [(h.bnd b hb hc).1 h0]; exact Part.leaves h0.le
      · rw [← h0]; simp only [zero_mul, abs_zero]; exact Part.zero _ _
      · exact Part.enters h0.le ((h.bnd b hb hc).2 h0)
    · simp only [hc, if_false]; exact Part.zero _ _
  have := (h1.add h2).add h3
  have e2 : ∀ g : Nat → K, (∑ f ∈ range m.nInternalFaces, if m.nbr f = c then -(g f) else 0) = -∑ f ∈ range m.nInternalFaces, if m.nbr f = c then g f else 0 := by
    intro g
    rw [← Finset.sum_neg_distrib]
    exact Finset.sum_congr rfl fun f _ => by split <;> simp
  have e3 : (∑ f ∈ range m.nInternalFaces, if m.nbr f = c then -(flux f) * x f else 0) = -∑ f ∈ range m.nInternalFaces, if m.nbr f = c then flux f * x f else 0 := by
    rw [← e2]
    exact Finset.sum_congr rfl fun f _ => by simp only [neg_mul]
  rw [e2, e3] at this
  unfold Mesh.netOutflow Mesh.absFlux
  rw [Finset.sum_add_distrib, sub_eq_add_neg, sub_eq_add_neg]
  exact this

/-- Upwind face values from values in cells and on the boundary. -/
def upFace (m : Mesh K) (flux cell bnd : Nat → K) (f : Nat) : K :=
  if f < m.nInternalFaces then (if 0 ≤ flux f then cell (m.own f) else cell (m.nbr f)) else bnd (f - m.nInternalFaces)

omit [IsStrictOrderedRing K] in
theorem schemeFace_upFace {m : Mesh K} (h : m.WF) {w : Nat → K} (hw : ∀ b < m.nBoundaryFaces, w (m.nInternalFaces + b) = 1) (flux : Nat → K) (φ : VolField K K) (f : Nat)
    (hf : f < m.nFaces) : Mesh.schemeFace .upwind m w flux φ f = upFace m flux φ.cell φ.bnd f := by
  have hfa := h.faces
  by_cases hi : f < m.nInternalFaces
  · simp [Mesh.schemeFace, Mesh.upwindFace, upFace, hi]
  · have := hw (f - m.nInternalFaces) (by omega)
    rw [show m.nInternalFaces + (f - m.nInternalFaces) = f by omega] at this
    simp [Mesh.schemeFace, Mesh.upwindFace, upFace, hi, this]

omit [IsStrictOrderedRing K] in
theorem upFace_sub (m : Mesh K) (flux cell bnd cell' bnd' : Nat → K) (f : Nat) :
    upFace m flux cell bnd f - upFace m flux cell' bnd' f = upFace m flux (fun c => cell c - cell' c) (fun b => bnd b - bnd' b) f := by
  unfold upFace
  split
  · split <;> rfl
  · rfl

theorem upFace_upwinded {m : Mesh K} (h : m.WF) {flux cell bnd : Nat → K} {B : K} (hc : ∀ c < m.nCells, |cell c| ≤ B)
    (hin : ∀ b < m.nBoundaryFaces, flux (m.nInternalFaces + b) < 0 → |bnd b| ≤ B)
    (hout : ∀ b < m.nBoundaryFaces, 0 < flux (m.nInternalFaces + b) → bnd b = cell (m.fc b)) (c : Nat) :
    Upwinded m flux (upFace m flux cell bnd) c (cell c) B where
  own f hf hoc := by
    unfold upFace
    rw [if_pos hf]
    refine ⟨fun h0 => by rw [if_pos h0, hoc], fun h0 => ?_⟩
    rw [if_neg (not_le.2 h0)]
    exact hc _ (h.nbr_lt f hf)
  nbr f hf hnc := by
    unfold upFace
    rw [if_pos hf]
    refine ⟨fun h0 => by rw [if_neg (not_le.2 h0), hnc], fun h0 => ?_⟩
    rw [if_pos h0]
    exact hc _ (h.own_lt_int hf)
  bnd b hb hbc := by
    unfold upFace
    rw [if_neg (by omega), Nat.add_sub_cancel_left]
    exact ⟨fun h0 => by rw [hout b hb h0, hbc], fun h0 => hin b hb h0⟩

/-- The time step of a cell, with upwind values: sizes do not grow by more than a factor `1 + η`. -/
theorem upwind_step {m : Mesh K} (h : m.WF) (hv : ∀ c < m.nCells, 0 < m.vol c) {flux cell bnd : Nat → K} {B dt η : K} (hdt : 0 ≤ dt) (hη : 0 ≤ η)
    (hco : SmallCourant m flux dt) (hin : SmallInflow m flux dt η) (hc : ∀ c < m.nCells, |cell c| ≤ B)
    (hi : ∀ b < m.nBoundaryFaces, flux (m.nInternalFaces + b) < 0 → |bnd b| ≤ B)
    (hout : ∀ b < m.nBoundaryFaces, 0 < flux (m.nInternalFaces + b) → bnd b = cell (m.fc b)) (c : Nat) (hcl : c < m.nCells) :
    |cell c - dt * (1 / m.vol c * m.netOutflow (fun f => flux f * upFace m flux cell bnd f) c)| ≤ (1 + η) * B := by
  have hp := (upFace_upwinded h hc hi hout c).part
  have hvc := hv c hcl
  have := hp.step (d := dt / m.vol c) (η := η) (by positivity) (by have := hco c hcl; rw [show 1 / 2 * dt * (m.absFlux flux c / m.vol c) = 1 / 2 * (dt / m.vol c * m.absFlux flux c) by ring] at this; linarith)
    (by have := hin c hcl; rwa [show dt / m.vol c * m.netOutflow flux c = dt * (m.netOutflow flux c / m.vol c) by ring]) hη (hc c hcl)
  rwa [show dt * (1 / m.vol c * m.netOutflow (fun f => flux f * upFace m flux cell bnd f) c) = dt / m.vol c * m.netOutflow (fun f => flux f * upFace m flux cell bnd f) c by ring]

/-- The sizes a step in floating point works with. -/
theorem upwind_size {m : Mesh K} (h : m.WF) (hv : ∀ c < m.nCells, 0 < m.vol c) {w flux : Nat → K} (hw : ∀ b < m.nBoundaryFaces, w (m.nInternalFaces + b) = 1)
    {φ : VolField K K} {B dt : K} (hdt : 0 ≤ dt)
    (hco : SmallCourant m flux dt) (hc : ∀ c < m.nCells, |φ.cell c| ≤ B) (hb : ∀ b < m.nBoundaryFaces, flux (m.nInternalFaces + b) ≠ 0 → |φ.bnd b| ≤ B) (c : Nat) (hcl : c < m.nCells) :
    |φ.cell c| + |dt| * (1 / |m.vol c| * m.faceSum (fun f => |flux f| * Mesh.faceSize .upwind m w flux φ f) c) ≤ 3 * B := by
  have hfa := h.faces
  have hB : 0 ≤ B := (abs_nonneg _).trans (hc c hcl)
  have hvc := hv c hcl
  have hs : m.faceSum (fun f => |flux f| * Mesh.faceSize .upwind m w flux φ f) c ≤ m.absFlux flux c * B := by
    unfold Mesh.faceSum Mesh.absFlux
    rw [add_mul, Finset.sum_mul, Finset.sum_mul]
    refine add_le_add (Finset.sum_le_sum fun f hf => ?_) (Finset.sum_le_sum fun b hb' => ?_)
    · have hf := mem_range.1 hf
      have : |flux f| * Mesh.faceSize .upwind m w flux φ f ≤ |flux f| * B := by
        refine mul_le_mul_of_nonneg_left ?_ (abs_nonneg _)
        simp only [Mesh.faceSize, hf, if_true]
        split
        · exact hc _ (h.own_lt_int hf)
        · exact hc _ (h.nbr_lt f hf)
      rw [add_mul]
      refine add_le_add ?_ ?_ <;> (split <;> simp [this])
    · have hb' := mem_range.1 hb'
      split
      · simp only [Mesh.faceSize, show ¬ m.nInternalFaces + b < m.nInternalFaces by omega, if_false, Nat.add_sub_cancel_left, hw b hb', abs_one, one_mul]
        by_cases h0 : flux (m.nInternalFaces + b) = 0
        · simp [h0]
        · exact mul_le_mul_of_nonneg_left (hb b hb' h0) (abs_nonneg _)
      · simp
  have h1 := hco c hcl
  rw [abs_of_nonneg hdt, abs_of_pos hvc]
  have h2 : dt * (1 / m.vol c * m.faceSum (fun f => |flux f| * Mesh.faceSize .upwind m w flux φ f) c) ≤ 2 * B := by
    calc dt * (1 / m.vol c * m.faceSum (fun f => |flux f| * Mesh.faceSize .upwind m w flux φ f) c)
        ≤ dt * (1 / m.vol c * (m.absFlux flux c * B)) := by gcongr
      _ = 2 * (1 / 2 * dt * (m.absFlux flux c / m.vol c)) * B := by ring
      _ ≤ 2 * 1 * B := by gcongr
      _ = 2 * B := by ring
  linarith [hc c hcl]

end exactStep

section float
variable {F K : Type} [Add F] [Sub F] [Mul F] [Div F] [Neg F] [Zero F] [One F] [LinearOrder F] [Field K] [LinearOrder K] [IsStrictOrderedRing K]
variable {val : F → K} {u : K}

/-- What a step in floating point gives. -/
structure FloatStep (m : Mesh F) (val : F → K) (u : K) (N : Nat) (bcs : List (VolumeBoundary F)) (w flux : List F) (dt : F) (φ φ' : VolField F F) : Prop where
  on : φ'.On m
  cells : ∀ c < m.nCells, Approx u (N + 10) (val (φ'.cell c))
    (val (φ.cell c) - val dt * (1 / val (m.vol c) * (m.exact val).netOutflow (fun f => ix (flux.map val) f *
      Mesh.schemeFace .upwind (m.exact val) (ix (w.map val)) (ix (flux.map val)) (φ.exact val) f) c))
    (|val (φ.cell c)| + |val dt| * (1 / |val (m.vol c)| * (m.exact val).faceSum (fun f => |ix (flux.map val) f| *
      Mesh.faceSize .upwind (m.exact val) (ix (w.map val)) (ix (flux.map val)) (φ.exact val) f) c))
  bnd : ∀ b < m.nBoundaryFaces, ∀ pre c post, bcs = pre ++ c :: post → c.kind.Writes → c.patch.Has b →
    (∀ c' ∈ post, c'.kind.Writes → ¬ c'.patch.Has b) → Prescribes m φ' b c.kind (φ'.entry b)

theorem floatStep (hF : FloatArith F val u) (e : ExecKind) {m : Mesh F} (h : m.WF) (hv : ∀ c < m.nCells, val (m.vol c) ≠ 0) (bcs : List (VolumeBoundary F))
    (hb : ∀ c ∈ bcs, c.patch.end_ ≤ m.nBoundaryFaces) (sp : SparsityPattern) (w : List F) (hw : w.length = m.nFaces) (junk : Nat → F) (flux : List F)
    (hfl : flux.length = m.nFaces) (N : Nat) (hN : ∀ c, m.faceCount c ≤ N) (st : TimeState F F) (ho : st.sol.On m) (hs : st.Synced) (dt : F) (ops : OpsOf F F)
    (hops : ops st = transportOps e m sp .upwind w junk flux st ++ transportOps e m sp .upwind w junk flux st ++ transportOps e m sp .upwind w junk flux st) :
    (forwardEuler e m bcs ops ⟨[4], [5]⟩ st dt).Ok (fun st' => FloatStep m val u N bcs w flux dt st.sol st'.sol ∧ st'.Synced) := by
  have hl : st.sol.internal.length = m.nCells := ho.1
  unfold forwardEuler
  have hsrc : (Expr.explicitOperationN ⟨[4], [5]⟩ (ops st) st.sol.internal.length).Ok (fun r => r.length = m.nCells ∧ ∀ c < m.nCells, Approx u (N + 8) (val (ix r c))
      (0 + 1 / val (m.vol c) * (m.exact val).netOutflow (fun f => ix (flux.map val) f *
        Mesh.schemeFace .upwind (m.exact val) (ix (w.map val)) (ix (flux.map val)) (st.sol.exact val) f) c)
      (0 + |1| / |val (m.vol c)| * (m.exact val).faceSum (fun f => |ix (flux.map val) f| *
        Mesh.faceSize .upwind (m.exact val) (ix (w.map val)) (ix (flux.map val)) (st.sol.exact val) f) c)) := by
    rw [hops, hl]
    have hd := div_approx hF h hv ho hw hfl .upwind (s := Coeff.default) (v := fun _ => 1)
      (by intro c _; show Res.ok (val 1) = _; rw [hF.one]) e junk (List.replicate m.nCells 0) (by simp)
      (i := fun _ => N + 7) (l := fun _ => N + 7) (x0 := fun _ => 0) (A0 := fun _ => 0)
      (fun c _ => by rw [ix_replicate]; exact hF.approx_zero _) (fun _ => le_rfl) (fun c => by have := hN c; omega)
    intro out hout
    obtain ⟨r, hr, hout⟩ := hout
    obtain rfl : r = .ok [divOp e m sp (some .upwind) w junk flux st.sol .explicit Coeff.default] := hr
    obtain ⟨r, hr, hout⟩ := (show (divExplicit e m (some .upwind) w junk flux st.sol Coeff.default (List.replicate m.nCells 0) >>= fun x => (pure x : NR (List F))) out from hout)
    obtain ⟨r', rfl, h1, h2⟩ := hd r hr
    exact ⟨r', hout, h1, h2⟩
  refine NR.Ok.bind hsrc ?_
  rintro src ⟨hsl, hsa⟩
  refine NR.Ok.bind (NR.Ok.of_iff (scaleField_det e src dt)) ?_
  rintro sdt rfl
  unfold TimeState.Synced at hs
  simp only [hs]
  refine NR.Ok.bind (NR.Ok.of_iff (subField_det e (by simp [hsl, hl]))) ?_
  rintro new rfl
  set new := List.zipWith (fun x y => x - y) st.sol.internal (src.map fun x => dt • x) with hnew
  have hnl : new.length = m.nCells := by simp [new, hl, hsl]
  have hon : ({ st.sol with internal := new } : VolField F F).On m := ⟨hnl, ho.2, ho.3, ho.4, ho.5⟩
  obtain ⟨φ', hd, h1, h2, h3, h4, -⟩ := C28_conditions e m h { st.sol with internal := new } hon bcs hb
  refine NR.Ok.bind (NR.Ok.of_iff hd) ?_
  rintro ψ hψ
  rw [hψ]
  refine NR.Ok.pure ⟨⟨h1, fun c hc => ?_, fun b hb' pre c post hcs hw hh hn => ?_⟩, rfl⟩
  · have hcell : φ'.cell c = st.sol.cell c - dt * ix src c := by
      unfold VolField.cell
      rw [h2]
      simp [new, List.getD, hc, hl, hsl, ix]
    rw [hcell]
    have := hF.approx_sub (hF.approx 0 (st.sol.cell c)) (hF.approx_mul (hF.approx 0 dt) (hsa c hc)) (Nat.zero_le (N + 9)) (by omega)
    rw [zero_add, zero_add, abs_one] at this
    exact this
  · have := h4 b hb' pre c post hcs hw hh hn
    have hc' : ∀ k, φ'.cell k = ({ st.sol with internal := new } : VolField F F).cell k := by
      intro k; unfold VolField.cell; rw [h2]
    cases hk : c.kind <;> rw [hk] at this hw <;> first | exact hw.elim | simpa [Prescribes, hc'] using this

omit [Sub F] [Mul F] [Add F] [Div F] [Neg F] [Zero F] [One F] [LinearOrder F] [LinearOrder K] [IsStrictOrderedRing K] [Field K] in
theorem decides_map {bcs : List (VolumeBoundary F)} {b : Nat} {k : VolBCKind K} (h : Decides (bcs.map (·.map val)) b k) : ∃ k', Decides bcs b k' ∧ k = k'.map val := by
  obtain ⟨pre, c, post, h1, h2, h3, h4, h5⟩ := h
  obtain ⟨pre', rest, rfl, rfl, h6⟩ := List.map_eq_append_iff.1 h1
  obtain ⟨c', post', rfl, rfl, rfl⟩ := List.map_eq_cons_iff.1 h6
  have hw : ∀ q : VolBCKind F, (q.map val).Writes ↔ q.Writes := by intro q; cases q <;> exact Iff.rfl
  refine ⟨c'.kind, ⟨pre', c', post', rfl, rfl, ?_, h4, fun c hc hcw => h5 _ (List.mem_map.2 ⟨c, hc, rfl⟩) ((hw _).2 hcw)⟩, h2.symm⟩
  rw [← h2] at h3
  exact (hw _).1 h3

theorem FloatStep.zeroGradient (hF : FloatArith F val u) (hadd : ∀ a b : F, val b = 0 → val (a + b) = val a) {m : Mesh F} {N : Nat} {bcs : List (VolumeBoundary F)} {w flux : List F}
    {dt : F} {φ φ' : VolField F F} (h : FloatStep m val u N bcs w flux dt φ φ') {b : Nat} (hb : b < m.nBoundaryFaces) {k : VolBCKind F} (hk : Decides bcs b k)
    (hz : (k.map val).ZeroGradient) : val (φ'.bnd b) = val (φ'.cell (m.fc b)) := by
  obtain ⟨pre, c, post, h1, rfl, h3, h4, h5⟩ := hk
  have := h.bnd b hb pre c post h1 h3 h4 h5
  cases hc : c.kind with
  | fixedValue v => rw [hc] at hz; exact hz.elim
  | fixedGradient v =>
    rw [hc] at hz this
    have hz : val v = 0 := hz
    have h6 : φ'.bnd b = φ'.cell (m.fc b) + (1 / m.bnd.deltaCoeffs.getD b 0) * v := this.1
    rw [h6]
    refine hadd _ _ ?_
    have := hF.mul (1 / m.bnd.deltaCoeffs.getD b 0) v
    rw [hz] at this
    simpa using this
  | extrapolated =>
    rw [hc] at this
    exact congrArg val this.1
  | calculated => rw [hc] at hz; exact hz.elim
  | empty => rw [hc] at hz; exact hz.elim

theorem FloatStep.fixedValue {m : Mesh F} {N : Nat} {bcs : List (VolumeBoundary F)} {w flux : List F}
    {dt : F} {φ φ' : VolField F F} (h : FloatStep m val u N bcs w flux dt φ φ') {b : Nat} (hb : b < m.nBoundaryFaces) {v : F} (hk : Decides bcs b (.fixedValue v)) :
    φ'.bnd b = v := by
  obtain ⟨pre, c, post, h1, h2, h3, h4, h5⟩ := hk
  have := h.bnd b hb pre c post h1 (by rw [h2]; exact h3) h4 h5
  rw [h2] at this
  exact this.1

/-- The two runs after the same number of steps. -/
structure Near (m : Mesh F) (val : F → K) (flux : Nat → K) (B D : K) (s : TimeState F F) (U : VolField K K) : Prop where
  on : s.sol.On m
  synced : s.Synced
  size : ∀ c < m.nCells, |val (s.sol.cell c)| ≤ B
  sizeIn : ∀ b < m.nBoundaryFaces, flux (m.nInternalFaces + b) < 0 → |val (s.sol.bnd b)| ≤ B
  out : ∀ b < m.nBoundaryFaces, 0 < flux (m.nInternalFaces + b) → val (s.sol.bnd b) = val (s.sol.cell (m.fc b))
  diff : ∀ c < m.nCells, |val (s.sol.cell c) - U.cell c| ≤ D
  diffIn : ∀ b < m.nBoundaryFaces, flux (m.nInternalFaces + b) < 0 → |val (s.sol.bnd b) - U.bnd b| ≤ D
  outU : ∀ b < m.nBoundaryFaces, 0 < flux (m.nInternalFaces + b) → U.bnd b = U.cell (m.fc b)

/-- Zero gradient in the exact run. -/
theorem eulerStep_zeroGradient {m : Mesh K} {bcs : List (VolumeBoundary K)} {f : VolField K K → Nat → K} {dt : K} {φ φ' : VolField K K} (h : EulerStep m bcs f dt φ φ')
    {b : Nat} (hb : b < m.nBoundaryFaces) {k : VolBCKind K} (hk : Decides bcs b k) (hz : k.ZeroGradient) : φ'.bnd b = φ'.cell (m.fc b) := by
  obtain ⟨pre, c, post, h1, rfl, h3, h4, h5⟩ := hk
  have := h.bnd b hb pre c post h1 h3 h4 h5
  cases hc : c.kind with
  | fixedValue v => rw [hc] at hz; exact hz.elim
  | fixedGradient v =>
    rw [hc] at hz this
    have hz : v = 0 := hz
    have := this.1
    rw [hz, smul_zero, add_zero] at this
    exact this
  | extrapolated => rw [hc] at this; exact this.1
  | calculated => rw [hc] at hz; exact hz.elim
  | empty => rw [hc] at hz; exact hz.elim

theorem eulerStep_fixedValue {m : Mesh K} {bcs : List (VolumeBoundary K)} {f : VolField K K → Nat → K} {dt : K} {φ φ' : VolField K K} (h : EulerStep m bcs f dt φ φ')
    {b : Nat} (hb : b < m.nBoundaryFaces) {v : K} (hk : Decides bcs b (.fixedValue v)) : φ'.bnd b = v := by
  obtain ⟨pre, c, post, h1, h2, h3, h4, h5⟩ := hk
  have := h.bnd b hb pre c post h1 (by rw [h2]; exact h3) h4 h5
  rw [h2] at this
  exact this.1

theorem near_step (hF : FloatArith F val u) (hadd : ∀ a b : F, val b = 0 → val (a + b) = val a) {m : Mesh F} (h : m.WF) (hv : ∀ c < m.nCells, 0 < val (m.vol c))
    {bcs : List (VolumeBoundary F)} {w flux : List F} (hw : ∀ b < m.nBoundaryFaces, val (ix w (m.nInternalFaces + b)) = 1) {N : Nat} {dt : F} (hdt : 0 ≤ val dt)
    {M η ε : K} (hε : ε = 3 * ((1 + u) ^ (N + 10) - 1)) (hη : 0 ≤ η) (hbc : TransportBC (m.exact val) (ix (flux.map val)) (bcs.map (·.map val)) (-M) M)
    (hco : SmallCourant (m.exact val) (ix (flux.map val)) (val dt)) (hin : SmallInflow (m.exact val) (ix (flux.map val)) (val dt) η)
    {s s' : TimeState F F} {U U' : VolField K K} {B D : K} (hMB : M ≤ B) (hD : 0 ≤ D) (hn : Near m val (ix (flux.map val)) B D s U)
    (hs : FloatStep m val u N bcs w flux dt s.sol s'.sol) (hsy : s'.Synced)
    (hU : EulerStep (m.exact val) (bcs.map (·.map val)) (fun φ c => 1 / (m.exact val).vol c * (m.exact val).netOutflow (fun f => ix (flux.map val) f *
      Mesh.schemeFace .upwind (m.exact val) (ix (w.map val)) (ix (flux.map val)) φ f) c) (val dt) U U') :
    Near m val (ix (flux.map val)) ((1 + η + ε) * B) ((1 + η) * D + ε * B) s' U' := by
  have he := exact_wf (val := val) h
  have hpow := one_le_pow_u hF.roundoff (N + 10)
  have hε0 : 0 ≤ ε := by rw [hε]; linarith
  have hvE : ∀ c < (m.exact val).nCells, 0 < (m.exact val).vol c := fun c hc => by rw [hF.vol]; exact hv c hc
  have hwE : ∀ b < (m.exact val).nBoundaryFaces, ix (w.map val) ((m.exact val).nInternalFaces + b) = 1 := fun b hb => by
    rw [ix_val hF.zero]; exact hw b hb
  have hface : ∀ φ : VolField K K, ∀ c, (m.exact val).netOutflow (fun f => ix (flux.map val) f * Mesh.schemeFace .upwind (m.exact val) (ix (w.map val)) (ix (flux.map val)) φ f) c
      = (m.exact val).netOutflow (fun f => ix (flux.map val) f * upFace (m.exact val) (ix (flux.map val)) φ.cell φ.bnd f) c := fun φ c =>
    netOutflow_congr he (fun f hf => by rw [schemeFace_upFace he hwE _ _ _ hf]) c
  -- sizes
  have hsize : ∀ c < m.nCells, |(s.sol.exact val).cell c| ≤ B := fun c hc => by rw [hF.cell]; exact hn.size c hc
  have hsizeI : ∀ b < m.nBoundaryFaces, ix (flux.map val) (m.nInternalFaces + b) < 0 → |(s.sol.exact val).bnd b| ≤ B := fun b hb hp => by rw [hF.bnd]; exact hn.sizeIn b hb hp
  have hout : ∀ b < m.nBoundaryFaces, 0 < ix (flux.map val) (m.nInternalFaces + b) → (s.sol.exact val).bnd b = (s.sol.exact val).cell (m.fc b) := fun b hb hp => by
    rw [hF.bnd, hF.cell]; exact hn.out b hb hp
  have hall : ∀ b < m.nBoundaryFaces, ix (flux.map val) (m.nInternalFaces + b) ≠ 0 → |(s.sol.exact val).bnd b| ≤ B := fun b hb hp => by
    rcases lt_or_gt_of_ne hp with h0 | h0
    · exact hsizeI b hb h0
    · rw [hout b hb h0]; exact hsize _ (h.fc_lt b hb)
  have hround : ∀ c < m.nCells, |val (s'.sol.cell c) - (val (s.sol.cell c) - val dt * (1 / val (m.vol c) * (m.exact val).netOutflow (fun f => ix (flux.map val) f *
      upFace (m.exact val) (ix (flux.map val)) (s.sol.exact val).cell (s.sol.exact val).bnd f) c))| ≤ ε * B := fun c hc => by
    have h1 := (hs.cells c hc).1
    have h2 := upwind_size he hvE hwE hdt hco hsize hall c hc
    rw [hF.cell, hF.vol] at h2
    rw [hface] at h1
    refine h1.trans ((mul_le_mul_of_nonneg_left h2 (by linarith)).trans ?_)
    rw [hε]
    linarith
  have hexact : ∀ c < m.nCells, |val (s.sol.cell c) - val dt * (1 / val (m.vol c) * (m.exact val).netOutflow (fun f => ix (flux.map val) f *
      upFace (m.exact val) (ix (flux.map val)) (s.sol.exact val).cell (s.sol.exact val).bnd f) c)| ≤ (1 + η) * B := fun c hc => by
    have := upwind_step he hvE hdt hη hco hin hsize hsizeI hout c hc
    rwa [hF.cell, hF.vol] at this
  have hcell : ∀ c < m.nCells, |val (s'.sol.cell c)| ≤ (1 + η + ε) * B := fun c hc => by
    have h1 := hround c hc
    have h2 := hexact c hc
    have h3 := abs_sub_abs_le_abs_sub (val (s'.sol.cell c)) (val (s.sol.cell c) - val dt * (1 / val (m.vol c) * (m.exact val).netOutflow (fun f => ix (flux.map val) f *
      upFace (m.exact val) (ix (flux.map val)) (s.sol.exact val).cell (s.sol.exact val).bnd f) c))
    linarith
  have hdiff : ∀ c < m.nCells, |val (s'.sol.cell c) - U'.cell c| ≤ (1 + η) * D + ε * B := fun c hc => by
    have h1 := hround c hc
    have h2 := upwind_step he hvE hdt hη hco hin (cell := fun c => (s.sol.exact val).cell c - U.cell c) (bnd := fun b => (s.sol.exact val).bnd b - U.bnd b) (B := D)
      (fun c hc => by rw [hF.cell]; exact hn.diff c hc) (fun b hb hp => by rw [hF.bnd]; exact hn.diffIn b hb hp)
      (fun b hb hp => by rw [hout b hb hp, hn.outU b hb hp]; rfl) c hc
    have h3 := hU.cells c hc
    rw [hface, smul_eq_mul, hF.vol] at h3
    have h4 := netOutflow_add (m.exact val) (fun f => ix (flux.map val) f * upFace (m.exact val) (ix (flux.map val)) (fun c => (s.sol.exact val).cell c - U.cell c)
      (fun b => (s.sol.exact val).bnd b - U.bnd b) f) (fun f => ix (flux.map val) f * upFace (m.exact val) (ix (flux.map val)) U.cell U.bnd f) c
    have h5 : (fun f => ix (flux.map val) f * upFace (m.exact val) (ix (flux.map val)) (fun c => (s.sol.exact val).cell c - U.cell c)
      (fun b => (s.sol.exact val).bnd b - U.bnd b) f + ix (flux.map val) f * upFace (m.exact val) (ix (flux.map val)) U.cell U.bnd f)
      = fun f => ix (flux.map val) f * upFace (m.exact val) (ix (flux.map val)) (s.sol.exact val).cell (s.sol.exact val).bnd f := by
      funext f
      rw [← upFace_sub]
      ring
    rw [h5] at h4
    rw [hF.cell, hF.vol] at h2
    rw [h4] at h1
    rw [h3]
    refine (abs_sub_le _ _ _).trans ((add_le_add h1 ?_).trans (le_of_eq (add_comm _ _)))
    refine le_trans (le_of_eq (congrArg _ ?_)) h2
    ring
  have hgrow : ∀ b < m.nBoundaryFaces, M ≤ (1 + η + ε) * B := fun b hb => by
    have : 0 ≤ B := (abs_nonneg _).trans (hn.size _ (h.fc_lt b hb))
    nlinarith
  refine ⟨hs.on, hsy, hcell, fun b hb hp => ?_, fun b hb hp => ?_, hdiff, fun b hb hp => ?_, fun b hb hp => ?_⟩
  · obtain ⟨k, hk, hk'⟩ := hbc.inflow b hb hp
    obtain ⟨k', hkF, rfl⟩ := decides_map hk
    rcases hk' with hz | ⟨v, hv1, hv2, hv3⟩
    · rw [hs.zeroGradient hF hadd hb hkF hz]; exact hcell _ (h.fc_lt b hb)
    · cases k' with
      | fixedValue v' =>
        have : val v' = v := VolBCKind.fixedValue.inj hv1
        rw [hs.fixedValue hb hkF, this]
        exact (abs_le.2 ⟨hv2, hv3⟩).trans (hgrow b hb)
      | fixedGradient _ => cases hv1
      | extrapolated => cases hv1
      | calculated => cases hv1
      | empty => cases hv1
  · obtain ⟨k, hk, hz⟩ := hbc.outflow b hb hp
    obtain ⟨k', hkF, rfl⟩ := decides_map hk
    exact hs.zeroGradient hF hadd hb hkF hz
  · obtain ⟨k, hk, hk'⟩ := hbc.inflow b hb hp
    obtain ⟨k', hkF, rfl⟩ := decides_map hk
    rcases hk' with hz | ⟨v, hv1, hv2, hv3⟩
    · rw [hs.zeroGradient hF hadd hb hkF hz, eulerStep_zeroGradient hU hb hk hz]; exact hdiff _ (h.fc_lt b hb)
    · cases k' with
      | fixedValue v' =>
        rw [hs.fixedValue hb hkF, eulerStep_fixedValue hU hb hk, sub_self, abs_zero]
        have : 0 ≤ B := (abs_nonneg _).trans (hn.size _ (h.fc_lt b hb))
        positivity
      | fixedGradient _ => cases hv1
      | extrapolated => cases hv1
      | calculated => cases hv1
      | empty => cases hv1
  · obtain ⟨k, hk, hz⟩ := hbc.outflow b hb hp
    exact eulerStep_zeroGradient hU hb hk hz

/-- **C83**: `ddt(u) + div(flux, u) = 0` with upwind interpolation and forwardEuler, in floating point, for every valid mesh with positive volumes, every
number of steps and all time steps with Courant number at most 1. `M` bounds the initial values and the values fixed where the flow enters; the boundary
has zero gradient where the flow leaves; the flux is divergence-free up to `η`; no cell has more than `N` faces. Whatever the executor and the order in
which the threads add, every outcome of `n` calls of `dsl::solve` is a solution whose values have grown by a factor of at most `(1 + η + ε)^n`, and that
differs by at most `((1 + η + ε)^n - (1 + η)^n) M` from the only outcome of the same program in exact arithmetic, where `ε = 3 ((1 + u)^(N+10) - 1)`
and `u` is the unit roundoff. The boundary weights are 1 (as the geometry scheme makes them, C27), and adding zero is exact. -/
theorem C83_transport (hF : FloatArith F val u) (hadd : ∀ a b : F, val b = 0 → val (a + b) = val a) {m : Mesh F} (h : m.WF) (hv : ∀ c < m.nCells, 0 < val (m.vol c))
    (bcs : List (VolumeBoundary F)) (hb : ∀ c ∈ bcs, c.patch.end_ ≤ m.nBoundaryFaces) (w flux : List F) (hwl : w.length = m.nFaces) (hfl : flux.length = m.nFaces)
    (hw : ∀ b < m.nBoundaryFaces, val (ix w (m.nInternalFaces + b)) = 1) (N : Nat) (hN : ∀ c, m.faceCount c ≤ N)
    {fvSchemes : Dict} (hd : AsksFor fvSchemes "forwardEuler") (M η ε : K) (hM : 0 ≤ M) (hη : 0 ≤ η) (hε : ε = 3 * ((1 + u) ^ (N + 10) - 1))
    (hbc : TransportBC (m.exact val) (ix (flux.map val)) (bcs.map (·.map val)) (-M) M)
    (st : TimeState F F) (ho : st.sol.On m) (hsy : st.Synced) (hst : (st.sol.exact val).Within (m.exact val) (ix (flux.map val)) (-M) M) (t : F) (dt : Nat → F)
    (hdt : ∀ k, 0 ≤ val (dt k)) (hco : ∀ k, SmallCourant (m.exact val) (ix (flux.map val)) (val (dt k)))
    (hin : ∀ k, SmallInflow (m.exact val) (ix (flux.map val)) (val (dt k)) η)
    (eE : ExecKind) (spE : SparsityPattern) (junkE : Nat → K) (tableE : SolverTable K) (fvSolutionE : Dict) (eqnE : Expr) (opsE : OpsOf K K)
    (hbuildE : ∀ st, transportTree.build (transportOps eE (m.exact val) spE .upwind (w.map val) junkE (flux.map val) st) = .ok (eqnE, opsE st)) :
    ∃ U : Nat → TimeState K K, (∀ n out, timeLoop (fun d st => dslSolve eE (m.exact val) (bcs.map (·.map val)) tableE fvSchemes fvSolutionE opsE eqnE st (val t) d)
        (fun k => val (dt k)) n (st.exact val) out ↔ out = .ok (U n)) ∧
      ∀ (e : ExecKind) (sp : SparsityPattern) (junk : Nat → F) (table : SolverTable F) (fvSolution : Dict) (eqn : Expr) (ops : OpsOf F F),
        (∀ st, transportTree.build (transportOps e m sp .upwind w junk flux st) = .ok (eqn, ops st)) →
        ∀ n, (timeLoop (fun d st => dslSolve e m bcs table fvSchemes fvSolution ops eqn st t d) dt n st).Ok (fun s => ∀ c < m.nCells,
          |val (s.sol.cell c)| ≤ (1 + η + ε) ^ n * M ∧ |val (s.sol.cell c) - (U n).sol.cell c| ≤ ((1 + η + ε) ^ n - (1 + η) ^ n) * M) := by
  have he := exact_wf (val := val) h
  have hpow := one_le_pow_u hF.roundoff (N + 10)
  have hε0 : 0 ≤ ε := by rw [hε]; linarith
  obtain ⟨U, hU0, hU1, hU2⟩ := transport_steps eE he (bcs.map (·.map val)) (by
      intro c hc
      obtain ⟨c', hc', rfl⟩ := List.mem_map.1 hc
      exact hb c' hc') spE .upwind (w.map val) ((List.length_map val).trans hwl) junkE (flux.map val) ((List.length_map val).trans hfl) eqnE opsE hbuildE tableE fvSolutionE hd
    (st.exact val) (exact_on ho) (by
      unfold TimeState.Synced TimeState.oldTime at hsy ⊢
      unfold TimeState.exact VolField.exact
      cases ho : st.old with
      | none => rfl
      | some x => rw [ho] at hsy; exact congrArg (List.map val) hsy) (val t) (fun k => val (dt k))
  refine ⟨U, hU1, ?_⟩
  intro e sp junk table fvSolution eqn ops hbuild n
  have hB : ∀ n, M ≤ (1 + η + ε) ^ n * M := fun n => le_mul_of_one_le_left hM (one_le_pow₀ (by linarith))
  have hD : ∀ n, 0 ≤ ((1 + η + ε) ^ n - (1 + η) ^ n) * M := fun n =>
    mul_nonneg (sub_nonneg.2 (pow_le_pow_left₀ (by linarith) (by linarith) n)) hM
  have hbuilt : ∀ st, eqn = ⟨[4], [5]⟩ ∧ ops st = transportOps e m sp .upwind w junk flux st ++ transportOps e m sp .upwind w junk flux st ++ transportOps e m sp .upwind w junk flux st := by
    intro st
    have h1 := hbuild st
    have h2 : transportTree.build (transportOps e m sp .upwind w junk flux st) = .ok (⟨[4], [5]⟩, (transportOps e m sp .upwind w junk flux st) ++
      (transportOps e m sp .upwind w junk flux st) ++ (transportOps e m sp .upwind w junk flux st)) := rfl
    rw [h2] at h1
    have h3 := Prod.mk.inj (Res.ok.inj h1)
    exact ⟨h3.1.symm, h3.2.symm⟩
  have heqn := (hbuilt st).1
  have key : (timeLoop (fun d st => dslSolve e m bcs table fvSchemes fvSolution ops eqn st t d) dt n st).Ok
      (fun s => Near m val (ix (flux.map val)) ((1 + η + ε) ^ n * M) (((1 + η + ε) ^ n - (1 + η) ^ n) * M) s (U n).sol) := by
    induction n with
    | zero =>
      refine NR.Ok.pure ?_
      rw [hU0]
      have hc0 : ∀ c, (st.exact val).sol.cell c = val (st.sol.cell c) := fun c => hF.cell st.sol c
      have hb0 : ∀ b, (st.exact val).sol.bnd b = val (st.sol.bnd b) := fun b => hF.bnd st.sol b
      refine ⟨ho, hsy, fun c hc => ?_, fun b hb hp => ?_, fun b hb hp => ?_, fun c hc => ?_, fun b hb hp => ?_, fun b hb hp => hst.outflow b hb hp⟩
      · have := hst.cells c hc
        rw [hF.cell] at this
        simpa using abs_le.2 this
      · have := hst.inflow b hb hp
        rw [hF.bnd] at this
        simpa using abs_le.2 this
      · have := hst.outflow b hb hp
        rwa [hF.bnd, hF.cell] at this
      · rw [hc0]; simp
      · rw [hb0]; simp
    | succ n ih =>
      refine NR.Ok.bind ih ?_
      intro s hs
      intro out hout
      have h1 := (C34_solve e m bcs table fvSolution hd ops (by rw [heqn]; simp) s t (dt n) out).1 hout
      rw [heqn] at h1
      obtain ⟨s', rfl, h2, h3⟩ := floatStep hF e h (fun c hc => (hv c hc).ne') bcs hb sp w hwl junk flux hfl N hN s hs.on hs.synced (dt n) ops (hbuilt s).2 out h1
      have h4 := near_step hF hadd h hv hw (hdt n) hε hη hbc (hco n) (hin n) (hB n) (hD n) hs h2 h3 (hU2 n)
      refine ⟨s', rfl, ?_⟩
      rw [show (1 + η + ε) ^ (n + 1) * M = (1 + η + ε) * ((1 + η + ε) ^ n * M) by ring,
        show ((1 + η + ε) ^ (n + 1) - (1 + η) ^ (n + 1)) * M = (1 + η) * (((1 + η + ε) ^ n - (1 + η) ^ n) * M) + ε * ((1 + η + ε) ^ n * M) by ring]
      exact h4
  exact key.mono fun s hs c hc => ⟨hs.size c hc, hs.diff c hc⟩

end float

/-! ### Three cells of `double`s with a flow through them -/

theorem binFloat_addZero {p : Nat} (hp : 0 < p) (a b : BinFloat p) (hb : BinFloat.val p b = 0) : BinFloat.val p (a + b) = BinFloat.val p a := by
  show (a + b).1 = a.1
  have hb : b.1 = 0 := hb
  rw [BinFloat.add_val, hb, add_zero]
  exact roundBin_eq hp a.2

/-- A third enters at the first cell; what arrives at the third cell leaves. -/
def floatRowBCs : List (VolumeBoundary (BinFloat 53)) := [⟨⟨0, 0, 1⟩, .fixedValue third⟩, ⟨⟨1, 1, 2⟩, .extrapolated⟩]
def floatRowStart : VolField (BinFloat 53) (BinFloat 53) := ⟨[third, 1, third], [third, third], [third, third], [1, 1], [0, 0]⟩

/-- The hypotheses of `C83_transport` can be met. -/
example (e : ExecKind) (n : Nat) : ∃ U : Nat → TimeState ℚ ℚ,
    (timeLoop (fun d st => dslSolve e floatRow floatRowBCs [] forwardDict [] (fun st => transportOps e floatRow ⟨[], [], [], [], []⟩ .upwind [third, third, 1, 1] (fun _ => 0) [1, 1, -1, 1] st ++
      transportOps e floatRow ⟨[], [], [], [], []⟩ .upwind [third, third, 1, 1] (fun _ => 0) [1, 1, -1, 1] st ++
      transportOps e floatRow ⟨[], [], [], [], []⟩ .upwind [third, third, 1, 1] (fun _ => 0) [1, 1, -1, 1] st) ⟨[4], [5]⟩ st 0 d) (fun _ => 1) n ⟨floatRowStart, none⟩).Ok
    (fun s => |BinFloat.val 53 (s.sol.cell 1) - (U n).sol.cell 1| ≤
      ((1 + 0 + 3 * ((1 + 1 / 2 ^ 53) ^ (2 + 10) - 1)) ^ n - (1 + 0) ^ n) * (1 + |BinFloat.val 53 third|)) := by
  have h1 : BinFloat.val 53 1 = 1 := rfl
  have hm1 : BinFloat.val 53 (-1) = -1 := rfl
  have t0 := abs_nonneg (BinFloat.val 53 third)
  have t1 := le_abs_self (BinFloat.val 53 third)
  have t2 := neg_abs_le (BinFloat.val 53 third)
  have hvol : ∀ c < floatRow.nCells, floatRow.vol c = 1 := by
    intro c hc
    have h3 : c < 3 := hc
    simp only [floatRow, Mesh.vol, Mesh.exact, row3, topoMesh, List.map_replicate, List.getD_replicate _ h3]
    rfl
  have hvE : ∀ c < floatRow.nCells, (floatRow.exact (BinFloat.val 53)).vol c = 1 := fun c hc => by
    rw [(binFloat_arith 53).vol, hvol c hc]; rfl
  have hflx : ∀ f : Nat, ix (([1, 1, -1, 1] : List (BinFloat 53)).map (BinFloat.val 53)) f = ix ([1, 1, -1, 1] : List ℚ) f := fun f => rfl
  have hcases : ∀ c : Nat, c < 3 → c = 0 ∨ c = 1 ∨ c = 2 := fun c hc => by omega
  have hb2 : ∀ b : Nat, b < 2 → b = 0 ∨ b = 1 := fun b hb => by omega
  obtain ⟨U, -, hU⟩ := C83_transport (binFloat_arith 53) (binFloat_addZero (by norm_num)) floatRow_wf (fun c hc => by rw [hvol c hc, h1]; norm_num)
    floatRowBCs (by intro c hc; simp only [floatRowBCs, List.mem_cons, List.not_mem_nil, or_false] at hc; rcases hc with rfl | rfl <;> decide)
    [third, third, 1, 1] [1, 1, -1, 1] rfl rfl
    (by intro b hb; rcases hb2 b hb with rfl | rfl <;> rfl) 2
    (by
      intro c
      by_cases hc : c < 3
      · rcases hcases c hc with rfl | rfl | rfl <;> decide
      · have e0 : ∀ f : Nat, f < 2 → (floatRow.own f = c) = False ∧ (floatRow.nbr f = c) = False := by
          intro f hf
          rcases hb2 f hf with rfl | rfl <;> (constructor <;> apply eq_false <;> intro hh <;> rw [← hh] at hc <;> exact hc (by decide))
        have e1 : ∀ b : Nat, b < 2 → (floatRow.fc b = c) = False := by
          intro b hf
          rcases hb2 b hf with rfl | rfl <;> (apply eq_false; intro hh; rw [← hh] at hc; exact hc (by decide))
        unfold Mesh.faceCount Mesh.faceSum
        simp only [show floatRow.nInternalFaces = 2 from rfl, show floatRow.nBoundaryFaces = 2 from rfl]
        rw [Finset.sum_eq_zero (fun f hf => by simp [e0 f (mem_range.1 hf)]), Finset.sum_eq_zero (fun f hf => by simp [e1 f (mem_range.1 hf)])]
        omega)
    (fvSchemes := forwardDict) ⟨_, rfl, rfl⟩ (1 + |BinFloat.val 53 third|) 0 (3 * ((1 + 1 / 2 ^ 53) ^ (2 + 10) - 1)) (by linarith) le_rfl rfl
    (by
      constructor
      · intro b hb hp
        rcases hb2 b hb with rfl | rfl
        · exact absurd hp (by rw [hflx]; show ¬ (0 : ℚ) < -1; norm_num)
        · exact ⟨.extrapolated, ⟨[⟨⟨0, 0, 1⟩, .fixedValue (BinFloat.val 53 third)⟩], ⟨⟨1, 1, 2⟩, .extrapolated⟩, [], rfl, rfl, trivial, ⟨le_rfl, Nat.lt_succ_self 1⟩, by simp⟩, trivial⟩
      · intro b hb hp
        rcases hb2 b hb with rfl | rfl
        · refine ⟨.fixedValue (BinFloat.val 53 third), ⟨[], ⟨⟨0, 0, 1⟩, .fixedValue (BinFloat.val 53 third)⟩, [⟨⟨1, 1, 2⟩, .extrapolated⟩], rfl, rfl, trivial, ⟨le_rfl, Nat.zero_lt_one⟩, ?_⟩, .inr ⟨_, rfl, ?_⟩⟩
          · simp [Patch.Has]
          · constructor <;> linarith
        · exact absurd hp (by rw [hflx]; show ¬ (1 : ℚ) < 0; norm_num))
    ⟨floatRowStart, none⟩ ⟨rfl, rfl, rfl, rfl, rfl⟩ rfl
    (by
      refine ⟨fun c hc => ?_, fun b hb _ => ?_, fun b hb hp => ?_⟩
      · rw [(binFloat_arith 53).cell]
        rcases hcases c hc with rfl | rfl | rfl
        · show _ ≤ BinFloat.val 53 third ∧ BinFloat.val 53 third ≤ _; constructor <;> linarith
        · show _ ≤ (1 : ℚ) ∧ (1 : ℚ) ≤ _; constructor <;> linarith
        · show _ ≤ BinFloat.val 53 third ∧ BinFloat.val 53 third ≤ _; constructor <;> linarith
      · rw [(binFloat_arith 53).bnd]
        rcases hb2 b hb with rfl | rfl
        · show _ ≤ BinFloat.val 53 third ∧ BinFloat.val 53 third ≤ _; constructor <;> linarith
        · show _ ≤ BinFloat.val 53 third ∧ BinFloat.val 53 third ≤ _; constructor <;> linarith
      · rcases hb2 b hb with rfl | rfl
        · exact absurd hp (by rw [hflx]; show ¬ (0 : ℚ) < -1; norm_num)
        · rfl)
    0 (fun _ => 1) (fun _ => by rw [h1]; norm_num)
    (by
      intro _ c hc
      rw [hvE c hc, h1]
      rcases hcases c hc with rfl | rfl | rfl <;>
        simp [Mesh.absFlux, Mesh.exact, floatRow, row3, topoMesh, Mesh.own, Mesh.nbr, Mesh.fc, ix, Finset.sum_range_succ, h1, hm1, BoundaryMesh.exact] <;> norm_num)
    (by
      intro _ c hc
      rw [hvE c hc, h1]
      rcases hcases c hc with rfl | rfl | rfl <;>
        simp [Mesh.netOutflow, Mesh.exact, floatRow, row3, topoMesh, Mesh.own, Mesh.nbr, Mesh.fc, ix, Finset.sum_range_succ, h1, hm1, BoundaryMesh.exact])
    .serial ⟨[], [], [], [], []⟩ (fun _ => 0) [] [] ⟨[4], [5]⟩ _ (fun _ => rfl)
  exact ⟨U, (hU e ⟨[], [], [], [], []⟩ (fun _ => 0) [] [] ⟨[4], [5]⟩ _ (fun _ => rfl) n).mono fun s hs => (hs 1 (by decide)).2⟩

end NeoFOAM
