import Verif.Spec.ExplicitDiff
import Verif.Props.C74_ExplicitDiffusion
import Verif.Props.C83_FloatTransport
import Verif.Proofs.FloatImplicit

/-!
# C101 – explicit upwind transport with diffusion in floating point
-/
namespace NeoFOAM
open Finset

section exactStep
variable {K : Type} [Field K] [LinearOrder K] [IsStrictOrderedRing K]

/-- The face-normal gradient from values in cells and on the boundary. -/
def gradFace (m : Mesh K) (δ cell bnd : Nat → K) (f : Nat) : K :=
  if f < m.nInternalFaces then δ f * (cell (m.nbr f) - cell (m.own f)) else δ f * (bnd (f - m.nInternalFaces) - cell (m.fc (f - m.nInternalFaces)))

/-- What leaves through a face. -/
def stepFace (m : Mesh K) (flux δ : Nat → K) (κ : K) (cell bnd : Nat → K) (f : Nat) : K :=
  flux f * upFace m flux cell bnd f - κ * (ix m.magFaceAreas f * gradFace m δ cell bnd f)

omit [IsStrictOrderedRing K] in
theorem stepFace_sub (m : Mesh K) (flux δ : Nat → K) (κ : K) (cell bnd cell' bnd' : Nat → K) (f : Nat) :
    stepFace m flux δ κ cell bnd f - stepFace m flux δ κ cell' bnd' f = stepFace m flux δ κ (fun c => cell c - cell' c) (fun b => bnd b - bnd' b) f := by
  have := upFace_sub m flux cell bnd cell' bnd' f
  unfold stepFace
  rw [← this]
  unfold gradFace
  split <;> ring

/-- What diffuses out of a cell: as much conductance to the outside as to the inside. -/
theorem Part.diffuses {y M k x : K} (hk : 0 ≤ k) (hx : |x| ≤ M) : Part y M (k * (y - x)) (2 * k) 0 :=
  ⟨k, k, k * x, hk, hk, by ring, by ring, by ring, by rw [abs_mul, abs_of_nonneg hk]; exact mul_le_mul_of_nonneg_left hx hk⟩

theorem diffusion_part {m : Mesh K} (h : m.WF) {δ cell bnd : Nat → K} {κ B : K} (hκ : 0 ≤ κ) (hnn : ∀ f < m.nFaces, 0 ≤ ix m.magFaceAreas f * δ f)
    (hc : ∀ c < m.nCells, |cell c| ≤ B) (hb : ∀ b < m.nBoundaryFaces, |bnd b| ≤ B) (c : Nat) :
    Part (cell c) B (m.netOutflow (fun f => -(κ * (ix m.magFaceAreas f * gradFace m δ cell bnd f))) c) (2 * κ * m.absFlux (fun f => ix m.magFaceAreas f * δ f) c) 0 := by
  have hfa := h.faces
  set g : Nat → K := fun f => -(κ * (ix m.magFaceAreas f * gradFace m δ cell bnd f)) with hg
  set k : Nat → K := fun f => ix m.magFaceAreas f * δ f with hk
  have h1 : Part (cell c) B (∑ f ∈ range m.nInternalFaces, if m.own f = c then g f else 0) (∑ f ∈ range m.nInternalFaces, if m.own f = c then 2 * κ * |k f| else 0)
      (∑ f ∈ range m.nInternalFaces, 0) := by
    refine Part.sum _ fun f hf => ?_
    have hkf := hnn f (by omega)
    by_cases ho : m.own f = c
    · have := Part.diffuses (y := cell c) (M := B) (k := κ * k f) (x := cell (m.nbr f)) (mul_nonneg hκ hkf) (hc _ (h.nbr_lt f hf))
      simp only [ho, if_true, hg, gradFace, hf, abs_of_nonneg hkf, hk] at this ⊢
      convert this using 1 <;> ring
    · simp only [ho, if_false]; exact Part.zero _ _
  have h2 : Part (cell c) B (∑ f ∈ range m.nInternalFaces, if m.nbr f = c then -(g f) else 0) (∑ f ∈ range m.nInternalFaces, if m.nbr f = c then 2 * κ * |k f| else 0)
      (∑ f ∈ range m.nInternalFaces, 0) := by
    refine Part.sum _ fun f hf => ?_
    have hkf := hnn f (by omega)
    by_cases ho : m.nbr f = c
    · have := Part.diffuses (y := cell c) (M := B) (k := κ * k f) (x := cell (m.own f)) (mul_nonneg hκ hkf) (hc _ (h.own_lt_int hf))
      simp only [ho, if_true, hg, gradFace, hf, abs_of_nonneg hkf, hk] at this ⊢
      convert this using 1 <;> ring
    · simp only [ho, if_false]; exact Part.zero _ _
  have h3 : Part (cell c) B (∑ b ∈ range m.nBoundaryFaces, if m.fc b = c then g (m.nInternalFaces + b) else 0)
      (∑ b ∈ range m.nBoundaryFaces, if m.fc b = c then 2 * κ * |k (m.nInternalFaces + b)| else 0) (∑ b ∈ range m.nBoundaryFaces, 0) := by
    refine Part.sum _ fun b hb' => ?_
    have hkf := hnn (m.nInternalFaces + b) (by omega)
    by_cases ho : m.fc b = c
    · have := Part.diffuses (y := cell c) (M := B) (k := κ * k (m.nInternalFaces + b)) (x := bnd b) (mul_nonneg hκ hkf) (hb b hb')
      simp only [ho, if_true, hg, gradFace, show ¬ m.nInternalFaces + b < m.nInternalFaces by omega, if_false, Nat.add_sub_cancel_left, abs_of_nonneg hkf, hk] at this ⊢
      convert this using 1 <;> ring
    · simp only [ho, if_false]; exact Part.zero _ _
  have := (h1.add h2).add h3
  have e2 : (∑ f ∈ range m.nInternalFaces, if m.nbr f = c then -(g f) else 0) = -∑ f ∈ range m.nInternalFaces, if m.nbr f = c then g f else 0 := by
    rw [← Finset.sum_neg_distrib]
    exact Finset.sum_congr rfl fun f _ => by split <;> simp
  have e3 : ∀ (n : Nat) (p : Nat → Prop) [DecidablePred p] (a : Nat → K), (∑ i ∈ range n, if p i then 2 * κ * a i else 0) = 2 * κ * ∑ i ∈ range n, if p i then a i else 0 := by
    intro n p _ a
    rw [Finset.mul_sum]
    exact Finset.sum_congr rfl fun i _ => by split <;> simp
  rw [e2, e3, e3, e3] at this
  simp only [Finset.sum_const_zero, add_zero] at this
  unfold Mesh.netOutflow Mesh.absFlux
  rw [Finset.sum_add_distrib, mul_add, mul_add, sub_eq_add_neg]
  exact this

/-- The time step of a cell: sizes do not grow by more than a factor `1 + η`. -/
theorem diffusion_step {m : Mesh K} (h : m.WF) (hv : ∀ c < m.nCells, 0 < m.vol c) {flux δ cell bnd : Nat → K} {κ B dt η : K} (hκ : 0 ≤ κ) (hdt : 0 ≤ dt) (hη : 0 ≤ η)
    (hnn : ∀ f < m.nFaces, 0 ≤ ix m.magFaceAreas f * δ f) (hsm : SmallStep m flux δ κ dt) (hin : SmallInflow m flux dt η) (hc : ∀ c < m.nCells, |cell c| ≤ B)
    (hb : ∀ b < m.nBoundaryFaces, |bnd b| ≤ B)
    (hout : ∀ b < m.nBoundaryFaces, 0 < flux (m.nInternalFaces + b) → bnd b = cell (m.fc b)) (c : Nat) (hcl : c < m.nCells) :
    |cell c - dt * (1 / m.vol c * m.netOutflow (stepFace m flux δ κ cell bnd) c)| ≤ (1 + η) * B := by
  have hp := (upFace_upwinded h hc (fun b hb' _ => hb b hb') hout c).part.add (diffusion_part h hκ hnn hc hb c)
  rw [← netOutflow_add, add_zero] at hp
  have hvc := hv c hcl
  have := hp.step (d := dt / m.vol c) (η := η) (by positivity)
    (by
      have := hsm c hcl
      rw [div_mul_eq_mul_div, div_le_iff₀ hvc]
      linarith)
    (by have := hin c hcl; rwa [show dt / m.vol c * m.netOutflow flux c = dt * (m.netOutflow flux c / m.vol c) by ring]) hη (hc c hcl)
  rw [show dt * (1 / m.vol c * m.netOutflow (stepFace m flux δ κ cell bnd) c) = dt / m.vol c * m.netOutflow (stepFace m flux δ κ cell bnd) c by ring]
  have e : stepFace m flux δ κ cell bnd = fun f => flux f * upFace m flux cell bnd f + -(κ * (ix m.magFaceAreas f * gradFace m δ cell bnd f)) := by
    funext f
    exact sub_eq_add_neg _ _
  rw [e]
  exact this

theorem faceSum_le {m : Mesh K} (h : m.WF) {a k : Nat → K} {B : K} (hab : ∀ f < m.nFaces, a f ≤ |k f| * B) (c : Nat) : m.faceSum a c ≤ m.absFlux k c * B := by
  have hfa := h.faces
  unfold Mesh.faceSum Mesh.absFlux
  rw [add_mul, Finset.sum_mul, Finset.sum_mul]
  refine add_le_add (Finset.sum_le_sum fun f hf => ?_) (Finset.sum_le_sum fun b hb' => ?_)
  · have hf := mem_range.1 hf
    have := hab f (by omega)
    rw [add_mul]
    refine add_le_add ?_ ?_ <;> (split <;> simp [this])
  · have hb' := mem_range.1 hb'
    have := hab (m.nInternalFaces + b) (by omega)
    split <;> simp [this]

/-- The sizes a step in floating point works with. -/
theorem floatDiff_size {m : Mesh K} (h : m.WF) (hv : ∀ c < m.nCells, 0 < m.vol c) {w flux δ : Nat → K} (hw : ∀ b < m.nBoundaryFaces, w (m.nInternalFaces + b) = 1)
    {φ : VolField K K} {κ B dt : K} (hκ : 0 ≤ κ) (hdt : 0 ≤ dt)
    (hsm : SmallStep m flux δ κ dt) (hc : ∀ c < m.nCells, |φ.cell c| ≤ B) (hb : ∀ b < m.nBoundaryFaces, |φ.bnd b| ≤ B) (c : Nat) (hcl : c < m.nCells) :
    |φ.cell c| + |dt| * (1 / |m.vol c| * m.faceSum (fun f => |flux f| * Mesh.faceSize .upwind m w flux φ f) c
      + |κ| / |m.vol c| * m.faceSum (fun f => |ix m.magFaceAreas f| * m.fnGradSize δ φ f) c) ≤ 3 * B := by
  have hfa := h.faces
  have hB : 0 ≤ B := (abs_nonneg _).trans (hc c hcl)
  have hvc := hv c hcl
  have hs : m.faceSum (fun f => |flux f| * Mesh.faceSize .upwind m w flux φ f) c ≤ m.absFlux flux c * B := faceSum_le h (fun f hf => by
    refine mul_le_mul_of_nonneg_left ?_ (abs_nonneg _)
    by_cases hi : f < m.nInternalFaces
    · simp only [Mesh.faceSize, hi, if_true]
      split
      · exact hc _ (h.own_lt_int hi)
      · exact hc _ (h.nbr_lt f hi)
    · obtain ⟨b, rfl⟩ : ∃ b, f = m.nInternalFaces + b := ⟨f - m.nInternalFaces, by omega⟩
      simp only [Mesh.faceSize, hi, if_false, Nat.add_sub_cancel_left, hw b (by omega), abs_one, one_mul]
      exact hb b (by omega)) c
  have hg : m.faceSum (fun f => |ix m.magFaceAreas f| * m.fnGradSize δ φ f) c ≤ m.absFlux (fun f => ix m.magFaceAreas f * δ f) c * (2 * B) := faceSum_le h (fun f hf => by
    rw [abs_mul, mul_assoc]
    refine mul_le_mul_of_nonneg_left ?_ (abs_nonneg _)
    by_cases hi : f < m.nInternalFaces
    · simp only [Mesh.fnGradSize, hi, if_true]
      exact mul_le_mul_of_nonneg_left (by linarith [hc _ (h.own_lt_int hi), hc _ (h.nbr_lt f hi)]) (abs_nonneg _)
    · obtain ⟨b, rfl⟩ : ∃ b, f = m.nInternalFaces + b := ⟨f - m.nInternalFaces, by omega⟩
      simp only [Mesh.fnGradSize, hi, if_false, Nat.add_sub_cancel_left]
      exact mul_le_mul_of_nonneg_left (by linarith [hb b (by omega), hc _ (h.fc_lt b (by omega))]) (abs_nonneg _)) c
  have h1 := hsm c hcl
  rw [abs_of_nonneg hdt, abs_of_pos hvc, abs_of_nonneg hκ]
  have h2 : dt * (1 / m.vol c * m.faceSum (fun f => |flux f| * Mesh.faceSize .upwind m w flux φ f) c
      + κ / m.vol c * m.faceSum (fun f => |ix m.magFaceAreas f| * m.fnGradSize δ φ f) c) ≤ 2 * B := by
    calc dt * (1 / m.vol c * m.faceSum (fun f => |flux f| * Mesh.faceSize .upwind m w flux φ f) c
          + κ / m.vol c * m.faceSum (fun f => |ix m.magFaceAreas f| * m.fnGradSize δ φ f) c)
        ≤ dt * (1 / m.vol c * (m.absFlux flux c * B) + κ / m.vol c * (m.absFlux (fun f => ix m.magFaceAreas f * δ f) c * (2 * B))) := by gcongr
      _ = 2 * (dt * (1 / 2 * m.absFlux flux c + κ * m.absFlux (fun f => ix m.magFaceAreas f * δ f) c) / m.vol c) * B := by field_simp
      _ ≤ 2 * 1 * B := by gcongr; exact (div_le_one hvc).2 h1
      _ = 2 * B := by ring
  linarith [hc c hcl]

end exactStep

section float
variable {F K : Type} [Add F] [Sub F] [Mul F] [Div F] [Neg F] [Zero F] [One F] [LinearOrder F] [Field K] [LinearOrder K] [IsStrictOrderedRing K]
variable {val : F → K} {u : K}

/-- What a step in floating point gives. -/
structure FloatDiffStep (m : Mesh F) (val : F → K) (u : K) (N : Nat) (bcs : List (VolumeBoundary F)) (w flux δ : List F) (κ dt : F) (φ φ' : VolField F F) : Prop where
  on : φ'.On m
  cells : ∀ c < m.nCells, Approx u (N + 11) (val (φ'.cell c))
    (val (φ.cell c) - val dt * (1 / val (m.vol c) * (m.exact val).netOutflow (fun f => ix (flux.map val) f *
      Mesh.schemeFace .upwind (m.exact val) (ix (w.map val)) (ix (flux.map val)) (φ.exact val) f) c
      + -val κ / val (m.vol c) * (m.exact val).netOutflow (fun f => ix (m.magFaceAreas.map val) f * (m.exact val).fnGrad (ix (δ.map val)) (φ.exact val) f) c))
    (|val (φ.cell c)| + |val dt| * (1 / |val (m.vol c)| * (m.exact val).faceSum (fun f => |ix (flux.map val) f| *
      Mesh.faceSize .upwind (m.exact val) (ix (w.map val)) (ix (flux.map val)) (φ.exact val) f) c
      + |val κ| / |val (m.vol c)| * (m.exact val).faceSum (fun f => |ix (m.magFaceAreas.map val) f| * (m.exact val).fnGradSize (ix (δ.map val)) (φ.exact val) f) c))
  bnd : ∀ b < m.nBoundaryFaces, ∀ pre c post, bcs = pre ++ c :: post → c.kind.Writes → c.patch.Has b →
    (∀ c' ∈ post, c'.kind.Writes → ¬ c'.patch.Has b) → Prescribes m φ' b c.kind (φ'.entry b)

omit [Add F] [Sub F] [Div F] [Zero F] [LinearOrder F] in
/-- The handles and operators of the composed expression. -/
theorem explicitDiff_heap (κ : F) (a b c c' c'' : OpModel F F) (hc' : c' = { c with coeff := c.coeff.mulScalar κ }) (hc'' : c'' = { c' with coeff := c'.coeff.mulScalar (-1) }) :
    (explicitDiffTree κ).build [a, b, c] = .ok (⟨[9], [10, 13]⟩, [a, b, c, a, b, a, b, c, c', a, b, c', c'', c'']) := by
  subst hc' hc''
  rfl

theorem floatDiffStep (hF : FloatArith F val u) (hmul : ∀ a : F, val ((1 * a) * -1) = -val a) (e : ExecKind) {m : Mesh F} (h : m.WF)
    (hv : ∀ c < m.nCells, val (m.vol c) ≠ 0) (bcs : List (VolumeBoundary F))
    (hb : ∀ c ∈ bcs, c.patch.end_ ≤ m.nBoundaryFaces) (sp : SparsityPattern) (w : List F) (hw : w.length = m.nFaces) (junk : Nat → F) (flux δ gamma : List F)
    (hfl : flux.length = m.nFaces) (hδ : δ.length = m.nFaces) (κ : F) (N : Nat) (hN : ∀ c, m.faceCount c ≤ N) (st : TimeState F F) (ho : st.sol.On m) (hs : st.Synced) (dt : F)
    (eqn : Expr) (ops : OpsOf F F) (hops : (explicitDiffTree κ).build (explicitDiffOps e m sp .upwind w junk flux δ gamma st) = .ok (eqn, ops st)) :
    (forwardEuler e m bcs ops eqn st dt).Ok (fun st' => FloatDiffStep m val u N bcs w flux δ κ dt st.sol st'.sol ∧ st'.Synced) := by
  have hl : st.sol.internal.length = m.nCells := ho.1
  unfold forwardEuler
  have hsrc : (Expr.explicitOperationN eqn (ops st) st.sol.internal.length).Ok (fun r => r.length = m.nCells ∧ ∀ c < m.nCells, Approx u (N + 9) (val (ix r c))
      (0 + 1 / val (m.vol c) * (m.exact val).netOutflow (fun f => ix (flux.map val) f *
        Mesh.schemeFace .upwind (m.exact val) (ix (w.map val)) (ix (flux.map val)) (st.sol.exact val) f) c
        + -val κ / val (m.vol c) * (m.exact val).netOutflow (fun f => ix (m.magFaceAreas.map val) f * (m.exact val).fnGrad (ix (δ.map val)) (st.sol.exact val) f) c)
      (0 + |1| / |val (m.vol c)| * (m.exact val).faceSum (fun f => |ix (flux.map val) f| *
        Mesh.faceSize .upwind (m.exact val) (ix (w.map val)) (ix (flux.map val)) (st.sol.exact val) f) c
        + |-val κ| / |val (m.vol c)| * (m.exact val).faceSum (fun f => |ix (m.magFaceAreas.map val) f| * (m.exact val).fnGradSize (ix (δ.map val)) (st.sol.exact val) f) c)) := by
    rw [hl]
    have hd := div_approx hF h hv ho hw hfl .upwind (s := Coeff.default) (v := fun _ => 1)
      (by intro c _; show Res.ok (val 1) = _; rw [hF.one]) e junk (List.replicate m.nCells 0) (by simp)
      (i := fun _ => N + 7) (l := fun _ => N + 7) (x0 := fun _ => 0) (A0 := fun _ => 0)
      (fun c _ => by rw [ix_replicate]; exact hF.approx_zero _) (fun _ => le_rfl) (fun c => by have := hN c; omega)
    have hcoeff : ((((Coeff.default : Coeff F).mulScalar κ).mulScalar (-1)).exact val).On m.nCells (fun _ => -val κ) := fun c _ => by
      show Res.ok (val ((1 * κ) * -1)) = _
      rw [hmul]
    intro out hout
    have hrun : Expr.explicitOperationN eqn (ops st) m.nCells out ↔
        (divExplicit e m (some .upwind) w junk flux st.sol Coeff.default (List.replicate m.nCells 0) >>= fun x =>
          (laplacianExplicit e m true δ junk gamma st.sol ((Coeff.default.mulScalar κ).mulScalar (-1)) x >>= fun y => (pure y : NR (List F)))) out := by
      have hb := explicitDiff_heap κ (ddtOp e m sp st.sol st.oldTime .implicit Coeff.default)
        (divOp e m sp (some .upwind) w junk flux st.sol .explicit Coeff.default) (laplacianOp e m sp true δ junk gamma st.sol .explicit Coeff.default)
        (laplacianOp e m sp true δ junk gamma st.sol .explicit (Coeff.default.mulScalar κ))
        (laplacianOp e m sp true δ junk gamma st.sol .explicit ((Coeff.default.mulScalar κ).mulScalar (-1))) rfl rfl
      generalize ho : ([_, _, _, _, _, _, _, _, _, _, _, _, _, _] : List (OpModel F F)) = o at hb
      have h10 : rd o 10 = .ok (divOp e m sp (some .upwind) w junk flux st.sol .explicit Coeff.default) := by rw [← ho]; rfl
      have h13 : rd o 13 = .ok (laplacianOp e m sp true δ junk gamma st.sol .explicit ((Coeff.default.mulScalar κ).mulScalar (-1))) := by rw [← ho]; rfl
      obtain ⟨rfl, hoo⟩ : eqn = ⟨[9], [10, 13]⟩ ∧ ops st = o := by
        have := hops.symm.trans hb
        injection this with this
        exact Prod.mk.inj this
      rw [hoo]
      have d1 : HM.derefs [10, 13] o = .ok [divOp e m sp (some .upwind) w junk flux st.sol .explicit Coeff.default,
          laplacianOp e m sp true δ junk gamma st.sol .explicit ((Coeff.default.mulScalar κ).mulScalar (-1))] := by
        simp only [HM.derefs, List.mapM_cons, List.mapM_nil, h10, h13]
        rfl
      have x1 : (⟨[9], [10, 13]⟩ : Expr).explicitOperationN o m.nCells = (divExplicit e m (some .upwind) w junk flux st.sol Coeff.default (List.replicate m.nCells 0) >>= fun x =>
          (laplacianExplicit e m true δ junk gamma st.sol ((Coeff.default.mulScalar κ).mulScalar (-1)) x >>= fun y => (pure y : NR (List F)))) := by
        unfold Expr.explicitOperationN Expr.explicitOperation
        refine (NR.bind_eq (fun r => by rw [d1]; exact Iff.rfl)).trans ?_
        rfl
      rw [x1]
    refine NR.Ok.bind hd ?_ out (hrun.1 hout)
    rintro r ⟨h1, h2⟩
    exact NR.Ok.bind (laplacian_approx (gamma := gamma) hF h hv ho hδ hcoeff e junk r h1 (i := fun _ => N + 8) (l := fun _ => N + 8) h2 (fun _ => le_rfl)
      (fun c => by have := hN c; omega)) (fun r hr => NR.Ok.pure hr)
  refine NR.Ok.bind hsrc ?_
  rintro src ⟨hsl, hsa⟩
  refine NR.Ok.bind (NR.Ok.of_iff (scaleField_det e src dt)) ?_
  rintro sdt rfl
  unfold TimeState.Synced at hs
  simp only [hs]
  refine NR.Ok.bind (NR.Ok.of_iff (subField_det e (by simp [hsl, hl]))) ?_
  rintro new rfl
  set new := List.zipWith (fun x y => x - y) st.sol.internal (src.map fun x => dt • x) with hnew
  have hnl : new.length = m.nCells := by simp [new, hl, hsl]
  have hon : ({ st.sol with internal := new } : VolField F F).On m := ⟨hnl, ho.2, ho.3, ho.4, ho.5⟩
  obtain ⟨φ', hd, h1, h2, h3, h4, -⟩ := C28_conditions e m h { st.sol with internal := new } hon bcs hb
  refine NR.Ok.bind (NR.Ok.of_iff hd) ?_
  rintro ψ hψ
  rw [hψ]
  refine NR.Ok.pure ⟨⟨h1, fun c hc => ?_, fun b hb' pre c post hcs hw hh hn => ?_⟩, rfl⟩
  · have hcell : φ'.cell c = st.sol.cell c - dt * ix src c := by
      unfold VolField.cell
      rw [h2]
      simp [new, List.getD, hc, hl, hsl, ix]
    rw [hcell]
    have := hF.approx_sub (hF.approx 0 (st.sol.cell c)) (hF.approx_mul (hF.approx 0 dt) (hsa c hc)) (Nat.zero_le (N + 10)) (by omega)
    rw [zero_add, zero_add, abs_one, abs_neg] at this
    exact this
  · have := h4 b hb' pre c post hcs hw hh hn
    have hc' : ∀ k, φ'.cell k = ({ st.sol with internal := new } : VolField F F).cell k := by
      intro k; unfold VolField.cell; rw [h2]
    cases hk : c.kind <;> rw [hk] at this hw <;> first | exact hw.elim | simpa [Prescribes, hc'] using this

theorem prescribed_zeroGradient (hF : FloatArith F val u) (hadd : ∀ a b : F, val b = 0 → val (a + b) = val a) {m : Mesh F} {bcs : List (VolumeBoundary F)}
    {φ' : VolField F F} {b : Nat} (h : ∀ pre c post, bcs = pre ++ c :: post → c.kind.Writes → c.patch.Has b →
      (∀ c' ∈ post, c'.kind.Writes → ¬ c'.patch.Has b) → Prescribes m φ' b c.kind (φ'.entry b)) {k : VolBCKind F} (hk : Decides bcs b k)
    (hz : (k.map val).ZeroGradient) : val (φ'.bnd b) = val (φ'.cell (m.fc b)) := by
  obtain ⟨pre, c, post, h1, rfl, h3, h4, h5⟩ := hk
  have := h pre c post h1 h3 h4 h5
  cases hc : c.kind with
  | fixedValue v => rw [hc] at hz; exact hz.elim
  | fixedGradient v =>
    rw [hc] at hz this
    have hz : val v = 0 := hz
    have h6 : φ'.bnd b = φ'.cell (m.fc b) + (1 / m.bnd.deltaCoeffs.getD b 0) * v := this.1
    rw [h6]
    refine hadd _ _ ?_
    have := hF.mul (1 / m.bnd.deltaCoeffs.getD b 0) v
    rw [hz] at this
    simpa using this
  | extrapolated =>
    rw [hc] at this
    exact congrArg val this.1
  | calculated => rw [hc] at hz; exact hz.elim
  | empty => rw [hc] at hz; exact hz.elim

omit [Sub F] [LinearOrder F] [Neg F] [LinearOrder K] [IsStrictOrderedRing K] [Field K] in
theorem prescribed_fixedValue {m : Mesh F} {bcs : List (VolumeBoundary F)}
    {φ' : VolField F F} {b : Nat} (h : ∀ pre c post, bcs = pre ++ c :: post → c.kind.Writes → c.patch.Has b →
      (∀ c' ∈ post, c'.kind.Writes → ¬ c'.patch.Has b) → Prescribes m φ' b c.kind (φ'.entry b)) {v : F} (hk : Decides bcs b (.fixedValue v)) : φ'.bnd b = v := by
  obtain ⟨pre, c, post, h1, h2, h3, h4, h5⟩ := hk
  have := h pre c post h1 (by rw [h2]; exact h3) h4 h5
  rw [h2] at this
  exact this.1

/-- The two runs after the same number of steps. -/
structure NearAll (m : Mesh F) (val : F → K) (flux : Nat → K) (B D : K) (s : TimeState F F) (U : VolField K K) : Prop where
  on : s.sol.On m
  synced : s.Synced
  size : ∀ c < m.nCells, |val (s.sol.cell c)| ≤ B
  sizeB : ∀ b < m.nBoundaryFaces, |val (s.sol.bnd b)| ≤ B
  out : ∀ b < m.nBoundaryFaces, 0 < flux (m.nInternalFaces + b) → val (s.sol.bnd b) = val (s.sol.cell (m.fc b))
  diff : ∀ c < m.nCells, |val (s.sol.cell c) - U.cell c| ≤ D
  diffB : ∀ b < m.nBoundaryFaces, |val (s.sol.bnd b) - U.bnd b| ≤ D
  outU : ∀ b < m.nBoundaryFaces, 0 < flux (m.nInternalFaces + b) → U.bnd b = U.cell (m.fc b)

theorem nearAll_step (hF : FloatArith F val u) (hadd : ∀ a b : F, val b = 0 → val (a + b) = val a) {m : Mesh F} (h : m.WF) (hv : ∀ c < m.nCells, 0 < val (m.vol c))
    {bcs : List (VolumeBoundary F)} {w flux δ : List F} (hw : ∀ b < m.nBoundaryFaces, val (ix w (m.nInternalFaces + b)) = 1) {N : Nat} {κ dt : F} (hκ : 0 ≤ val κ) (hdt : 0 ≤ val dt)
    (hnn : ∀ f < m.nFaces, 0 ≤ ix (m.exact val).magFaceAreas f * ix (δ.map val) f)
    {M η ε : K} (hε : ε = 3 * ((1 + u) ^ (N + 11) - 1)) (hη : 0 ≤ η) (hbc : BoundedBC (m.exact val) (ix (flux.map val)) (bcs.map (·.map val)) (-M) M)
    (hsm : SmallStep (m.exact val) (ix (flux.map val)) (ix (δ.map val)) (val κ) (val dt)) (hin : SmallInflow (m.exact val) (ix (flux.map val)) (val dt) η)
    {s s' : TimeState F F} {U U' : VolField K K} {B D : K} (hMB : M ≤ B) (hD : 0 ≤ D) (hn : NearAll m val (ix (flux.map val)) B D s U)
    (hs : FloatDiffStep m val u N bcs w flux δ κ dt s.sol s'.sol) (hsy : s'.Synced)
    (hU : EulerStep (m.exact val) (bcs.map (·.map val)) (fun φ c => 1 / (m.exact val).vol c * (m.exact val).netOutflow (fun f => ix (flux.map val) f *
      Mesh.schemeFace .upwind (m.exact val) (ix (w.map val)) (ix (flux.map val)) φ f) c
        - val κ * (1 / (m.exact val).vol c * (m.exact val).netOutflow (fun f => ix (m.exact val).magFaceAreas f * (m.exact val).fnGrad (ix (δ.map val)) φ f) c)) (val dt) U U') :
    NearAll m val (ix (flux.map val)) ((1 + η + ε) * B) ((1 + η) * D + ε * B) s' U' := by
  have he := exact_wf (val := val) h
  have hpow := one_le_pow_u hF.roundoff (N + 11)
  have hε0 : 0 ≤ ε := by rw [hε]; linarith
  have hvE : ∀ c < (m.exact val).nCells, 0 < (m.exact val).vol c := fun c hc => by rw [hF.vol]; exact hv c hc
  have hwE : ∀ b < (m.exact val).nBoundaryFaces, ix (w.map val) ((m.exact val).nInternalFaces + b) = 1 := fun b hb => by
    rw [ix_val hF.zero]; exact hw b hb
  set S := stepFace (m.exact val) (ix (flux.map val)) (ix (δ.map val)) (val κ) with hS
  have hface : ∀ φ : VolField K K, ∀ c, 1 / (m.exact val).vol c * (m.exact val).netOutflow (fun f => ix (flux.map val) f *
      Mesh.schemeFace .upwind (m.exact val) (ix (w.map val)) (ix (flux.map val)) φ f) c
        - val κ * (1 / (m.exact val).vol c * (m.exact val).netOutflow (fun f => ix (m.exact val).magFaceAreas f * (m.exact val).fnGrad (ix (δ.map val)) φ f) c)
      = 1 / (m.exact val).vol c * (m.exact val).netOutflow (S φ.cell φ.bnd) c := fun φ c => by
    have : (m.exact val).netOutflow (S φ.cell φ.bnd) c = (m.exact val).netOutflow (fun f => ix (flux.map val) f *
        Mesh.schemeFace .upwind (m.exact val) (ix (w.map val)) (ix (flux.map val)) φ f) c
        + (-val κ) • (m.exact val).netOutflow (fun f => ix (m.exact val).magFaceAreas f * (m.exact val).fnGrad (ix (δ.map val)) φ f) c := by
      rw [← netOutflow_smul, ← netOutflow_add]
      refine netOutflow_congr he (fun f hf => ?_) c
      rw [schemeFace_upFace he hwE _ _ _ hf, hS]
      simp only [stepFace, gradFace, Mesh.fnGrad, smul_eq_mul]
      ring
    rw [this, smul_eq_mul]
    ring
  -- sizes
  have hsize : ∀ c < m.nCells, |(s.sol.exact val).cell c| ≤ B := fun c hc => by rw [hF.cell]; exact hn.size c hc
  have hsizeB : ∀ b < m.nBoundaryFaces, |(s.sol.exact val).bnd b| ≤ B := fun b hb => by rw [hF.bnd]; exact hn.sizeB b hb
  have hout : ∀ b < m.nBoundaryFaces, 0 < ix (flux.map val) (m.nInternalFaces + b) → (s.sol.exact val).bnd b = (s.sol.exact val).cell (m.fc b) := fun b hb hp => by
    rw [hF.bnd, hF.cell]; exact hn.out b hb hp
  have hround : ∀ c < m.nCells, |val (s'.sol.cell c) - (val (s.sol.cell c) - val dt * (1 / val (m.vol c) *
      (m.exact val).netOutflow (S (s.sol.exact val).cell (s.sol.exact val).bnd) c))| ≤ ε * B := fun c hc => by
    have h1 := (hs.cells c hc).1
    have h2 := floatDiff_size he hvE hwE hκ hdt hsm hsize hsizeB c hc
    have h3 := hface (s.sol.exact val) c
    rw [hF.cell, hF.vol] at h2
    rw [hF.vol] at h3
    rw [← h3]
    rw [show ∀ a b x : K, a - x * (1 / b * (m.exact val).netOutflow (fun f => ix (m.exact val).magFaceAreas f * (m.exact val).fnGrad (ix (δ.map val)) (s.sol.exact val) f) c)
      = a + -x / b * (m.exact val).netOutflow (fun f => ix (m.exact val).magFaceAreas f * (m.exact val).fnGrad (ix (δ.map val)) (s.sol.exact val) f) c by intros; ring]
    refine h1.trans ((mul_le_mul_of_nonneg_left h2 (by linarith)).trans ?_)
    rw [hε]
    linarith
  have hexact : ∀ c < m.nCells, |val (s.sol.cell c) - val dt * (1 / val (m.vol c) *
      (m.exact val).netOutflow (S (s.sol.exact val).cell (s.sol.exact val).bnd) c)| ≤ (1 + η) * B := fun c hc => by
    have := diffusion_step he hvE hκ hdt hη hnn hsm hin hsize hsizeB hout c hc
    rwa [hF.cell, hF.vol] at this
  have hcell : ∀ c < m.nCells, |val (s'.sol.cell c)| ≤ (1 + η + ε) * B := fun c hc => by
    have h1 := hround c hc
    have h2 := hexact c hc
    have h3 := abs_sub_abs_le_abs_sub (val (s'.sol.cell c)) (val (s.sol.cell c) - val dt * (1 / val (m.vol c) *
      (m.exact val).netOutflow (S (s.sol.exact val).cell (s.sol.exact val).bnd) c))
    linarith
  have hdiff : ∀ c < m.nCells, |val (s'.sol.cell c) - U'.cell c| ≤ (1 + η) * D + ε * B := fun c hc => by
    have h1 := hround c hc
    have h2 := diffusion_step he hvE hκ hdt hη hnn hsm hin (cell := fun c => (s.sol.exact val).cell c - U.cell c) (bnd := fun b => (s.sol.exact val).bnd b - U.bnd b) (B := D)
      (fun c hc => by rw [hF.cell]; exact hn.diff c hc) (fun b hb => by rw [hF.bnd]; exact hn.diffB b hb)
      (fun b hb hp => by rw [hout b hb hp, hn.outU b hb hp]; rfl) c hc
    have h3 := hU.cells c hc
    rw [hface, smul_eq_mul, hF.vol] at h3
    have h4 := netOutflow_add (m.exact val) (S (fun c => (s.sol.exact val).cell c - U.cell c) (fun b => (s.sol.exact val).bnd b - U.bnd b)) (S U.cell U.bnd) c
    have h5 : (fun f => S (fun c => (s.sol.exact val).cell c - U.cell c) (fun b => (s.sol.exact val).bnd b - U.bnd b) f + S U.cell U.bnd f)
      = S (s.sol.exact val).cell (s.sol.exact val).bnd := by
      funext f
      rw [hS, ← stepFace_sub]
      ring
    rw [h5] at h4
    rw [hF.cell, hF.vol] at h2
    rw [h4] at h1
    rw [h3]
    refine (abs_sub_le _ _ _).trans ((add_le_add h1 ?_).trans (le_of_eq (add_comm _ _)))
    refine le_trans (le_of_eq (congrArg _ ?_)) h2
    ring
  have hgrow : ∀ b < m.nBoundaryFaces, M ≤ (1 + η + ε) * B := fun b hb => by
    have : 0 ≤ B := (abs_nonneg _).trans (hn.size _ (h.fc_lt b hb))
    nlinarith
  refine ⟨hs.on, hsy, hcell, fun b hb => ?_, fun b hb hp => ?_, hdiff, fun b hb => ?_, fun b hb hp => ?_⟩
  · obtain ⟨k, hk, hk'⟩ := hbc.other b hb
    obtain ⟨k', hkF, rfl⟩ := decides_map hk
    rcases hk' with hz | ⟨v, hv1, hv2, hv3⟩
    · rw [prescribed_zeroGradient hF hadd (hs.bnd b hb) hkF hz]; exact hcell _ (h.fc_lt b hb)
    · cases k' with
      | fixedValue v' =>
        have : val v' = v := VolBCKind.fixedValue.inj hv1
        rw [prescribed_fixedValue (hs.bnd b hb) hkF, this]
        exact (abs_le.2 ⟨hv2, hv3⟩).trans (hgrow b hb)
      | fixedGradient _ => cases hv1
      | extrapolated => cases hv1
      | calculated => cases hv1
      | empty => cases hv1
  · obtain ⟨k, hk, hz⟩ := hbc.outflow b hb hp
    obtain ⟨k', hkF, rfl⟩ := decides_map hk
    exact prescribed_zeroGradient hF hadd (hs.bnd b hb) hkF hz
  · obtain ⟨k, hk, hk'⟩ := hbc.other b hb
    obtain ⟨k', hkF, rfl⟩ := decides_map hk
    rcases hk' with hz | ⟨v, hv1, hv2, hv3⟩
    · rw [prescribed_zeroGradient hF hadd (hs.bnd b hb) hkF hz, eulerStep_zeroGradient hU hb hk hz]; exact hdiff _ (h.fc_lt b hb)
    · cases k' with
      | fixedValue v' =>
        rw [prescribed_fixedValue (hs.bnd b hb) hkF, eulerStep_fixedValue hU hb hk, sub_self, abs_zero]
        have : 0 ≤ B := (abs_nonneg _).trans (hn.size _ (h.fc_lt b hb))
        positivity
      | fixedGradient _ => cases hv1
      | extrapolated => cases hv1
      | calculated => cases hv1
      | empty => cases hv1
  · obtain ⟨k, hk, hz⟩ := hbc.outflow b hb hp
    exact eulerStep_zeroGradient hU hb hk hz

/-- **C101**: `ddt(u) + div(flux, u) - κ laplacian(gamma, u) = 0` with upwind interpolation and forwardEuler, in floating point, for every valid mesh with positive
volumes, every number of steps, every `κ ≥ 0`, conductances `|S| δ ≥ 0` and all time steps that are small enough for flux and diffusion together. `M` bounds the initial
values and all values fixed on the boundary; the boundary has zero gradient where the flow leaves, and zero gradient or a fixed value elsewhere; the flux is
divergence-free up to `η`; no cell has more than `N` faces. Whatever the executor and the order in which the threads add, every outcome of `n` calls of `dsl::solve` is
a solution whose values have grown by a factor of at most `(1 + η + ε)^n`, and that differs by at most `((1 + η + ε)^n - (1 + η)^n) M` from the only outcome of
the same program in exact arithmetic, where `ε = 3 ((1 + u)^(N+11) - 1)` and `u` is the unit roundoff. The boundary weights are 1 (as the geometry scheme makes them,
C27); adding zero and multiplying by 1 and by -1 are exact. -/
theorem C101_transport (hF : FloatArith F val u) (hadd : ∀ a b : F, val b = 0 → val (a + b) = val a) (hmul : ∀ a : F, val ((1 * a) * -1) = -val a)
    {m : Mesh F} (h : m.WF) (hv : ∀ c < m.nCells, 0 < val (m.vol c))
    (bcs : List (VolumeBoundary F)) (hb : ∀ c ∈ bcs, c.patch.end_ ≤ m.nBoundaryFaces) (w flux δ gamma : List F) (hwl : w.length = m.nFaces) (hfl : flux.length = m.nFaces)
    (hδ : δ.length = m.nFaces) (hw : ∀ b < m.nBoundaryFaces, val (ix w (m.nInternalFaces + b)) = 1) (κ : F) (hκ : 0 ≤ val κ)
    (hnn : ∀ f < m.nFaces, 0 ≤ ix (m.exact val).magFaceAreas f * ix (δ.map val) f) (N : Nat) (hN : ∀ c, m.faceCount c ≤ N)
    {fvSchemes : Dict} (hd : AsksFor fvSchemes "forwardEuler") (M η ε : K) (hM : 0 ≤ M) (hη : 0 ≤ η) (hε : ε = 3 * ((1 + u) ^ (N + 11) - 1))
    (hbc : BoundedBC (m.exact val) (ix (flux.map val)) (bcs.map (·.map val)) (-M) M)
    (st : TimeState F F) (ho : st.sol.On m) (hsy : st.Synced) (hst : (st.sol.exact val).Bounded (m.exact val) (ix (flux.map val)) (-M) M) (t : F) (dt : Nat → F)
    (hdt : ∀ k, 0 ≤ val (dt k)) (hsm : ∀ k, SmallStep (m.exact val) (ix (flux.map val)) (ix (δ.map val)) (val κ) (val (dt k)))
    (hin : ∀ k, SmallInflow (m.exact val) (ix (flux.map val)) (val (dt k)) η)
    (eE : ExecKind) (spE : SparsityPattern) (junkE : Nat → K) (tableE : SolverTable K) (fvSolutionE : Dict) (eqnE : Expr) (opsE : OpsOf K K)
    (hbuildE : ∀ st, (explicitDiffTree (val κ)).build (explicitDiffOps eE (m.exact val) spE .upwind (w.map val) junkE (flux.map val) (δ.map val) (gamma.map val) st)
      = .ok (eqnE, opsE st)) :
    ∃ U : Nat → TimeState K K, (∀ n out, timeLoop (fun d st => dslSolve eE (m.exact val) (bcs.map (·.map val)) tableE fvSchemes fvSolutionE opsE eqnE st (val t) d)
        (fun k => val (dt k)) n (st.exact val) out ↔ out = .ok (U n)) ∧
      ∀ (e : ExecKind) (sp : SparsityPattern) (junk : Nat → F) (table : SolverTable F) (fvSolution : Dict) (eqn : Expr) (ops : OpsOf F F),
        (∀ st, (explicitDiffTree κ).build (explicitDiffOps e m sp .upwind w junk flux δ gamma st) = .ok (eqn, ops st)) →
        ∀ n, (timeLoop (fun d st => dslSolve e m bcs table fvSchemes fvSolution ops eqn st t d) dt n st).Ok (fun s => ∀ c < m.nCells,
          |val (s.sol.cell c)| ≤ (1 + η + ε) ^ n * M ∧ |val (s.sol.cell c) - (U n).sol.cell c| ≤ ((1 + η + ε) ^ n - (1 + η) ^ n) * M) := by
  have he := exact_wf (val := val) h
  have hpow := one_le_pow_u hF.roundoff (N + 11)
  have hε0 : 0 ≤ ε := by rw [hε]; linarith
  obtain ⟨U, hU0, hU1, hU2⟩ := explicitDiff_steps eE he (bcs.map (·.map val)) (by
      intro c hc
      obtain ⟨c', hc', rfl⟩ := List.mem_map.1 hc
      exact hb c' hc') spE .upwind (w.map val) ((List.length_map val).trans hwl) junkE (flux.map val) (δ.map val) (gamma.map val) ((List.length_map val).trans hfl)
    ((List.length_map val).trans hδ) (val κ) eqnE opsE hbuildE tableE fvSolutionE hd
    (st.exact val) (exact_on ho) (by
      unfold TimeState.Synced TimeState.oldTime at hsy ⊢
      unfold TimeState.exact VolField.exact
      cases ho : st.old with
      | none => rfl
      | some x => rw [ho] at hsy; exact congrArg (List.map val) hsy) (val t) (fun k => val (dt k))
  refine ⟨U, hU1, ?_⟩
  intro e sp junk table fvSolution eqn ops hbuild n
  have hB : ∀ n, M ≤ (1 + η + ε) ^ n * M := fun n => le_mul_of_one_le_left hM (one_le_pow₀ (by linarith))
  have hD : ∀ n, 0 ≤ ((1 + η + ε) ^ n - (1 + η) ^ n) * M := fun n =>
    mul_nonneg (sub_nonneg.2 (pow_le_pow_left₀ (by linarith) (by linarith) n)) hM
  have heqn : eqn = ⟨[9], [10, 13]⟩ := by
    have hb := explicitDiff_heap κ (ddtOp e m sp st.sol st.oldTime .implicit Coeff.default)
      (divOp e m sp (some .upwind) w junk flux st.sol .explicit Coeff.default) (laplacianOp e m sp true δ junk gamma st.sol .explicit Coeff.default)
      _ _ rfl rfl
    have := (hbuild st).symm.trans hb
    injection this with this
    exact (Prod.mk.inj this).1
  have key : (timeLoop (fun d st => dslSolve e m bcs table fvSchemes fvSolution ops eqn st t d) dt n st).Ok
      (fun s => NearAll m val (ix (flux.map val)) ((1 + η + ε) ^ n * M) (((1 + η + ε) ^ n - (1 + η) ^ n) * M) s (U n).sol) := by
    induction n with
    | zero =>
      refine NR.Ok.pure ?_
      rw [hU0]
      have hc0 : ∀ c, (st.exact val).sol.cell c = val (st.sol.cell c) := fun c => hF.cell st.sol c
      have hb0 : ∀ b, (st.exact val).sol.bnd b = val (st.sol.bnd b) := fun b => hF.bnd st.sol b
      refine ⟨ho, hsy, fun c hc => ?_, fun b hb => ?_, fun b hb hp => ?_, fun c hc => ?_, fun b hb => ?_, fun b hb hp => hst.outflow b hb hp⟩
      · have := hst.cells c hc
        rw [hF.cell] at this
        simpa using abs_le.2 this
      · have := hst.bnd b hb
        rw [hF.bnd] at this
        simpa using abs_le.2 this
      · have := hst.outflow b hb hp
        rwa [hF.bnd, hF.cell] at this
      · rw [hc0]; simp
      · rw [hb0]; simp
    | succ n ih =>
      refine NR.Ok.bind ih ?_
      intro s hs out hout
      have h1 := (C34_solve e m bcs table fvSolution hd ops (by rw [heqn]; simp) s t (dt n) out).1 hout
      obtain ⟨s', rfl, h2, h3⟩ := floatDiffStep hF hmul e h (fun c hc => (hv c hc).ne') bcs hb sp w hwl junk flux δ gamma hfl hδ κ N hN s hs.on hs.synced (dt n) eqn ops
        (hbuild s) out h1
      have h4 := nearAll_step hF hadd h hv hw hκ (hdt n) hnn hε hη hbc (hsm n) (hin n) (hB n) (hD n) hs h2 h3 (hU2 n)
      refine ⟨s', rfl, ?_⟩
      rw [show (1 + η + ε) ^ (n + 1) * M = (1 + η + ε) * ((1 + η + ε) ^ n * M) by ring,
        show ((1 + η + ε) ^ (n + 1) - (1 + η) ^ (n + 1)) * M = (1 + η) * (((1 + η + ε) ^ n - (1 + η) ^ n) * M) + ε * ((1 + η + ε) ^ n * M) by ring]
      exact h4
  exact key.mono fun s hs c hc => ⟨hs.size c hc, hs.diff c hc⟩

end float

/-! ### Three cells of `double`s with a flow through them and diffusion -/

theorem binFloat_mulOne {p : Nat} (hp : 0 < p) (a : BinFloat p) : BinFloat.val p ((1 * a) * -1) = -BinFloat.val p a := by
  have h1 : (1 * a).1 = a.1 := by
    rw [BinFloat.mul_val, show (1 : BinFloat p).1 = 1 from rfl, one_mul]
    exact roundBin_eq hp a.2
  show ((1 * a) * -1).1 = -a.1
  rw [BinFloat.mul_val, h1, show (-1 : BinFloat p).1 = -1 from rfl, mul_neg_one]
  exact roundBin_eq hp (-a).2

/-- One half. -/
def halfBin : BinFloat 53 := ⟨1 / 2, ⟨1, -1, by norm_num, by norm_num⟩⟩

/-- The expression can be composed: the hypotheses of the example below can be met. -/
example (e : ExecKind) (m : Mesh (BinFloat 53)) (sp : SparsityPattern) (w : List (BinFloat 53)) (junk : Nat → BinFloat 53) (flux δ gamma : List (BinFloat 53)) (κ : BinFloat 53) :
    ∃ (eqn : Expr) (ops : OpsOf (BinFloat 53) (BinFloat 53)), ∀ st, (explicitDiffTree κ).build (explicitDiffOps e m sp .upwind w junk flux δ gamma st) = .ok (eqn, ops st) :=
  ⟨_, _, fun _ => explicitDiff_heap κ _ _ _ _ _ rfl rfl⟩

example (e : ExecKind) (m : Mesh ℚ) (sp : SparsityPattern) (w : List ℚ) (junk : Nat → ℚ) (flux δ gamma : List ℚ) (κ : ℚ) :
    ∃ (eqn : Expr) (ops : OpsOf ℚ ℚ), ∀ st, (explicitDiffTree κ).build (explicitDiffOps e m sp .upwind w junk flux δ gamma st) = .ok (eqn, ops st) :=
  ⟨_, _, fun _ => explicitDiff_heap κ _ _ _ _ _ rfl rfl⟩

/-- The hypotheses of `C101_transport` can be met. -/
example (e : ExecKind) (eqnE : Expr) (opsE : OpsOf ℚ ℚ) (eqn : Expr) (ops : OpsOf (BinFloat 53) (BinFloat 53))
    (hE : ∀ st, (explicitDiffTree (BinFloat.val 53 halfBin)).build (explicitDiffOps .serial (floatRow.exact (BinFloat.val 53)) ⟨[], [], [], [], []⟩ .upwind
      (([third, third, 1, 1] : List (BinFloat 53)).map (BinFloat.val 53)) (fun _ => 0) (([1, 1, -1, 1] : List (BinFloat 53)).map (BinFloat.val 53))
      (([1, 1, 1, 1] : List (BinFloat 53)).map (BinFloat.val 53)) (([] : List (BinFloat 53)).map (BinFloat.val 53)) st) = .ok (eqnE, opsE st))
    (hF : ∀ st, (explicitDiffTree halfBin).build (explicitDiffOps e floatRow ⟨[], [], [], [], []⟩ .upwind [third, third, 1, 1] (fun _ => 0) [1, 1, -1, 1] [1, 1, 1, 1] [] st)
      = .ok (eqn, ops st)) (n : Nat) : ∃ U : Nat → TimeState ℚ ℚ,
    (timeLoop (fun d st => dslSolve e floatRow floatRowBCs [] forwardDict [] ops eqn st 0 d) (fun _ => halfBin) n ⟨floatRowStart, none⟩).Ok
    (fun s => |BinFloat.val 53 (s.sol.cell 1) - (U n).sol.cell 1| ≤
      ((1 + 0 + 3 * ((1 + 1 / 2 ^ 53) ^ (2 + 11) - 1)) ^ n - (1 + 0) ^ n) * (1 + |BinFloat.val 53 third|)) := by
  have h1 : BinFloat.val 53 1 = 1 := rfl
  have hm1 : BinFloat.val 53 (-1) = -1 := rfl
  have hh : BinFloat.val 53 halfBin = 1 / 2 := rfl
  have t0 := abs_nonneg (BinFloat.val 53 third)
  have t1 := le_abs_self (BinFloat.val 53 third)
  have t2 := neg_abs_le (BinFloat.val 53 third)
  have hcases : ∀ c : Nat, c < 3 → c = 0 ∨ c = 1 ∨ c = 2 := fun c hc => by omega
  have hvol : ∀ c < floatRow.nCells, floatRow.vol c = 1 := by
    intro c hc
    rcases hcases c hc with rfl | rfl | rfl <;> rfl
  have hvE : ∀ c < floatRow.nCells, (floatRow.exact (BinFloat.val 53)).vol c = 1 := fun c hc => by
    rw [(binFloat_arith 53).vol, hvol c hc]; rfl
  have hflx : ∀ f : Nat, ix (([1, 1, -1, 1] : List (BinFloat 53)).map (BinFloat.val 53)) f = ix ([1, 1, -1, 1] : List ℚ) f := fun f => rfl
  have hb2 : ∀ b : Nat, b < 2 → b = 0 ∨ b = 1 := fun b hb => by omega
  have hb4 : ∀ b : Nat, b < 4 → b = 0 ∨ b = 1 ∨ b = 2 ∨ b = 3 := fun b hb => by omega
  have hd : ∀ f < 4, ix (([1, 1, 1, 1] : List (BinFloat 53)).map (BinFloat.val 53)) f = 1 := by
    intro f hf
    rcases hb4 f hf with rfl | rfl | rfl | rfl <;> rfl
  have ha : ∀ f < 4, ix (floatRow.exact (BinFloat.val 53)).magFaceAreas f = 1 := by
    intro f hf
    rcases hb4 f hf with rfl | rfl | rfl | rfl <;> rfl
  obtain ⟨U, -, hU⟩ := C101_transport (binFloat_arith 53) (binFloat_addZero (by norm_num)) (binFloat_mulOne (by norm_num)) floatRow_wf
    (fun c hc => by rw [hvol c hc, h1]; norm_num)
    floatRowBCs (by intro c hc; simp only [floatRowBCs, List.mem_cons, List.not_mem_nil, or_false] at hc; rcases hc with rfl | rfl <;> decide)
    [third, third, 1, 1] [1, 1, -1, 1] [1, 1, 1, 1] [] rfl rfl rfl
    (by intro b hb; rcases hb2 b hb with rfl | rfl <;> rfl) halfBin (by rw [hh]; norm_num)
    (fun f hf => by rw [ha f hf, hd f hf]; norm_num) 2
    (by
      intro c
      by_cases hc : c < 3
      · rcases hcases c hc with rfl | rfl | rfl <;> decide
      · have e0 : ∀ f : Nat, f < 2 → (floatRow.own f = c) = False ∧ (floatRow.nbr f = c) = False := by
          intro f hf
          rcases hb2 f hf with rfl | rfl <;> (constructor <;> apply eq_false <;> intro hh <;> rw [← hh] at hc <;> exact hc (by decide))
        have e1 : ∀ b : Nat, b < 2 → (floatRow.fc b = c) = False := by
          intro b hf
          rcases hb2 b hf with rfl | rfl <;> (apply eq_false; intro hh; rw [← hh] at hc; exact hc (by decide))
        unfold Mesh.faceCount Mesh.faceSum
        simp only [show floatRow.nInternalFaces = 2 from rfl, show floatRow.nBoundaryFaces = 2 from rfl]
        rw [Finset.sum_eq_zero (fun f hf => by simp [e0 f (mem_range.1 hf)]), Finset.sum_eq_zero (fun f hf => by simp [e1 f (mem_range.1 hf)])]
        omega)
    (fvSchemes := forwardDict) ⟨_, rfl, rfl⟩ (1 + |BinFloat.val 53 third|) 0 (3 * ((1 + 1 / 2 ^ 53) ^ (2 + 11) - 1)) (by linarith) le_rfl rfl
    (by
      have hbc : ∀ b < floatRow.nBoundaryFaces, b = 1 ∨ b = 0 := fun b hb => (hb2 b hb).symm
      have hout : Decides (floatRowBCs.map (·.map (BinFloat.val 53))) 1 .extrapolated :=
        ⟨[⟨⟨0, 0, 1⟩, .fixedValue (BinFloat.val 53 third)⟩], ⟨⟨1, 1, 2⟩, .extrapolated⟩, [], rfl, rfl, trivial, ⟨le_rfl, Nat.lt_succ_self 1⟩, by simp⟩
      constructor
      · intro b hb hp
        rcases hbc b hb with rfl | rfl
        · exact ⟨.extrapolated, hout, trivial⟩
        · exact absurd hp (by rw [hflx]; show ¬ (0 : ℚ) < -1; norm_num)
      · intro b hb
        rcases hbc b hb with rfl | rfl
        · exact ⟨.extrapolated, hout, .inl trivial⟩
        · refine ⟨.fixedValue (BinFloat.val 53 third), ⟨[], ⟨⟨0, 0, 1⟩, .fixedValue (BinFloat.val 53 third)⟩, [⟨⟨1, 1, 2⟩, .extrapolated⟩], rfl, rfl, trivial, ⟨le_rfl, Nat.zero_lt_one⟩, ?_⟩, .inr ⟨_, rfl, ?_⟩⟩
          · simp [Patch.Has]
          · constructor <;> linarith)
    ⟨floatRowStart, none⟩ ⟨rfl, rfl, rfl, rfl, rfl⟩ rfl
    (by
      constructor
      · intro c hc
        rcases hcases c hc with rfl | rfl | rfl
        · show -(1 + _) ≤ BinFloat.val 53 third ∧ BinFloat.val 53 third ≤ _; constructor <;> linarith
        · show -(1 + _) ≤ BinFloat.val 53 1 ∧ BinFloat.val 53 1 ≤ _; rw [h1]; constructor <;> linarith
        · show -(1 + _) ≤ BinFloat.val 53 third ∧ BinFloat.val 53 third ≤ _; constructor <;> linarith
      · intro b hb
        rcases hb2 b hb with rfl | rfl <;>
          (show -(1 + _) ≤ BinFloat.val 53 third ∧ BinFloat.val 53 third ≤ _; constructor <;> linarith)
      · intro b hb hp
        rcases hb2 b hb with rfl | rfl
        · exact absurd hp (by rw [hflx]; show ¬ (0 : ℚ) < -1; norm_num)
        · rfl)
    0 (fun _ => halfBin) (fun _ => by rw [hh]; norm_num)
    (by
      intro _ c hc
      rw [hvE c hc, hh]
      rcases hcases c hc with rfl | rfl | rfl <;>
        simp [Mesh.absFlux, Mesh.exact, floatRow, row3, topoMesh, Mesh.own, Mesh.nbr, Mesh.fc, ix, Finset.sum_range_succ, h1, hm1, BoundaryMesh.exact] <;> norm_num)
    (by
      intro _ c hc
      rw [hvE c hc, hh]
      rcases hcases c hc with rfl | rfl | rfl <;>
        simp [Mesh.netOutflow, Mesh.exact, floatRow, row3, topoMesh, Mesh.own, Mesh.nbr, Mesh.fc, ix, Finset.sum_range_succ, h1, hm1, BoundaryMesh.exact])
    .serial ⟨[], [], [], [], []⟩ (fun _ => 0) [] [] eqnE opsE hE
  exact ⟨U, (hU e ⟨[], [], [], [], []⟩ (fun _ => 0) [] [] eqn ops hF n).mono fun s hs => (hs 1 (by decide)).2⟩

end NeoFOAM
