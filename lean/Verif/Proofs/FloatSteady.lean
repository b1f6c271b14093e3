import Verif.Spec.FloatSteady
import Verif.Proofs.FloatImplicit
import Verif.Proofs.SteadyDiff

/-!
# Steady transport with diffusion, solved up to a residual
-/
namespace NeoFOAM
open Finset

section exactSide
variable {K : Type} [Field K] [LinearOrder K] [IsStrictOrderedRing K]

omit [IsStrictOrderedRing K] in
theorem outFlux0_eq (φ : VolField K K) (m : Mesh K) (flux δ gamma x : Nat → K) : φ.outFlux0 m flux δ gamma x = φ.homog.outFlux m flux δ gamma x := by
  funext f
  simp only [VolField.outFlux0, VolField.outFlux, VolField.homog, VolField.entry, List.getD_nil]
  split
  · rfl
  · ring

/-- A cell with the value zero among cells that are not negative loses nothing. -/
theorem outflow_at_zero {m : Mesh K} (h : m.WF) {flux δ gamma : Nat → K} {M : K} {φ : VolField K K} (hs : TameData m flux δ gamma M φ) (y : Nat → K) (c : Nat)
    (h0 : y c = 0) (hy : ∀ c' < m.nCells, 0 ≤ y c') : m.netOutflow (φ.homog.outFlux m flux δ gamma y) c ≤ 0 := by
  have h1 := outflow_ge h hs.homog (fun c => -1 * y c) c (fun c' hc' => by simp only [h0]; have := hy c' hc'; linarith) (by simp [h0])
  rw [homog_smul, h0] at h1
  linarith

/-- Comparison with a barrier: where nothing enters on balance, the field is not negative. -/
theorem barrier_nonneg {m : Mesh K} (h : m.WF) (hv : ∀ c < m.nCells, 0 < m.vol c) {flux δ gamma : Nat → K} {M W : K} {φ : VolField K K}
    (hs : TameData m flux δ gamma M φ) {w : Nat → K} (hw : Barrier m flux δ gamma φ W w) (z : Nat → K)
    (hz : ∀ c < m.nCells, 0 ≤ m.netOutflow (φ.homog.outFlux m flux δ gamma z) c) : ∀ c < m.nCells, 0 ≤ z c := by
  intro c0 hc0
  obtain ⟨c, hc, hmin⟩ := Finset.exists_min_image (range m.nCells) (fun c => z c / w c) ⟨c0, mem_range.2 hc0⟩
  rw [mem_range] at hc
  by_contra hlt
  rw [not_le] at hlt
  have hr : z c / w c < 0 := lt_of_le_of_lt (hmin c0 (mem_range.2 hc0)) (div_neg_of_neg_of_pos hlt (hw.pos c0 hc0))
  have hwc := hw.pos c hc
  have h1 := outflow_at_zero h hs (fun c' => z c' + -(z c / w c) * w c') c (by field_simp; ring) (fun c' hc' => by
    have := hmin c' (mem_range.2 hc')
    rw [le_div_iff₀ (hw.pos c' hc')] at this
    linarith)
  rw [homog_add, homog_smul] at h1
  have h2 := hz c hc
  have h3 := hw.out c hc
  rw [outFlux0_eq] at h3
  have h4 := hv c hc
  nlinarith

/-- A field that balances up to `ρ` per volume is at most `ρ` times the barrier. -/
theorem barrier_abs {m : Mesh K} (h : m.WF) (hv : ∀ c < m.nCells, 0 < m.vol c) {flux δ gamma : Nat → K} {M W : K} {φ : VolField K K}
    (hs : TameData m flux δ gamma M φ) {w : Nat → K} (hw : Barrier m flux δ gamma φ W w) {ρ : K} (hρ : 0 ≤ ρ) (z : Nat → K)
    (hz : ∀ c < m.nCells, |m.netOutflow (φ.homog.outFlux m flux δ gamma z) c| ≤ ρ * m.vol c) : ∀ c < m.nCells, |z c| ≤ W * ρ := by
  have key : ∀ s : K, (s = 1 ∨ s = -1) → ∀ c < m.nCells, 0 ≤ ρ * w c + s * z c := by
    intro s hs1
    refine barrier_nonneg h hv hs hw (fun c => ρ * w c + s * z c) fun c hc => ?_
    rw [homog_add (x := fun c => ρ * w c) (y := fun c => s * z c), homog_smul, homog_smul]
    have h3 := hw.out c hc
    rw [outFlux0_eq] at h3
    have h4 := abs_le.1 (hz c hc)
    have h5 := mul_le_mul_of_nonneg_left h3 hρ
    rcases hs1 with rfl | rfl <;> linarith [h4.1, h4.2]
  intro c hc
  have h1 := key 1 (.inl rfl) c hc
  have h2 := key (-1) (.inr rfl) c hc
  have h3 := mul_le_mul_of_nonneg_left (hw.le c hc) hρ
  rw [abs_le]
  constructor <;> linarith

/-- There is a balanced field. -/
theorem balanced_exists {m : Mesh K} (h : m.WF) (hv : ∀ c < m.nCells, 0 < m.vol c) {flux δ gamma : Nat → K} {M W : K} {φ : VolField K K}
    (hs : TameData m flux δ gamma M φ) {w : Nat → K} (hw : Barrier m flux δ gamma φ W w) : ∃ x : Nat → K, Balanced m flux δ gamma φ x := by
  set n := m.nCells with hn
  let ext : (Fin n → K) → Nat → K := fun v j => if hj : j < n then v ⟨j, hj⟩ else 0
  have ext_at : ∀ (v : Fin n → K) (i : Fin n), ext v i = v i := fun v i => by simp [ext]
  let T : (Fin n → K) →ₗ[K] (Fin n → K) :=
    { toFun := fun v i => m.netOutflow (φ.homog.outFlux m flux δ gamma (ext v)) i
      map_add' := fun v w => by
        funext i
        simp only [Pi.add_apply]
        have e : ext (v + w) = fun c => ext v c + ext w c := by
          funext j
          simp only [ext]
          split <;> simp
        rw [e, homog_add]
      map_smul' := fun a v => by
        funext i
        simp only [RingHom.id_apply, Pi.smul_apply, smul_eq_mul]
        have e : ext (a • v) = fun c => a * ext v c := by
          funext j
          simp only [ext]
          split <;> simp
        rw [e, homog_smul] }
  have hinj : Function.Injective T := by
    rw [← LinearMap.ker_eq_bot, LinearMap.ker_eq_bot']
    intro v hv0
    funext i
    have := barrier_abs h hv hs hw le_rfl (ext v) (fun c hc => by
      have := congrFun hv0 ⟨c, hc⟩
      change m.netOutflow (φ.homog.outFlux m flux δ gamma (ext v)) c = 0 at this
      rw [this, abs_zero, zero_mul]) i i.2
    rw [ext_at, mul_zero] at this
    simpa using abs_nonpos_iff.1 this
  obtain ⟨v, hv'⟩ := LinearMap.surjective_of_injective hinj fun i => - m.netOutflow (φ.outFlux m flux δ gamma fun _ => 0) i
  refine ⟨ext v, fun c hc => ?_⟩
  have h1 : m.netOutflow (φ.homog.outFlux m flux δ gamma (ext v)) c = - m.netOutflow (φ.outFlux m flux δ gamma fun _ => 0) c := congrFun hv' ⟨c, hc⟩
  have h2 := homog_outFlux φ m flux δ gamma (ext v) (fun _ => 0)
  simp only [sub_zero] at h2
  rw [h2, netOutflow_add, netOutflow_smul, smul_eq_mul] at h1
  linarith

/-- The distance of a field that balances up to `ρ` per volume to a balanced one. -/
theorem balanced_near {m : Mesh K} (h : m.WF) (hv : ∀ c < m.nCells, 0 < m.vol c) {flux δ gamma : Nat → K} {M W : K} {φ : VolField K K}
    (hs : TameData m flux δ gamma M φ) {w : Nat → K} (hw : Barrier m flux δ gamma φ W w) {ρ : K} (hρ : 0 ≤ ρ) (x y : Nat → K) (hx : Balanced m flux δ gamma φ x)
    (hy : ∀ c < m.nCells, |m.netOutflow (φ.outFlux m flux δ gamma y) c| ≤ ρ * m.vol c) : ∀ c < m.nCells, |y c - x c| ≤ W * ρ := by
  refine barrier_abs h hv hs hw hρ (fun c => y c - x c) fun c hc => ?_
  rw [homog_outFlux, netOutflow_add, netOutflow_smul, hx c hc, smul_zero, add_zero]
  exact hy c hc

end exactSide

section floatSide
variable {F K : Type} [Add F] [Sub F] [Mul F] [Div F] [Neg F] [Zero F] [One F] [LinearOrder F] [Field K] [LinearOrder K] [IsStrictOrderedRing K]
variable {val : F → K} {u : K} {m : Mesh F} {sp : SparsityPattern}

/-- **C84, explicit terms**: subtracting the values of the explicit terms from the right hand side of a steady equation rounds twice per cell. -/
theorem C84_explicit (hF : FloatArith F val u) (h : m.WF) {src : List F} (hs : src.length = m.nCells) {A : LinearSystem F} {E : LinearSystem K} {n : Slot → Nat} {S : Slot → K}
    {k : Nat → Nat} {T : Nat → K} (hA : SysNear val u m sp A E n S k T) (hk : ∀ c, 1 ≤ k c) (e : ExecKind) :
    ∃ E' : LinearSystem K, (∀ out, subtractSource e (m.exact val) (src.map val) E out ↔ out = .ok E') ∧
      (subtractSource e m src A).Ok (fun A' => SysNear val u m sp A' E' n S (fun c => k c + 1) (fun c => T c + |val (ix src c)| * |val (m.vol c)|)) := by
  have hz := hF.zero
  obtain ⟨E', hE', hdet⟩ := subtractSource_det (sp := sp) (exact_wf (val := val) h) e (src := src.map val) ((List.length_map val).trans hs) E
    ⟨hA.onE.cols, hA.onE.rowsEq, hA.onE.vals, hA.onE.rhsLen⟩
  refine ⟨E', hdet, ?_⟩
  have hd := elemKernel_det e 0 A.rhs.length (fun i => do
    let s ← rd src i
    let v ← rd m.cellVolumes i
    return fun x => x - s * v) (fun i x => x - ix src i * m.vol i) A.rhs le_rfl (by
      intro i _ hi
      rw [hA.onA.rhsLen] at hi
      have h1 : rd src i = .ok (ix src i) := rd_getD 0 (by omega)
      have h2 : rd m.cellVolumes i = .ok (m.vol i) := rd_getD 0 (by rw [h.volLen]; exact hi)
      simp [h1, h2])
  intro out hout
  rw [show subtractSource e m src A out ↔ _ from NR.bind_iff hd out] at hout
  cases hout
  refine ⟨_, rfl, ⟨hA.onA.cols, hA.onA.rowsEq, hA.onA.vals, by simpa using hA.onA.rhsLen⟩, ⟨hE'.on.cols, hE'.on.rowsEq, hE'.on.vals, hE'.on.rhsLen⟩, fun s hs => ?_,
    fun s hs => ?_, fun c hc => ?_, fun c hc => ?_⟩
  · have := hE'.coef s (by rw [exact_valid]; exact hs)
    rw [exact_addr, add_zero] at this
    rw [this]
    exact hA.coef s hs
  · have := hE'.coef s (by rw [exact_valid]; exact hs)
    rw [exact_addr, add_zero] at this
    rw [this]
    exact hA.size s hs
  all_goals
    have hc' : c < A.rhs.length := by rw [hA.onA.rhsLen]; exact hc
    have e1 : ix E'.rhs c = ix E.rhs c - val (ix src c) * val (m.vol c) := by
      have := hE'.rhs c hc
      rw [ix_val hz, hF.vol] at this
      rw [show ix E'.rhs c = E'.rhs.getD c 0 from rfl, this]
      exact (sub_eq_add_neg _ _).symm
    have e2 : ∀ x : List F, x = (A.rhs.mapIdx fun i x => if 0 ≤ i ∧ i < A.rhs.length then x - ix src i * m.vol i else x) →
        ix x c = ix A.rhs c - ix src c * m.vol c := by
      rintro _ rfl
      simp [ix, List.getD, hc']
    have key : Approx u (k c + 1) (val (ix A.rhs c - ix src c * m.vol c)) (ix E.rhs c - val (ix src c) * val (m.vol c)) (T c + |val (ix src c)| * |val (m.vol c)|) :=
      hF.approx_sub (n := k c) ⟨hA.rhs c hc, hA.rhsSize c hc⟩ (hF.approx_mul (hF.approx 0 (ix src c)) (hF.approx 0 (m.vol c))) le_rfl (by have := hk c; omega)
    rw [e1]
  · rw [e2 _ rfl]
    exact key.1
  · exact key.2

/-- The handles and operators of the composed expression. -/
theorem steady_heap (e : ExecKind) (m : Mesh F) (sp : SparsityPattern) (sch : InterpScheme) (w : List F) (junk : Nat → F) (flux δ gamma : List F) (st : TimeState F F) :
    ∃ o, steadyTree.build (steadyOps e m sp sch w junk flux δ gamma st) = .ok (⟨[], [4, 7]⟩, o) ∧
      rd o 4 = .ok (divOp e m sp (some sch) w junk flux st.sol .implicit Coeff.default) ∧
      rd o 7 = .ok (laplacianOp e m sp true δ junk gamma st.sol .implicit (Coeff.default.mulScalar (-1))) := ⟨_, rfl, rfl, rfl⟩

/-- What a steady call does with the expression. -/
theorem steady_solveF (e : ExecKind) {m : Mesh F} {sp : SparsityPattern} (hu : ∀ out, sparsityUpdate e m out ↔ out = .ok sp) {A0 : LinearSystem F}
    (hA0 : createEmptyLinearSystem sp = .ok A0)
    (sch : InterpScheme) (w : List F) (junk : Nat → F) (flux δ gamma : List F)
    (eqn : Expr) (ops : OpsOf F F) (hbuild : ∀ st, steadyTree.build (steadyOps e m sp sch w junk flux δ gamma st) = .ok (eqn, ops st))
    (bcs : List (VolumeBoundary F)) (table : SolverTable F) (fvSchemes fvSolution : Dict)
    (solver : LinSolver F) (hs : createSolver table fvSolution = .ok solver) (st : TimeState F F) (t dt : F) (out) :
    dslSolve e m bcs table fvSchemes fvSolution ops eqn st t dt out ↔
      (((computeDivImp e m sp flux st.sol Coeff.default A0 >>= fun A1 =>
        computeLaplacianImpl e m sp δ gamma st.sol (Coeff.default.mulScalar (-1)) A1 >>= fun A2 =>
        subtractSource e m (List.replicate m.nCells 0) A2) >>= fun A3 =>
        solver A3 st.sol.internal >>= fun x => pure { st with sol := { st.sol with internal := x } }) : NR (TimeState F F)) out := by
  obtain ⟨o, hb, h4, h7⟩ := steady_heap e m sp sch w junk flux δ gamma st
  have he : eqn = ⟨[], [4, 7]⟩ ∧ ops st = o := by
    have := (hbuild st).symm.trans hb
    injection this with this
    exact Prod.mk.inj this
  obtain ⟨rfl, ho⟩ := he
  have d1 : HM.derefs [4, 7] o = .ok [divOp e m sp (some sch) w junk flux st.sol .implicit Coeff.default,
      laplacianOp e m sp true δ junk gamma st.sol .implicit (Coeff.default.mulScalar (-1))] := by
    simp [HM.derefs, h4, h7]
  have x1 : (⟨[], [4, 7]⟩ : Expr).explicitOperationN o m.nCells = (pure (List.replicate m.nCells 0) : NR (List F)) := by
    unfold Expr.explicitOperationN Expr.explicitOperation
    refine (NR.bind_eq (fun r => by rw [d1]; exact Iff.rfl)).trans ?_
    change ((pure _ : NR (List F)) >>= fun s => ((pure s : NR (List F)) >>= fun s => pure s)) = _
    rw [NR.pure_bind', NR.bind_pure']
  have x2 : ∀ A, (⟨[], [4, 7]⟩ : Expr).implicitOperation o A = (computeDivImp e m sp flux st.sol Coeff.default A >>= fun A1 =>
      computeLaplacianImpl e m sp δ gamma st.sol (Coeff.default.mulScalar (-1)) A1 : NR (LinearSystem F)) := by
    intro A
    unfold Expr.implicitOperation
    refine (NR.bind_eq (fun r => by rw [d1]; exact Iff.rfl)).trans ?_
    change (computeDivImp e m sp flux st.sol Coeff.default A >>= fun s => (computeLaplacianImpl e m sp δ gamma st.sol (Coeff.default.mulScalar (-1)) s >>= fun s => pure s)) = _
    simp only [NR.bind_pure']
  have x4 : steadySystem e m o ⟨[], [4, 7]⟩ = (computeDivImp e m sp flux st.sol Coeff.default A0 >>= fun A1 =>
      computeLaplacianImpl e m sp δ gamma st.sol (Coeff.default.mulScalar (-1)) A1 >>= fun A2 => subtractSource e m (List.replicate m.nCells 0) A2 : NR (LinearSystem F)) := by
    unfold steadySystem
    rw [NR.bind_eq hu, NR.bind_eq (a := A0) (fun r => by rw [hA0]; exact Iff.rfl)]
    simp only [x1, x2, NR.pure_bind', NR.bind_assoc']
  unfold dslSolve
  rw [if_neg (by simp), if_neg (by simp)]
  unfold solveSteady
  rw [ho, x4]
  simp only [hs, NR.lift_bind']

/-- The computed system of a steady equation stands for one that is exact but for the factor of the Laplacian. -/
theorem steady_near (hF : FloatArith F val u) (h : m.WF) (hp : sp.For m) (e : ExecKind) (he : e = .serial ∨ m.BndDistinct)
    {flux δ gamma : List F} (hfl : flux.length = m.nFaces) (hδ : δ.length = m.nFaces) (hg : gamma.length = m.nFaces)
    {φ : VolField F F} (hφ : φ.On m) {A0 : LinearSystem F} (hA0 : createEmptyLinearSystem sp = .ok A0) :
    ∃ E : LinearSystem K,
      (∀ y, ∀ c < m.nCells, E.residual y c = (m.exact val).netOutflow (fun f => ix (flux.map val) f * (φ.exact val).impFace (m.exact val) (ix (flux.map val)) y f) c
        + val (1 * -1) * (m.exact val).netOutflow (fun f => ix (gamma.map val) f * ix (m.exact val).magFaceAreas f * (φ.exact val).impGrad (m.exact val) (ix (δ.map val)) y f) c) ∧
      (computeDivImp e m sp flux φ Coeff.default A0 >>= fun A1 => computeLaplacianImpl e m sp δ gamma φ (Coeff.default.mulScalar (-1)) A1 >>= fun A2 =>
        subtractSource e m (List.replicate m.nCells 0) A2 : NR (LinearSystem F)).Ok (fun A => SysNear val u m sp A E
          (fun s => 7 + m.roundings s + m.roundings s) (stepSize (m.exact val) (ix (flux.map val)) (ix (δ.map val)) (ix (gamma.map val)) (φ.exact val) (val (1 * -1)) 0)
          (fun c => 7 + m.faceCount c + m.faceCount c + 1)
          (stepRhsSize (m.exact val) (ix (flux.map val)) (ix (δ.map val)) (ix (gamma.map val)) (φ.exact val) (val (1 * -1)) 0 (fun _ => 0))) := by
  have hz := hF.zero
  have hw := exact_wf (val := val) h
  have hq := exact_for (val := val) hp
  obtain ⟨E0, hE0, on0, r0⟩ := empty_on (K := K) hw hq
  have n0 := C84_empty (m := m) (u := u) hF.zero hF.roundoff hp hA0 hE0 7
  have hdef : ((Coeff.default : Coeff F).exact val).On m.nCells (fun _ => (1 : K)) := fun c hc => congrArg Res.ok hF.one
  have hneg : (((Coeff.default : Coeff F).mulScalar (-1)).exact val).On m.nCells (fun _ => val (1 * -1)) := fun c hc => rfl
  obtain ⟨E1, d1, k1⟩ := C84_div hF h hp hφ hfl hdef n0 (fun _ => le_rfl) (fun _ => le_rfl) e he
  obtain ⟨E1', a1, d1'⟩ := Assembles.det hq (computeDivImp_ok hw hq (exact_on (val := val) hφ) (flux := flux.map val) ((List.length_map val).trans hfl) hdef e he E0 on0)
    (computeDivImp_runs _ _ _ _ _ _ _)
  obtain rfl : E1' = E1 := Res.ok.inj ((d1 _).1 ((d1' _).2 rfl))
  obtain ⟨E2', a2, d2'⟩ := Assembles.det hq (computeLaplacianImpl_ok hw hq (exact_on (val := val) hφ) (δ := δ.map val) (gamma := gamma.map val) ((List.length_map val).trans hδ)
    ((List.length_map val).trans hg) hneg e he E1' a1.on) (computeLaplacianImpl_runs _ _ _ _ _ _ _ _)
  obtain ⟨E3', a3, d3'⟩ := subtractSource_det (sp := sp) hw e (src := (List.replicate m.nCells (0 : F)).map val) (by simp; rfl) E2' a2.on
  have hzero : ∀ c, ix ((List.replicate m.nCells (0 : F)).map val) c = 0 := by
    intro c
    rw [List.map_replicate, hz]
    simp [ix]
  refine ⟨E3', fun y c hc => ?_, ?_⟩
  · rw [a3.implicit hw hq a2.on y hc, a2.implicit hw hq a1.on y hc, a1.implicit hw hq on0 y hc, r0]
    have e4 := divResidual (m.exact val) (φ.exact val) (flux.map val) (fun _ => 1) y c
    have e5 := lapResidual (m.exact val) (φ.exact val) (δ.map val) (gamma.map val) (fun _ => val (1 * -1)) y c
    rw [one_mul] at e4
    change implicitResidual _ _ _ _ _ = _ at e4 e5
    rw [e4, e5]
    have e6 : implicitResidual (m.exact val) (fun _ => 0) (fun i => -(ix ((List.replicate m.nCells (0 : F)).map val) i * (m.exact val).vol i)) y c = 0 := by
      simp only [hzero]
      simp [implicitResidual]
    rw [e6]
    ring
  · refine k1.bind fun A1 n1 => ?_
    obtain ⟨E2, d2, k2⟩ := C84_laplacian hF h hp hφ hδ hg hneg n1 (fun _ => by omega) (fun _ => by omega) e he
    obtain rfl : E2' = E2 := Res.ok.inj ((d2 _).1 ((d2' _).2 rfl))
    refine k2.bind fun A2 n2 => ?_
    obtain ⟨E3, d3, k3⟩ := C84_explicit hF h (src := List.replicate m.nCells (0 : F)) (by simp) n2 (fun _ => by omega) e
    obtain rfl : E3' = E3 := Res.ok.inj ((d3 _).1 ((d3' _).2 rfl))
    refine k3.mono fun A3 n3 => n3.mono hF.roundoff (fun _ _ => le_rfl) (fun s _ => ?_) (fun _ _ => le_rfl) (fun c _ => ?_)
    · have : diagSize (fun c => |(1 : K)| * |(m.exact val).vol c| / |(0 : K)|) s = 0 := by cases s <;> simp [diagSize]
      unfold stepSize
      rw [this, add_zero]
      exact le_rfl
    · have : val (ix (List.replicate m.nCells (0 : F)) c) = 0 := by
        rw [← ix_val hz]
        exact hzero c
      unfold stepRhsSize
      rw [this]
      simp
      exact le_rfl

/-- The residuals of a steady system that was assembled in floating point are near those of the exact equations. -/
theorem steady_assembled (hF : FloatArith F val u) (h : m.WF) (hp : sp.For m) (e : ExecKind) (he : e = .serial ∨ m.BndDistinct)
    {flux δ gamma : List F} (hfl : flux.length = m.nFaces) (hδ : δ.length = m.nFaces) (hg : gamma.length = m.nFaces) {φ : VolField F F} (ho : φ.On m) {M : K}
    (hdata : TameData (m.exact val) (ix (flux.map val)) (ix (δ.map val)) (ix (gamma.map val)) M (φ.exact val))
    {N : Nat} (hN : ∀ c < m.nCells, 9 + 2 * m.faceCount c ≤ N) {κ : K}
    (hκ : ∀ c < m.nCells, ((1 + u) ^ N - 1) * (m.exact val).exchange (ix (flux.map val)) (ix (δ.map val)) (ix (gamma.map val)) c ≤ κ * (m.exact val).vol c)
    {A0 : LinearSystem F} (hA0 : createEmptyLinearSystem sp = .ok A0) :
    (computeDivImp e m sp flux φ Coeff.default A0 >>= fun A1 => computeLaplacianImpl e m sp δ gamma φ (Coeff.default.mulScalar (-1)) A1 >>= fun A2 =>
        subtractSource e m (List.replicate m.nCells 0) A2 : NR (LinearSystem F)).Ok fun A => A.On sp m ∧
      ∀ B, M ≤ B → ∀ y : Nat → K, (∀ c < m.nCells, |y c| ≤ B) → ∀ c < m.nCells,
        |(A.exact val).residual y c - (m.exact val).netOutflow ((φ.exact val).outFlux (m.exact val) (ix (flux.map val)) (ix (δ.map val)) (ix (gamma.map val)) y) c|
          ≤ κ * B * (m.exact val).vol c := by
  have hw := exact_wf (val := val) h
  have hz := hF.zero
  obtain ⟨E, hE, hok⟩ := steady_near hF h hp e he hfl hδ hg ho hA0
  refine hok.mono fun A hA => ⟨hA.onA, fun B hMB y hnew c hc => ?_⟩
  have hB : 0 ≤ B := (abs_nonneg _).trans (hnew c hc)
  obtain ⟨N, rfl⟩ : ∃ N', N = N' + 1 := ⟨N - 1, by have := hN c hc; omega⟩
  have hfc := hN c hc
  have r2 := hA.residual hz hF.roundoff h hp (N := N) c hc (fun s hs hr => by have := roundings_le hs; rw [hr] at this; omega) (by omega) y hnew
  have hvm : |val ((1 : F) * -1) + 1| ≤ u := by
    have := hF.mul 1 (-1)
    rw [hF.neg, hF.one, one_mul, abs_neg, abs_one, mul_one] at this
    simpa using this
  have hv1 : |val ((1 : F) * -1)| ≤ 1 + u := by
    have := abs_sub (val ((1 : F) * -1) + 1) 1
    rw [add_sub_cancel_right, abs_one] at this
    linarith
  have r3 := step_sizes hdata (v := val ((1 : F) * -1)) (w := 1 + u) (dt := 0) (B := B) hv1 (by linarith [hF.roundoff]) hB hMB (fun _ => 0) c (by simpa using hB)
  have r4 := diffusion_size hw hdata hB hMB y hnew c
  rw [hE _ c hc] at r2
  rw [abs_zero, div_zero, mul_zero, zero_add] at r3
  have e6 : (φ.exact val).outFlux (m.exact val) (ix (flux.map val)) (ix (δ.map val)) (ix (gamma.map val)) y
      = fun f => ix (flux.map val) f * (φ.exact val).impFace (m.exact val) (ix (flux.map val)) y f
        + (-1 : K) • (ix (gamma.map val) f * ix (m.exact val).magFaceAreas f * (φ.exact val).impGrad (m.exact val) (ix (δ.map val)) y f) :=
    funext (outFlux_eq _ _ _ _ _ _)
  rw [e6, netOutflow_add, netOutflow_smul, smul_eq_mul]
  have hks := hκ c hc
  have erow : rowSize (m.exact val) (stepSize (m.exact val) (ix (flux.map val)) (ix (δ.map val)) (ix (gamma.map val)) (φ.exact val) (val ((1 : F) * -1)) 0) c
    = rowSize m (stepSize (m.exact val) (ix (flux.map val)) (ix (δ.map val)) (ix (gamma.map val)) (φ.exact val) (val ((1 : F) * -1)) 0) c := rfl
  rw [erow] at r3
  generalize rowSize m _ c * B + stepRhsSize _ _ _ _ _ _ _ _ c = W at r2 r3
  generalize (A.exact val).residual y c = ra at r2
  generalize (m.exact val).netOutflow (fun f => ix (flux.map val) f * (φ.exact val).impFace (m.exact val) (ix (flux.map val)) y f) c = fd at *
  generalize (m.exact val).netOutflow (fun f => ix (gamma.map val) f * ix (m.exact val).magFaceAreas f * (φ.exact val).impGrad (m.exact val) (ix (δ.map val)) y f) c = fl at *
  generalize (m.exact val).exchange (ix (flux.map val)) (ix (δ.map val)) (ix (gamma.map val)) c = ex at *
  generalize val ((1 : F) * -1) = v at *
  have hg : 0 ≤ (1 + u) ^ N - 1 := by
    have := one_le_pow₀ (n := N) (by linarith [hF.roundoff] : (1 : K) ≤ 1 + u)
    linarith
  have s1 : |(v + 1) * fl| ≤ u * (B * ex) := by
    rw [abs_mul]
    exact mul_le_mul hvm r4 (abs_nonneg _) hF.roundoff
  have s2 : |ra - (fd + -1 * fl)| ≤ ((1 + u) ^ N - 1) * W + u * (B * ex) := by
    have e : ra - (fd + -1 * fl) = (ra - (fd + v * fl)) + (v + 1) * fl := by ring
    rw [e]
    refine (abs_add_le _ _).trans (add_le_add r2 s1)
  have s3 : ((1 + u) ^ N - 1) * W ≤ ((1 + u) ^ N - 1) * ((1 + u) * (B * ex)) := mul_le_mul_of_nonneg_left r3 hg
  have s5 := mul_le_mul_of_nonneg_left hks hB
  have e7 : ((1 + u) ^ N - 1) * ((1 + u) * (B * ex)) + u * (B * ex) = B * (((1 + u) ^ (N + 1) - 1) * ex) := by ring
  have e8 : B * (κ * (m.exact val).vol c) = κ * B * (m.exact val).vol c := by ring
  linarith

/-- A steady call in floating point may return any values that the solver may return for equations near the exact ones. -/
theorem steady_mayReturn (hF : FloatArith F val u) (h : m.WF) (hp : sp.For m) (e : ExecKind) (he : e = .serial ∨ m.BndDistinct)
    (hup : ∀ out, sparsityUpdate e m out ↔ out = .ok sp)
    (sch : InterpScheme) (w : List F) (junk : Nat → F) {flux δ gamma : List F} (hfl : flux.length = m.nFaces) (hδ : δ.length = m.nFaces) (hg : gamma.length = m.nFaces)
    (eqn : Expr) (ops : OpsOf F F) (hbuild : ∀ st, steadyTree.build (steadyOps e m sp sch w junk flux δ gamma st) = .ok (eqn, ops st))
    (bcs : List (VolumeBoundary F)) (table : SolverTable F) (fvSchemes fvSolution : Dict)
    (solver : LinSolver F) (hso : createSolver table fvSolution = .ok solver)
    (st : TimeState F F) (ho : st.sol.On m) {M : K}
    (hdata : TameData (m.exact val) (ix (flux.map val)) (ix (δ.map val)) (ix (gamma.map val)) M (st.sol.exact val)) (t dt : F)
    {N : Nat} (hN : ∀ c < m.nCells, 9 + 2 * m.faceCount c ≤ N) {κ : K}
    (hκ : ∀ c < m.nCells, ((1 + u) ^ N - 1) * (m.exact val).exchange (ix (flux.map val)) (ix (δ.map val)) (ix (gamma.map val)) c ≤ κ * (m.exact val).vol c)
    {B : K} (hMB : M ≤ B) (y : List F) (hy : ∀ c < m.nCells, |val (ix y c)| ≤ B)
    (hmay : ∀ A : LinearSystem F, A.On sp m → (∀ c < m.nCells,
        |(A.exact val).residual (ix (y.map val)) c
          - (m.exact val).netOutflow ((st.sol.exact val).outFlux (m.exact val) (ix (flux.map val)) (ix (δ.map val)) (ix (gamma.map val)) (ix (y.map val))) c|
          ≤ κ * B * (m.exact val).vol c) → solver A st.sol.internal (.ok y)) :
    dslSolve e m bcs table fvSchemes fvSolution ops eqn st t dt (.ok { st with sol := { st.sol with internal := y } }) := by
  have hz := hF.zero
  obtain ⟨A0, hA0⟩ := empty_exists (F := F) hp
  rw [steady_solveF e hup hA0 sch w junk flux δ gamma eqn ops hbuild bcs table fvSchemes fvSolution solver hso st t dt]
  have hok := steady_assembled hF h hp e he hfl hδ hg ho hdata hN hκ hA0
  have hruns : (computeDivImp e m sp flux st.sol Coeff.default A0 >>= fun A1 => computeLaplacianImpl e m sp δ gamma st.sol (Coeff.default.mulScalar (-1)) A1 >>= fun A2 =>
      subtractSource e m (List.replicate m.nCells 0) A2 : NR (LinearSystem F)).Runs := by
    refine NR.Runs.bind ?_ fun _ _ => NR.Runs.bind ?_ fun _ _ => ?_
    · exact NR.Runs.bind (launchLS_returns _ _ _ _ _) (fun _ _ => launchLS_returns _ _ _ _ _)
    · exact NR.Runs.bind (launchLS_returns _ _ _ _ _) (fun _ _ => launchLS_returns _ _ _ _ _)
    · refine NR.Runs.bind (elemKernel_runs _ _ _ _ _) (fun _ _ => NR.Runs.pure _)
  obtain ⟨r, hr⟩ := hruns
  obtain ⟨A, rfl, hAon, hA⟩ := hok _ hr
  refine (NR.bind_def _ _ _).2 ⟨_, hr, (NR.bind_def _ _ _).2 ⟨.ok y, hmay A hAon fun c hc => ?_, rfl⟩⟩
  have hcell : ∀ c, ix (y.map val) c = val (ix y c) := fun c => ix_val hz y c
  exact hA B hMB (ix (y.map val)) (fun c hc => by rw [hcell]; exact hy c hc) c hc

end floatSide
end NeoFOAM
