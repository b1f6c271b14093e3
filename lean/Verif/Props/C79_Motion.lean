import Verif.Spec.Motion
import Verif.Props.C78_Components

/-!
# C79 – results do not depend on where the mesh lies in space
-/
namespace NeoFOAM
variable {K : Type} [Field K]

theorem rd_map_eq {α β : Type} (g : α → β) (l : List α) (i : Nat) : rd (l.map g) i = (rd l i).bind fun x => .ok (g x) := by
  unfold rd
  rw [List.getElem?_map]
  cases l[i]? <;> rfl

theorem Res.bind_map {α β γ : Type} (x : Res α) (g : α → β) (k : β → Res γ) :
    ((x.bind fun a => .ok (g a)) >>= k) = x >>= fun a => k (g a) := by
  cases x <;> rfl

variable (μ : Motion K)

theorem Motion.pt_sub (a b : Vec K) : μ.pt a - μ.pt b = μ.rot (a - b) := by
  simp [Motion.pt]

theorem Motion.vmag_rot (sqrt : K → K) (a : Vec K) : vmag sqrt (μ.rot a) = vmag sqrt a := congrArg sqrt (μ.dot a a)

theorem cellToCell_move (m : Mesh K) (f : Nat) : cellToCell (m.move μ) f = (cellToCell m f).bind fun d => .ok (μ.rot d) := by
  unfold cellToCell
  simp only [Mesh.move, rd_map_eq, Res.bind_map, Motion.pt_sub]
  cases rd m.neighbour f with
  | ok nei =>
    simp only [Res.ok_bind]
    cases rd m.cellCentres nei with
    | ok cn =>
      simp only [Res.ok_bind]
      cases rd m.owner f with
      | ok own =>
        simp only [Res.ok_bind]
        cases rd m.cellCentres own <;> rfl
      | _ => rfl
    | _ => rfl
  | _ => rfl

theorem cellToFace_move (m : Mesh K) (f : Nat) : cellToFace (m.move μ) f = (cellToFace m f).bind fun d => .ok (μ.rot d) := by
  unfold cellToFace
  simp only [Mesh.move, BoundaryMesh.move, rd_map_eq, Res.bind_map, Motion.pt_sub]
  cases rd m.bnd.faceCells (f - m.nInternalFaces) with
  | ok own =>
    simp only [Res.ok_bind]
    cases rd m.faceCentres f with
    | ok cn =>
      simp only [Res.ok_bind]
      cases rd m.cellCentres own <;> rfl
    | _ => rfl
  | _ => rfl

section
variable [LinearOrder K]

theorem weightsBody_move (m : Mesh K) (tiny : K) (f : Nat) : weightsBody (m.move μ) tiny f = weightsBody m tiny f := by
  unfold weightsBody
  simp only [Mesh.move, rd_map_eq, Res.bind_map, Motion.pt_sub, μ.dot]

theorem deltaBody_move (sqrt : K → K) {d d' : Nat → Res (Vec K)} (h : ∀ f, d' f = (d f).bind fun x => .ok (μ.rot x)) (f : Nat) :
    deltaBody sqrt d' f = deltaBody sqrt d f := by
  unfold deltaBody
  rw [h, Res.bind_map]
  simp only [Motion.vmag_rot]

theorem nonOrthBody_move (m : Mesh K) (sqrt : K → K) {d d' : Nat → Res (Vec K)} (h : ∀ f, d' f = (d f).bind fun x => .ok (μ.rot x)) (f : Nat) :
    nonOrthBody (m.move μ) sqrt d' f = nonOrthBody m sqrt d f := by
  unfold nonOrthBody
  rw [h, Res.bind_map]
  simp only [Mesh.move, rd_map_eq, Res.bind_map, Motion.vmag_rot, ← map_smul, μ.dot]

/-- **C79.** The interpolation weights, the delta coefficients and the non-orthogonal delta coefficients of the moved mesh are those of the
mesh. -/
theorem C79_geometry (e : ExecKind) (m : Mesh K) (tiny : K) (sqrt : K → K) (junk : Nat → K) :
    geometryScheme e (m.move μ) tiny sqrt junk = geometryScheme e m tiny sqrt junk := by
  have h1 : weightsBody (m.move μ) tiny = weightsBody m tiny := funext (weightsBody_move μ m tiny)
  have h2 : deltaBody sqrt (cellToCell (m.move μ)) = deltaBody sqrt (cellToCell m) := funext (deltaBody_move μ sqrt (cellToCell_move μ m))
  have h3 : deltaBody sqrt (cellToFace (m.move μ)) = deltaBody sqrt (cellToFace m) := funext (deltaBody_move μ sqrt (cellToFace_move μ m))
  have h4 : nonOrthBody (m.move μ) sqrt (cellToCell (m.move μ)) = nonOrthBody m sqrt (cellToCell m) :=
    funext (nonOrthBody_move μ m sqrt (cellToCell_move μ m))
  have h5 : nonOrthBody (m.move μ) sqrt (cellToFace (m.move μ)) = nonOrthBody m sqrt (cellToFace m) :=
    funext (nonOrthBody_move μ m sqrt (cellToFace_move μ m))
  unfold geometryScheme updateWeights updateDeltaCoeffs updateNonOrthDeltaCoeffs
  simp only [h1, h2, h3, h4, h5]
  rfl

omit [LinearOrder K] in
theorem correctBCs_move {V : Type} [AddCommGroup V] [Module K V] (e : ExecKind) (m : Mesh K) : ∀ (bcs : List (VolumeBoundary V)) (φ : VolField K V),
    correctBoundaryConditions e (m.move μ) bcs φ = correctBoundaryConditions e m bcs φ
  | [], _ => rfl
  | b :: bs, φ => by
    have h : b.correct e (m.move μ) φ = b.correct e m φ := by
      unfold VolumeBoundary.correct
      cases b.kind <;> rfl
    unfold correctBoundaryConditions
    rw [h]
    congr 1
    funext φ'
    exact correctBCs_move e m bs φ'

omit [LinearOrder K] in
theorem forwardEuler_move {V : Type} [AddCommGroup V] [Module K V] (e : ExecKind) (m : Mesh K) (bcs : List (VolumeBoundary V)) (ops : OpsOf K V) (eqn : Expr)
    (st : TimeState K V) (dt : K) : forwardEuler e (m.move μ) bcs ops eqn st dt = forwardEuler e m bcs ops eqn st dt := by
  unfold forwardEuler
  simp only [correctBCs_move]

/-- **C79.** Whatever program of this form is run for a scalar field on the moved mesh can end exactly as on the mesh, with the same values
in the same cells. -/
theorem C79_run (e : ExecKind) (m : Mesh K) (tiny : K) (sqrt : K → K) (junk : Nat → K) (sch : InterpScheme) (calls : List (Call K)) (tr : ExT K)
    (bcs : List (VolumeBoundary K)) (table : SolverTable K) (fvSchemes fvSolution : Dict) (t dt : Nat → K) (n : Nat) (st : TimeState K K) :
    wholeRun e (m.move μ) tiny sqrt junk sch calls tr bcs table fvSchemes fvSolution t dt n st
      = wholeRun e m tiny sqrt junk sch calls tr bcs table fvSchemes fvSolution t dt n st := by
  have hops : ∀ S : Setting K, callOps (S.move μ) calls = callOps S calls := fun S => by
    funext st
    unfold callOps
    refine List.map_congr_left fun c _ => ?_
    cases c <;> rfl
  unfold wholeRun
  rw [C79_geometry]
  congr 1
  funext g
  congr 1
  funext sp
  have h := hops ⟨e, m, sp, sch, g.weights, g.nonOrthDeltaCoeffs, junk⟩
  unfold Setting.move at h
  simp only [h]
  congr 1
  funext st k
  congr 1
  funext p
  unfold dslSolve timeIntegrate
  simp only [forwardEuler_move]
  rfl

/-- **C79.** So can the Courant numbers. -/
theorem C79_courant (e : ExecKind) (m : Mesh K) (sqrt : K → K) (lowest : K) (flux : List K) (dt : K) :
    computeCoNum e (m.move μ) sqrt lowest flux dt = computeCoNum e m sqrt lowest flux dt := rfl

end

theorem computeGrad_move (e : ExecKind) (m : Mesh K) (w : List K) (junk : Nat → K) (φ : VolField K K) {r r' : List (Vec K)}
    (hr : List.Forall₂ (Img μ.rot) r r') :
    NR.Rel (List.Forall₂ (Img μ.rot)) (computeGrad e m w junk φ r) (computeGrad e (m.move μ) w junk φ r') := by
  refine NR.Rel.bind (NR.Rel.refl (R := (· = ·)) (fun _ => rfl) _) ?_
  rintro phif _ rfl
  have hf : ∀ i, Res.Rel (Img μ.rot) (do let a ← rd m.faceAreas i; let b ← rd phif i; return b • a : Res (Vec K))
      (do let a ← rd (m.move μ).faceAreas i; let b ← rd phif i; return b • a : Res (Vec K)) := fun i => by
    refine Res.Rel.bind (rd_rel (img_list μ.rot m.faceAreas) i) ?_
    rintro a _ rfl
    same
    exact (map_smul μ.rot _ _).symm
  refine NR.Rel.bind (launch1_rel e _ _ (fun i _ _ => gaussInternal_rel (OpHom.ofLinear μ.rot) m hf i) hr) fun r1 r1' h1 => ?_
  refine NR.Rel.bind (launch1_rel e _ _ (fun i _ _ => gaussBoundary_rel (OpHom.ofLinear μ.rot) m hf i) h1) fun r2 r2' h2 => ?_
  refine elemKernel_rel e _ _ (fun i _ _ => ?_) h2
  unfold gradScaleBody
  same
  rintro x _ rfl
  simp [Img]

/-- **C79.** The gradient on the moved mesh is the rotated gradient. -/
theorem C79_gradient (e : ExecKind) (m : Mesh K) (w : List K) (junk : Nat → K) (junkV : Nat → Vec K) (φ : VolField K K) :
    NR.Seen (List.map μ.rot) (grad e m w junk junkV φ) (grad e (m.move μ) w junk (fun i => μ.rot (junkV i)) φ) := by
  refine NR.Rel.seenList (NR.Rel.bind (elemKernel_rel e _ _ (fun i _ _ => ?_) (junk_rel (OpHom.ofLinear μ.rot) junkV m.nCells)) fun g g' hg => ?_)
  · rintro x _ rfl
    simp [Img]
  · exact computeGrad_move μ e m w junk φ hg

section
variable [LinearOrder K]

theorem termOpsV_move {V : Type} [AddCommGroup V] [Module K V] (S : Setting K) (one : V) (junk : Nat → V) (ts : List (TermV K V)) :
    termOpsV (S.move μ) one junk ts = termOpsV S one junk ts := by
  funext st
  unfold termOpsV
  refine List.map_congr_left fun c _ => ?_
  cases c <;> rfl

/-- **C79.** Explicit terms of a vector field: on the moved mesh, with all vectors rotated, the source is the rotated source. -/
theorem C79_explicit (S : Setting K) (junk : Nat → Vec K) (ts : List (TermV K (Vec K))) (tr : ExT K) (st : TimeState K (Vec K)) (t dt : K)
    (src : List (Vec K)) : NR.Seen (List.map μ.rot) (evalExplicit tr (termOpsV S vecOne junk ts st) t dt src)
      (evalExplicit tr (termOpsV (S.move μ) vecOne (fun n => μ.rot (junk n)) (ts.map (·.map μ.rot)) (st.map μ.rot)) t dt (src.map μ.rot)) := by
  rw [termOpsV_move]
  exact (evalExplicit_rel tr (termOpsV_relE (OpHom.ofLinear μ.rot) S vecOne vecOne junk ts st) t dt (img_list μ.rot src)).seenList

/-- **C79.** So any number of explicit Euler steps of a vector field on the moved mesh, with all vectors rotated, gives the rotated field.
`ops` and `ops'` are the operators that writing the expression creates. -/
theorem C79_forward (S : Setting K) (junk : Nat → Vec K) (ts : List (TermV K (Vec K))) (tr : ExT K) (eqn : Expr) (ops ops' : OpsOf K (Vec K))
    (hb : ∀ st, tr.build (termOpsV S vecOne junk ts st) = .ok (eqn, ops st))
    (hb' : ∀ st, tr.build (termOpsV (S.move μ) vecOne (fun n => μ.rot (junk n)) (ts.map (·.map μ.rot)) st) = .ok (eqn, ops' st))
    (bcs : List (VolumeBoundary (Vec K))) (dt : Nat → K) (n : Nat) (st : TimeState K (Vec K)) :
    NR.Seen (TimeState.map μ.rot) (timeLoop (fun dt st => forwardEuler S.e S.m bcs ops eqn st dt) dt n st)
      (timeLoop (fun dt st => forwardEuler S.e (S.m.move μ) (bcs.map (·.map μ.rot)) ops' eqn st dt) dt n (st.map μ.rot)) := by
  have ho : ∀ st : TimeState K (Vec K), List.Forall₂ (ExpRel (K := K) μ.rot) (ops st) (ops' (st.map μ.rot)) := by
    intro st
    have h2 := ExT.build_rel tr _ _ (termOpsV_relE (OpHom.ofLinear μ.rot) S vecOne vecOne junk ts st)
    rw [show (OpHom.ofLinear μ.rot : OpHom K (Vec K) (Vec K)).toFun = μ.rot from rfl] at h2
    rw [hb, ← termOpsV_move μ, hb'] at h2
    exact h2.2
  refine NR.Rel.seen (timeLoop_rel (fun dt st => ?_) dt st n)
  rw [forwardEuler_move]
  exact forwardEuler_rel (OpHom.ofLinear μ.rot) S.e S.m bcs ho eqn st dt

end

/-! ### The hypotheses can be met -/

/-- A quarter turn about the third axis with a reflection of it, then a translation. -/
def quarterTurn : Motion ℚ where
  rot := { toFun := fun v => (-v.2.1, v.1, -v.2.2), map_add' := fun x y => by ext <;> simp <;> ring, map_smul' := fun r x => by ext <;> simp }
  shift := (5, 0, -1)
  dot a b := by simp [vdot]; ring

/-- A rotation that mixes two axes. -/
def tiltedTurn : Motion ℚ where
  rot := { toFun := fun v => (3 / 5 * v.1 - 4 / 5 * v.2.1, 4 / 5 * v.1 + 3 / 5 * v.2.1, v.2.2)
           map_add' := fun x y => by ext <;> simp <;> ring, map_smul' := fun r x => by ext <;> simp <;> ring }
  shift := (0, 2, 7)
  dot a b := by simp [vdot]; ring

/-- They do move things. -/
example : quarterTurn.pt (1, 2, 3) = (3, 1, -4) ∧ tiltedTurn.pt (1, 0, 0) = (3 / 5, 14 / 5, 7) := by
  constructor <;> norm_num [quarterTurn, tiltedTurn, Motion.pt]

/-- Expressions can be written on both meshes, with the same result. -/
example (μ : Motion ℚ) (S : Setting ℚ) (junk : Nat → Vec ℚ) : ∃ (eqn : Expr) (ops ops' : OpsOf ℚ (Vec ℚ)),
    (∀ st, ddtDivTree.build (termOpsV S vecOne junk [.ddt .implicit Coeff.default, .div .explicit [1, 2] none Coeff.default] st) = .ok (eqn, ops st)) ∧
    (∀ st, ddtDivTree.build (termOpsV (S.move μ) vecOne (fun n => μ.rot (junk n))
      (([.ddt .implicit Coeff.default, .div .explicit [1, 2] none Coeff.default] : List (TermV ℚ (Vec ℚ))).map (·.map μ.rot)) st) = .ok (eqn, ops' st)) :=
  ⟨⟨[6], [7]⟩, fun st => match ddtDivTree.build (termOpsV S vecOne junk [.ddt .implicit Coeff.default, .div .explicit [1, 2] none Coeff.default] st) with
      | .ok p => p.2 | _ => [],
    fun st => match ddtDivTree.build (termOpsV (S.move μ) vecOne (fun n => μ.rot (junk n))
        (([.ddt .implicit Coeff.default, .div .explicit [1, 2] none Coeff.default] : List (TermV ℚ (Vec ℚ))).map (·.map μ.rot)) st) with
      | .ok p => p.2 | _ => [], fun _ => rfl, fun _ => rfl⟩

end NeoFOAM
