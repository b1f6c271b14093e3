import Verif.Base.Rel
import Verif.Spec.Components
import Verif.Proofs.Sim
import Mathlib.Algebra.Module.LinearMap.Defs
import Mathlib.Algebra.Module.Prod
import Mathlib.Tactic.FinCases

/-!
# C78: vector fields are treated component by component
-/
namespace NeoFOAM
variable {K V W : Type}

/-- The values of the second run are the images of those of the first. -/
abbrev Img (h : V → W) : V → W → Prop := fun x y => y = h x

theorem img_list (h : V → W) (l : List V) : List.Forall₂ (Img h) l (l.map h) := by
  rw [List.forall₂_map_right_iff, List.forall₂_same]; intros; rfl

theorem img_map {h : V → W} {l : List V} {l' : List W} (H : List.Forall₂ (Img h) l l') : l' = l.map h := by
  induction H with
  | nil => rfl
  | cons h1 _ ih => rw [h1, ih]; rfl

variable [Add K] [Sub K] [Mul K] [Div K] [Neg K] [Zero K] [One K] [Add V] [Sub V] [Zero V] [SMul K V] [Add W] [Sub W] [Zero W] [SMul K W]

/-- A map that commutes with the operations on field values. No law of arithmetic is assumed, so the operations may be those of floating-point numbers. -/
structure OpHom (K V W : Type) [Add V] [Sub V] [Zero V] [SMul K V] [Add W] [Sub W] [Zero W] [SMul K W] where
  toFun : V → W
  map_add : ∀ x y, toFun (x + y) = toFun x + toFun y
  map_sub : ∀ x y, toFun (x - y) = toFun x - toFun y
  map_zero : toFun 0 = 0
  map_smul : ∀ (a : K) x, toFun (a • x) = a • toFun x

instance : CoeFun (OpHom K V W) (fun _ => V → W) := ⟨OpHom.toFun⟩

attribute [simp] OpHom.map_add OpHom.map_sub OpHom.map_zero OpHom.map_smul

/-- A linear map commutes with the operations. -/
def OpHom.ofLinear {K V W : Type} [Field K] [AddCommGroup V] [Module K V] [AddCommGroup W] [Module K W] (h : V →ₗ[K] W) : OpHom K V W where
  toFun := h
  map_add := _root_.map_add h
  map_sub := _root_.map_sub h
  map_zero := _root_.map_zero h
  map_smul := _root_.map_smul h


theorem NR.Rel.seen {α β : Type} {f : α → β} {X : NR α} {Y : NR β} (H : NR.Rel (fun a b => b = f a) X Y) : NR.Seen f X Y := by
  intro out
  constructor
  · intro ho
    obtain ⟨o, h1, h2⟩ := H.2 out ho
    exact ⟨o, h1, h2.eq_map⟩
  · rintro ⟨o, h1, rfl⟩
    obtain ⟨o', h2, h3⟩ := H.1 o h1
    rwa [← h3.eq_map]


section explicit
variable (h : OpHom K V W)

theorem linearBody_rel (m : Mesh K) (src : VolField K V) (w : List K) (f : Nat) :
    Res.Rel (fun p q => ∀ x y, Img h x y → Img h (p x) (q y)) (linearBody m src w f) (linearBody m (src.map h) w f) := by
  unfold linearBody
  split
  · same; same; same
    refine Res.Rel.bind (rd_rel (img_list h _) _) ?_; rintro a _ rfl
    refine Res.Rel.bind (rd_rel (img_list h _) _) ?_; rintro b _ rfl
    rintro x _ rfl
    simp [Img]
  · same
    refine Res.Rel.bind (rd_rel (img_list h _) _) ?_; rintro a _ rfl
    rintro x _ rfl
    simp [Img]

theorem upwindBody_rel [LinearOrder K] (m : Mesh K) (src : VolField K V) (flux w : List K) (f : Nat) :
    Res.Rel (fun p q => ∀ x y, Img h x y → Img h (p x) (q y)) (upwindBody m src flux w f) (upwindBody m (src.map h) flux w f) := by
  unfold upwindBody
  split
  · same
    split
    · same
      refine Res.Rel.bind (rd_rel (img_list h _) _) ?_; rintro a _ rfl
      rintro x _ rfl; rfl
    · same
      refine Res.Rel.bind (rd_rel (img_list h _) _) ?_; rintro a _ rfl
      rintro x _ rfl; rfl
  · same
    refine Res.Rel.bind (rd_rel (img_list h _) _) ?_; rintro a _ rfl
    rintro x _ rfl
    simp [Img]

theorem interpolateFlux_rel [LinearOrder K] (s : InterpScheme) (e : ExecKind) (m : Mesh K) (w flux : List K) (src : VolField K V) {dst : List V} {dst' : List W}
    (hd : List.Forall₂ (Img h) dst dst') :
    NR.Rel (List.Forall₂ (Img h)) (interpolateFlux s e m w flux src dst) (interpolateFlux s e m w flux (src.map h) dst') := by
  cases s <;> simp only [interpolateFlux, computeLinearInterpolation, computeUpwindInterpolation, ← hd.length_eq]
  · exact elemKernel_rel e _ _ (fun i _ _ => linearBody_rel h m src w i) hd
  · exact elemKernel_rel e _ _ (fun i _ _ => upwindBody_rel h m src flux w i) hd

theorem interpolate_rel (s : InterpScheme) (e : ExecKind) (m : Mesh K) (w : List K) (src : VolField K V) {dst : List V} {dst' : List W}
    (hd : List.Forall₂ (Img h) dst dst') :
    NR.Rel (List.Forall₂ (Img h)) (interpolate s e m w src dst) (interpolate s e m w (src.map h) dst') := by
  cases s <;> simp only [interpolate, computeLinearInterpolation, ← hd.length_eq]
  · exact elemKernel_rel e _ _ (fun i _ _ => linearBody_rel h m src w i) hd
  · exact NR.Rel.lift trivial

theorem fng_rel (e : ExecKind) (m : Mesh K) (src : VolField K V) (δ : List K) {dst : List V} {dst' : List W} (hd : List.Forall₂ (Img h) dst dst') :
    NR.Rel (List.Forall₂ (Img h)) (computeFaceNormalGrad e m src δ dst) (computeFaceNormalGrad e m (src.map h) δ dst') := by
  unfold computeFaceNormalGrad
  refine NR.Rel.bind (elemKernel_rel e _ _ (fun f _ _ => ?_) hd) fun d d' hd' => ?_
  · unfold fngInternalBody
    same; same; same
    refine Res.Rel.bind (rd_rel (img_list h _) _) ?_; rintro a _ rfl
    refine Res.Rel.bind (rd_rel (img_list h _) _) ?_; rintro b _ rfl
    rintro x _ rfl
    simp [Img]
  · rw [← hd'.length_eq]
    refine elemKernel_rel e _ _ (fun f _ _ => ?_) hd'
    unfold fngBoundaryBody
    same; same
    refine Res.Rel.bind (rd_rel (img_list h _) _) ?_; rintro a _ rfl
    refine Res.Rel.bind (rd_rel (img_list h _) _) ?_; rintro b _ rfl
    rintro x _ rfl
    simp [Img]

variable {fl : Nat → Res V} {fl' : Nat → Res W}

theorem gaussInternal_rel (m : Mesh K) (H : ∀ i, Res.Rel (Img h) (fl i) (fl' i)) (i : Nat) :
    Res.Rel (List.Forall₂ (Act.Rel (Img h))) (gaussInternal m fl i) (gaussInternal m fl' i) := by
  unfold gaussInternal
  refine Res.Rel.bind (H i) ?_; rintro a _ rfl
  same; same
  exact .cons ⟨rfl, rfl, by rintro x _ rfl; simp [Img]⟩ (.cons ⟨rfl, rfl, by rintro x _ rfl; simp [Img]⟩ .nil)

theorem gaussBoundary_rel (m : Mesh K) (H : ∀ i, Res.Rel (Img h) (fl i) (fl' i)) (i : Nat) :
    Res.Rel (List.Forall₂ (Act.Rel (Img h))) (gaussBoundary m fl i) (gaussBoundary m fl' i) := by
  unfold gaussBoundary
  same
  refine Res.Rel.bind (H i) ?_; rintro a _ rfl
  exact .cons ⟨rfl, rfl, by rintro x _ rfl; simp [Img]⟩ .nil

theorem gaussInternalPlain_rel (m : Mesh K) (H : ∀ i, Res.Rel (Img h) (fl i) (fl' i)) (i : Nat) :
    Res.Rel (List.Forall₂ (Act.Rel (Img h))) (gaussInternalPlain m fl i) (gaussInternalPlain m fl' i) := by
  unfold gaussInternalPlain
  refine Res.Rel.bind (H i) ?_; rintro a _ rfl
  same; same
  exact List.rel_append (Act.Rel.plain (by rintro x _ rfl; simp [Img])) (Act.Rel.plain (by rintro x _ rfl; simp [Img]))

theorem gaussBoundaryPlain_rel (m : Mesh K) (H : ∀ i, Res.Rel (Img h) (fl i) (fl' i)) (i : Nat) :
    Res.Rel (List.Forall₂ (Act.Rel (Img h))) (gaussBoundaryPlain m fl i) (gaussBoundaryPlain m fl' i) := by
  unfold gaussBoundaryPlain
  same
  refine Res.Rel.bind (H i) ?_; rintro a _ rfl
  exact Act.Rel.plain (by rintro x _ rfl; simp [Img])

theorem scaleBody_rel (scal : Coeff K) (v : List K) (c : Nat) :
    Res.Rel (fun p q => ∀ x y, Img h x y → Img h (p x) (q y)) (scaleBody scal v c) (scaleBody scal v c) := by
  unfold scaleBody
  same; same
  rintro x _ rfl
  simp [Img]

theorem smul_flux_rel (a : List K) {b : List V} {b' : List W} (hb : List.Forall₂ (Img h) b b') (i : Nat) :
    Res.Rel (Img h) (do let x ← rd a i; let y ← rd b i; return x • y : Res V) (do let x ← rd a i; let y ← rd b' i; return x • y : Res W) := by
  same
  refine Res.Rel.bind (rd_rel hb _) ?_; rintro y _ rfl
  exact (h.map_smul _ _).symm

theorem computeDiv_rel (e : ExecKind) (m : Mesh K) (flux : List K) {b : List V} {b' : List W} (hb : List.Forall₂ (Img h) b b') (scal : Coeff K)
    {r : List V} {r' : List W} (hr : List.Forall₂ (Img h) r r') :
    NR.Rel (List.Forall₂ (Img h)) (computeDiv e m flux b scal r) (computeDiv e m flux b' scal r') := by
  have H := smul_flux_rel h flux hb
  cases e
  · exact NR.Rel.bind (launch1_rel _ _ _ (fun i _ _ => gaussInternalPlain_rel h m H i) hr) fun _ _ h1 =>
      NR.Rel.bind (launch1_rel _ _ _ (fun i _ _ => gaussBoundaryPlain_rel h m H i) h1) fun _ _ h2 =>
        elemKernel_rel _ _ _ (fun i _ _ => scaleBody_rel h scal _ i) h2
  · exact NR.Rel.bind (launch1_rel _ _ _ (fun i _ _ => gaussInternal_rel h m H i) hr) fun _ _ h1 =>
      NR.Rel.bind (launch1_rel _ _ _ (fun i _ _ => gaussBoundary_rel h m H i) h1) fun _ _ h2 =>
        elemKernel_rel _ _ _ (fun i _ _ => scaleBody_rel h scal _ i) h2

theorem junk_rel (junk : Nat → V) (n : Nat) : List.Forall₂ (Img h) ((List.range n).map junk) ((List.range n).map fun i => h (junk i)) := by
  rw [List.forall₂_map_left_iff, List.forall₂_map_right_iff, List.forall₂_same]; intros; rfl

theorem zero_rel (n : Nat) : List.Forall₂ (Img h) (List.replicate n (0 : V)) (List.replicate n (0 : W)) := by
  have := img_list h (List.replicate n (0 : V))
  rwa [List.map_replicate, h.map_zero] at this

theorem computeDivExp_rel [LinearOrder K] (s : InterpScheme) (e : ExecKind) (m : Mesh K) (w : List K) (junk : Nat → V) (flux : List K) (phi : VolField K V)
    (scal : Coeff K) {r : List V} {r' : List W} (hr : List.Forall₂ (Img h) r r') :
    NR.Rel (List.Forall₂ (Img h)) (computeDivExp e m s w junk flux phi scal r) (computeDivExp e m s w (fun i => h (junk i)) flux (phi.map h) scal r') :=
  NR.Rel.bind (interpolateFlux_rel h s e m w flux phi (junk_rel h junk _)) fun _ _ hb => computeDiv_rel h e m flux hb scal hr

theorem addAssign_rel (e : ExecKind) {a b : List V} {a' b' : List W} (ha : List.Forall₂ (Img h) a a') (hb : List.Forall₂ (Img h) b b') :
    NR.Rel (List.Forall₂ (Img h)) (addAssign e a b) (addAssign e a' b') := by
  unfold addAssign
  rw [← ha.length_eq, ← hb.length_eq]
  split
  · exact NR.Rel.lift rfl
  · refine elemKernel_rel e _ _ (fun i _ _ => ?_) ha
    refine Res.Rel.bind (rd_rel hb _) ?_; rintro y _ rfl
    rintro x _ rfl
    simp [Img]

theorem divExplicit_rel [LinearOrder K] (s : Option InterpScheme) (e : ExecKind) (m : Mesh K) (w : List K) (junk : Nat → V) (flux : List K) (phi : VolField K V)
    (scal : Coeff K) {r : List V} {r' : List W} (hr : List.Forall₂ (Img h) r r') :
    NR.Rel (List.Forall₂ (Img h)) (divExplicit e m s w junk flux phi scal r) (divExplicit e m s w (fun i => h (junk i)) flux (phi.map h) scal r') := by
  cases s
  · exact NR.Rel.lift trivial
  · exact NR.Rel.bind (computeDivExp_rel h _ e m w junk flux phi scal (hr.length_eq ▸ zero_rel h _)) fun _ _ ht => addAssign_rel h e hr ht

theorem surfaceIntegrateExplicit_rel (e : ExecKind) (m : Mesh K) (flux : List V) (scal : Coeff K) {r : List V} {r' : List W} (hr : List.Forall₂ (Img h) r r') :
    NR.Rel (List.Forall₂ (Img h)) (surfaceIntegrateExplicit e m flux scal r) (surfaceIntegrateExplicit e m (flux.map h) scal r') := by
  have H : ∀ i, Res.Rel (Img h) (rd flux i) (rd (flux.map h) i) := fun i => rd_rel (img_list h _) i
  refine NR.Rel.bind ?_ fun _ _ ht => addAssign_rel h e hr ht
  exact NR.Rel.bind (launch1_rel _ _ _ (fun i _ _ => gaussInternal_rel h m H i) (hr.length_eq ▸ zero_rel h _)) fun _ _ h1 =>
      NR.Rel.bind (launch1_rel _ _ _ (fun i _ _ => gaussBoundary_rel h m H i) h1) fun _ _ h2 =>
        elemKernel_rel _ _ _ (fun i _ _ => scaleBody_rel h scal _ i) h2

theorem laplacianExplicit_rel (e : ExecKind) (m : Mesh K) (built : Bool) (δ : List K) (junk : Nat → V) (gamma : List K) (phi : VolField K V) (scal : Coeff K)
    {r : List V} {r' : List W} (hr : List.Forall₂ (Img h) r r') : NR.Rel (List.Forall₂ (Img h)) (laplacianExplicit e m built δ junk gamma phi scal r)
    (laplacianExplicit e m built δ (fun i => h (junk i)) gamma (phi.map h) scal r') := by
  unfold laplacianExplicit
  split
  · refine NR.Rel.bind ?_ fun _ _ ht => addAssign_rel h e hr ht
    unfold computeLaplacianExp
    refine NR.Rel.bind (fng_rel h e m phi δ (junk_rel h junk _)) fun b b' hb => ?_
    have H := smul_flux_rel h m.magFaceAreas hb
    rw [← hb.length_eq]
    exact NR.Rel.bind (launch1_rel _ _ _ (fun i _ _ => gaussInternal_rel h m H i) (hr.length_eq ▸ zero_rel h _)) fun _ _ h1 =>
      NR.Rel.bind (launch1_rel _ _ _ (fun i _ _ => gaussBoundary_rel h m H i) h1) fun _ _ h2 =>
        elemKernel_rel _ _ _ (fun i _ _ => scaleBody_rel h scal _ i) h2
  · exact NR.Rel.lift trivial

theorem sourceExplicit_rel (e : ExecKind) (k : List K) (phi : VolField K V) (scal : Coeff K) {r : List V} {r' : List W} (hr : List.Forall₂ (Img h) r r') :
    NR.Rel (List.Forall₂ (Img h)) (sourceExplicit e k phi scal r) (sourceExplicit e k (phi.map h) scal r') := by
  unfold sourceExplicit
  rw [← hr.length_eq]
  refine elemKernel_rel e _ _ (fun i _ _ => ?_) hr
  same; same
  refine Res.Rel.bind (rd_rel (img_list h _) _) ?_; rintro y _ rfl
  rintro x _ rfl
  simp [Img]

theorem ddtExplicit_rel (e : ExecKind) (m : Mesh K) (phi : VolField K V) {old : List V} {old' : List W} (ho : List.Forall₂ (Img h) old old') (scal : Coeff K) (dt : K)
    {r : List V} {r' : List W} (hr : List.Forall₂ (Img h) r r') :
    NR.Rel (List.Forall₂ (Img h)) (ddtExplicit e m phi old scal dt r) (ddtExplicit e m (phi.map h) old' scal dt r') := by
  unfold ddtExplicit
  simp only
  rw [← hr.length_eq]
  refine elemKernel_rel e _ _ (fun i _ _ => ?_) hr
  refine Res.Rel.bind (rd_rel (img_list h _) _) ?_; rintro y _ rfl
  refine Res.Rel.bind (rd_rel ho _) ?_; rintro z _ rfl
  same
  rintro x _ rfl
  simp [Img]

/-! ### Boundary conditions -/

/-- The second field is the image of the first. -/
abbrev ImgF (h : V → W) (φ : VolField K V) (ψ : VolField K W) : Prop := ψ = φ.map h

theorem arrs_rel (h : V → W) (φ : VolField K V) (a : BArr) : List.Forall₂ (Img h) (φ.arrs a) ((φ.map h).arrs a) := by
  cases a <;> exact img_list h _

theorem bcKernel_rel (h : V → W) (e : ExecKind) (p : Patch) {body : Nat → Res (List (Act BArr V))} {body' : Nat → Res (List (Act BArr W))}
    (hb : ∀ i, Res.Rel (List.Forall₂ (Act.Rel (Img h))) (body i) (body' i)) (vf : K) (φ : VolField K V) :
    NR.Rel (ImgF h) (bcKernel e p body vf φ) (bcKernel e p body' vf (φ.map h)) := by
  refine NR.Rel.bind (launch_rel e _ _ (fun i _ _ => hb i) (arrs_rel h φ)) fun f g hfg => ?_
  refine NR.Rel.bind (NR.Rel.refl (R := (· = ·)) (fun _ => rfl) _) ?_
  rintro v _ rfl
  refine NR.Rel.pure ?_
  simp only [ImgF, VolField.map]
  rw [img_map (hfg .internal), img_map (hfg .value), img_map (hfg .refValue), img_map (hfg .refGrad)]

theorem correct_rel (e : ExecKind) (m : Mesh K) (b : VolumeBoundary V) (φ : VolField K V) :
    NR.Rel (ImgF h) (b.correct e m φ) ((b.map h).correct e m (φ.map h)) := by
  obtain ⟨p, k⟩ := b
  cases k with
  | fixedValue v => 
    refine bcKernel_rel h e p (fun i => ?_) 1 φ
    exact Res.Rel.ok (.cons ⟨rfl, rfl, fun _ _ _ => rfl⟩ (.cons ⟨rfl, rfl, fun _ _ _ => rfl⟩ (.cons ⟨rfl, rfl, fun _ _ _ => rfl⟩ .nil)))
  | fixedGradient g =>
    refine bcKernel_rel h e p (fun i => ?_) 0 φ
    unfold fixedGradientBody
    same
    refine Res.Rel.bind (rd_rel (img_list h _) _) ?_; rintro y _ rfl
    same
    exact .cons ⟨rfl, rfl, fun _ _ _ => rfl⟩ (.cons ⟨rfl, rfl, fun _ _ _ => by simp [Img]⟩ (.cons ⟨rfl, rfl, fun _ _ _ => h.map_zero.symm⟩ .nil))
  | extrapolated =>
    refine bcKernel_rel h e p (fun i => ?_) 1 φ
    unfold extrapolatedBody
    same
    refine Res.Rel.bind (rd_rel (img_list h _) _) ?_; rintro y _ rfl
    exact .cons ⟨rfl, rfl, fun _ _ _ => rfl⟩ (.cons ⟨rfl, rfl, fun _ _ _ => rfl⟩ (.cons ⟨rfl, rfl, fun _ _ _ => h.map_zero.symm⟩ .nil))
  | calculated => exact NR.Rel.pure rfl
  | empty => exact NR.Rel.pure rfl

theorem correctBCs_rel (e : ExecKind) (m : Mesh K) : ∀ (bcs : List (VolumeBoundary V)) (φ : VolField K V),
    NR.Rel (ImgF h) (correctBoundaryConditions e m bcs φ) (correctBoundaryConditions e m (bcs.map (·.map h)) (φ.map h))
  | [], _ => NR.Rel.pure rfl
  | b :: bs, φ => by
    refine NR.Rel.bind (correct_rel h e m b φ) ?_
    rintro ψ _ rfl
    exact correctBCs_rel e m bs ψ

end explicit

/-! ### Assembly -/

section implicit
variable (h : OpHom K V W)

theorem Act.Rel.sub {A : Type} (h : V → W) (hs : ∀ x y, h (x - y) = h x - h y ) {a : A} {i : Nat} {v : V} {w : W} (hw : w = h v) :
    Act.Rel (Img h) (Act.atomicSub a i v) (Act.atomicSub a i w) := ⟨rfl, rfl, by rintro x _ rfl; simp only [Img, hw, hs]⟩

/-- The second system is the image of the first. -/
abbrev ImgLS (h : V → W) (ls : LinearSystem V) (ls' : LinearSystem W) : Prop := ls' = ls.map h

theorem launchLSV_rel (h : V → W) (e : ExecKind) (start stop : Nat) {body : Nat → Res (List (Act LSArr V))} {body' : Nat → Res (List (Act LSArr W))}
    (hb : ∀ i, Res.Rel (List.Forall₂ (Act.Rel (Img h))) (body i) (body' i)) (ls : LinearSystem V) :
    NR.Rel (ImgLS h) (launchLSV e start stop body ls) (launchLSV e start stop body' (ls.map h)) := by
  refine NR.Rel.bind (launch_rel e start stop (fun i _ _ => hb i) (R := Img h) ?_) fun f g hfg => NR.Rel.pure ?_
  · intro a; cases a <;> exact img_list h _
  · simp only [ImgLS, LinearSystem.map]
    rw [img_map (hfg .values), img_map (hfg .rhs)]

theorem divImpInternalV_rel [LinearOrder K] (one : V) (m : Mesh K) (sp : SparsityPattern) (rowOffs : List Nat) (flux : List K) (scal : Coeff K) (f : Nat) :
    Res.Rel (List.Forall₂ (Act.Rel (Img h))) (divImpInternalV one m sp rowOffs flux scal f) (divImpInternalV (h one) m sp rowOffs flux scal f) := by
  unfold divImpInternalV
  iterate 11 same
  refine List.rel_append (List.rel_append (List.rel_append (Act.Rel.plain ?_) (.cons (Act.Rel.sub (h : V → W) (hs := h.map_sub) ?_) .nil)) (Act.Rel.plain ?_)) (.cons (Act.Rel.sub (h : V → W) (hs := h.map_sub) ?_) .nil) <;>
    first | (rintro x _ rfl; simp only [Img, h.map_add, h.map_smul]; done) | (simp only [h.map_smul]; done)

theorem divImpBoundaryV_rel (one : V) (m : Mesh K) (sp : SparsityPattern) (rowOffs : List Nat) (flux : List K) (phi : VolField K V) (scal : Coeff K) (f : Nat) :
    Res.Rel (List.Forall₂ (Act.Rel (Img h))) (divImpBoundaryV one m sp rowOffs flux phi scal f)
      (divImpBoundaryV (h one) m sp rowOffs flux (phi.map h) scal f) := by
  unfold divImpBoundaryV
  iterate 6 same
  refine Res.Rel.bind (rd_rel (img_list h _) _) ?_; rintro y _ rfl
  refine List.rel_append (Act.Rel.plain ?_) (Act.Rel.plain ?_) <;> (rintro x _ rfl; simp [Img])

theorem computeDivImpV_rel [LinearOrder K] (one : V) (e : ExecKind) (m : Mesh K) (sp : SparsityPattern) (flux : List K) (phi : VolField K V) (scal : Coeff K)
    (ls : LinearSystem V) :
    NR.Rel (ImgLS h) (computeDivImpV one e m sp flux phi scal ls) (computeDivImpV (h one) e m sp flux (phi.map h) scal (ls.map h)) := by
  refine NR.Rel.bind (launchLSV_rel h e _ _ (divImpInternalV_rel h one m sp _ flux scal) ls) ?_
  rintro ls' _ rfl
  exact launchLSV_rel h e _ _ (divImpBoundaryV_rel h one m sp _ flux phi scal) ls'

theorem lapImpInternalV_rel (one : V) (m : Mesh K) (sp : SparsityPattern) (rowOffs : List Nat) (δ gamma : List K) (scal : Coeff K) (f : Nat) :
    Res.Rel (List.Forall₂ (Act.Rel (Img h))) (lapImpInternalV one m sp rowOffs δ gamma scal f) (lapImpInternalV (h one) m sp rowOffs δ gamma scal f) := by
  unfold lapImpInternalV
  iterate 13 same
  refine List.rel_append (List.rel_append (List.rel_append (Act.Rel.plain ?_) (.cons (Act.Rel.sub (h : V → W) (hs := h.map_sub) ?_) .nil)) (Act.Rel.plain ?_)) (.cons (Act.Rel.sub (h : V → W) (hs := h.map_sub) ?_) .nil) <;>
    first | (rintro x _ rfl; simp only [Img, h.map_add, h.map_smul]; done) | (simp only [h.map_smul]; done)

theorem lapImpBoundaryV_rel (one : V) (m : Mesh K) (sp : SparsityPattern) (rowOffs : List Nat) (δ gamma : List K) (phi : VolField K V) (scal : Coeff K) (f : Nat) :
    Res.Rel (List.Forall₂ (Act.Rel (Img h))) (lapImpBoundaryV one m sp rowOffs δ gamma phi scal f)
      (lapImpBoundaryV (h one) m sp rowOffs δ gamma (phi.map h) scal f) := by
  unfold lapImpBoundaryV
  iterate 8 same
  refine Res.Rel.bind (rd_rel (img_list h _) _) ?_; rintro y _ rfl
  refine Res.Rel.bind (rd_rel (img_list h _) _) ?_; rintro z _ rfl
  refine List.rel_append (Act.Rel.plain ?_) (Act.Rel.plain ?_) <;> (rintro x _ rfl; simp [Img])

theorem computeLaplacianImplV_rel (one : V) (e : ExecKind) (m : Mesh K) (sp : SparsityPattern) (δ gamma : List K) (phi : VolField K V) (scal : Coeff K)
    (ls : LinearSystem V) :
    NR.Rel (ImgLS h) (computeLaplacianImplV one e m sp δ gamma phi scal ls) (computeLaplacianImplV (h one) e m sp δ gamma (phi.map h) scal (ls.map h)) := by
  refine NR.Rel.bind (launchLSV_rel h e _ _ (lapImpInternalV_rel h one m sp _ δ gamma scal) ls) ?_
  rintro ls' _ rfl
  exact launchLSV_rel h e _ _ (lapImpBoundaryV_rel h one m sp _ δ gamma phi scal) ls'

theorem ddtImplicitV_rel (one : V) (e : ExecKind) (m : Mesh K) (sp : SparsityPattern) (old : List V) (scal : Coeff K) (dt : K) (ls : LinearSystem V) :
    NR.Rel (ImgLS h) (ddtImplicitV one e m sp old scal dt ls) (ddtImplicitV (h one) e m sp (old.map h) scal dt (ls.map h)) := by
  unfold ddtImplicitV
  rw [List.length_map]
  refine launchLSV_rel h e _ _ (fun c => ?_) ls
  unfold ddtImpBodyV
  iterate 4 same
  refine Res.Rel.bind (rd_rel (img_list h _) _) ?_; rintro y _ rfl
  refine List.rel_append (Act.Rel.plain ?_) (Act.Rel.plain ?_) <;> (rintro x _ rfl; simp [Img])

theorem sourceImplicitV_rel (one : V) (e : ExecKind) (m : Mesh K) (sp : SparsityPattern) (k : List K) (scal : Coeff K) (ls : LinearSystem V) :
    NR.Rel (ImgLS h) (sourceImplicitV one e m sp k scal ls) (sourceImplicitV (h one) e m sp k scal (ls.map h)) := by
  refine launchLSV_rel h e _ _ (fun c => ?_) ls
  unfold sourceImpBodyV
  iterate 5 same
  refine Act.Rel.plain ?_
  rintro x _ rfl; simp [Img]

end implicit

/-! ### Expressions -/

/-- The second operator does on images what the first does. -/
abbrev OpRel (h : V → W) : OpModel K V → OpModel K W → Prop :=
  OpSim (fun t dt t' dt' => t' = t ∧ dt' = dt) (List.Forall₂ (Img h)) (ImgLS h)

theorem getD_map_field (h : V → W) (of : Option (VolField K V)) (φ : VolField K V) :
    (of.map (·.map h)).getD (φ.map h) = (of.getD φ).map h := by cases of <;> rfl

theorem oldTime_map (h : V → W) (st : TimeState K V) : (st.map h).oldTime = st.oldTime.map h := by
  unfold TimeState.oldTime TimeState.map
  cases st.old <;> rfl

/-- The same for the explicit side alone, whatever stands for `one` on the implicit side. -/
abbrev ExpRel (h : V → W) : OpModel K V → OpModel K W → Prop :=
  OpSim (fun t dt t' dt' => t' = t ∧ dt' = dt) (List.Forall₂ (Img h)) (fun _ _ => False)

theorem TermV.op_relE [LinearOrder K] (h : OpHom K V W) (S : Setting K) (one : V) (one' : W) (junk : Nat → V) (st : TimeState K V) (t : TermV K V) :
    ExpRel h (t.op S one junk st) ((t.map h).op S one' (fun i => h (junk i)) (st.map h)) := by
  cases t with
  | div type flux of coeff =>
    refine ⟨rfl, rfl, fun _ => .some ?_, fun _ => .some fun _ _ _ _ _ _ _ _ => False.elim⟩
    rintro c _ _ t dt src src' ⟨rfl, rfl⟩ hs
    have := divExplicit_rel h (some S.sch) S.e S.m S.w junk flux (of.getD st.sol) c hs
    rwa [← getD_map_field] at this
  | laplacian type gamma of coeff =>
    refine ⟨rfl, rfl, fun _ => .some ?_, fun _ => .some fun _ _ _ _ _ _ _ _ => False.elim⟩
    rintro c _ _ t dt src src' ⟨rfl, rfl⟩ hs
    have := laplacianExplicit_rel h S.e S.m true S.δ junk gamma (of.getD st.sol) c hs
    rwa [← getD_map_field] at this
  | source type k of coeff =>
    refine ⟨rfl, rfl, fun _ => .some ?_, fun _ => .some fun _ _ _ _ _ _ _ _ => False.elim⟩
    rintro c _ _ t dt src src' ⟨rfl, rfl⟩ hs
    have := sourceExplicit_rel h S.e k (of.getD st.sol) c hs
    rwa [← getD_map_field] at this
  | surface flux coeff =>
    exact ⟨rfl, rfl, fun _ => .some fun c _ _ _ _ src src' _ hs => surfaceIntegrateExplicit_rel h S.e S.m flux c hs, fun _ => .none⟩
  | ddt type coeff =>
    refine ⟨rfl, rfl, fun _ => .some ?_, fun _ => .some fun _ _ _ _ _ _ _ _ => False.elim⟩
    rintro c _ _ t dt src src' ⟨rfl, rfl⟩ hs
    have := ddtExplicit_rel h S.e S.m st.sol (img_list h st.oldTime) c dt hs
    rwa [← oldTime_map] at this

theorem TermV.op_rel [LinearOrder K] (h : OpHom K V W) (S : Setting K) (one : V) (junk : Nat → V) (st : TimeState K V) (t : TermV K V) :
    OpRel h (t.op S one junk st) ((t.map h).op S (h one) (fun i => h (junk i)) (st.map h)) := by
  have hE := TermV.op_relE h S one (h one) junk st t
  refine ⟨hE.type, hE.coeff, hE.expl, ?_⟩
  cases t with
  | div type flux of coeff =>
    refine fun _ => .some ?_
    rintro c _ _ t dt ls _ ⟨rfl, rfl⟩ rfl
    have := computeDivImpV_rel h one S.e S.m S.sp flux (of.getD st.sol) c ls
    rwa [← getD_map_field] at this
  | laplacian type gamma of coeff =>
    refine fun _ => .some ?_
    rintro c _ _ t dt ls _ ⟨rfl, rfl⟩ rfl
    have := computeLaplacianImplV_rel h one S.e S.m S.sp S.δ gamma (of.getD st.sol) c ls
    rwa [← getD_map_field] at this
  | source type k of coeff =>
    refine fun _ => .some ?_
    rintro c _ _ t dt ls _ ⟨rfl, rfl⟩ rfl
    exact sourceImplicitV_rel h one S.e S.m S.sp k c ls
  | surface flux coeff => exact fun _ => .none
  | ddt type coeff =>
    refine fun _ => .some ?_
    rintro c _ _ t dt ls _ ⟨rfl, rfl⟩ rfl
    have := ddtImplicitV_rel h one S.e S.m S.sp st.oldTime c dt ls
    rwa [← oldTime_map] at this

theorem termOpsV_relE [LinearOrder K] (h : OpHom K V W) (S : Setting K) (one : V) (one' : W) (junk : Nat → V) (ts : List (TermV K V)) (st : TimeState K V) :
    List.Forall₂ (ExpRel (K := K) h) (termOpsV S one junk ts st) (termOpsV S one' (fun i => h (junk i)) (ts.map (·.map h)) (st.map h)) := by
  unfold termOpsV
  rw [List.map_map, List.forall₂_map_left_iff, List.forall₂_map_right_iff, List.forall₂_same]
  exact fun t _ => TermV.op_relE h S one one' junk st t

theorem termOpsV_rel [LinearOrder K] (h : OpHom K V W) (S : Setting K) (one : V) (junk : Nat → V) (ts : List (TermV K V)) (st : TimeState K V) :
    List.Forall₂ (OpRel (K := K) h) (termOpsV S one junk ts st) (termOpsV S (h one) (fun i => h (junk i)) (ts.map (·.map h)) (st.map h)) := by
  unfold termOpsV
  rw [List.map_map, List.forall₂_map_left_iff, List.forall₂_map_right_iff, List.forall₂_same]
  exact fun t _ => TermV.op_rel h S one junk st t

section
variable {h : V → W} {I : LinearSystem V → LinearSystem W → Prop} {s : OpHeap K V} {s' : OpHeap K W} (eqn : Expr)
  (hs : List.Forall₂ (OpSim (fun t dt t' dt' => t' = t ∧ dt' = dt) (List.Forall₂ (Img h)) I) s s')
include hs

theorem explicit_rel {src : List V} {src' : List W}
    (hr : List.Forall₂ (Img h) src src') : NR.Rel (List.Forall₂ (Img h)) (eqn.explicitOperation s src) (eqn.explicitOperation s' src') :=
  explicit_sim (T := fun t dt t' dt' => t' = t ∧ dt' = dt) ⟨rfl, rfl⟩ eqn hs hr

theorem explicitT_rel (t dt : K) {src : List V} {src' : List W}
    (hr : List.Forall₂ (Img h) src src') : NR.Rel (List.Forall₂ (Img h)) (eqn.explicitOperationT s t dt src) (eqn.explicitOperationT s' t dt src') :=
  explicitT_sim (T := fun t dt t' dt' => t' = t ∧ dt' = dt) ⟨rfl, rfl⟩ eqn hs hr

end

theorem implicit_rel {h : V → W} (eqn : Expr) {s : OpHeap K V} {s' : OpHeap K W} (hs : List.Forall₂ (OpRel h) s s') (ls : LinearSystem V) :
    NR.Rel (ImgLS h) (eqn.implicitOperation s ls) (eqn.implicitOperation s' (ls.map h)) :=
  implicit_sim ⟨rfl, rfl⟩ eqn hs rfl

theorem implicitT_rel {h : V → W} (eqn : Expr) {s : OpHeap K V} {s' : OpHeap K W} (hs : List.Forall₂ (OpRel h) s s') (t dt : K) (ls : LinearSystem V) :
    NR.Rel (ImgLS h) (eqn.implicitOperationT s t dt ls) (eqn.implicitOperationT s' t dt (ls.map h)) :=
  implicitT_sim ⟨rfl, rfl⟩ eqn hs rfl

/-! ### Time steps -/

theorem scaleField_rel (h : OpHom K V W) (e : ExecKind) {a : List V} {a' : List W} (ha : List.Forall₂ (Img h) a a') (s : K) :
    NR.Rel (List.Forall₂ (Img h)) (scaleField e a s) (scaleField e a' s) := by
  unfold scaleField
  rw [← ha.length_eq]
  exact elemKernel_rel e _ _ (fun i _ _ => by rintro x _ rfl; simp [Img]) ha

theorem subField_rel (h : OpHom K V W) (e : ExecKind) {a b : List V} {a' b' : List W} (ha : List.Forall₂ (Img h) a a') (hb : List.Forall₂ (Img h) b b') :
    NR.Rel (List.Forall₂ (Img h)) (subField e a b) (subField e a' b') := by
  unfold subField
  rw [← ha.length_eq, ← hb.length_eq]
  split
  · exact NR.Rel.lift rfl
  · refine elemKernel_rel e _ _ (fun i _ _ => ?_) ha
    refine Res.Rel.bind (rd_rel hb _) ?_; rintro y _ rfl
    rintro x _ rfl
    simp [Img]

theorem forwardEuler_rel (h : OpHom K V W) {I : LinearSystem V → LinearSystem W → Prop} (e : ExecKind) (m : Mesh K) (bcs : List (VolumeBoundary V))
    {ops : OpsOf K V} {ops' : OpsOf K W}
    (ho : ∀ st : TimeState K V, List.Forall₂ (OpSim (fun t dt t' dt' => t' = t ∧ dt' = dt) (List.Forall₂ (Img h)) I) (ops st) (ops' (st.map h))) (eqn : Expr) (st : TimeState K V) (dt : K) :
    NR.Rel (fun a b => b = a.map h) (forwardEuler e m bcs ops eqn st dt) (forwardEuler e m (bcs.map (·.map h)) ops' eqn (st.map h) dt) := by
  refine NR.Rel.bind (explicit_rel eqn (ho st) (src := List.replicate st.sol.internal.length 0) ?_) fun src src' hs => ?_
  · have := zero_rel h st.sol.internal.length
    rwa [show (st.map h).sol.internal.length = st.sol.internal.length from List.length_map _]
  refine NR.Rel.bind (scaleField_rel h e hs dt) fun a a' ha => ?_
  rw [oldTime_map]
  refine NR.Rel.bind (subField_rel h e (img_list h _) ha) fun b b' hb => ?_
  have := correctBCs_rel h e m bcs { st.sol with internal := b }
  rw [img_map hb]
  refine NR.Rel.bind this ?_
  rintro φ _ rfl
  exact NR.Rel.pure rfl

theorem timeLoop_rel {h : V → W} {step : K → TimeState K V → NR (TimeState K V)} {step' : K → TimeState K W → NR (TimeState K W)}
    (hs : ∀ dt st, NR.Rel (fun a b => b = a.map h) (step dt st) (step' dt (st.map h))) (dt : Nat → K) (st : TimeState K V) : ∀ n,
    NR.Rel (fun a b => b = a.map h) (timeLoop step dt n st) (timeLoop step' dt n (st.map h))
  | 0 => NR.Rel.pure rfl
  | n + 1 => NR.Rel.bind (timeLoop_rel hs dt st n) fun a _ hb => by rw [hb]; exact hs _ a

/-! ### Results -/

/-- Reading one component. -/
def vecCompL (i : Fin 3) : OpHom K (Vec K) K where
  toFun := vecComp i
  map_add x y := by fin_cases i <;> rfl
  map_sub x y := by fin_cases i <;> rfl
  map_zero := by fin_cases i <;> rfl
  map_smul r x := by fin_cases i <;> rfl

theorem vecCompL_coe (i : Fin 3) : (vecCompL i : Vec K → K) = vecComp i := rfl

theorem vecComp_one (i : Fin 3) : vecComp i (vecOne : Vec K) = 1 := by fin_cases i <;> rfl

theorem evalExplicit_rel {h : V → W} {I : LinearSystem V → LinearSystem W → Prop} (tr : ExT K) {s : OpHeap K V} {s' : OpHeap K W}
    (hs : List.Forall₂ (OpSim (fun t dt t' dt' => t' = t ∧ dt' = dt) (List.Forall₂ (Img h)) I) s s') (t dt : K) {src : List V} {src' : List W}
    (hr : List.Forall₂ (Img h) src src') : NR.Rel (List.Forall₂ (Img h)) (evalExplicit tr s t dt src) (evalExplicit tr s' t dt src') := by
  refine NR.Rel.bind (NR.Rel.lift (ExT.build_rel tr s s' hs)) ?_
  rintro ⟨eqn, p⟩ ⟨eqn', p'⟩ ⟨h1, hp⟩
  obtain rfl : eqn' = eqn := h1
  exact NR.Rel.bind (explicit_rel eqn' hp hr) fun _ _ h1 => explicitT_rel eqn' hp t dt h1

theorem evalImplicit_rel {h : V → W} (tr : ExT K) {s : OpHeap K V} {s' : OpHeap K W} (hs : List.Forall₂ (OpRel h) s s') (t dt : K) (ls : LinearSystem V) :
    NR.Rel (ImgLS h) (evalImplicit tr s t dt ls) (evalImplicit tr s' t dt (ls.map h)) := by
  refine NR.Rel.bind (NR.Rel.lift (ExT.build_rel tr s s' hs)) ?_
  rintro ⟨eqn, p⟩ ⟨eqn', p'⟩ ⟨h1, hp⟩
  obtain rfl : eqn' = eqn := h1
  refine NR.Rel.bind (implicit_rel eqn' hp ls) ?_
  rintro ls' _ rfl
  exact implicitT_rel eqn' hp t dt ls'

theorem NR.Rel.seenList {h : V → W} {X : NR (List V)} {Y : NR (List W)} (H : NR.Rel (List.Forall₂ (Img h)) X Y) : NR.Seen (List.map h) X Y :=
  NR.Rel.seen (H.mono fun _ _ => img_map)

variable [LinearOrder K]

theorem termOpsV_comp (i : Fin 3) (S : Setting K) (junk : Nat → Vec K) (ts : List (TermV K (Vec K))) (st : TimeState K (Vec K)) :
    List.Forall₂ (OpRel (K := K) (vecComp i)) (termOpsV S vecOne junk ts st)
      (termOpsV S 1 (fun n => vecComp i (junk n)) (ts.map (·.map (vecComp i))) (st.map (vecComp i))) := by
  have := termOpsV_rel (vecCompL i) S vecOne junk ts st
  rw [vecCompL_coe, vecComp_one] at this
  exact this

/-- **C78.** Whatever terms and expression the user writes, the explicit source of the `i`-th components is the `i`-th component of the
explicit source: the two evaluations can end in the same ways, and a normal result agrees component by component. -/
theorem C78_explicit (i : Fin 3) (S : Setting K) (junk : Nat → Vec K) (ts : List (TermV K (Vec K))) (tr : ExT K) (st : TimeState K (Vec K)) (t dt : K)
    (src : List (Vec K)) : NR.Seen (List.map (vecComp i)) (evalExplicit tr (termOpsV S vecOne junk ts st) t dt src)
      (evalExplicit tr (termOpsV S 1 (fun n => vecComp i (junk n)) (ts.map (·.map (vecComp i))) (st.map (vecComp i))) t dt (src.map (vecComp i))) :=
  (evalExplicit_rel tr (termOpsV_comp i S junk ts st) t dt (img_list (vecComp i) src)).seenList

/-- **C78.** The system assembled for a vector equation is, component by component, the system of the scalar equations. -/
theorem C78_implicit (i : Fin 3) (S : Setting K) (junk : Nat → Vec K) (ts : List (TermV K (Vec K))) (tr : ExT K) (st : TimeState K (Vec K)) (t dt : K)
    (ls : LinearSystem (Vec K)) : NR.Seen (LinearSystem.map (vecComp i)) (evalImplicit tr (termOpsV S vecOne junk ts st) t dt ls)
      (evalImplicit tr (termOpsV S 1 (fun n => vecComp i (junk n)) (ts.map (·.map (vecComp i))) (st.map (vecComp i))) t dt (ls.map (vecComp i))) :=
  NR.Rel.seen (evalImplicit_rel tr (termOpsV_comp i S junk ts st) t dt ls)

omit [LinearOrder K] in
/-- **C78.** Boundary conditions act on each component alone. -/
theorem C78_boundary (i : Fin 3) (e : ExecKind) (m : Mesh K) (bcs : List (VolumeBoundary (Vec K))) (φ : VolField K (Vec K)) :
    NR.Seen (VolField.map (vecComp i)) (correctBoundaryConditions e m bcs φ)
      (correctBoundaryConditions e m (bcs.map (·.map (vecComp i))) (φ.map (vecComp i))) := by
  have := correctBCs_rel (vecCompL i) e m bcs φ
  rw [vecCompL_coe] at this
  exact NR.Rel.seen this

/-- **C78.** So do interpolation to the faces, with and without a flux, and the face-normal gradient. -/
theorem C78_faces (i : Fin 3) (s : InterpScheme) (e : ExecKind) (m : Mesh K) (w δ flux : List K) (φ : VolField K (Vec K)) (dst : List (Vec K)) :
    NR.Seen (List.map (vecComp i)) (interpolateFlux s e m w flux φ dst) (interpolateFlux s e m w flux (φ.map (vecComp i)) (dst.map (vecComp i))) ∧
    NR.Seen (List.map (vecComp i)) (interpolate s e m w φ dst) (interpolate s e m w (φ.map (vecComp i)) (dst.map (vecComp i))) ∧
    NR.Seen (List.map (vecComp i)) (computeFaceNormalGrad e m φ δ dst) (computeFaceNormalGrad e m (φ.map (vecComp i)) δ (dst.map (vecComp i))) := by
  have hd := img_list (vecCompL i) dst
  have h1 := interpolateFlux_rel (vecCompL i) s e m w flux φ hd
  have h2 := interpolate_rel (vecCompL i) s e m w φ hd
  have h3 := fng_rel (vecCompL i) e m φ δ hd
  rw [vecCompL_coe] at h1 h2 h3
  exact ⟨h1.seenList, h2.seenList, h3.seenList⟩

/-- **C78.** Explicit time stepping of a vector field moves each component as if it were alone, for any number of steps. `ops` and `opsi` are the
operators that writing the expression creates, for the vector equation and for the equation of the components. -/
theorem C78_forward (i : Fin 3) (S : Setting K) (junk : Nat → Vec K) (ts : List (TermV K (Vec K))) (tr : ExT K) (eqn : Expr) (ops : OpsOf K (Vec K))
    (opsi : OpsOf K K) (hb : ∀ st, tr.build (termOpsV S vecOne junk ts st) = .ok (eqn, ops st))
    (hbi : ∀ st, tr.build (termOpsV S 1 (fun n => vecComp i (junk n)) (ts.map (·.map (vecComp i))) st) = .ok (eqn, opsi st))
    (bcs : List (VolumeBoundary (Vec K))) (dt : Nat → K) (n : Nat) (st : TimeState K (Vec K)) :
    NR.Seen (TimeState.map (vecComp i)) (timeLoop (fun dt st => forwardEuler S.e S.m bcs ops eqn st dt) dt n st)
      (timeLoop (fun dt st => forwardEuler S.e S.m (bcs.map (·.map (vecComp i))) opsi eqn st dt) dt n (st.map (vecComp i))) := by
  have ho : ∀ st : TimeState K (Vec K), List.Forall₂ (OpRel (K := K) (vecComp i)) (ops st) (opsi (st.map (vecComp i))) := by
    intro st
    have h2 := ExT.build_rel tr _ _ (termOpsV_comp i S junk ts st)
    rw [hb, hbi] at h2
    exact h2.2
  refine NR.Rel.seen (timeLoop_rel (fun dt st => ?_) dt st n)
  have := forwardEuler_rel (vecCompL i) S.e S.m bcs (ops' := opsi) ho eqn st dt
  rw [vecCompL_coe] at this
  exact this

/-- **C78.** Writing an expression succeeds for the components exactly when it succeeds for the vectors, and gives the same expression. -/
theorem C78_build (i : Fin 3) (S : Setting K) (junk : Nat → Vec K) (ts : List (TermV K (Vec K))) (tr : ExT K) (st : TimeState K (Vec K)) (eqn : Expr) :
    (∃ heap, tr.build (termOpsV S vecOne junk ts st) = .ok (eqn, heap)) ↔
      ∃ heap, tr.build (termOpsV S 1 (fun n => vecComp i (junk n)) (ts.map (·.map (vecComp i))) (st.map (vecComp i))) = .ok (eqn, heap) := by
  have h2 := ExT.build_rel tr _ _ (termOpsV_comp i S junk ts st)
  constructor
  · rintro ⟨s, hs⟩
    rw [hs] at h2
    cases hx : tr.build (termOpsV S (1 : K) (fun n => vecComp i (junk n)) (ts.map (·.map (vecComp i))) (st.map (vecComp i))) with
    | ok q => rw [hx] at h2; obtain ⟨e', q2⟩ := q; exact ⟨q2, by rw [show e' = eqn from h2.1]⟩
    | throw x => rw [hx] at h2; exact h2.elim
    | abort => rw [hx] at h2; exact h2.elim
    | ub => rw [hx] at h2; exact h2.elim
  · rintro ⟨s, hs⟩
    rw [hs] at h2
    cases hx : tr.build (termOpsV S vecOne junk ts st) with
    | ok q => rw [hx] at h2; obtain ⟨e', q2⟩ := q; exact ⟨q2, by rw [show eqn = e' from h2.1]⟩
    | throw x => rw [hx] at h2; exact h2.elim
    | abort => rw [hx] at h2; exact h2.elim
    | ub => rw [hx] at h2; exact h2.elim

section real
variable {K : Type} [Field K] [LinearOrder K]

omit [LinearOrder K] in
theorem computeLaplacianImplV_one (e : ExecKind) (m : Mesh K) (sp : SparsityPattern) (δ gamma : List K) (phi : VolField K K) (c : Coeff K) (ls : LinearSystem K) :
    computeLaplacianImplV 1 e m sp δ gamma phi c ls = computeLaplacianImpl e m sp δ gamma phi c ls := by
  have h1 : ∀ r, lapImpInternalV (1 : K) m sp r δ gamma c = lapImpInternal m sp r δ gamma c := fun r => by
    funext f; unfold lapImpInternalV lapImpInternal; simp only [smul_eq_mul, mul_one, mul_comm _ (_ * _ * _)]
  have h2 : ∀ r, lapImpBoundaryV (1 : K) m sp r δ gamma phi c = lapImpBoundary m sp r δ gamma phi c := fun r => by
    funext f; unfold lapImpBoundaryV lapImpBoundary; simp only [smul_eq_mul, mul_one]
  unfold computeLaplacianImplV computeLaplacianImpl
  simp only [h1, h2]
  rfl

theorem computeDivImpV_one (e : ExecKind) (m : Mesh K) (sp : SparsityPattern) (flux : List K) (phi : VolField K K) (c : Coeff K) (ls : LinearSystem K) :
    computeDivImpV 1 e m sp flux phi c ls = computeDivImp e m sp flux phi c ls := by
  have h1 : ∀ r, divImpInternalV (1 : K) m sp r flux c = divImpInternal m sp r flux c := fun r => by
    funext f; unfold divImpInternalV divImpInternal; simp only [smul_eq_mul, mul_one, mul_comm _ (_ * _)]
  have h2 : ∀ r, divImpBoundaryV (1 : K) m sp r flux phi c = divImpBoundary m sp r flux phi c := fun r => by
    funext f; unfold divImpBoundaryV divImpBoundary; simp only [smul_eq_mul, mul_one]
  unfold computeDivImpV computeDivImp
  simp only [h1, h2]
  rfl

omit [LinearOrder K] in
theorem sourceImplicitV_one (e : ExecKind) (m : Mesh K) (sp : SparsityPattern) (k : List K) (c : Coeff K) (ls : LinearSystem K) :
    sourceImplicitV 1 e m sp k c ls = sourceImplicit e m sp k c ls := by
  have h1 : ∀ r, sourceImpBodyV (1 : K) m sp r k c = sourceImpBody m sp r k c := fun r => by
    funext f; unfold sourceImpBodyV sourceImpBody; simp only [smul_eq_mul, mul_one]
  unfold sourceImplicitV sourceImplicit
  rw [h1]
  rfl

omit [LinearOrder K] in
theorem ddtImplicitV_one (e : ExecKind) (m : Mesh K) (sp : SparsityPattern) (old : List K) (c : Coeff K) (dt : K) (ls : LinearSystem K) :
    ddtImplicitV 1 e m sp old c dt ls = ddtImplicit e m sp old c dt ls := by
  have h1 : ∀ r, ddtImpBodyV (1 : K) m sp r old c (1 / dt) = ddtImpBody m sp r old c (1 / dt) := fun r => by
    funext f; unfold ddtImpBodyV ddtImpBody; simp only [smul_eq_mul, mul_one]
  unfold ddtImplicitV ddtImplicit
  rw [h1]
  rfl

/-- For scalar fields the operators of any value type are the operators of the other claims. -/
theorem C78_scalar (S : Setting K) (st : TimeState K K) (type : OpType) (flux gamma k : List K) (of : Option (VolField K K)) (c : Coeff K) :
    (TermV.div type flux of c).op S 1 S.junk st = divOp S.e S.m S.sp (some S.sch) S.w S.junk flux (of.getD st.sol) type c ∧
    (TermV.laplacian type gamma of c).op S 1 S.junk st = laplacianOp S.e S.m S.sp true S.δ S.junk gamma (of.getD st.sol) type c ∧
    (TermV.source type k of c).op S 1 S.junk st = sourceOp S.e S.m S.sp k (of.getD st.sol) type c ∧
    (TermV.surface flux c).op S 1 S.junk st = surfaceIntegrateOp S.e S.m flux c ∧
    (TermV.ddt type c).op S 1 S.junk st = ddtOp S.e S.m S.sp st.sol st.oldTime type c := by
  refine ⟨?_, ?_, ?_, rfl, ?_⟩
  · simp only [TermV.op, divOp, computeDivImpV_one]
  · simp only [TermV.op, laplacianOp, computeLaplacianImplV_one, if_true]
  · simp only [TermV.op, sourceOp, sourceImplicitV_one]
  · simp only [TermV.op, ddtOp, ddtImplicitV_one]

end real

/-! ### The hypotheses can be met -/

/-- `ddt(U) + 2 * div(flux, U)` written over two terms. -/
def ddtDivTree : ExT ℚ := .addOO (.var .temporal 0) (.smul 2 (.var .spatial 1))

/-- It can be written for vectors and for components, with the same expression, whatever the fields are. -/
example (i : Fin 3) (S : Setting ℚ) (junk : Nat → Vec ℚ) : ∃ (eqn : Expr) (ops : OpsOf ℚ (Vec ℚ)) (opsi : OpsOf ℚ ℚ),
    (∀ st, ddtDivTree.build (termOpsV S vecOne junk [.ddt .implicit Coeff.default, .div .explicit [1, 2] none Coeff.default] st) = .ok (eqn, ops st)) ∧
    (∀ st, ddtDivTree.build (termOpsV S 1 (fun n => vecComp i (junk n))
      (([.ddt .implicit Coeff.default, .div .explicit [1, 2] none Coeff.default] : List (TermV ℚ (Vec ℚ))).map (·.map (vecComp i))) st) = .ok (eqn, opsi st)) :=
  ⟨⟨[6], [7]⟩, fun st => match ddtDivTree.build (termOpsV S vecOne junk [.ddt .implicit Coeff.default, .div .explicit [1, 2] none Coeff.default] st) with
      | .ok p => p.2 | _ => [],
    fun st => match ddtDivTree.build (termOpsV S 1 (fun n => vecComp i (junk n))
        (([.ddt .implicit Coeff.default, .div .explicit [1, 2] none Coeff.default] : List (TermV ℚ (Vec ℚ))).map (·.map (vecComp i))) st) with
      | .ok p => p.2 | _ => [], fun _ => rfl, fun _ => rfl⟩

/-- The components of a vector field differ from each other, and so do the results. -/
example : (([(1, 2, 3)] : List (Vec ℚ)).map (vecComp 0), ([(1, 2, 3)] : List (Vec ℚ)).map (vecComp 2)) = ([1], [3]) := rfl

end NeoFOAM
