import Verif.Spec.Units
import Verif.Props.C78_Components
import Verif.Proofs.Elem
import Mathlib.Tactic.FieldSimp
import Mathlib.Tactic.Ring

/-!
# Runs in different units (proof side)
-/
namespace NeoFOAM
variable {K : Type}

/-! ### General -/

theorem NR.Rel.strengthen {α β : Type} {R : α → β → Prop} {P : α → Prop} {Q : β → Prop} {X : NR α} {Y : NR β} (h : NR.Rel R X Y)
    (hP : ∀ a, X (.ok a) → P a) (hQ : ∀ b, Y (.ok b) → Q b) : NR.Rel (fun a b => R a b ∧ P a ∧ Q b) X Y := by
  constructor
  · intro o ho
    obtain ⟨o', ho', hr⟩ := h.1 o ho
    refine ⟨o', ho', ?_⟩
    cases o <;> cases o' <;> first | exact hr.elim | exact ⟨hr, hP _ ho, hQ _ ho'⟩ | exact hr
  · intro o' ho'
    obtain ⟨o, ho, hr⟩ := h.2 o' ho'
    refine ⟨o, ho, ?_⟩
    cases o <;> cases o' <;> first | exact hr.elim | exact ⟨hr, hP _ ho, hQ _ ho'⟩ | exact hr

theorem mapM_length {ι α : Type} {f : ι → Res α} : ∀ {l : List ι} {r : List α}, l.mapM f = .ok r → r.length = l.length
  | [], r, h => by cases h; rfl
  | i :: l, r, h => by
    rw [List.mapM_cons] at h
    obtain ⟨y, _, h⟩ := Res.bind_eq_ok.1 h
    obtain ⟨zs, h2, h⟩ := Res.bind_eq_ok.1 h
    cases h
    simp [mapM_length h2]

/-- A loop over a whole array may change the relation between the elements. -/
theorem elemKernel_relS {V W : Type} {R S : V → W → Prop} (e : ExecKind) (n : Nat) {body : Nat → Res (V → V)} {body' : Nat → Res (W → W)}
    (hb : ∀ i < n, Res.Rel (fun f g => ∀ x y, R x y → S (f x) (g y)) (body i) (body' i)) {a : List V} {a' : List W}
    (ha : List.Forall₂ R a a') (hn : a.length = n) : NR.Rel (List.Forall₂ S) (elemKernel e 0 n body a) (elemKernel e 0 n body' a') := by
  unfold elemKernel
  refine NR.Rel.bind ((NR.Rel.lift (mapM_rel (R := fun f g => ∀ x y, R x y → S (f x) (g y)) _ fun i hi => by
    rw [List.mem_range'_1] at hi; exact hb i (by omega))).strengthen (P := fun fs => fs.length = n) (Q := fun _ => True) (fun fs h => ?_) fun _ _ => trivial) fun fs gs hfg => ?_
  · have := mapM_length (show List.mapM body _ = .ok fs from h.symm)
    simpa using this
  obtain ⟨hfg, hl, -⟩ := hfg
  have hn' : a'.length = n := ha.length_eq ▸ hn
  have key : List.Forall₂ S (a.mapIdx fun i x => if 0 ≤ i ∧ i < n then fs.getD (i - 0) id x else x)
      (a'.mapIdx fun i x => if 0 ≤ i ∧ i < n then gs.getD (i - 0) id x else x) := by
    rw [List.forall₂_iff_get]
    refine ⟨by simp [ha.length_eq], fun i h1 h2 => ?_⟩
    simp only [List.length_mapIdx] at h1 h2
    have hi : i < n := by omega
    have hg : i < gs.length := by rw [← hfg.length_eq]; omega
    simp only [List.get_eq_getElem, List.getElem_mapIdx, hi, Nat.zero_le, and_self, if_true, Nat.sub_zero]
    rw [List.getD_eq_getElem _ _ (by omega), List.getD_eq_getElem _ _ hg]
    exact hfg.get (by omega) hg _ _ (ha.get h1 h2)
  constructor
  · intro o ho
    rw [(parElem_det e a 0 n _ (by omega) o).1 ho]
    exact ⟨_, (parElem_det e a' 0 n _ (by omega) _).2 rfl, key⟩
  · intro o ho
    rw [(parElem_det e a' 0 n _ (by omega) o).1 ho]
    exact ⟨_, (parElem_det e a 0 n _ (by omega) _).2 rfl, key⟩

theorem forall₂_true {V W : Type} {a : List V} {b : List W} (h : a.length = b.length) : List.Forall₂ (fun _ _ => True) a b :=
  List.forall₂_iff_get.2 ⟨h, fun _ _ _ => trivial⟩

variable [Field K]

/-- Multiplication by a constant. -/
def mulL (c : K) : OpHom K K K where
  toFun x := c * x
  map_add := mul_add c
  map_sub := mul_sub c
  map_zero := mul_zero c
  map_smul r x := by simp [mul_left_comm]

@[simp] theorem mulL_apply (c x : K) : mulL c x = c * x := rfl

/-! ### Explicit terms -/

section
variable [LinearOrder K] [IsStrictOrderedRing K]

/-- Interpolation to faces: the values of the cells and boundary faces scaled, the sign of the fluxes kept, the old face values arbitrary. -/
theorem interpolateFlux_units (s : InterpScheme) (e : ExecKind) (m m' : Mesh K) (hm : m'.nInternalFaces = m.nInternalFaces ∧ m'.owner = m.owner ∧
    m'.neighbour = m.neighbour) (w flux : List K) {c v : K} (hc : 0 < c) {φ φ' : VolField K K} (hi : φ'.internal = φ.internal.map (v * ·))
    (hb : φ'.bValue = φ.bValue.map (v * ·)) {dst dst' : List K} (hd : dst.length = dst'.length) :
    NR.Rel (List.Forall₂ (Img (v * ·))) (interpolateFlux s e m w flux φ dst) (interpolateFlux s e m' w (flux.map (c * ·)) φ' dst') := by
  obtain ⟨h1, h2, h3⟩ := hm
  cases s with
  | linear =>
    show NR.Rel _ (elemKernel e 0 dst.length _ dst) (elemKernel e 0 dst'.length _ dst')
    rw [← hd]
    refine elemKernel_relS e _ (fun i _ => ?_) (forall₂_true hd) rfl
    unfold linearBody
    rw [h1, h2, h3, hi, hb]
    split
    · same; same; same
      refine Res.Rel.bind (rd_rel (img_list _ _) _) ?_; rintro a _ rfl
      refine Res.Rel.bind (rd_rel (img_list _ _) _) ?_; rintro b _ rfl
      intro x y _
      simp only [Img, smul_eq_mul]; ring
    · same
      refine Res.Rel.bind (rd_rel (img_list _ _) _) ?_; rintro a _ rfl
      intro x y _
      simp only [Img, smul_eq_mul]; ring
  | upwind =>
    show NR.Rel _ (elemKernel e 0 dst.length _ dst) (elemKernel e 0 dst'.length _ dst')
    rw [← hd]
    refine elemKernel_relS e _ (fun i _ => ?_) (forall₂_true hd) rfl
    unfold upwindBody
    rw [h1, h2, h3, hi, hb]
    split
    · refine Res.Rel.bind (rd_rel (img_list (c * ·) flux) _) ?_; rintro f _ rfl
      simp only [mul_nonneg_iff_of_pos_left hc]
      split
      · same
        refine Res.Rel.bind (rd_rel (img_list _ _) _) ?_; rintro b _ rfl
        intro x y _; rfl
      · same
        refine Res.Rel.bind (rd_rel (img_list _ _) _) ?_; rintro b _ rfl
        intro x y _; rfl
    · same
      refine Res.Rel.bind (rd_rel (img_list _ _) _) ?_; rintro a _ rfl
      intro x y _
      simp only [Img, smul_eq_mul]; ring

end

theorem scaleBody_units (scal : Coeff K) (v : List K) {a l : K} (hl : l ≠ 0) (c : Nat) :
    Res.Rel (fun p q => ∀ x y, Img (a * ·) x y → Img (a / l * ·) (p x) (q y)) (scaleBody scal v c : Res (K → K)) (scaleBody scal (v.map (l * ·)) c) := by
  unfold scaleBody
  same
  refine Res.Rel.bind (rd_rel (img_list (l * ·) v) _) ?_; rintro b _ rfl
  rintro x _ rfl
  simp only [Img, smul_eq_mul]
  by_cases hb : b = 0
  · subst hb; simp
  · field_simp

/-- The two Gauss loops and the division by the volumes. -/
theorem computeDiv_units (e : ExecKind) (m : Mesh K) {l : K} (hl : l ≠ 0) (flux phif : List K) (a b : K) (scal : Coeff K) {r r' : List K}
    (hr : List.Forall₂ (Img (a * b * ·)) r r') (hn : r.length = m.cellVolumes.length) :
    NR.Rel (List.Forall₂ (Img (a * b / l ^ 3 * ·))) (computeDiv e m flux phif scal r) (computeDiv e (m.rescale l) (flux.map (a * ·)) (phif.map (b * ·)) scal r') := by
  have H : ∀ i, Res.Rel (Img (mulL (a * b))) (do let x ← rd flux i; let y ← rd phif i; return x • y : Res K)
      (do let x ← rd (flux.map (a * ·)) i; let y ← rd (phif.map (b * ·)) i; return x • y : Res K) := fun i => by
    refine Res.Rel.bind (rd_rel (img_list _ _) _) ?_; rintro x _ rfl
    refine Res.Rel.bind (rd_rel (img_list _ _) _) ?_; rintro y _ rfl
    show _ = _
    simp only [smul_eq_mul, mulL_apply]; ring
  have hl3 : l ^ 3 ≠ 0 := pow_ne_zero _ hl
  cases e
  · refine NR.Rel.bind ((launch1_rel _ _ _ (fun i _ _ => gaussInternalPlain_rel _ m H i) hr).strengthen (P := fun x => x.length = m.cellVolumes.length)
      (Q := fun _ => True) (fun _ h => (launch1_length h).trans hn) fun _ _ => trivial) ?_
    rintro r1 r1' ⟨h1, n1, -⟩
    refine NR.Rel.bind ((launch1_rel _ _ _ (fun i _ _ => gaussBoundaryPlain_rel _ m H i) h1).strengthen (P := fun x => x.length = m.cellVolumes.length)
      (Q := fun _ => True) (fun _ h => (launch1_length h).trans n1) fun _ _ => trivial) ?_
    rintro r2 r2' ⟨h2, n2, -⟩
    simp only [Mesh.rescale, List.length_map]
    exact elemKernel_relS _ _ (fun i _ => scaleBody_units scal _ hl3 i) h2 n2
  · refine NR.Rel.bind ((launch1_rel _ _ _ (fun i _ _ => gaussInternal_rel _ m H i) hr).strengthen (P := fun x => x.length = m.cellVolumes.length)
      (Q := fun _ => True) (fun _ h => (launch1_length h).trans hn) fun _ _ => trivial) ?_
    rintro r1 r1' ⟨h1, n1, -⟩
    refine NR.Rel.bind ((launch1_rel _ _ _ (fun i _ _ => gaussBoundary_rel _ m H i) h1).strengthen (P := fun x => x.length = m.cellVolumes.length)
      (Q := fun _ => True) (fun _ h => (launch1_length h).trans n1) fun _ _ => trivial) ?_
    rintro r2 r2' ⟨h2, n2, -⟩
    simp only [Mesh.rescale, List.length_map]
    exact elemKernel_relS _ _ (fun i _ => scaleBody_units scal _ hl3 i) h2 n2

theorem elemKernel_length {V : Type} {e : ExecKind} {start stop : Nat} {body : Nat → Res (V → V)} {x y : List V} (h : elemKernel e start stop body x (.ok y)) :
    y.length = x.length := by
  obtain ⟨fs, -, l, hl, h⟩ := NR.bind_eq_ok.1 h
  cases hrun : runActs Mem.step (⟨fun _ => x, fun _ => none⟩ : Mem Unit V) l with
  | ok s => rw [hrun] at h; cases h; exact runActs_length l hrun ()
  | throw _ => rw [hrun] at h; exact nomatch h
  | abort => rw [hrun] at h; exact nomatch h
  | ub => rw [hrun] at h; exact nomatch h

variable [LinearOrder K] [IsStrictOrderedRing K] (u : Units K)

theorem Units.len_ne : u.len ≠ 0 := u.len_pos.ne'
theorem Units.time_ne : u.time ≠ 0 := u.time_pos.ne'
theorem Units.flux_pos : 0 < u.flux := div_pos (pow_pos u.len_pos 3) u.time_pos
theorem Units.flux_ne : u.flux ≠ 0 := u.flux_pos.ne'
omit [IsStrictOrderedRing K] in
theorem Units.rate (hl : u.len ≠ 0) : u.flux * u.val / u.len ^ 3 = u.val / u.time := by
  unfold Units.flux; field_simp

/-- A source of `n` cells in new units. -/
def Units.Src (n : Nat) (src src' : List K) : Prop := src.length = n ∧ List.Forall₂ (Img (u.val / u.time * ·)) src src'

theorem addAssign_units (e : ExecKind) {n : Nat} {src src' tmp tmp' : List K} (hs : u.Src n src src') (ht : List.Forall₂ (Img (u.val / u.time * ·)) tmp tmp') :
    NR.Rel (u.Src n) (addAssign e src tmp) (addAssign e src' tmp') := by
  refine ((addAssign_rel (mulL (u.val / u.time)) e hs.2 ht).strengthen (P := fun r => r.length = n) (Q := fun _ => True) (fun r h => ?_) fun _ _ => trivial).mono
    fun a b h => ⟨h.2.1, h.1⟩
  unfold addAssign at h
  split at h
  · exact nomatch h
  · exact (elemKernel_length h).trans hs.1

theorem zeros_units (c : K) (n : Nat) : List.Forall₂ (Img (c * ·)) (List.replicate n (0 : K)) (List.replicate n 0) := by
  refine List.forall₂_iff_get.2 ⟨by simp, fun i h1 h2 => ?_⟩
  simp [Img]

/-- The mesh has a volume for each of its `n` cells. -/
theorem divExplicit_units (e : ExecKind) (m : Mesh K) (s : InterpScheme) (w : List K) (junk junk' : Nat → K) (flux : List K)
    {φ φ' : VolField K K} (hi : φ'.internal = φ.internal.map (u.val * ·)) (hb : φ'.bValue = φ.bValue.map (u.val * ·)) (c : Coeff K) {src src' : List K}
    (hs : u.Src m.cellVolumes.length src src') :
    NR.Rel (u.Src m.cellVolumes.length) (divExplicit e m (some s) w junk flux φ c src)
      (divExplicit e (m.rescale u.len) (some s) w junk' (flux.map (u.flux * ·)) φ' c src') := by
  refine NR.Rel.bind (R := List.Forall₂ (Img (u.val / u.time * ·))) ?_ fun tmp tmp' ht => addAssign_units u e hs ht
  refine NR.Rel.bind (interpolateFlux_units s e m (m.rescale u.len) ⟨rfl, rfl, rfl⟩ w flux u.flux_pos hi hb (by simp [Mesh.rescale])) fun f f' hf => ?_
  rw [img_map hf, ← hs.2.length_eq, ← u.rate u.len_ne]
  exact computeDiv_units e m u.len_ne flux f _ _ c (zeros_units _ _) (by simp [hs.1])

theorem surfaceIntegrate_units (e : ExecKind) (m : Mesh K) (flux : List K) (c : Coeff K) {src src' : List K}
    (hs : u.Src m.cellVolumes.length src src') :
    NR.Rel (u.Src m.cellVolumes.length) (surfaceIntegrateExplicit e m flux c src)
      (surfaceIntegrateExplicit e (m.rescale u.len) (flux.map (u.val * u.flux * ·)) c src') := by
  refine NR.Rel.bind (R := List.Forall₂ (Img (u.val / u.time * ·))) ?_ fun tmp tmp' ht => addAssign_units u e hs ht
  have H : ∀ i, Res.Rel (Img (mulL (u.flux * u.val))) (rd flux i) (rd (flux.map (u.val * u.flux * ·)) i) := fun i =>
    (rd_rel (img_list _ _) i).mono fun _ _ h => by simp only [Img] at h; simp [Img, h, mul_comm u.flux]
  rw [← hs.2.length_eq, ← u.rate u.len_ne]
  refine NR.Rel.bind ((launch1_rel _ _ _ (fun i _ _ => gaussInternal_rel _ m H i) (zeros_units _ _)).strengthen
    (P := fun x => x.length = m.cellVolumes.length) (Q := fun _ => True) (fun _ h => (launch1_length h).trans (by simp [hs.1])) fun _ _ => trivial) ?_
  rintro r1 r1' ⟨h1, n1, -⟩
  refine NR.Rel.bind ((launch1_rel _ _ _ (fun i _ _ => gaussBoundary_rel _ m H i) h1).strengthen
    (P := fun x => x.length = m.cellVolumes.length) (Q := fun _ => True) (fun _ h => (launch1_length h).trans n1) fun _ _ => trivial) ?_
  rintro r2 r2' ⟨h2, n2, -⟩
  simp only [Mesh.rescale, List.length_map]
  exact elemKernel_relS _ _ (fun i _ => scaleBody_units c _ (pow_ne_zero _ u.len_ne) i) h2 n2

theorem sourceExplicit_units (e : ExecKind) (n : Nat) (k : List K) {φ φ' : VolField K K} (hi : φ'.internal = φ.internal.map (u.val * ·)) (c : Coeff K)
    {src src' : List K} (hs : u.Src n src src') :
    NR.Rel (u.Src n) (sourceExplicit e k φ c src) (sourceExplicit e (k.map (u.time⁻¹ * ·)) φ' c src') := by
  refine (NR.Rel.strengthen (P := fun r => r.length = n) (Q := fun _ => True) (R := List.Forall₂ (Img (u.val / u.time * ·))) ?_
    (fun r h => (elemKernel_length h).trans hs.1) fun _ _ => trivial).mono fun a b h => ⟨h.2.1, h.1⟩
  unfold sourceExplicit
  rw [← hs.2.length_eq]
  refine elemKernel_rel _ _ _ (fun i _ _ => ?_) hs.2
  same
  refine Res.Rel.bind (rd_rel (img_list _ _) _) ?_; rintro x _ rfl
  rw [hi]
  refine Res.Rel.bind (rd_rel (img_list _ _) _) ?_; rintro y _ rfl
  rintro z _ rfl
  have := u.time_ne
  simp only [Img, smul_eq_mul]
  field_simp

/-! ### Assembly -/

/-- How the arrays of two systems are related. -/
def Units.lsArr : LSArr → K
  | .values => u.flux
  | .rhs => u.val * u.flux

/-- One assembly loop. -/
theorem launchLS_units (e : ExecKind) (start stop : Nat) {body body' : Nat → Res (List (Act LSArr K))}
    (hb : ∀ i, start ≤ i → i < stop → Res.Rel (ThreadRel (fun a _ x y => y = u.lsArr a * x) i none) (body i) (body' i)) (ls : LinearSystem K) :
    NR.Rel (fun a b => b = u.system a) (launchLS e start stop body ls) (launchLS e start stop body' (u.system ls)) := by
  have hmap : ∀ (a : LSArr) (l l' : List K), ListRel (fun _ x y => y = u.lsArr a * x) l l' → l' = l.map (u.lsArr a * ·) := fun a l l' h => by
    apply List.ext_getElem
    · simp [h.1]
    · intro i h1 h2
      rw [List.getElem_map]
      exact h.2 i (h.1 ▸ h1) h1
  refine NR.Rel.bind (launch_relAt (R := fun a _ x y => y = u.lsArr a * x) e start stop hb fun a => ?_) fun f g hfg => NR.Rel.pure ?_
  · cases a <;> exact ⟨by simp [Units.system], fun i h1 h2 => by simp [Units.system, Units.lsArr]⟩
  · have h1 := hmap .values _ _ (hfg .values)
    have h2 := hmap .rhs _ _ (hfg .rhs)
    simp only [Units.system, h1, h2, Units.lsArr]

/-- Two accesses of a thread that keep the relation. -/
theorem plain_units {t : Nat} {a : LSArr} {i : Nat} {f g : K → K} (h : ∀ x, g (u.lsArr a * x) = u.lsArr a * f x) :
    ThreadRel (fun a _ x y => y = u.lsArr a * x) t none (Act.plain t a i f) (Act.plain t a i g) :=
  ThreadRel.plain fun x y hxy => by rw [hxy]; exact h x

theorem atomic_units {t : Nat} {a : LSArr} {i : Nat} {v w : K} (h : w = u.lsArr a * v) :
    ThreadRel (fun a _ x y => y = u.lsArr a * x) t none [Act.atomicSub a i v] [Act.atomicSub a i w] :=
  .rmw (fun x y hxy => by simp only [hxy, h]; ring) (.nil _)

theorem computeDivImp_units (e : ExecKind) (m : Mesh K) (sp : SparsityPattern) (flux : List K) {φ φ' : VolField K K} (hr : φ'.bRefValue = φ.bRefValue.map (u.val * ·))
    (hv : φ'.bVF = φ.bVF) (c : Coeff K) (ls : LinearSystem K) :
    NR.Rel (fun a b => b = u.system a) (computeDivImp e m sp flux φ c ls) (computeDivImp e (m.rescale u.len) sp (flux.map (u.flux * ·)) φ' c (u.system ls)) := by
  refine NR.Rel.bind (launchLS_units u e _ _ (fun f _ _ => ?_) ls) ?_
  · unfold divImpInternal
    refine Res.Rel.bind (rd_rel (img_list _ _) _) ?_; rintro fl _ rfl
    simp only [mul_nonneg_iff_of_pos_left u.flux_pos]
    same; same; same; same; same; same; same; same; same; same
    refine ((((plain_units u fun x => ?_).append (atomic_units u ?_)).append (plain_units u fun x => ?_)).append (atomic_units u ?_)) <;>
      simp only [Units.lsArr] <;> ring
  · rintro ls1 _ rfl
    rw [List.length_map]
    refine launchLS_units u e _ _ (fun f _ _ => ?_) ls1
    unfold divImpBoundary
    refine Res.Rel.bind (rd_rel (img_list _ _) _) ?_; rintro fl _ rfl
    rw [hv, hr]
    same; same; same; same; same
    refine Res.Rel.bind (rd_rel (img_list _ _) _) ?_; rintro r _ rfl
    refine (plain_units u fun x => ?_).append (plain_units u fun x => ?_) <;> simp only [Units.lsArr] <;> ring

omit [Field K] [LinearOrder K] [IsStrictOrderedRing K] in
/-- Read something both runs share and remember where it came from. -/
theorem rd_known (l : List K) (i : Nat) : Res.Rel (fun x y => y = x ∧ l[i]? = some x) (rd l i) (rd l i) := by
  unfold rd
  cases l[i]? with
  | some x => exact ⟨rfl, rfl⟩
  | none => trivial

theorem computeLaplacianImpl_units (e : ExecKind) (m : Mesh K) (sp : SparsityPattern) (δ gamma : List K) {φ φ' : VolField K K} (h : φ.In u φ')
    (c : Coeff K) (ls : LinearSystem K) :
    NR.Rel (fun a b => b = u.system a) (computeLaplacianImpl e m sp δ gamma φ c ls)
      (computeLaplacianImpl e (m.rescale u.len) sp (δ.map (u.len⁻¹ * ·)) (gamma.map (u.len ^ 2 / u.time * ·)) φ' c (u.system ls)) := by
  have hl := u.len_ne
  have ht := u.time_ne
  refine NR.Rel.bind (launchLS_units u e _ _ (fun f _ _ => ?_) ls) ?_
  · unfold lapImpInternal
    refine Res.Rel.bind (rd_rel (img_list _ _) _) ?_; rintro d _ rfl
    refine Res.Rel.bind (rd_rel (img_list _ _) _) ?_; rintro g _ rfl
    refine Res.Rel.bind (rd_rel (img_list _ _) _) ?_; rintro a _ rfl
    same; same; same; same; same; same; same; same; same; same
    refine ((((plain_units u fun x => ?_).append (atomic_units u ?_)).append (plain_units u fun x => ?_)).append (atomic_units u ?_)) <;>
      simp only [Units.lsArr, Units.flux] <;> field_simp
  · rintro ls1 _ rfl
    rw [List.length_map]
    refine launchLS_units u e _ _ (fun f _ _ => ?_) ls1
    unfold lapImpBoundary
    refine Res.Rel.bind (rd_rel (img_list _ _) _) ?_; rintro g _ rfl
    refine Res.Rel.bind (rd_rel (img_list _ _) _) ?_; rintro a _ rfl
    rw [h.bRefValue, h.bVF]
    same; same; same; same
    refine Res.Rel.bind (rd_known _ _) ?_; rintro vf _ ⟨rfl, hvf⟩
    refine Res.Rel.bind (rd_rel (img_list _ _) _) ?_; rintro d _ rfl
    refine Res.Rel.bind (rd_rel (img_list _ _) _) ?_; rintro r _ rfl
    refine Res.Rel.bind (h.bRefGrad.rd _) fun rg rg' hg => ?_
    refine (plain_units u fun x => ?_).append (plain_units u fun x => ?_)
    · simp only [Units.lsArr, Units.flux]; field_simp
    · simp only [Units.lsArr, Units.flux]
      rcases hg with rfl | hg
      · field_simp
      · rw [hvf] at hg
        cases hg
        field_simp
        ring

theorem ddtImplicit_units (e : ExecKind) (m : Mesh K) (sp : SparsityPattern) (old : List K) (c : Coeff K) (dt : K) (ls : LinearSystem K) :
    NR.Rel (fun a b => b = u.system a) (ddtImplicit e m sp old c dt ls)
      (ddtImplicit e (m.rescale u.len) sp (old.map (u.val * ·)) c (u.time * dt) (u.system ls)) := by
  have hl := u.len_ne
  have ht := u.time_ne
  unfold ddtImplicit
  rw [List.length_map]
  refine launchLS_units u e _ _ (fun f _ _ => ?_) ls
  unfold ddtImpBody
  same; same; same
  refine Res.Rel.bind (rd_rel (img_list _ _) _) ?_; rintro v _ rfl
  refine Res.Rel.bind (rd_rel (img_list _ _) _) ?_; rintro o _ rfl
  refine (plain_units u fun x => ?_).append (plain_units u fun x => ?_) <;> simp only [Units.lsArr, Units.flux, one_div, mul_inv] <;> field_simp

theorem sourceImplicit_units (e : ExecKind) (m : Mesh K) (sp : SparsityPattern) (k : List K) (c : Coeff K) (ls : LinearSystem K) :
    NR.Rel (fun a b => b = u.system a) (sourceImplicit e m sp k c ls)
      (sourceImplicit e (m.rescale u.len) sp (k.map (u.time⁻¹ * ·)) c (u.system ls)) := by
  have hl := u.len_ne
  have ht := u.time_ne
  unfold sourceImplicit
  rw [List.length_map]
  refine launchLS_units u e _ _ (fun f _ _ => ?_) ls
  unfold sourceImpBody
  same; same; same
  refine Res.Rel.bind (rd_rel (img_list _ _) _) ?_; rintro v _ rfl
  refine Res.Rel.bind (rd_rel (img_list _ _) _) ?_; rintro o _ rfl
  refine plain_units u fun x => ?_
  simp only [Units.lsArr, Units.flux]; field_simp

/-! ### Boundary conditions -/

/-- How the value arrays of two fields are related; the reference gradients of faces in `bad` are left open. -/
def Units.bRel (bad : Nat → Prop) : BArr → Nat → K → K → Prop
  | .refGrad, i, x, y => y = u.val / u.len * x ∨ bad i
  | _, _, x, y => y = u.val * x

/-- Only `g` is written to the reference gradient of face `i`. -/
def GradSet (body : Nat → Res (List (Act BArr K))) (g : K) : Prop :=
  ∀ i acts, body i = .ok acts → Act.write .refGrad i g ∈ acts ∧ ∀ x ∈ acts, x.loc.1 = .refGrad → x = Act.write .refGrad i g

omit [Field K] [LinearOrder K] [IsStrictOrderedRing K] in
theorem launch_gradSet {e : ExecKind} {start stop : Nat} {body : Nat → Res (List (Act BArr K))} {g : K} (hg : GradSet body g) {arrs f : BArr → List K}
    (h : launch e start stop body arrs (.ok f)) {i : Nat} (h1 : start ≤ i) (h2 : i < stop) : (f .refGrad)[i]? = some g := by
  obtain ⟨l, s, hrun, rfl, hl⟩ := launch_run h
  refine runActs_const l (v := g) (fun x hx hloc => ?_) (.inl ?_) hrun
  · obtain ⟨j, acts, _, _, hj, hx⟩ := (hl x).1 hx
    have := (hg j acts hj).2 x hx (by rw [hloc])
    rw [this] at hloc ⊢
    cases hloc
    rfl
  · have hb : ∃ acts, body i = .ok acts := by
      obtain ⟨r, hr, ho⟩ := h
      generalize hX : (List.range' start (stop - start)).mapM body = t at hr
      cases t with
      | ok ts =>
        obtain ⟨y, _, h4⟩ := mapM_mem hX i (by rw [List.mem_range'_1]; omega)
        exact ⟨y, h4⟩
      | throw _ => cases hr; exact nomatch ho
      | abort => cases hr; exact nomatch ho
      | ub => cases hr; exact nomatch ho
    obtain ⟨acts, ha⟩ := hb
    exact (hl _).2 ⟨i, acts, h1, h2, ha, (hg i acts ha).1⟩

omit [Field K] [LinearOrder K] [IsStrictOrderedRing K] in
theorem launch_vf {e : ExecKind} {start stop : Nat} {vf : K} {a f : List K} (h : launch1 e start stop (fun i => .ok [Act.write () i vf]) a (.ok f)) (i : Nat) :
    (start ≤ i ∧ i < stop → f[i]? = some vf) ∧ (¬ (start ≤ i ∧ i < stop) → f[i]? = a[i]?) := by
  obtain ⟨r, h3, h2⟩ := NR.bind_eq_ok.1 h
  clear h
  cases h2
  obtain ⟨l, s, hrun, hs, hl⟩ := launch_run h3
  subst hs
  constructor
  · rintro ⟨h1, h2⟩
    refine runActs_const l (v := vf) (fun x hx hloc => ?_) (.inl ((hl _).2 ⟨i, _, h1, h2, rfl, by simp⟩)) hrun
    obtain ⟨j, acts, _, _, hj, hx⟩ := (hl x).1 hx
    cases hj
    rw [List.mem_singleton] at hx
    subst hx
    cases hloc
    rfl
  · intro hn
    refine runActs_frame l (fun x hx hloc => ?_) hrun
    obtain ⟨j, acts, h1, h2, hj, hx⟩ := (hl x).1 hx
    cases hj
    rw [List.mem_singleton] at hx
    subst hx
    cases hloc
    exact hn ⟨h1, h2⟩

omit [LinearOrder K] [IsStrictOrderedRing K] in
theorem listRel_map {c : K} {l l' : List K} (h : ListRel (fun _ x y => y = c * x) l l') : l' = l.map (c * ·) := by
  apply List.ext_getElem
  · simp [h.1]
  · intro i h1 h2
    rw [List.getElem_map]
    exact h.2 i (h.1 ▸ h1) h1

omit [LinearOrder K] [IsStrictOrderedRing K] in
theorem listRel_of_map {c : K} {l l' : List K} (h : l' = l.map (c * ·)) : ListRel (fun _ x y => y = c * x) l l' := by
  subst h
  exact ⟨by simp, fun i h1 h2 => by simp⟩

omit [IsStrictOrderedRing K] in
theorem bcKernel_units (e : ExecKind) (p : Patch) {body body' : Nat → Res (List (Act BArr K))} (vf : K) {φ φ' : VolField K K} (h : φ.In u φ')
    (hb : ∀ i, p.range.1 ≤ i → i < p.range.2 →
      Res.Rel (ThreadRel (u.bRel fun i => (p.range.1 ≤ i ∧ i < p.range.2) ∨ φ.bVF[i]? = some 1) i none) (body i) (body' i))
    (hg : vf = 1 ∨ ∃ g, GradSet body g ∧ GradSet body' (u.val / u.len * g)) :
    NR.Rel (fun a b => a.In u b ∧ a.internal.length = φ.internal.length) (bcKernel e p body vf φ) (bcKernel e p body' vf φ') := by
  set bad : Nat → Prop := fun i => (p.range.1 ≤ i ∧ i < p.range.2) ∨ φ.bVF[i]? = some 1
  refine NR.Rel.bind ((launch_relAt (R := u.bRel bad) e _ _ hb fun a => ?_).strengthen
    (P := fun f => (f .internal).length = φ.internal.length ∧ (vf = 1 ∨ ∃ g, ∀ i, p.range.1 ≤ i → i < p.range.2 → (f .refGrad)[i]? = some g ∧ GradSet body g ∧ GradSet body' (u.val / u.len * g)))
    (Q := fun f => vf = 1 ∨ ∀ g, GradSet body' g → ∀ i, p.range.1 ≤ i → i < p.range.2 → (f .refGrad)[i]? = some g) (fun f hf => ⟨launch_length hf .internal, ?_⟩) fun f hf => ?_) ?_
  · cases a with
    | value => exact listRel_of_map h.bValue
    | refValue => exact listRel_of_map h.bRefValue
    | internal => exact listRel_of_map h.internal
    | refGrad => exact ⟨h.bRefGrad.1, fun i h1 h2 => (h.bRefGrad.2 i h1 h2).imp id .inr⟩
  · rcases hg with hg | ⟨g, h1, h2⟩
    · exact .inl hg
    · exact .inr ⟨g, fun i hi hi' => ⟨launch_gradSet h1 hf hi hi', h1, h2⟩⟩
  · exact .inr fun g hg i hi hi' => launch_gradSet hg hf hi hi'
  · rintro f f' ⟨hff, ⟨hlen, hP⟩, hQ⟩
    rw [h.bVF]
    refine NR.Rel.bind ((NR.Rel.refl (R := (· = ·)) (fun _ => rfl) (launch1 e p.range.1 p.range.2 (fun i => .ok [Act.write () i vf]) φ.bVF)).strengthen
      (P := fun v => ∀ i, (p.range.1 ≤ i ∧ i < p.range.2 → v[i]? = some vf) ∧ (¬ (p.range.1 ≤ i ∧ i < p.range.2) → v[i]? = φ.bVF[i]?))
      (Q := fun _ => True) (fun v hv i => launch_vf hv i) fun _ _ => trivial) ?_
    rintro v _ ⟨rfl, hv, -⟩
    refine NR.Rel.pure ⟨⟨listRel_map (hff .internal), listRel_map (hff .value), listRel_map (hff .refValue), rfl, ?_⟩, hlen⟩
    have hG := hff .refGrad
    refine ⟨hG.1, fun i h1 h2 => ?_⟩
    rcases hG.2 i h1 h2 with he | he
    · exact .inl he
    · by_cases hr : p.range.1 ≤ i ∧ i < p.range.2
      · rcases hP with hP | ⟨g, hP⟩
        · exact .inr (by rw [(hv i).1 hr, hP])
        · obtain ⟨e1, _, e3⟩ := hP i hr.1 hr.2
          rcases hQ with hQ | hQ
          · exact .inr (by rw [(hv i).1 hr, hQ])
          · have e2 := hQ _ e3 i hr.1 hr.2
            rw [List.getElem?_eq_getElem h1] at e1
            rw [List.getElem?_eq_getElem h2] at e2
            exact .inl (by rw [Option.some.inj e1, Option.some.inj e2])
      · rcases he with he | he
        · exact absurd he hr
        · exact .inr (by rw [(hv i).2 hr, he])

theorem correct_units (e : ExecKind) (m : Mesh K) (b : VolumeBoundary K) {φ φ' : VolField K K} (h : φ.In u φ') :
    NR.Rel (fun a b => a.In u b ∧ a.internal.length = φ.internal.length) (b.correct e m φ) ((u.bc b).correct e (m.rescale u.len) φ') := by
  obtain ⟨p, k⟩ := b
  cases k with
  | fixedValue v =>
    refine bcKernel_units u e p 1 h (fun i h1 h2 => ?_) (.inl rfl)
    exact Res.Rel.ok (.write rfl (.write rfl (.write (.inr (.inl ⟨h1, h2⟩)) (.nil _))))
  | fixedGradient g =>
    refine bcKernel_units u e p 0 h (fun i h1 h2 => ?_) (.inr ⟨g, ?_, ?_⟩)
    · unfold fixedGradientBody
      rw [h.internal]
      same
      refine Res.Rel.bind (rd_rel (img_list _ _) _) ?_; rintro x _ rfl
      refine Res.Rel.bind (rd_rel (img_list _ _) _) ?_; rintro d _ rfl
      refine .write (.inl rfl) (.write ?_ (.write ?_ (.nil _)))
      · have := u.len_ne
        simp only [Units.bRel, smul_eq_mul, one_div, mul_inv, inv_inv]
        field_simp
      · simp [Units.bRel]
    · intro i acts ha
      obtain ⟨c, _, ha⟩ := Res.bind_eq_ok.1 ha
      obtain ⟨x, _, ha⟩ := Res.bind_eq_ok.1 ha
      obtain ⟨d, _, ha⟩ := Res.bind_eq_ok.1 ha
      cases ha
      exact ⟨by simp, by simp [Act.write, Act.loc]⟩
    · intro i acts ha
      obtain ⟨c, _, ha⟩ := Res.bind_eq_ok.1 ha
      obtain ⟨x, _, ha⟩ := Res.bind_eq_ok.1 ha
      obtain ⟨d, _, ha⟩ := Res.bind_eq_ok.1 ha
      cases ha
      exact ⟨by simp, by simp [Act.write, Act.loc]⟩
  | extrapolated =>
    refine bcKernel_units u e p 1 h (fun i h1 h2 => ?_) (.inl rfl)
    unfold extrapolatedBody
    rw [h.internal]
    same
    refine Res.Rel.bind (rd_rel (img_list _ _) _) ?_; rintro x _ rfl
    exact .write rfl (.write rfl (.write (.inr (.inl ⟨h1, h2⟩)) (.nil _)))
  | calculated => exact NR.Rel.pure ⟨h, rfl⟩
  | empty => exact NR.Rel.pure ⟨h, rfl⟩

theorem correctBCs_units (e : ExecKind) (m : Mesh K) : ∀ (bcs : List (VolumeBoundary K)) {φ φ' : VolField K K}, φ.In u φ' →
    NR.Rel (fun a b => a.In u b ∧ a.internal.length = φ.internal.length) (correctBoundaryConditions e m bcs φ)
      (correctBoundaryConditions e (m.rescale u.len) (bcs.map u.bc) φ')
  | [], _, _, h => NR.Rel.pure ⟨h, rfl⟩
  | b :: bs, φ, φ', h => by
    refine NR.Rel.bind (correct_units u e m b h) fun ψ ψ' hψ => ?_
    exact (correctBCs_units e m bs hψ.1).mono fun _ _ h => ⟨h.1, h.2.trans hψ.2⟩

/-! ### Operators -/

/-- Operators of the same terms in the two units. -/
abbrev Units.OpRel (n : Nat) : OpModel K K → OpModel K K → Prop :=
  OpSim (fun t dt t' dt' => t' = u.time * t ∧ dt' = u.time * dt) (u.Src n) (fun a b => b = u.system a)

omit [IsStrictOrderedRing K] in
theorem field_in (φ : VolField K K) : φ.In u (u.field φ) :=
  ⟨rfl, rfl, rfl, rfl, by simp [Units.field], fun i h1 h2 => .inl (by simp [Units.field])⟩

omit [IsStrictOrderedRing K] in
theorem getD_in (of : Option (VolField K K)) {φ φ' : VolField K K} (h : φ.In u φ') : (of.getD φ).In u ((of.map u.field).getD φ') := by
  cases of with
  | none => exact h
  | some ψ => exact field_in u ψ

omit [IsStrictOrderedRing K] in
theorem oldTime_in {st st' : TimeState K K} (h : st.In u st') : st'.oldTime = st.oldTime.map (u.val * ·) := by
  unfold TimeState.oldTime
  rw [h.old, h.sol.internal]
  cases st.old <;> rfl

/-- The setting in new units. -/
def Units.setting (S : Setting K) (junk' : Nat → K) : Setting K :=
  ⟨S.e, S.m.rescale u.len, S.sp, S.sch, S.w, S.δ.map (u.len⁻¹ * ·), junk'⟩

theorem Call.op_units (S : Setting K) (junk' : Nat → K) (c : Call K) {st st' : TimeState K K} (h : st.In u st') :
    u.OpRel S.m.cellVolumes.length (c.op S st) ((u.call c).op (u.setting S junk') st') := by
  cases c with
  | expDiv flux of =>
    refine ⟨rfl, rfl, fun _ => .some fun c t dt t' dt' src src' _ hs => ?_, fun h => nomatch h⟩
    exact divExplicit_units u S.e S.m S.sch S.w S.junk junk' flux (getD_in u of h.sol).internal (getD_in u of h.sol).bValue c hs
  | expFlux flux =>
    refine ⟨rfl, rfl, fun _ => .some fun c t dt t' dt' src src' _ hs => ?_, fun h => nomatch h⟩
    exact surfaceIntegrate_units u S.e S.m flux c hs
  | expSource k of =>
    refine ⟨rfl, rfl, fun _ => .some fun c t dt t' dt' src src' _ hs => ?_, fun h => nomatch h⟩
    exact sourceExplicit_units u S.e _ k (getD_in u of h.sol).internal c hs
  | impDdt =>
    refine ⟨rfl, rfl, (fun h => nomatch h), fun _ => .some ?_⟩
    rintro c t dt _ _ ls _ ⟨rfl, rfl⟩ rfl
    rw [oldTime_in u h]
    exact ddtImplicit_units u S.e S.m S.sp st.oldTime c dt ls
  | impSource k of =>
    refine ⟨rfl, rfl, (fun h => nomatch h), fun _ => .some ?_⟩
    rintro c t dt _ _ ls _ ⟨rfl, rfl⟩ rfl
    exact sourceImplicit_units u S.e S.m S.sp k c ls
  | impDiv flux of =>
    refine ⟨rfl, rfl, (fun h => nomatch h), fun _ => .some ?_⟩
    rintro c t dt _ _ ls _ ⟨rfl, rfl⟩ rfl
    exact computeDivImp_units u S.e S.m S.sp flux (getD_in u of h.sol).bRefValue (getD_in u of h.sol).bVF c ls
  | impLaplacian gamma of =>
    refine ⟨rfl, rfl, (fun h => nomatch h), fun _ => .some ?_⟩
    rintro c t dt _ _ ls _ ⟨rfl, rfl⟩ rfl
    exact computeLaplacianImpl_units u S.e S.m S.sp S.δ gamma (getD_in u of h.sol) c ls

theorem callOps_units (S : Setting K) (junk' : Nat → K) (calls : List (Call K)) {st st' : TimeState K K} (h : st.In u st') :
    List.Forall₂ (u.OpRel S.m.cellVolumes.length) (callOps S calls st) (callOps (u.setting S junk') (calls.map u.call) st') := by
  unfold callOps
  rw [List.map_map, List.forall₂_map_left_iff, List.forall₂_map_right_iff, List.forall₂_same]
  exact fun c _ => Call.op_units u S junk' c h

/-! ### Time steps and steady solutions -/

/-- Fields with a value for each of `n` cells. -/
def TimeState.Sized (n : Nat) (st : TimeState K K) : Prop := st.sol.internal.length = n ∧ ∀ o ∈ st.old, o.length = n

/-- The two states of a run. -/
def Units.StRel (n : Nat) (st st' : TimeState K K) : Prop := st.In u st' ∧ st.Sized n

omit [IsStrictOrderedRing K] in
theorem oldTime_sized {n : Nat} {st : TimeState K K} (h : st.Sized n) : st.oldTime.length = n := by
  unfold TimeState.oldTime
  cases ho : st.old with
  | none => exact h.1
  | some o => exact h.2 o ho

section steps
variable {n : Nat} {ops ops' : OpsOf K K} (ho : ∀ st st', st.In u st' → List.Forall₂ (u.OpRel n) (ops st) (ops' st')) (eqn : Expr)
  {st st' : TimeState K K} (h : u.StRel n st st')
include ho h

omit h in
theorem explicitN_units {st st' : TimeState K K} (h : st.In u st') :
    NR.Rel (u.Src n) (eqn.explicitOperationN (ops st) n) (eqn.explicitOperationN (ops' st') n) :=
  explicit_sim (T := fun t dt t' dt' => t' = u.time * t ∧ dt' = u.time * dt) (by simp) eqn (ho st st' h) ⟨by simp, zeros_units _ _⟩

theorem forwardEuler_units (e : ExecKind) (m : Mesh K) (bcs : List (VolumeBoundary K)) (dt : K) :
    NR.Rel (u.StRel n) (forwardEuler e m bcs ops eqn st dt) (forwardEuler e (m.rescale u.len) (bcs.map u.bc) ops' eqn st' (u.time * dt)) := by
  have hn : st.sol.internal.length = n := h.2.1
  have hn' : st'.sol.internal.length = n := by rw [h.1.sol.internal, List.length_map, hn]
  unfold forwardEuler
  rw [hn, hn']
  refine NR.Rel.bind (explicitN_units u ho eqn h.1) fun src src' hs => ?_
  refine NR.Rel.bind (R := List.Forall₂ (Img (mulL u.val))) ?_ fun a a' ha => ?_
  · unfold scaleField
    rw [← hs.2.length_eq]
    refine elemKernel_relS e _ (fun i _ => ?_) hs.2 rfl
    rintro x _ rfl
    have := u.time_ne
    simp only [Img, smul_eq_mul, mulL_apply]
    field_simp
  rw [oldTime_in u h.1]
  refine NR.Rel.bind ((subField_rel (mulL u.val) e (img_list (mulL u.val) _) ha).strengthen (P := fun r => r.length = n) (Q := fun _ => True) (fun r hr => ?_)
    fun _ _ => trivial) fun b b' hb => ?_
  · unfold subField at hr
    split at hr
    · exact nomatch hr
    · exact (elemKernel_length hr).trans (oldTime_sized h.2)
  have hin : VolField.In u { st.sol with internal := b } { st'.sol with internal := b' } :=
    ⟨img_map hb.1, h.1.sol.bValue, h.1.sol.bRefValue, h.1.sol.bVF, h.1.sol.bRefGrad⟩
  refine NR.Rel.bind (correctBCs_units u e m bcs hin) fun φ φ' hφ => NR.Rel.pure ⟨⟨hφ.1, ?_⟩, ?_, ?_⟩
  · simp [hφ.1.internal]
  · exact hφ.2.trans hb.2.1
  · rintro o ho
    cases ho
    exact hφ.2.trans hb.2.1

omit ho h in
theorem empty_units (sp : SparsityPattern) : Res.Rel (fun a b => b = u.system a) (createEmptyLinearSystem sp : Res (LinearSystem K)) (createEmptyLinearSystem sp) := by
  unfold createEmptyLinearSystem LinearSystem.mk'
  simp only [List.length_replicate]
  split <;> simp [Res.Rel, Units.system]

omit ho h in
/-- A solver of the table on the two systems. -/
theorem solver_units {table : SolverTable K} (hT : table.UnitFree u) (d : Dict) (ls : LinearSystem K) (x : List K) {γ : Type} {S : γ → γ → Prop}
    {k k' : List K → NR γ} (hk : ∀ a, a.length = x.length → NR.Rel S (k a) (k' (a.map (u.val * ·)))) :
    NR.Rel S (do let s ← NR.lift (createSolver table d); let y ← s ls x; k y)
      (do let s ← NR.lift (createSolver table d); let y ← s (u.system ls) (x.map (u.val * ·)); k' y) := by
  refine NR.Rel.bind (R := fun s s' => ∀ ls x, (∀ y, s ls x (.ok y) → y.length = x.length) ∧ NR.Rel (fun a b => b = a.map (u.val * ·)) (s ls x)
    (s' (u.system ls) (x.map (u.val * ·)))) (NR.Rel.lift ?_) fun s s' hs => ?_
  · unfold createSolver
    same
    rename_i key
    cases key <;> try trivial
    rename_i name
    simp only
    cases hf : AMap.find? table name with
    | none => trivial
    | some f => exact hT name f hf d
  · refine NR.Rel.bind ((hs ls x).2.strengthen (P := fun y => y.length = x.length) (Q := fun _ => True) (hs ls x).1 fun _ _ => trivial) ?_
    rintro a _ ⟨rfl, ha, -⟩
    exact hk a ha

theorem backwardEuler_units (e : ExecKind) (m : Mesh K) {table : SolverTable K} (hT : table.UnitFree u) (d : Dict) (t dt : K) :
    NR.Rel (u.StRel n) (backwardEuler e m table d ops eqn st t dt) (backwardEuler e (m.rescale u.len) table d ops' eqn st' (u.time * t) (u.time * dt)) := by
  have hn : st.sol.internal.length = n := h.2.1
  have hn' : st'.sol.internal.length = n := by rw [h.1.sol.internal, List.length_map, hn]
  unfold backwardEuler
  rw [hn, hn']
  refine NR.Rel.bind (explicitN_units u ho eqn h.1) fun _ _ _ => ?_
  have h1 : TimeState.In u ⟨st.sol, some st.oldTime⟩ ⟨st'.sol, some st'.oldTime⟩ := ⟨h.1.sol, by simp [oldTime_in u h.1]⟩
  refine NR.Rel.bind (R := fun a b => b = u.system a) ?_ ?_
  · refine NR.Rel.bind (NR.Rel.refl (R := (· = ·)) (fun _ => rfl) _) ?_
    rintro sp _ rfl
    refine NR.Rel.bind (NR.Rel.lift (empty_units u sp)) fun ls ls' hls => ?_
    refine NR.Rel.bind (implicit_sim (T := fun t dt t' dt' => t' = u.time * t ∧ dt' = u.time * dt) (by simp) eqn (ho _ _ h1) hls) fun ls1 ls1' hls1 => ?_
    exact implicitT_sim (T := fun t dt t' dt' => t' = u.time * t ∧ dt' = u.time * dt) ⟨rfl, rfl⟩ eqn (ho _ _ h1) hls1
  · rintro ls _ rfl
    rw [show (TimeState.mk st'.sol (some st'.oldTime)).sol.internal = st.sol.internal.map (u.val * ·) from h1.sol.internal]
    refine solver_units (S := u.StRel n) (k := fun x => pure ⟨{ st.sol with internal := x }, some x⟩) (k' := fun x => pure ⟨{ st'.sol with internal := x }, some x⟩)
      u hT d ls _ fun a ha => NR.Rel.pure ⟨⟨⟨rfl, h.1.sol.bValue, h.1.sol.bRefValue, h.1.sol.bVF, h.1.sol.bRefGrad⟩, rfl⟩, ha.trans hn, ?_⟩
    rintro o ho
    cases ho
    exact ha.trans hn

theorem solveSteady_units (e : ExecKind) (m : Mesh K) (hm : m.nCells = n) {table : SolverTable K} (hT : table.UnitFree u) (d : Dict) :
    NR.Rel (u.StRel n) (solveSteady e m table d ops eqn st) (solveSteady e (m.rescale u.len) table d ops' eqn st') := by
  refine NR.Rel.bind (R := fun a b => b = u.system a) ?_ ?_
  · refine NR.Rel.bind (NR.Rel.refl (R := (· = ·)) (fun _ => rfl) _) ?_
    rintro sp _ rfl
    refine NR.Rel.bind (NR.Rel.lift (empty_units u sp)) fun ls ls' hls => ?_
    refine NR.Rel.bind (implicit_sim (T := fun t dt t' dt' => t' = u.time * t ∧ dt' = u.time * dt) (by simp) eqn (ho _ _ h.1) hls) fun ls1 ls1' hls1 => ?_
    rw [show (m.rescale u.len).nCells = n from hm, hm]
    refine NR.Rel.bind (explicitN_units u ho eqn h.1) fun src src' hs => ?_
    subst hls1
    refine NR.Rel.bind (R := List.Forall₂ (Img (u.val * u.flux * ·))) ?_ fun r r' hr => NR.Rel.pure ?_
    · simp only [Units.system, List.length_map]
      refine elemKernel_rel e _ _ (fun i _ _ => ?_) (img_list _ _)
      refine Res.Rel.bind (rd_rel hs.2 _) ?_; rintro x _ rfl
      refine Res.Rel.bind (rd_rel (img_list _ _) _) ?_; rintro v _ rfl
      rintro y _ rfl
      have := u.time_ne
      simp only [Img, Units.flux]
      field_simp
    · simp only [Units.system, img_map hr]
  · rintro ls _ rfl
    rw [h.1.sol.internal]
    exact solver_units (S := u.StRel n) (k := fun x => pure { st with sol := { st.sol with internal := x } })
      (k' := fun x => pure { st' with sol := { st'.sol with internal := x } }) u hT d ls _ fun a ha => NR.Rel.pure ⟨⟨⟨rfl, h.1.sol.bValue, h.1.sol.bRefValue, h.1.sol.bVF, h.1.sol.bRefGrad⟩, h.1.old⟩,
      ha.trans h.2.1, h.2.2⟩

omit h in
theorem rungeKutta_units {st st' : TimeState K K} (h : u.StRel n st st') (e : ExecKind) (d : Dict) (t dt : K) :
    NR.Rel (fun a b => u.StRel n a.2 b.2) (rungeKutta e d ops eqn .new st t dt) (rungeKutta e d ops' eqn .new st' (u.time * t) (u.time * dt)) := by
  have hn : st.sol.internal.length = n := h.2.1
  have h1 : TimeState.In u ⟨st.sol, some st.oldTime⟩ ⟨st'.sol, some st'.oldTime⟩ := ⟨h.1.sol, by simp [oldTime_in u h.1]⟩
  have hold := oldTime_sized h.2
  refine NR.Rel.bind (R := fun o o' => o = ⟨some (ops, eqn), t, st.oldTime⟩ ∧ o' = ⟨some (ops', eqn), u.time * t, st.oldTime.map (u.val * ·)⟩) (NR.Rel.lift ?_) ?_
  · unfold rkEnsure RKObj.new rkInit
    simp only
    same
    rename_i key
    cases key <;> try trivial
    simp only
    same
    exact ⟨rfl, by rw [← oldTime_in u h.1]; rfl⟩
  · rintro _ _ ⟨rfl, rfl⟩
    refine NR.Rel.bind (R := fun o o' => o'.tn = u.time * o.tn ∧ o'.yn = o.yn.map (u.val * ·)) ?_ fun o o' hoo => ?_
    · refine NR.Rel.bind (R := List.Forall₂ (Img (mulL (u.val / u.time)))) ?_ fun k k' hk => NR.Rel.pure ?_
      · unfold explicitRKSolve
        simp only [List.length_map, hold]
        refine NR.Rel.bind (explicitN_units u ho eqn h1) fun src src' hs => ?_
        exact scaleField_rel (mulL (u.val / u.time)) e hs.2 (-1)
      · refine ⟨by simp only; ring, ?_⟩
        simp only [img_map hk]
        rw [List.zipWith_map, List.map_zipWith]
        congr 1
        funext a b
        have := u.time_ne
        simp only [mulL_apply]
        field_simp
    · refine NR.Rel.bind (R := fun _ _ => True) ?_ fun _ _ _ => ?_
      · have hiff : (u.time * t + u.time * dt = o'.tn) ↔ (t + dt = o.tn) := by
          rw [hoo.1, ← mul_add, mul_right_inj' u.time_ne]
        unfold nfAssert
        constructor
        · rintro o1 (⟨hp, rfl⟩ | ⟨hp, rfl⟩)
          · exact ⟨_, .inl ⟨hiff.2 hp, rfl⟩, trivial⟩
          · exact ⟨_, .inr ⟨fun x => hp (hiff.1 x), rfl⟩, trivial⟩
        · rintro o1 (⟨hp, rfl⟩ | ⟨hp, rfl⟩)
          · exact ⟨_, .inl ⟨hiff.1 hp, rfl⟩, trivial⟩
          · exact ⟨_, .inr ⟨fun x => hp (hiff.2 x), rfl⟩, trivial⟩
      · refine NR.Rel.bind (R := fun a b => b = a.map (u.val * ·) ∧ a.length = n) ?_ ?_
        · unfold sunNVectorToField
          rw [hoo.2, h.1.sol.internal, List.length_map]
          refine ((elemKernel_rel (R := Img (u.val * ·)) e _ _ (fun i _ _ => ?_) (img_list _ _)).strengthen (P := fun r => r.length = n) (Q := fun _ => True)
            (fun r hr => (elemKernel_length hr).trans hn) fun _ _ => trivial).mono fun a b hab => ⟨img_map hab.1, hab.2.1⟩
          refine Res.Rel.bind (rd_rel (img_list _ _) _) ?_; rintro x _ rfl
          exact fun _ _ _ => rfl
        · rintro a _ ⟨rfl, ha⟩
          refine NR.Rel.pure ⟨⟨⟨rfl, h.1.sol.bValue, h.1.sol.bRefValue, h.1.sol.bVF, h.1.sol.bRefGrad⟩, rfl⟩, ha, ?_⟩
          rintro o ho
          cases ho
          exact ha

theorem dslSolve_units (e : ExecKind) (m : Mesh K) (hm : m.nCells = n) (bcs : List (VolumeBoundary K)) {table : SolverTable K} (hT : table.UnitFree u)
    (fvSchemes fvSolution : Dict) (t dt : K) :
    NR.Rel (u.StRel n) (dslSolve e m bcs table fvSchemes fvSolution ops eqn st t dt)
      (dslSolve e (m.rescale u.len) (bcs.map u.bc) table fvSchemes fvSolution ops' eqn st' (u.time * t) (u.time * dt)) := by
  unfold dslSolve
  split
  · exact NR.Rel.lift trivial
  split
  · refine NR.Rel.bind (NR.Rel.refl (R := (· = ·)) (fun _ => rfl) _) ?_
    rintro d _ rfl
    refine NR.Rel.bind (NR.Rel.refl (R := (· = ·)) (fun _ => rfl) _) ?_
    rintro ty _ rfl
    split
    · exact forwardEuler_units u ho eqn h e m bcs dt
    · exact backwardEuler_units u ho eqn h e m hT _ t dt
    · exact NR.Rel.bind (rungeKutta_units u ho eqn h e _ t dt) fun a b hab => NR.Rel.pure hab
    · exact NR.Rel.lift trivial
  · exact solveSteady_units u ho eqn h e m hm hT fvSolution

end steps

end NeoFOAM
