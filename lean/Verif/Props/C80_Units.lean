import Verif.Proofs.Units
import Verif.Props.C27_Geometry
import Verif.Props.C29_Courant
import Verif.Spec.Solve

/-!
# C80 – results do not depend on the units
-/
namespace NeoFOAM
variable {K : Type} [Field K] [LinearOrder K] [IsStrictOrderedRing K]

/-! ### Geometry -/

theorem getD_smul (l : K) (a : List (Vec K)) (i : Nat) : (a.map (l • ·)).getD i 0 = l • a.getD i 0 := by
  simp only [List.getD_eq_getElem?_getD, List.getElem?_map]
  cases a[i]? <;> simp

theorem getD_mul (l : K) (a : List K) (i : Nat) : (a.map (l * ·)).getD i 0 = l * a.getD i 0 := by
  simp only [List.getD_eq_getElem?_getD, List.getElem?_map]
  cases a[i]? <;> simp

theorem vdot_smul (a b : K) (x y : Vec K) : vdot (a • x) (b • y) = a * b * vdot x y := by
  simp only [vdot, Prod.smul_fst, Prod.smul_snd, smul_eq_mul]; ring

theorem IsSqrt.unique {sqrt : K → K} (hs : IsSqrt sqrt) {x y : K} (hy : 0 ≤ y) (h : y * y = x) : sqrt x = y := by
  have hx : 0 ≤ x := h ▸ mul_self_nonneg y
  obtain ⟨h1, h2⟩ := hs x hx
  exact (mul_self_inj h1 hy).1 (h2.trans h.symm)

theorem vmag_smul {sqrt : K → K} (hs : IsSqrt sqrt) {l : K} (hl : 0 ≤ l) (x : Vec K) : vmag sqrt (l • x) = l * vmag sqrt x := by
  have h0 : 0 ≤ x.1 * x.1 + x.2.1 * x.2.1 + x.2.2 * x.2.2 := by
    nlinarith [mul_self_nonneg x.1, mul_self_nonneg x.2.1, mul_self_nonneg x.2.2]
  obtain ⟨h1, h2⟩ := hs _ h0
  refine hs.unique (mul_nonneg hl h1) ?_
  simp only [vmag, Prod.smul_fst, Prod.smul_snd, smul_eq_mul]
  calc l * sqrt _ * (l * sqrt _) = l * l * (sqrt (x.1 * x.1 + x.2.1 * x.2.1 + x.2.2 * x.2.2) * sqrt (x.1 * x.1 + x.2.1 * x.2.1 + x.2.2 * x.2.2)) := by ring
    _ = _ := by rw [h2]; ring

section
variable (m : Mesh K) (l : K)

theorem rescale_sf (f : Nat) : (m.rescale l).sf f = l ^ 2 • m.sf f := getD_smul _ _ _
theorem rescale_ctr (c : Nat) : (m.rescale l).ctr c = l • m.ctr c := getD_smul _ _ _
theorem rescale_fctr (f : Nat) : (m.rescale l).fctr f = l • m.fctr f := getD_smul _ _ _
theorem rescale_span (f : Nat) : (m.rescale l).span f = l • m.span f := by
  unfold Mesh.span
  simp only [rescale_ctr, rescale_fctr]
  have e : (m.rescale l).nInternalFaces = m.nInternalFaces ∧ (m.rescale l).own = m.own ∧ (m.rescale l).nbr = m.nbr ∧ (m.rescale l).fc = m.fc := ⟨rfl, rfl, rfl, rfl⟩
  rw [e.1, e.2.1, e.2.2.1, e.2.2.2]
  split <;> rw [smul_sub]

theorem rescale_wf {m : Mesh K} (h : m.WF) : (m.rescale l).WF := by
  refine ⟨h.faces, h.ownLen, h.nbrLen, h.fcLen, ?_, ?_, ?_, ?_, ?_, ?_, ?_, ?_, ?_, h.bwLen, h.own_lt, h.nbr_lt, h.fc_lt, h.ne, h.bown⟩ <;>
    simp only [Mesh.rescale, BoundaryMesh.rescale, List.length_map]
  exacts [h.volLen, h.ctrLen, h.areaLen, h.fctrLen, h.magLen, h.bcfLen, h.bsfLen, h.bmagLen, h.bdcLen]

end

theorem rescale_dists (m : Mesh K) {l : K} (hl : 0 < l) (f : Nat) :
    |vdot ((m.rescale l).sf f) ((m.rescale l).fctr f - (m.rescale l).ctr ((m.rescale l).own f))| = l ^ 3 * |vdot (m.sf f) (m.fctr f - m.ctr (m.own f))| ∧
    |vdot ((m.rescale l).sf f) ((m.rescale l).ctr ((m.rescale l).nbr f) - (m.rescale l).fctr f)| = l ^ 3 * |vdot (m.sf f) (m.ctr (m.nbr f) - m.fctr f)| := by
  have h3 : 0 < l ^ 3 := pow_pos hl 3
  simp only [rescale_sf, rescale_ctr, rescale_fctr, ← smul_sub, vdot_smul]
  rw [show l ^ 2 * l = l ^ 3 by ring, abs_mul, abs_mul, abs_of_pos h3]
  exact ⟨rfl, rfl⟩

theorem rescale_wgt (m : Mesh K) {l tiny : K} (hl : 0 < l) (hr : m.Resolved tiny l) {f : Nat} (hf : f < m.nInternalFaces) :
    (m.rescale l).wgt tiny f = m.wgt tiny f := by
  have h3 : 0 < l ^ 3 := pow_pos hl 3
  unfold Mesh.wgt
  simp only [(rescale_dists m hl f).1, (rescale_dists m hl f).2]
  set o := |vdot (m.sf f) (m.fctr f - m.ctr (m.own f))|
  set n := |vdot (m.sf f) (m.ctr (m.nbr f) - m.fctr f)|
  have h0 : 0 ≤ o + n := add_nonneg (abs_nonneg _) (abs_nonneg _)
  rw [← mul_add, abs_of_nonneg h0, abs_of_nonneg (mul_nonneg h3.le h0)]
  by_cases ht : tiny < o + n
  · rw [if_pos ht, if_pos ((hr f hf).1 ht), mul_div_mul_left _ _ h3.ne']
  · rw [if_neg ht, if_neg (fun h => ht ((hr f hf).2 h))]

theorem rescale_nonOrth (m : Mesh K) {l : K} (hl : 0 < l) {sqrt : K → K} (hs : IsSqrt sqrt) (f : Nat) :
    (m.rescale l).nonOrth sqrt f = l⁻¹ * m.nonOrth sqrt f := by
  unfold Mesh.nonOrth
  rw [rescale_span, rescale_sf, vmag_smul hs hl.le]
  have ha : (m.rescale l).magFaceAreas.getD f 0 = l ^ 2 * m.magFaceAreas.getD f 0 := getD_mul _ _ _
  rw [ha, smul_smul]
  have e1 : (1 / (l ^ 2 * m.magFaceAreas.getD f 0) * l ^ 2) = 1 / m.magFaceAreas.getD f 0 := by
    rw [one_div, mul_inv, mul_right_comm, inv_mul_cancel₀ (pow_ne_zero 2 hl.ne'), one_mul, one_div]
  have e2 : ∀ x y : Vec K, vdot x (l • y) = l * vdot x y := fun x y => by
    have := vdot_smul 1 l x y
    rwa [one_smul, one_mul] at this
  rw [e1, e2, show 5 / 100 * (l * vmag sqrt (m.span f)) = l * (5 / 100 * vmag sqrt (m.span f)) by ring, ← mul_max_of_nonneg _ _ hl.le, one_div (l * _), mul_inv, one_div (max _ _)]

/-- **C80.** The geometry of the mesh in new units: the same weights, and delta coefficients that are inverse lengths. -/
theorem C80_geometry {m : Mesh K} (h : m.WF) (e : ExecKind) (tiny : K) {sqrt : K → K} (hs : IsSqrt sqrt) (junk junk' : Nat → K) {l : K} (hl : 0 < l)
    (hr : m.Resolved tiny l) :
    NR.Rel (fun g g' => g'.weights = g.weights ∧ g'.deltaCoeffs = g.deltaCoeffs.map (l⁻¹ * ·) ∧ g'.nonOrthDeltaCoeffs = g.nonOrthDeltaCoeffs.map (l⁻¹ * ·))
      (geometryScheme e m tiny sqrt junk) (geometryScheme e (m.rescale l) tiny sqrt junk') := by
  have key : Res.Rel (fun g g' : Geometry K => g'.weights = g.weights ∧ g'.deltaCoeffs = g.deltaCoeffs.map (l⁻¹ * ·) ∧
      g'.nonOrthDeltaCoeffs = g.nonOrthDeltaCoeffs.map (l⁻¹ * ·))
      (.ok ⟨(List.range m.nFaces).map fun f => if f < m.nInternalFaces then m.wgt tiny f else 1, (List.range m.nFaces).map fun f => 1 / vmag sqrt (m.span f),
        (List.range m.nFaces).map (m.nonOrth sqrt)⟩)
      (.ok ⟨(List.range (m.rescale l).nFaces).map fun f => if f < (m.rescale l).nInternalFaces then (m.rescale l).wgt tiny f else 1,
        (List.range (m.rescale l).nFaces).map fun f => 1 / vmag sqrt ((m.rescale l).span f), (List.range (m.rescale l).nFaces).map ((m.rescale l).nonOrth sqrt)⟩) := by
    refine ⟨List.map_congr_left fun f _ => ?_, ?_, ?_⟩
    · show (if f < m.nInternalFaces then _ else _) = _
      split
      · rename_i hf
        exact rescale_wgt m hl hr hf
      · rfl
    · rw [List.map_map]
      refine List.map_congr_left fun f _ => ?_
      simp only [Function.comp, rescale_span, vmag_smul hs hl.le, one_div, mul_inv]
    · rw [List.map_map]
      exact List.map_congr_left fun f _ => rescale_nonOrth m hl hs f
  constructor
  · intro o ho
    rw [(geometryScheme_det h e tiny sqrt junk o).1 ho]
    exact ⟨_, (geometryScheme_det (rescale_wf l h) e tiny sqrt junk' _).2 rfl, key⟩
  · intro o ho
    rw [(geometryScheme_det (rescale_wf l h) e tiny sqrt junk' o).1 ho]
    exact ⟨_, (geometryScheme_det h e tiny sqrt junk _).2 rfl, key⟩

/-! ### Whole runs -/

variable (u : Units K)

/-- **C80.** The same program with all its data in new units – mesh, fields, boundary conditions, arguments of the terms, times and steps –
ends in the same ways, with the same fields in new units. -/
theorem C80_run {m : Mesh K} (hm : m.WF) (e : ExecKind) (tiny : K) (hr : m.Resolved tiny u.len) {sqrt : K → K} (hs : IsSqrt sqrt) (junk junk' : Nat → K)
    (sch : InterpScheme) (calls : List (Call K)) (tr : ExT K) (bcs : List (VolumeBoundary K)) {table : SolverTable K} (hT : table.UnitFree u)
    (fvSchemes fvSolution : Dict) (t dt : Nat → K) (n : Nat) {st st' : TimeState K K} (hst : st.In u st') (hl : st.sol.internal.length = m.nCells)
    (ho : ∀ o, st.old = some o → o.length = m.nCells) :
    NR.Rel (fun a b => a.In u b) (wholeRun e m tiny sqrt junk sch calls tr bcs table fvSchemes fvSolution t dt n st)
      (wholeRun e (m.rescale u.len) tiny sqrt junk' sch (calls.map u.call) tr (bcs.map u.bc) table fvSchemes fvSolution (fun k => u.time * t k)
        (fun k => u.time * dt k) n st') := by
  refine NR.Rel.bind (C80_geometry hm e tiny hs junk junk' u.len_pos hr) fun g g' hg => ?_
  refine NR.Rel.bind (NR.Rel.refl (R := (· = ·)) (fun _ => rfl) (sparsityUpdate e m)) ?_
  rintro sp _ rfl
  refine (NR.Rel.foldlM (R := u.StRel m.nCells) (P := fun k k' => k = k') (fun a b k k' hab hk => ?_) (List.forall₂_same.2 fun _ _ => rfl) ⟨hst, hl, ho⟩).mono
    fun _ _ h => h.1
  subst hk
  obtain ⟨h1, -, h2⟩ := hg
  have hops : ∀ st st' : TimeState K K, st.In u st' → List.Forall₂ (u.OpRel m.nCells) (callOps ⟨e, m, sp, sch, g.weights, g.nonOrthDeltaCoeffs, junk⟩ calls st)
      (callOps ⟨e, m.rescale u.len, sp, sch, g'.weights, g'.nonOrthDeltaCoeffs, junk'⟩ (calls.map u.call) st') := fun st st' h => by
    have := callOps_units u ⟨e, m, sp, sch, g.weights, g.nonOrthDeltaCoeffs, junk⟩ junk' calls h
    rw [h1, h2]
    simp only [hm.volLen] at this
    exact this
  refine NR.Rel.bind (NR.Rel.lift (ExT.build_rel tr _ _ (hops a b hab.1))) ?_
  rintro ⟨eqn, p⟩ ⟨eqn', p'⟩ ⟨e1, -⟩
  obtain rfl : eqn' = eqn := e1
  refine dslSolve_units u (fun st st' h => ?_) eqn' hab e m rfl bcs hT fvSchemes fvSolution (t k) (dt k)
  have hb := ExT.build_rel tr _ _ (hops st st' h)
  generalize tr.build (callOps _ calls st) = x at hb
  generalize tr.build (callOps _ (calls.map u.call) st') = y at hb
  cases x <;> cases y <;> first | exact hb.elim | exact hb.2 | exact .nil

/-- **C80.** Courant numbers have no unit. -/
theorem C80_courant {m : Mesh K} (h : m.WF) (hv : ∀ c < m.nCells, 0 < m.vol c) (hn : 0 < m.nCells) (e : ExecKind) {sqrt : K → K} (hs : IsSqrt sqrt)
    (lowest : K) (hlow : lowest ≤ 0) {flux : List K} (hfl : flux.length = m.nFaces) (dt : K) :
    computeCoNum e (m.rescale u.len) sqrt lowest (flux.map (u.flux * ·)) (u.time * dt) = computeCoNum e m sqrt lowest flux dt := by
  have hl3 : (0 : K) < u.len ^ 3 := pow_pos u.len_pos 3
  have hvol : ∀ c, (m.rescale u.len).vol c = u.len ^ 3 * m.vol c := fun c => getD_mul _ _ _
  have hab : ∀ c, (m.rescale u.len).absFlux (ix (flux.map (u.flux * ·))) c = u.flux * m.absFlux (ix flux) c := fun c => by
    have hix : ∀ i, |ix (flux.map (u.flux * ·)) i| = u.flux * |ix flux i| := fun i => by
      unfold ix
      rw [getD_mul, abs_mul, abs_of_pos u.flux_pos]
    unfold Mesh.absFlux
    simp only [hix]
    rw [mul_add, Finset.mul_sum, Finset.mul_sum]
    congr 1
    · refine Finset.sum_congr rfl fun f _ => ?_
      rw [mul_add, mul_ite, mul_ite, mul_zero]
      rfl
    · refine Finset.sum_congr rfl fun b _ => ?_
      rw [mul_ite, mul_zero]
      rfl
  obtain ⟨M, h1, -, h3⟩ := C29_courant h hv hn e hs lowest hlow hfl dt
  obtain ⟨M', h1', -, h3'⟩ := C29_courant (rescale_wf u.len h) (fun c hc => by rw [hvol]; exact mul_pos hl3 (hv c hc)) hn e hs lowest hlow
    (flux := flux.map (u.flux * ·)) (by rw [List.length_map, hfl]; rfl) (u.time * dt)
  have ht := u.time_ne
  have hl := u.len_ne
  have hM : M' = u.time⁻¹ * M := by
    have e1 : {x | ∃ c < (m.rescale u.len).nCells, x = (m.rescale u.len).absFlux (ix (flux.map (u.flux * ·))) c / (m.rescale u.len).vol c}
        = (u.time⁻¹ * ·) '' {x | ∃ c < m.nCells, x = m.absFlux (ix flux) c / m.vol c} := by
      have key : ∀ c, u.flux * m.absFlux (ix flux) c / (u.len ^ 3 * m.vol c) = u.time⁻¹ * (m.absFlux (ix flux) c / m.vol c) := fun c => by
        unfold Units.flux
        by_cases hc : m.vol c = 0
        · simp [hc]
        · field_simp
      ext x
      simp only [Set.mem_ofPred_eq, Set.mem_image, hab, hvol, key]
      constructor
      · rintro ⟨c, hc, rfl⟩; exact ⟨_, ⟨c, hc, rfl⟩, rfl⟩
      · rintro ⟨_, ⟨c, hc, rfl⟩, rfl⟩; exact ⟨c, hc, rfl⟩
    rw [e1] at h1'
    have h2 : IsGreatest ((u.time⁻¹ * ·) '' {x | ∃ c < m.nCells, x = m.absFlux (ix flux) c / m.vol c}) (u.time⁻¹ * M) :=
      ⟨⟨M, h1.1, rfl⟩, by rintro _ ⟨x, hx, rfl⟩; exact mul_le_mul_of_nonneg_left (h1.2 hx) (inv_nonneg.2 u.time_pos.le)⟩
    exact h1'.unique h2
  funext out
  refine propext ((h3' out).trans (Iff.trans ?_ (h3 out).symm))
  have e2 : (1 / 2 * (u.time * dt) * M', 1 / 2 * (u.time * dt) * ((∑ c ∈ Finset.range (m.rescale u.len).nCells, (m.rescale u.len).absFlux (ix (flux.map (u.flux * ·))) c)
      / ∑ c ∈ Finset.range (m.rescale u.len).nCells, (m.rescale u.len).vol c))
      = (1 / 2 * dt * M, 1 / 2 * dt * ((∑ c ∈ Finset.range m.nCells, m.absFlux (ix flux) c) / ∑ c ∈ Finset.range m.nCells, m.vol c)) := by
    simp only [hab, hvol, ← Finset.mul_sum]
    show (_, _ * (u.flux * (∑ c ∈ Finset.range m.nCells, _) / (u.len ^ 3 * ∑ c ∈ Finset.range m.nCells, _))) = _
    rw [hM]
    congr 1
    · field_simp
    · unfold Units.flux
      by_cases hc : (∑ c ∈ Finset.range m.nCells, m.vol c) = 0
      · simp [hc]
      · field_simp
  rw [e2]

/-- Scaling of vectors, as a linear map. -/
def smulL (c : K) : OpHom K (Vec K) (Vec K) where
  toFun x := c • x
  map_add := smul_add c
  map_sub := smul_sub c
  map_zero := smul_zero c
  map_smul r x := smul_comm c r x

omit [LinearOrder K] [IsStrictOrderedRing K] in
@[simp] theorem smulL_apply (c : K) (x : Vec K) : smulL c x = c • x := rfl

/-- **C80.** A gradient is a value per length. -/
theorem C80_gradient {m : Mesh K} (h : m.WF) (e : ExecKind) (w : List K) (junk junk' : Nat → K) (junkV junkV' : Nat → Vec K) {φ φ' : VolField K K} (hφ : φ.In u φ') :
    NR.Rel (fun a b => b = a.map ((u.val / u.len) • ·)) (grad e m w junk junkV φ) (grad e (m.rescale u.len) w junk' junkV' φ') := by
  have hl := u.len_ne
  have hl3 : u.len ^ 3 ≠ 0 := pow_ne_zero 3 hl
  set L := smulL (u.val * u.len ^ 2)
  refine NR.Rel.bind (R := fun a b => List.Forall₂ (Img L) a b ∧ a.length = m.nCells) ?_ ?_
  · refine ((elemKernel_relS (R := fun _ _ => True) e m.nCells (fun i _ => ?_) (forall₂_true (by simp [Mesh.rescale])) (by simp)).strengthen
      (P := fun a => a.length = m.nCells) (Q := fun _ => True) (fun r hr => (elemKernel_length hr).trans (by simp)) fun _ _ => trivial).mono
      fun a b hab => ⟨hab.1, hab.2.1⟩
    intro x y _
    exact (smul_zero _).symm
  rintro g g' ⟨hg, hn⟩
  refine NR.Rel.bind (R := List.Forall₂ (Img (u.val * ·)))
    (interpolateFlux_units .linear e m (m.rescale u.len) ⟨rfl, rfl, rfl⟩ w [] (c := 1) one_pos hφ.internal hφ.bValue (by simp [Mesh.rescale])) fun f f' hf => ?_
  have H : ∀ i, Res.Rel (Img L) (do let a ← rd m.faceAreas i; let b ← rd f i; return b • a : Res (Vec K))
      (do let a ← rd (m.rescale u.len).faceAreas i; let b ← rd f' i; return b • a : Res (Vec K)) := fun i => by
    refine Res.Rel.bind (rd_rel (img_list _ _) i) ?_; rintro a _ rfl
    refine Res.Rel.bind (rd_rel hf i) ?_; rintro b _ rfl
    show _ = _
    simp only [L, smulL_apply, smul_smul]
    congr 1; ring
  rw [← hf.length_eq]
  refine NR.Rel.bind ((launch1_rel e _ _ (fun i _ _ => gaussInternal_rel L m H i) hg).strengthen (P := fun x => x.length = m.nCells)
      (Q := fun _ => True) (fun _ h => (launch1_length h).trans hn) fun _ _ => trivial) ?_
  rintro r1 r1' ⟨h1, n1, -⟩
  refine NR.Rel.bind ((launch1_rel e _ _ (fun i _ _ => gaussBoundary_rel L m H i) h1).strengthen (P := fun x => x.length = m.nCells)
      (Q := fun _ => True) (fun _ h => (launch1_length h).trans n1) fun _ _ => trivial) ?_
  rintro r2 r2' ⟨h2, n2, -⟩
  refine (elemKernel_relS (S := Img ((u.val / u.len) • ·)) e m.nCells (fun i _ => ?_) h2 n2).mono fun _ _ => img_map
  unfold gradScaleBody
  refine Res.Rel.bind (rd_rel (img_list _ _) i) ?_; rintro v _ rfl
  rintro x _ rfl
  simp only [Img, L, smulL_apply, smul_smul]
  congr 1
  by_cases hv : v = 0
  · subst hv; simp
  · field_simp

/-! ### The exception -/

/-- **C80.** The condition that no distance crosses the threshold is needed: take any face that is not half-way between its cells. With
threshold `tiny`, an absolute number, the weight of that face is right in one unit of length and one half in another. -/
theorem C80_threshold {m : Mesh K} (h : m.WF) (e : ExecKind) {tiny : K} (htiny : 0 < tiny) {sqrt : K → K} (junk : Nat → K) {f : Nat}
    (hf : f < m.nInternalFaces) (hd : tiny < |vdot (m.sf f) (m.fctr f - m.ctr (m.own f))| + |vdot (m.sf f) (m.ctr (m.nbr f) - m.fctr f)|)
    (hne : |vdot (m.sf f) (m.fctr f - m.ctr (m.own f))| ≠ |vdot (m.sf f) (m.ctr (m.nbr f) - m.fctr f)|) :
    ∃ l : K, 0 < l ∧ ∃ g g', geometryScheme e m tiny sqrt junk (.ok g) ∧ geometryScheme e (m.rescale l) tiny sqrt junk (.ok g') ∧
      g.weights.getD f 0 ≠ 1 / 2 ∧ g'.weights.getD f 0 = 1 / 2 := by
  set o := |vdot (m.sf f) (m.fctr f - m.ctr (m.own f))| with ho
  set n := |vdot (m.sf f) (m.ctr (m.nbr f) - m.fctr f)| with hn
  have hp : 0 < o + n := htiny.trans hd
  have hl : 0 < tiny / (o + n) := div_pos htiny hp
  have hl1 : tiny / (o + n) ≤ 1 := (div_le_one hp).2 hd.le
  have hff : f < m.nFaces := by rw [h.faces]; omega
  refine ⟨tiny / (o + n), hl, _, _, (geometryScheme_det h e tiny sqrt junk _).2 rfl, (geometryScheme_det (rescale_wf _ h) e tiny sqrt junk _).2 rfl, ?_, ?_⟩
  · show (List.map _ (List.range _)).getD f 0 ≠ _
    rw [getD_range_map _ _ _ hff, if_pos hf]
    unfold Mesh.wgt
    simp only [← ho, ← hn]
    rw [abs_of_pos hp, if_pos hd]
    intro hc
    rw [div_eq_iff hp.ne'] at hc
    apply hne
    linarith
  · show (List.map _ (List.range _)).getD f 0 = _
    rw [getD_range_map _ _ _ (show f < (m.rescale _).nFaces from hff), if_pos (show f < (m.rescale _).nInternalFaces from hf)]
    unfold Mesh.wgt
    simp only [(rescale_dists m hl f).1, (rescale_dists m hl f).2]
    simp only [← ho, ← hn]
    rw [← mul_add, if_neg]
    rw [not_lt, abs_of_pos (mul_pos (pow_pos hl 3) hp)]
    have h3 : (tiny / (o + n)) ^ 3 ≤ tiny / (o + n) := pow_le_of_le_one hl.le hl1 (by norm_num)
    calc (tiny / (o + n)) ^ 3 * (o + n) ≤ tiny / (o + n) * (o + n) := mul_le_mul_of_nonneg_right h3 hp.le
      _ = tiny := div_mul_cancel₀ _ hp.ne'

/-! ### The hypotheses can be met -/

/-- A solver that returns any solution of the system with as many values as it is given, and stops the program if there is none. -/
def anyFitting : LinSolver K := fun ls x out =>
  (∃ y : List K, out = .ok y ∧ y.length = x.length ∧ ∀ i < ls.rhs.length, ls.residual (ix y) i = 0) ∨
    ((¬ ∃ y : List K, y.length = x.length ∧ ∀ i < ls.rhs.length, ls.residual (ix y) i = 0) ∧ out = .abort)

theorem residual_units (ls : LinearSystem K) (y : List K) (i : Nat) :
    (u.system ls).residual (ix (y.map (u.val * ·))) i = u.val * u.flux * ls.residual (ix y) i := by
  unfold LinearSystem.residual
  have h1 : (u.system ls).rhs.getD i 0 = u.val * u.flux * ls.rhs.getD i 0 := getD_mul _ _ _
  have h2 : ∀ p, (u.system ls).matrix.val p = u.flux * ls.matrix.val p := fun p => getD_mul _ _ _
  have h3 : ∀ p, ix (y.map (u.val * ·)) p = u.val * ix y p := fun p => getD_mul _ _ _
  rw [h1, mul_sub, Finset.mul_sum]
  congr 1
  refine Finset.sum_congr rfl fun p _ => ?_
  rw [h2, h3]
  show u.flux * ls.matrix.val p * (u.val * ix y (ls.matrix.col p)) = _
  ring

/-- Solvers that find solutions do not depend on units. -/
theorem anyFitting_unitFree (name : String) : SolverTable.UnitFree u ([(name, fun _ => anyFitting)] : SolverTable K) := by
  intro nm f hf d ls x
  obtain rfl : f = fun _ => anyFitting := by
    simp only [AMap.find?] at hf
    split at hf
    · exact (Option.some.inj hf).symm
    · exact nomatch hf
  have hu : u.val * u.flux ≠ 0 := mul_ne_zero u.val_ne u.flux_ne
  have hrl : (u.system ls).rhs.length = ls.rhs.length := by simp [Units.system]
  have hfwd : ∀ y : List K, (y.length = x.length ∧ ∀ i < ls.rhs.length, ls.residual (ix y) i = 0) →
      ((y.map (u.val * ·)).length = (x.map (u.val * ·)).length ∧ ∀ i < (u.system ls).rhs.length, (u.system ls).residual (ix (y.map (u.val * ·))) i = 0) := by
    rintro y ⟨h1, h2⟩
    refine ⟨by simp [h1], fun i hi => ?_⟩
    rw [residual_units, h2 i (hrl ▸ hi), mul_zero]
  have hbwd : ∀ z : List K, (z.length = (x.map (u.val * ·)).length ∧ ∀ i < (u.system ls).rhs.length, (u.system ls).residual (ix z) i = 0) →
      ∃ y : List K, z = y.map (u.val * ·) ∧ y.length = x.length ∧ ∀ i < ls.rhs.length, ls.residual (ix y) i = 0 := by
    rintro z ⟨h1, h2⟩
    have hz : z = (z.map (u.val⁻¹ * ·)).map (u.val * ·) := by
      rw [List.map_map]
      conv_lhs => rw [← List.map_id z]
      refine List.map_congr_left fun a _ => ?_
      simp only [Function.comp, id, mul_inv_cancel_left₀ u.val_ne]
    refine ⟨_, hz, by simpa using h1, fun i hi => ?_⟩
    have := h2 i (hrl ▸ hi)
    rw [hz, residual_units] at this
    exact (mul_eq_zero.1 this).resolve_left hu
  refine ⟨?_, ?_, ?_⟩
  · rintro y (⟨_, h1, h2, -⟩ | ⟨-, h1⟩)
    · cases h1; exact h2
    · exact nomatch h1
  · rintro _ (⟨y, rfl, h1, h2⟩ | ⟨h1, rfl⟩)
    · exact ⟨_, .inl ⟨_, rfl, hfwd y ⟨h1, h2⟩⟩, rfl⟩
    · refine ⟨_, .inr ⟨?_, rfl⟩, trivial⟩
      rintro ⟨z, hz⟩
      obtain ⟨y, -, hy⟩ := hbwd z hz
      exact h1 ⟨y, hy⟩
  · rintro _ (⟨z, rfl, hz⟩ | ⟨h1, rfl⟩)
    · obtain ⟨y, rfl, hy⟩ := hbwd z hz
      exact ⟨_, .inl ⟨y, rfl, hy⟩, rfl⟩
    · refine ⟨_, .inr ⟨?_, rfl⟩, trivial⟩
      rintro ⟨y, hy⟩
      exact h1 ⟨_, hfwd y hy⟩

/-- From metres, seconds and kelvins to millimetres, minutes and, say, millikelvins. -/
noncomputable def milli : Units ℝ := ⟨1000, 1 / 60, 1000, by norm_num, by norm_num, by norm_num⟩

/-- The two-cell mesh in these units: its distances stay above the threshold of the code. -/
example : twoCells.WF ∧ twoCells.Resolved (1 / 10 ^ 18) milli.len ∧ IsSqrt Real.sqrt ∧ SolverTable.UnitFree milli [("exact", fun _ => anyFitting)] := by
  refine ⟨twoCells_wf, fun f hf => ?_, fun x hx => ⟨Real.sqrt_nonneg x, Real.mul_self_sqrt hx⟩, anyFitting_unitFree _ _⟩
  obtain rfl : f = 0 := by simp [twoCells] at hf; omega
  simp [twoCells, Mesh.ctr, Mesh.own, Mesh.nbr, Mesh.sf, Mesh.fctr, vdot, milli]
  norm_num [abs_of_nonneg]

/-- A field of that mesh in these units. -/
example : (TimeState.mk ⟨[1, 2], [3], [3], [1], [3]⟩ none : TimeState ℝ ℝ).In milli ⟨⟨[1000, 2000], [3000], [3000], [1], [3000]⟩, none⟩ := by
  refine ⟨⟨by norm_num [milli], by norm_num [milli], by norm_num [milli], rfl, rfl, fun i h1 h2 => .inr ?_⟩, rfl⟩
  obtain rfl : i = 0 := by simpa using h1
  rfl

/-- The distances of that mesh meet the hypotheses of the exception. -/
example : (1 / 10 ^ 18 : ℝ) < |vdot (twoCells.sf 0) (twoCells.fctr 0 - twoCells.ctr (twoCells.own 0))| + |vdot (twoCells.sf 0) (twoCells.ctr (twoCells.nbr 0) - twoCells.fctr 0)| ∧
    |vdot (twoCells.sf 0) (twoCells.fctr 0 - twoCells.ctr (twoCells.own 0))| ≠ |vdot (twoCells.sf 0) (twoCells.ctr (twoCells.nbr 0) - twoCells.fctr 0)| := by
  simp [twoCells, Mesh.ctr, Mesh.own, Mesh.nbr, Mesh.sf, Mesh.fctr, vdot]
  norm_num [abs_of_nonneg]

end NeoFOAM
