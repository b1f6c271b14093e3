import Verif.Proofs.Line

/-!
# C64 – on the uniform 1D mesh linear fields are exact

From `create1DUniformMesh` over the geometry scheme, the sparsity pattern, the assembly and the linear solver.
-/
namespace NeoFOAM
open Finset
variable {K : Type} [Field K] [LinearOrder K] [IsStrictOrderedRing K]

/-- A field on the line from 0 to 1 has the values `p + q x` at the cell centres and at the two boundary faces. -/
structure LinearOn (n : Nat) (p q : K) (φ : VolField K K) : Prop where
  cells : ∀ c < n, φ.cell c = p + q * ((c + 1 / 2) / n)
  left : φ.bnd 0 = p
  right : φ.bnd 1 = p + q

theorem line_linearFace (mag : Vec K → K) (n : Nat) (h1 : 1 ≤ n) (w : Nat → K) (hw : ∀ f < n + 1, w f = if f < n - 1 then 1 / 2 else 1)
    (p q : K) (φ : VolField K K) (hφ : LinearOn n p q φ) (f : Nat) (hf : f < n + 1) :
    (mesh1D mag n).linearFace w φ f = p + q * ((mesh1D mag n).fctr f).1 := by
  have hn : (n : K) ≠ 0 := Nat.cast_ne_zero.2 (by omega)
  have hi : (mesh1D mag n).nInternalFaces = n - 1 := rfl
  unfold Mesh.linearFace
  rw [hi, hw f hf, mesh1D_fctr mag n f hf]
  by_cases ha : f < n - 1
  · rw [if_pos ha, if_pos ha, if_pos ha, mesh1D_own mag n f hf, if_pos ha, mesh1D_nbr mag n f ha, hφ.cells f (by omega), hφ.cells _ (by omega)]
    simp
    field_simp
    ring
  · rw [if_neg ha, if_neg ha, if_neg ha, one_smul]
    by_cases hb : f = n - 1
    · rw [if_pos hb, hb, Nat.sub_self, hφ.left]; simp
    · have : f - (n - 1) = 1 := by omega
      rw [if_neg hb, this, hφ.right]; simp

/-- **C64, interpolation and gradient**: for every number of cells from one on, on every executor and schedule: linear interpolation of a
linear field gives its values at the face centres, its Gauss-Green gradient is its slope in every cell, and its face-normal gradient
is the slope along the face normal. -/
theorem C64_gradient (e e' : ExecKind) (mag : Vec K → K) (mjunk : Nat → Nat) (n : Nat) (h1 : 1 ≤ n) (m : Mesh K)
    (hm : create1DUniformMesh e mag mjunk n (.ok m)) (tiny : K) (sqrt : K → K) (hs : IsSqrt sqrt) (gjunk : Nat → K) (g : Geometry K)
    (hg : geometryScheme e' m tiny sqrt gjunk (.ok g)) (p q : K) (φ : VolField K K) (hφ : φ.On m) (hlin : LinearOn n p q φ)
    (junk : Nat → K) (junkV : Nat → Vec K) :
    (∀ dst : List K, dst.length = n + 1 → ∀ out, computeLinearInterpolation e' m φ g.weights dst out ↔
      out = .ok ((List.range (n + 1)).map fun f => p + q * (m.fctr f).1)) ∧
    (∀ out, grad e' m g.weights junk junkV φ out ↔ out = .ok (List.replicate n (q, 0, 0))) ∧
    ∀ f < n + 1, m.fnGrad (ix g.nonOrthDeltaCoeffs) φ f = q * (m.sf f).1 := by
  rw [create1D_closed e mag mjunk n h1, Res.ok.injEq] at hm
  subst hm
  have hn : (0 : K) < n := by exact_mod_cast h1
  have hn' : (n : K) ≠ 0 := hn.ne'
  have hF : (mesh1D mag n).nFaces = n + 1 := rfl
  have hC : (mesh1D mag n).nCells = n := rfl
  have hi : (mesh1D mag n).nInternalFaces = n - 1 := rfl
  have hcast : ((n - 1 : Nat) : K) = (n : K) - 1 := by rw [Nat.cast_sub h1]; simp
  obtain ⟨hwl, hdl, hnd, -, hw⟩ := mesh1D_geometry mag n h1 e' tiny sqrt hs gjunk g hg
  have hwf := mesh1D_wf mag n h1
  have hface := line_linearFace mag n h1 (ix g.weights) hw p q φ hlin
  refine ⟨fun dst hd out => ?_, fun out => ?_, fun f hf => ?_⟩
  · rw [C26_linear hwf hφ (by rw [hwl, hF]) e' dst (by rw [hd, hF]) out, hF]
    rw [List.map_congr_left fun f hf => hface f (List.mem_range.1 hf)]
  · rw [C25_grad hwf hφ (by rw [hwl, hF]) e' junk junkV out]
    have : (List.range (mesh1D mag n).nCells).map ((mesh1D mag n).gaussGrad (ix g.weights) φ) = List.replicate n (q, 0, 0) := by
      rw [hC, List.eq_replicate_iff]
      refine ⟨by simp, fun v hv => ?_⟩
      obtain ⟨c, hc, rfl⟩ := List.mem_map.1 hv
      rw [List.mem_range] at hc
      unfold Mesh.gaussGrad
      rw [mesh1D_netOutflow mag n _ c hc, mesh1D_vol mag n c hc]
      have ha : ∀ f < n + 1, ix (mesh1D mag n).faceAreas f = if f = n - 1 then (-1, 0, 0) else (1, 0, 0) := fun f hf => mesh1D_area mag n f hf
      have hR : (if c < n - 1 then (mesh1D mag n).linearFace (ix g.weights) φ c • ix (mesh1D mag n).faceAreas c
          else (mesh1D mag n).linearFace (ix g.weights) φ n • ix (mesh1D mag n).faceAreas n) = (p + q * ((c + 1) / n), 0, 0) := by
        by_cases hlt : c < n - 1
        · rw [if_pos hlt, hface c (by omega), ha c (by omega), if_neg (by omega), mesh1D_fctr mag n c (by omega), if_pos hlt]
          ext <;> simp
          field_simp
          simp
        · have hcn : c = n - 1 := by omega
          rw [if_neg hlt, hface n (by omega), ha n (by omega), if_neg (by omega), mesh1D_fctr mag n n (by omega), if_neg (by omega), if_neg (by omega), hcn,
            hcast]
          ext <;> simp
          field_simp
      have hL : (if 1 ≤ c then (mesh1D mag n).linearFace (ix g.weights) φ (c - 1) • ix (mesh1D mag n).faceAreas (c - 1)
          else -((mesh1D mag n).linearFace (ix g.weights) φ (n - 1) • ix (mesh1D mag n).faceAreas (n - 1))) = (p + q * (c / n), 0, 0) := by
        by_cases hlt : 1 ≤ c
        · have hk : ((c - 1 : Nat) : K) = (c : K) - 1 := by rw [Nat.cast_sub hlt]; simp
          rw [if_pos hlt, hface (c - 1) (by omega), ha (c - 1) (by omega), if_neg (by omega), mesh1D_fctr mag n (c - 1) (by omega), if_pos (by omega)]
          ext <;> simp [hk]
          field_simp
          simp
        · have hcn : c = 0 := by omega
          rw [if_neg hlt, hface (n - 1) (by omega), ha (n - 1) (by omega), if_pos rfl, mesh1D_fctr mag n (n - 1) (by omega), if_neg (by omega), if_pos rfl,
            hcn]
          ext <;> simp
      rw [hR, hL]
      ext <;> simp
      field_simp
      ring
    rw [this]
  · have hsf : (mesh1D mag n).sf f = if f = n - 1 then (-1, 0, 0) else (1, 0, 0) := mesh1D_area mag n f hf
    unfold Mesh.fnGrad
    rw [hnd f hf, hsf, hi]
    by_cases ha : f < n - 1
    · rw [if_pos ha, if_pos ha, if_neg (by omega), mesh1D_own mag n f hf, if_pos ha, mesh1D_nbr mag n f ha, hlin.cells f (by omega), hlin.cells _ (by omega)]
      simp
      field_simp
      ring
    · rw [if_neg ha, if_neg ha]
      by_cases hb : f = n - 1
      · rw [if_pos hb, hb, Nat.sub_self, mesh1D_fc0, hlin.left, hlin.cells 0 (by omega)]
        simp
        field_simp
      · have : f - (n - 1) = 1 := by omega
        rw [if_neg hb, this, mesh1D_fc1, hlin.right, hlin.cells _ (by omega), hcast]
        simp
        field_simp
        ring

/-- A prescribed value reaches every cell of the line by diffusion. -/
theorem line_fed (mag : Vec K → K) (n : Nat) (h1 : 1 ≤ n) (δ gamma : Nat → K) (hδ : ∀ f < n + 1, 0 < δ f) (hg : ∀ f < n + 1, 0 < gamma f)
    (φ : VolField K K) (hleft : (φ.entry 0).fraction = 1) : ∀ c < n, Fed (mesh1D mag n) (fun _ => 0) δ gamma φ c := by
  intro c
  have hpos : ∀ f < n + 1, 0 < gamma f * δ f * ix (mesh1D mag n).magFaceAreas f := by
    intro f hf
    rw [mesh1D_mag mag n f hf, mul_one]
    exact mul_pos (hg f hf) (hδ f hf)
  have hi : (mesh1D mag n).nInternalFaces = n - 1 := rfl
  induction c with
  | zero =>
    intro _
    have := Fed.boundary (m := mesh1D mag n) (flux := fun _ => 0) (δ := δ) (gamma := gamma) (φ := φ) 0 (by show 0 < 2; omega) hleft
      (hpos _ (by rw [hi]; omega))
    exact this
  | succ c ih =>
    intro hc
    have := Fed.nbr (m := mesh1D mag n) (flux := fun _ => 0) (δ := δ) (gamma := gamma) (φ := φ) c (by rw [hi]; omega)
      (by rw [mesh1D_own mag n c (by omega), if_pos (by omega)]; exact ih (by omega)) (.inl (hpos c (by omega)))
    rw [mesh1D_nbr mag n c (by omega)] at this
    exact this

/-- **C64, conduction**: on the mesh of `create1DUniformMesh`, for every number of cells from one on, uniform diffusivity `k > 0`, fixed
values `a` and `b` at the two ends and every initial field: `dsl::solve` of `laplacian(gamma, u)` on the serial executor, or from two cells on on any executor, with every
linear solver that solves solvable systems, has exactly one outcome, and in it the value of every cell is the linear profile's value at
its centre, exactly. -/
theorem C64_conduction (e e' es : ExecKind) (mag : Vec K → K) (mjunk : Nat → Nat) (n : Nat) (h1 : 1 ≤ n) (hes : es = .serial ∨ 2 ≤ n) (m : Mesh K)
    (hm : create1DUniformMesh e mag mjunk n (.ok m)) (tiny : K) (sqrt : K → K) (hs : IsSqrt sqrt) (gjunk : Nat → K) (g : Geometry K)
    (hg : geometryScheme e' m tiny sqrt gjunk (.ok g)) {sp : SparsityPattern} (hsp : sparsityUpdate es m (.ok sp))
    (junk : Nat → K) (gamma : List K) (hgl : gamma.length = n + 1) (k : K) (hk : 0 < k) (hgam : ∀ f < n + 1, ix gamma f = k)
    (eqn : Expr) (ops : OpsOf K K)
    (hbuild : ∀ st, diffusionTree.build (diffusionOps es m sp junk g.nonOrthDeltaCoeffs gamma st) = .ok (eqn, ops st))
    (bcs : List (VolumeBoundary K)) (table : SolverTable K) (fvSchemes fvSolution : Dict)
    (solver : LinSolver K) (hso : createSolver table fvSolution = .ok solver) (hex : SolvingOn m solver)
    (a b : K) (st : TimeState K K) (ho : st.sol.On m)
    (hleft : Prescribes m st.sol 0 (.fixedValue a) (st.sol.entry 0)) (hright : Prescribes m st.sol 1 (.fixedValue b) (st.sol.entry 1)) (t dt : K) :
    ∃ x : List K, x.length = n ∧
      (∀ out, dslSolve es m bcs table fvSchemes fvSolution ops eqn st t dt out ↔ out = .ok { st with sol := { st.sol with internal := x } }) ∧
      ∀ c < n, ix x c = a + (b - a) * ((c + 1 / 2) / n) := by
  rw [create1D_closed e mag mjunk n h1, Res.ok.injEq] at hm
  subst hm
  have hn : (0 : K) < n := by exact_mod_cast h1
  have hn' : (n : K) ≠ 0 := hn.ne'
  have hF : (mesh1D mag n).nFaces = n + 1 := rfl
  have hC : (mesh1D mag n).nCells = n := rfl
  have hi : (mesh1D mag n).nInternalFaces = n - 1 := rfl
  have hB : (mesh1D mag n).nBoundaryFaces = 2 := rfl
  have hcast : ((n - 1 : Nat) : K) = (n : K) - 1 := by rw [Nat.cast_sub h1]; simp
  obtain ⟨-, hdl, hnd, -, -⟩ := mesh1D_geometry mag n h1 e' tiny sqrt hs gjunk g hg
  have hwf := mesh1D_wf mag n h1
  obtain ⟨-, hlr, hlf⟩ := hleft
  obtain ⟨-, hrr, hrf⟩ := hright
  have hδ : ∀ f < n + 1, 0 < ix g.nonOrthDeltaCoeffs f := by
    intro f hf
    rw [hnd f hf]
    split <;> positivity
  have hfed := line_fed mag n h1 (ix g.nonOrthDeltaCoeffs) (ix gamma) hδ (fun f hf => by rw [hgam f hf]; exact hk) st.sol hlf
  have hdiff : ∀ f < n + 1, 0 ≤ ix gamma f * ix g.nonOrthDeltaCoeffs f * ix (mesh1D mag n).magFaceAreas f := by
    intro f hf
    rw [mesh1D_mag mag n f hf, hgam f hf, mul_one]
    exact mul_nonneg hk.le (hδ f hf).le
  have hst : Stable (mesh1D mag n) (fun _ => 0) (ix g.nonOrthDeltaCoeffs) (ix gamma) st.sol := by
    refine ⟨fun c _ => by simp [Mesh.netOutflow], hdiff, fun i hi' => .inr ?_⟩
    rw [hB] at hi'
    have : i = 0 ∨ i = 1 := by omega
    rcases this with rfl | rfl
    · exact ⟨hlf, hdiff _ (by rw [hi]; omega)⟩
    · exact ⟨hrf, hdiff _ (by rw [hi]; omega)⟩
  obtain ⟨_, heq, hp⟩ := pattern_for _ hwf (fun c _ => by have := mesh1D_deg mag n c; omega) es _ hsp
  cases heq
  have hre : (mesh1D mag n).Reproducible es := mesh1D_reproducible mag n es hes
  have hu : ∀ out, sparsityUpdate es (mesh1D mag n) out ↔ out = .ok sp :=
    fun out => ⟨fun ho => sparsity_single _ hwf (hre.imp id And.left) _ _ ho hsp, fun ho => ho ▸ hsp⟩
  obtain ⟨ls, hon, hres, hdet⟩ := diffusion_system es hwf hp hu (hre.imp id And.right) junk g.nonOrthDeltaCoeffs gamma (by rw [hdl, hF]) (by rw [hgl, hF])
    eqn ops hbuild st ho t dt bcs table fvSchemes fvSolution
  obtain ⟨x, hx1, hx2, hx3⟩ := steady_solver hwf hst hfed hp ls hon (-1) (by simp) (fun x c hc => by rw [hres x c hc]; ring) solver hex st.sol.internal ho.int
  refine ⟨x, hx1, fun out => ?_, ?_⟩
  · rw [hdet solver hso out]
    exact NR.bind_iff hx2 out
  · refine steady_unique hwf hst hfed _ (fun c : Nat => a + (b - a) * (((c : K) + 1 / 2) / n)) fun c hc => ?_
    rw [hx3 c hc, mesh1D_netOutflow mag n _ c hc]
    have hfl : ∀ f < n + 1, st.sol.outFlux (mesh1D mag n) (fun _ => 0) (ix g.nonOrthDeltaCoeffs) (ix gamma) (fun c : Nat => a + (b - a) * (((c : K) + 1 / 2) / n)) f
        = if f = n - 1 then k * (b - a) else -(k * (b - a)) := by
      intro f hf
      unfold VolField.outFlux
      rw [hi, hnd f hf, hgam f hf, mesh1D_mag mag n f hf]
      by_cases ha : f < n - 1
      · rw [if_pos ha, if_pos ha, if_neg (show ¬ f = n - 1 by omega), mesh1D_own mag n f hf, if_pos ha, mesh1D_nbr mag n f ha]
        push_cast
        field_simp
        ring
      · rw [if_neg ha, if_neg ha]
        by_cases hb : f = n - 1
        · rw [if_pos hb, hb, Nat.sub_self, mesh1D_fc0]
          simp only [hlr, hlf]
          push_cast
          field_simp
          ring
        · have : f - (n - 1) = 1 := by omega
          rw [if_neg hb, this, mesh1D_fc1]
          simp only [hrr, hrf, hcast]
          field_simp
          ring
    have hc' : c < n := hc
    have hR : ∀ z : Nat → K, (∀ f < n + 1, z f = if f = n - 1 then k * (b - a) else -(k * (b - a))) →
        (if c < n - 1 then z c else z n) - (if 1 ≤ c then z (c - 1) else -z (n - 1)) = 0 := by
      intro z hz
      have r : (if c < n - 1 then z c else z n) = -(k * (b - a)) := by
        split
        · rw [hz _ (by omega), if_neg (by omega)]
        · rw [hz _ (by omega), if_neg (by omega)]
      have l : (if 1 ≤ c then z (c - 1) else -z (n - 1)) = -(k * (b - a)) := by
        split
        · rw [hz _ (by omega), if_neg (by omega)]
        · rw [hz _ (by omega), if_pos rfl]
      rw [r, l, sub_self]
    exact (hR _ hfl).symm

/-- The hypotheses of `C64_conduction` can be met, for every number of cells and every pair of end values; so can those of `C64_gradient`. -/
example (es : ExecKind) (n : Nat) (h1 : 1 ≤ n) (a b : ℝ) : ∃ m g sp, create1DUniformMesh .parallel (vmag Real.sqrt) (fun _ => 0) n (.ok m) ∧
    geometryScheme .parallel m (1 / 1000) Real.sqrt (fun _ => 0) (.ok g) ∧ sparsityUpdate es m (.ok sp) ∧
    (∃ φ : VolField ℝ ℝ, φ.On m ∧ Prescribes m φ 0 (.fixedValue a) (φ.entry 0) ∧ Prescribes m φ 1 (.fixedValue b) (φ.entry 1)) ∧
    ∃ φ : VolField ℝ ℝ, φ.On m ∧ LinearOn n a (b - a) φ := by
  have hwf := mesh1D_wf (vmag Real.sqrt) n h1
  obtain ⟨sp, hsp⟩ := C14_terminates _ hwf es
  refine ⟨mesh1D (vmag Real.sqrt) n, _, sp, (create1D_closed _ _ _ n h1 _).2 rfl, (geometryScheme_det hwf .parallel _ _ _ _).2 rfl, hsp, ?_, ?_⟩
  · refine ⟨⟨List.replicate n 7, [a, b], [a, b], [1, 1], [0, 0]⟩, ⟨by simp [mesh1D], rfl, rfl, rfl, rfl⟩, ⟨rfl, rfl, rfl⟩, ⟨rfl, rfl, rfl⟩⟩
  · refine ⟨⟨(List.range n).map fun c : Nat => a + (b - a) * (((c : ℝ) + 1 / 2) / n), [a, b], [a, b], [1, 1], [0, 0]⟩, ⟨by simp [mesh1D], rfl, rfl, rfl, rfl⟩,
      ⟨fun c hc => ?_, rfl, ?_⟩⟩
    · simp only [VolField.cell]
      rw [getD_range_map _ _ _ hc]
    · simp [VolField.bnd]

end NeoFOAM
