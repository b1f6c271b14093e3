import Verif.Proofs.FloatSteady
import Verif.Proofs.March
import Verif.Props.C91_FloatImplicit

/-!
# C99 – steady transport and diffusion in floating point, with a linear solver that stops at a tolerance
-/
namespace NeoFOAM
open Finset

section
variable {F K : Type} [Add F] [Sub F] [Mul F] [Div F] [Neg F] [Zero F] [One F] [LinearOrder F] [Field K] [LinearOrder K] [IsStrictOrderedRing K]
variable {val : F → K} {u : K} {m : Mesh F}

/-- **C99**: let `F` be floating-point numbers with unit roundoff `u`. For every valid mesh with positive volumes, flux, diffusivity and surface coefficients whose
exact values make `TameData` true and have a `Barrier` of height `W`, initial state and linear solver that, when it returns, leaves residuals of at most `τ`: there is
exactly one field `x` that balances exactly, and whenever `dsl::solve` on `div(flux, u) - laplacian(gamma, u)` in floating point returns, then each value is of size
at most `P` and at distance at most `P - X` from `x`, where `X` bounds `x` and the boundary values, `P = (X + W ε) / (1 - W κ)`, `ε` is the tolerance per
volume and `κ` the roundoff of assembling a row: `(1 + u)^N - 1`, where `N` exceeds twice the number of faces of a cell by 9, times how strongly the cell is
connected per volume. The initial state has no influence on the bounds; with exact arithmetic and solver the distance is 0.
Outside the statement: the parallel executors on meshes that are not lines of cells (C32); overflow and underflow. -/
theorem C99_steady (hF : FloatArith F val u) (h : m.WF) (h256 : ∀ c < m.nCells, 1 + m.deg c ≤ 256) (hv : ∀ c < m.nCells, 0 < val (m.vol c))
    (e : ExecKind) (hre : m.Reproducible e) {sp : SparsityPattern} (hsp : sparsityUpdate e m (.ok sp))
    (sch : InterpScheme) (w : List F) (junk : Nat → F) {flux δ gamma : List F} (hfl : flux.length = m.nFaces) (hδ : δ.length = m.nFaces) (hg : gamma.length = m.nFaces)
    (eqn : Expr) (ops : OpsOf F F) (hbuild : ∀ st, steadyTree.build (steadyOps e m sp sch w junk flux δ gamma st) = .ok (eqn, ops st))
    (bcs : List (VolumeBoundary F)) (table : SolverTable F) (fvSchemes fvSolution : Dict)
    (solver : LinSolver F) (hso : createSolver table fvSolution = .ok solver) {τ : Nat → K} (hsol : SolvesWithin val τ m solver)
    (st : TimeState F F) (ho : st.sol.On m) {M : K}
    (hdata : TameData (m.exact val) (ix (flux.map val)) (ix (δ.map val)) (ix (gamma.map val)) M (st.sol.exact val))
    {W : K} {b : Nat → K} (hbar : Barrier (m.exact val) (ix (flux.map val)) (ix (δ.map val)) (ix (gamma.map val)) (st.sol.exact val) W b) (t dt : F)
    {N : Nat} (hN : ∀ c < m.nCells, 9 + 2 * m.faceCount c ≤ N) {κ ε : K} (hκ0 : 0 ≤ κ) (hε0 : 0 ≤ ε) (hlt : W * κ < 1)
    (hκ : ∀ c < m.nCells, ((1 + u) ^ N - 1) * (m.exact val).exchange (ix (flux.map val)) (ix (δ.map val)) (ix (gamma.map val)) c ≤ κ * val (m.vol c))
    (hε : ∀ c < m.nCells, τ c ≤ ε * val (m.vol c)) :
    ∃ x : Nat → K, Balanced (m.exact val) (ix (flux.map val)) (ix (δ.map val)) (ix (gamma.map val)) (st.sol.exact val) x ∧
      (∀ y, Balanced (m.exact val) (ix (flux.map val)) (ix (δ.map val)) (ix (gamma.map val)) (st.sol.exact val) y → ∀ c < m.nCells, y c = x c) ∧
      ∀ X, M ≤ X → (∀ c < m.nCells, |x c| ≤ X) → ∀ st', dslSolve e m bcs table fvSchemes fvSolution ops eqn st t dt (.ok st') → ∀ c < m.nCells,
        |val (st'.sol.cell c)| ≤ (X + W * ε) / (1 - W * κ) ∧ |val (st'.sol.cell c) - x c| ≤ (X + W * ε) / (1 - W * κ) - X := by
  have hw := exact_wf (val := val) h
  have hz := hF.zero
  have hvE : ∀ c < (m.exact val).nCells, 0 < (m.exact val).vol c := fun c hc => by rw [hF.vol]; exact hv c hc
  obtain ⟨_, hee, p1, p2, p3, p4, p5⟩ := C14_offsets_partial m h h256 e _ hsp
  cases hee
  have hp : sp.For m := ⟨p1, p2, p3, p4, p5⟩
  have hup : ∀ out, sparsityUpdate e m out ↔ out = .ok sp :=
    fun out => ⟨fun ho => sparsity_single m h (hre.imp id And.left) _ _ ho hsp, fun ho => ho ▸ hsp⟩
  have he : e = .serial ∨ m.BndDistinct := hre.imp id And.right
  obtain ⟨x, hx⟩ := balanced_exists hw hvE hdata hbar
  refine ⟨x, hx, fun y hy c hc => ?_, ?_⟩
  · have := balanced_near hw hvE hdata hbar le_rfl x y hx (fun c hc => by rw [hy c hc, abs_zero, zero_mul]) c hc
    rw [mul_zero] at this
    exact sub_eq_zero.1 (abs_nonpos_iff.1 this)
  intro X hMX hX st' hrun c0 hc0
  have hW : 0 < W := lt_of_lt_of_le (hbar.pos c0 hc0) (hbar.le c0 hc0)
  have hX0 : 0 ≤ X := (abs_nonneg _).trans (hX c0 hc0)
  obtain ⟨A0, hA0⟩ := empty_exists (F := F) hp
  rw [steady_solveF e hup hA0 sch w junk flux δ gamma eqn ops hbuild bcs table fvSchemes fvSolution solver hso st t dt] at hrun
  obtain ⟨r, hr, hrun⟩ := (NR.bind_def _ _ _).1 hrun
  obtain ⟨A, rfl, hAon, hA⟩ := steady_assembled hF h hp e he hfl hδ hg ho hdata hN (fun c hc => by rw [hF.vol]; exact hκ c hc) hA0 _ hr
  obtain ⟨ry, hy, hrun⟩ := (NR.bind_def _ _ _).1 hrun
  cases ry with
  | throw _ => cases hrun
  | abort => cases hrun
  | ub => cases hrun
  | ok y =>
  cases hrun
  have hlen : st.sol.internal.length = m.nCells := ho.int
  obtain ⟨hy1, hy2⟩ := hsol A st.sol.internal y ⟨sp, hp, hAon⟩ hlen hy
  have hcell : ∀ c, ix (y.map val) c = val (ix y c) := fun c => ix_val hz y c
  have hbal : ∀ B, M ≤ B → (∀ c < m.nCells, |ix (y.map val) c| ≤ B) → ∀ c < (m.exact val).nCells,
      |(m.exact val).netOutflow ((st.sol.exact val).outFlux (m.exact val) (ix (flux.map val)) (ix (δ.map val)) (ix (gamma.map val)) (ix (y.map val))) c|
        ≤ (ε + κ * B) * (m.exact val).vol c := by
    intro B hMB hB c hc
    have h1 := hA B hMB _ hB c hc
    have h2 := hy2 c hc
    have h3 := hε c hc
    rw [← hF.vol] at h3
    rw [abs_le] at h1 h2 ⊢
    constructor <;> linarith [h1.1, h1.2, h2.1, h2.2]
  set P := (X + W * ε) / (1 - W * κ) with hP
  have hl0 : 0 < 1 - W * κ := by linarith
  have hPe : P = X + W * (ε + κ * P) := by
    have : P * (1 - W * κ) = X + W * ε := by rw [hP]; field_simp
    linarith
  have hXP : X ≤ P := by
    rw [hP, le_div_iff₀ hl0]
    have := mul_nonneg hX0 (mul_nonneg hW.le hκ0)
    have := mul_nonneg hW.le hε0
    linarith
  have hnew : ∀ c < m.nCells, |ix (y.map val) c| ≤ P := by
    obtain ⟨c, hc, hmax⟩ := Finset.exists_max_image (range m.nCells) (fun c => |ix (y.map val) c|) ⟨c0, mem_range.2 hc0⟩
    rw [mem_range] at hc
    intro c' hc'
    refine (hmax c' (mem_range.2 hc')).trans ?_
    rcases le_total |ix (y.map val) c| X with hY | hY
    · exact hY.trans hXP
    · have h1 := balanced_near hw hvE hdata hbar (add_nonneg hε0 (mul_nonneg hκ0 (abs_nonneg _))) x _ hx
        (hbal _ (hMX.trans hY) (fun c hc => hmax c (mem_range.2 hc))) c hc
      have h2 := hX c hc
      have h3 := abs_sub_abs_le_abs_sub (ix (y.map val) c) (x c)
      rw [hP, le_div_iff₀ hl0]
      linarith
  have hnear := balanced_near hw hvE hdata hbar (ρ := ε + κ * P) (add_nonneg hε0 (mul_nonneg hκ0 (hX0.trans hXP))) x _ hx
    (hbal _ (hMX.trans hXP) hnew) c0 hc0
  have h0 := hnew c0 hc0
  rw [hcell] at hnear h0
  exact ⟨h0, by change |val (ix y c0) - x c0| ≤ _; linarith⟩

end

section
variable {K : Type} [Field K] [LinearOrder K] [IsStrictOrderedRing K]

/-- There is a `Barrier` if the fluxes are free of divergence and each cell has a connection to a boundary with a fixed value; and then the boundary values bound the
balanced field, so `X` can be `M`. -/
theorem C99_connected {m : Mesh K} (h : m.WF) (hv : ∀ c < m.nCells, 0 < m.vol c) {flux δ gamma : Nat → K} {φ : VolField K K}
    (hs : Stable m flux δ gamma φ) (hfed : ∀ c < m.nCells, Fed m flux δ gamma φ c) :
    (∃ W w, Barrier m flux δ gamma φ W w) ∧
      ∀ M, (∀ b < m.nBoundaryFaces, (φ.entry b).fraction = 1 → |(φ.entry b).refValue| ≤ M) → ∀ x, Balanced m flux δ gamma φ x → ∀ c < m.nCells, |x c| ≤ M := by
  constructor
  · obtain ⟨w, hw, hbar⟩ := exists_barrier h hv hs hfed
    refine ⟨∑ c ∈ range m.nCells, w c, w, hw, fun c hc => ?_, fun c hc => by rw [outFlux0_eq, hbar c hc]⟩
    exact Finset.single_le_sum (f := w) (fun i hi => (hw i (mem_range.1 hi)).le) (mem_range.2 hc)
  · intro M hM x hx c hc
    exact abs_le.2 (steady_bounds h hs hfed (fun b hb hf => abs_le.1 (hM b hb hf)) x hx c hc)

end

/-- The hypotheses of `C99_steady` can be met: with a solver of the least possible tolerance the call may return, and then is close to the exact field. -/
example : ∃ (sp : SparsityPattern) (x : Nat → ℚ) (eqn : Expr) (ops : OpsOf (BinFloat 53) (BinFloat 53)),
    (∀ st, steadyTree.build (steadyOps .serial floatRow sp .upwind [third, third, 1, 1] (fun _ => 0) [1, 1, -1, 1] [1, 1, 1, 1] [1, 1, 1, 1] st) = .ok (eqn, ops st)) ∧
    (∃ st', dslSolve .serial floatRow [] [("exact", fun _ => withinSolver (BinFloat.val 53) (floatRowLoss * |BinFloat.val 53 third|))] [] backwardDict ops eqn
      ⟨floatRowEven, none⟩ 0 1 (.ok st')) ∧
    ∀ X, |BinFloat.val 53 third| ≤ X → (∀ c < 3, |x c| ≤ X) → ∀ st', dslSolve .serial floatRow []
      [("exact", fun _ => withinSolver (BinFloat.val 53) (floatRowLoss * |BinFloat.val 53 third|))] [] backwardDict ops eqn ⟨floatRowEven, none⟩ 0 1 (.ok st') →
        |BinFloat.val 53 (st'.sol.cell 1) - x 1| ≤ (X + 3 * (floatRowLoss * |BinFloat.val 53 third|)) / (1 - 3 * floatRowLoss) - X := by
  have hF := binFloat_arith 53
  have h1 : BinFloat.val 53 1 = 1 := rfl
  have hm1 : BinFloat.val 53 (-1) = -1 := rfl
  have hcases : ∀ c : Nat, c < 3 → c = 0 ∨ c = 1 ∨ c = 2 := fun c hc => by omega
  have hb2 : ∀ b : Nat, b < 2 → b = 0 ∨ b = 1 := fun b hb => by omega
  have hb4 : ∀ b : Nat, b < 4 → b = 0 ∨ b = 1 ∨ b = 2 ∨ b = 3 := fun b hb => by omega
  have hvol : ∀ c < floatRow.nCells, floatRow.vol c = 1 := by
    intro c hc
    rcases hcases c hc with rfl | rfl | rfl <;> rfl
  have hvE : ∀ c < floatRow.nCells, (floatRow.exact (BinFloat.val 53)).vol c = 1 := fun c hc => by
    rw [hF.vol, hvol c hc]; rfl
  have hd : ∀ f < 4, ix (([1, 1, 1, 1] : List (BinFloat 53)).map (BinFloat.val 53)) f = 1 := by
    intro f hf
    rcases hb4 f hf with rfl | rfl | rfl | rfl <;> rfl
  have ha : ∀ f < 4, ix (floatRow.exact (BinFloat.val 53)).magFaceAreas f = 1 := by
    intro f hf
    rcases hb4 f hf with rfl | rfl | rfl | rfl <;> rfl
  have hfl : ∀ f < 4, ix (([1, 1, -1, 1] : List (BinFloat 53)).map (BinFloat.val 53)) f ≤ 1 ∧ |ix (([1, 1, -1, 1] : List (BinFloat 53)).map (BinFloat.val 53)) f| = 1 := by
    intro f hf
    rcases hb4 f hf with rfl | rfl | rfl | rfl
    · exact ⟨le_rfl, abs_one⟩
    · exact ⟨le_rfl, abs_one⟩
    · exact ⟨show (-1 : ℚ) ≤ 1 by norm_num, show |(-1 : ℚ)| = 1 by norm_num⟩
    · exact ⟨le_rfl, abs_one⟩
  have hdeg : ∀ c < floatRow.nCells, 1 + floatRow.deg c ≤ 256 := row3_deg
  obtain ⟨sp, hsp⟩ := C14_terminates floatRow floatRow_wf .serial
  obtain ⟨_, hee, p1, p2, p3, p4, p5⟩ := C14_offsets_partial floatRow floatRow_wf hdeg .serial _ hsp
  cases hee
  have hp : sp.For floatRow := ⟨p1, p2, p3, p4, p5⟩
  have hup : ∀ out, sparsityUpdate .serial floatRow out ↔ out = .ok sp :=
    fun out => ⟨fun ho => sparsity_single floatRow floatRow_wf (.inl rfl) _ _ ho hsp, fun ho => ho ▸ hsp⟩
  have hpos : ∀ c < floatRow.nCells, 0 < BinFloat.val 53 (floatRow.vol c) := fun c hc => by rw [hvol c hc, h1]; norm_num
  have hfc : ∀ c < floatRow.nCells, floatRow.faceCount c = 2 := by
    intro c hc
    rcases hcases c hc with rfl | rfl | rfl <;> decide
  have hN : ∀ c < floatRow.nCells, 9 + 2 * floatRow.faceCount c ≤ 13 := fun c hc => by rw [hfc c hc]
  have hex : ∀ c < floatRow.nCells, (floatRow.exact (BinFloat.val 53)).exchange (ix (([1, 1, -1, 1] : List (BinFloat 53)).map (BinFloat.val 53)))
      (ix (([1, 1, 1, 1] : List (BinFloat 53)).map (BinFloat.val 53))) (ix (([1, 1, 1, 1] : List (BinFloat 53)).map (BinFloat.val 53))) c ≤ 6 := by
    intro c hc
    have e : ∀ f < 4, |ix (([1, 1, -1, 1] : List (BinFloat 53)).map (BinFloat.val 53)) f| + 2 * |ix (([1, 1, 1, 1] : List (BinFloat 53)).map (BinFloat.val 53)) f *
        ix (([1, 1, 1, 1] : List (BinFloat 53)).map (BinFloat.val 53)) f * ix (floatRow.exact (BinFloat.val 53)).magFaceAreas f| = 3 := by
      intro f hf
      rw [(hfl f hf).2, hd f hf, ha f hf]
      norm_num
    unfold Mesh.exchange Mesh.faceSum
    rcases hcases c hc with rfl | rfl | rfl <;>
      simp [Mesh.exact, floatRow, row3, topoMesh, Finset.sum_range_succ, BoundaryMesh.exact, Mesh.own, Mesh.nbr, Mesh.fc] at e ⊢ <;>
      linarith [e 0 (by norm_num), e 1 (by norm_num), e 2 (by norm_num), e 3 (by norm_num)]
  have hl0 : (0 : ℚ) ≤ floatRowLoss := by unfold floatRowLoss; norm_num
  have hκ : ∀ c < floatRow.nCells, ((1 + 1 / 2 ^ 53) ^ 13 - 1) * (floatRow.exact (BinFloat.val 53)).exchange (ix (([1, 1, -1, 1] : List (BinFloat 53)).map (BinFloat.val 53)))
      (ix (([1, 1, 1, 1] : List (BinFloat 53)).map (BinFloat.val 53))) (ix (([1, 1, 1, 1] : List (BinFloat 53)).map (BinFloat.val 53))) c
      ≤ floatRowLoss * (floatRow.exact (BinFloat.val 53)).vol c := by
    intro c hc
    rw [hvE c hc, mul_one]
    have := hex c hc
    refine mul_le_mul_of_nonneg_left ?_ (by norm_num)
    linarith
  have hcell : ∀ c < 3, floatRowEven.cell c = third := by
    intro c hc
    rcases hcases c hc with rfl | rfl | rfl <;> rfl
  have hdata : TameData (floatRow.exact (BinFloat.val 53)) (ix (([1, 1, -1, 1] : List (BinFloat 53)).map (BinFloat.val 53)))
      (ix (([1, 1, 1, 1] : List (BinFloat 53)).map (BinFloat.val 53))) (ix (([1, 1, 1, 1] : List (BinFloat 53)).map (BinFloat.val 53))) |BinFloat.val 53 third|
      (floatRowEven.exact (BinFloat.val 53)) := by
    constructor
    · intro f hf
      rw [hd f hf, ha f hf]
      norm_num
    · intro b hb
      have hf : 2 + b < 4 := by have : b < 2 := hb; omega
      refine .inr ?_
      have h3 := (hfl _ hf).1
      have h4 := hd _ hf
      have h5 := ha _ hf
      change _ ∧ _ ∧ ix (([1, 1, -1, 1] : List (BinFloat 53)).map (BinFloat.val 53)) (2 + b) ≤ ix (([1, 1, 1, 1] : List (BinFloat 53)).map (BinFloat.val 53)) (2 + b) *
        ix (([1, 1, 1, 1] : List (BinFloat 53)).map (BinFloat.val 53)) (2 + b) * ix (floatRow.exact (BinFloat.val 53)).magFaceAreas (2 + b)
      rw [h4, h5, one_mul, one_mul]
      rcases hb2 b hb with rfl | rfl <;> exact ⟨rfl, le_rfl, h3⟩
  have hbar : Barrier (floatRow.exact (BinFloat.val 53)) (ix (([1, 1, -1, 1] : List (BinFloat 53)).map (BinFloat.val 53)))
      (ix (([1, 1, 1, 1] : List (BinFloat 53)).map (BinFloat.val 53))) (ix (([1, 1, 1, 1] : List (BinFloat 53)).map (BinFloat.val 53)))
      (floatRowEven.exact (BinFloat.val 53)) 3 (fun c => (c : ℚ) + 1) := by
    refine ⟨fun c _ => by positivity, fun c hc => ?_, fun c hc => ?_⟩
    · rcases hcases c hc with rfl | rfl | rfl <;> norm_num
    · rw [hvE c hc]
      rcases hcases c hc with rfl | rfl | rfl <;>
        simp [Mesh.netOutflow, VolField.outFlux0, VolField.entry, VolField.exact, Mesh.exact, floatRow, floatRowEven, row3, topoMesh, Mesh.own, Mesh.nbr, Mesh.fc, ix,
          Finset.sum_range_succ, h1, hm1, BoundaryMesh.exact] <;> norm_num
  have hbuild : ∀ st, ∃ o, steadyTree.build (steadyOps .serial floatRow sp .upwind [third, third, 1, 1] (fun _ => 0)
      [1, 1, -1, 1] [1, 1, 1, 1] [1, 1, 1, 1] st) = .ok (⟨[], [4, 7]⟩, o) := fun st => by
    obtain ⟨o, ho, -⟩ := steady_heap .serial floatRow sp .upwind [third, third, 1, 1] (fun _ => 0) [1, 1, -1, 1] [1, 1, 1, 1] [1, 1, 1, 1] st
    exact ⟨o, ho⟩
  choose ops hbuild using hbuild
  generalize (⟨[], [4, 7]⟩ : Expr) = eqn at hbuild
  obtain ⟨x, -, -, hx⟩ := C99_steady hF floatRow_wf hdeg hpos .serial (.inl rfl) hsp .upwind [third, third, 1, 1] (fun _ => 0) (flux := [1, 1, -1, 1]) (δ := [1, 1, 1, 1])
    (gamma := [1, 1, 1, 1]) rfl rfl rfl eqn ops hbuild [] [("exact", fun _ => withinSolver (BinFloat.val 53) (floatRowLoss * |BinFloat.val 53 third|))] [] backwardDict
    (withinSolver (BinFloat.val 53) (floatRowLoss * |BinFloat.val 53 third|)) rfl (withinSolver_within _ _ _) ⟨floatRowEven, none⟩
    ⟨rfl, rfl, rfl, rfl, rfl⟩ hdata hbar 0 1 hN hl0
    (mul_nonneg hl0 (abs_nonneg _)) (by unfold floatRowLoss; norm_num) (fun c hc => by rw [← hF.vol]; exact hκ c hc)
    (fun c hc => by rw [hvol c hc, h1, mul_one])
  refine ⟨sp, x, eqn, ops, hbuild, ⟨⟨{ floatRowEven with internal := floatRowEven.internal }, none⟩, ?_⟩, fun X hX hx1 st' hst' => (hx X hX hx1 st' hst' 1 (by decide)).2⟩
  refine steady_mayReturn hF floatRow_wf hp .serial (.inl rfl) hup .upwind [third, third, 1, 1] (fun _ => 0) (flux := [1, 1, -1, 1]) (δ := [1, 1, 1, 1])
    (gamma := [1, 1, 1, 1]) rfl rfl rfl eqn ops hbuild [] [("exact", fun _ => withinSolver (BinFloat.val 53) (floatRowLoss * |BinFloat.val 53 third|))] [] backwardDict
    (withinSolver (BinFloat.val 53) (floatRowLoss * |BinFloat.val 53 third|)) rfl ⟨floatRowEven, none⟩
    ⟨rfl, rfl, rfl, rfl, rfl⟩ hdata 0 1 hN hκ le_rfl floatRowEven.internal
    (fun c hc => (congrArg (fun y => |BinFloat.val 53 y|) (hcell c hc)).le) ?_
  intro A hA hres
  refine ⟨floatRowEven.internal, rfl, hA.rhsLen.symm, fun c hc => ?_⟩
  rw [hA.rhsLen] at hc
  have := hres c hc
  rw [hvE c hc] at this
  have hc3 : ∀ c < 3, ix (floatRowEven.internal.map (BinFloat.val 53)) c = BinFloat.val 53 third := by
    intro c hc
    rcases hcases c hc with rfl | rfl | rfl <;> rfl
  have e2 : (floatRow.exact (BinFloat.val 53)).netOutflow ((floatRowEven.exact (BinFloat.val 53)).outFlux (floatRow.exact (BinFloat.val 53))
      (ix (([1, 1, -1, 1] : List (BinFloat 53)).map (BinFloat.val 53))) (ix (([1, 1, 1, 1] : List (BinFloat 53)).map (BinFloat.val 53)))
      (ix (([1, 1, 1, 1] : List (BinFloat 53)).map (BinFloat.val 53))) (ix (floatRowEven.internal.map (BinFloat.val 53)))) c = 0 := by
    rw [netOutflow_congr (exact_wf floatRow_wf) (ψ := fun f => BinFloat.val 53 third • ix (([1, 1, -1, 1] : List (BinFloat 53)).map (BinFloat.val 53)) f), netOutflow_smul]
    · rcases hcases c hc with rfl | rfl | rfl <;>
        simp [Mesh.netOutflow, Mesh.exact, floatRow, row3, topoMesh, Mesh.own, Mesh.nbr, Mesh.fc, ix, Finset.sum_range_succ, h1, hm1, BoundaryMesh.exact]
    · intro f hf
      have hf : f < 4 := hf
      generalize hq : BinFloat.val 53 third = q
      rcases hb4 f hf with rfl | rfl | rfl | rfl <;>
        simp [VolField.outFlux, VolField.entry, VolField.exact, Mesh.exact, floatRow, floatRowEven, row3, topoMesh, Mesh.own, Mesh.nbr, Mesh.fc, ix, h1, hm1, BoundaryMesh.exact, hq]
  rw [e2] at this
  simpa using this

end NeoFOAM
