import Verif.Proofs.FloatImplicit
import Verif.Props.C60_ImplicitTransport
import Verif.Props.C83_FloatTransport

/-!
# C91 – implicit transport and diffusion in floating point, with a linear solver that stops at a tolerance
-/
namespace NeoFOAM
open Finset

section
variable {F K : Type} [Add F] [Sub F] [Mul F] [Div F] [Neg F] [Zero F] [One F] [LinearOrder F] [Field K] [LinearOrder K] [IsStrictOrderedRing K]
variable {val : F → K} {u : K} {m : Mesh F}

omit [Add F] [Sub F] [Mul F] [Div F] [Neg F] [One F] [LinearOrder F] [LinearOrder K] [IsStrictOrderedRing K] in
theorem exact_entry_congr (hz : val 0 = 0) {φ ψ : VolField F F} (h : ∀ b, φ.entry b = ψ.entry b) (b : Nat) : (φ.exact val).entry b = (ψ.exact val).entry b := by
  have key : ∀ χ : VolField F F, (χ.exact val).entry b = ⟨val (χ.entry b).value, val (χ.entry b).refValue, val (χ.entry b).fraction, val (χ.entry b).refGrad⟩ := by
    intro χ
    simp only [VolField.entry, VolField.exact]
    have := fun l : List F => ix_val hz l b
    simp only [ix] at this
    simp only [this]
  rw [key, key, h b]

omit [IsStrictOrderedRing K] in
theorem TameData.congr {m : Mesh K} {flux δ gamma : Nat → K} {M : K} {φ ψ : VolField K K} (h : TameData m flux δ gamma M φ) (he : ∀ b, ψ.entry b = φ.entry b) :
    TameData m flux δ gamma M ψ := ⟨h.diff, fun b hb => by rw [he b]; exact h.bnd b hb⟩

omit [IsStrictOrderedRing K] in
theorem outFlux_sameBC' {φ ψ : VolField K K} (h : ∀ b, φ.entry b = ψ.entry b) {m : Mesh K} {flux δ gamma x : Nat → K} :
    φ.outFlux m flux δ gamma x = ψ.outFlux m flux δ gamma x := by
  funext f
  simp only [VolField.outFlux, h]

/-- **C91**: let `F` be floating-point numbers with unit roundoff `u`. For every valid mesh with positive volumes, flux, diffusivity and surface coefficients whose
exact values make `TameData` true, time steps, start with values of size at most `M`, and linear solver that, when it returns, leaves residuals of at most `τ`: there
is an exact run `x` – each `x (k+1)` solves the implicit Euler equations of the exact mesh from `x k` – such that, whenever `n` calls of `dsl::solve` on
`ddt(u) + div(flux, u) - laplacian(gamma, u)` with backwardEuler in floating point return, each cell has a value of size at most `λⁿ (M + n ε)`, at distance at
most `λⁿ (M + n ε) - μⁿ M` from the exact run, where `λ = 1 / (1 - η - κ)` and `μ = 1 / (1 - η)`. Here `η` bounds the net inflow of the fluxes into a cell per step
(0 if divergence free), `ε` is the tolerance per step, and `κ` the roundoff of assembling a row: `(1 + u)^N - 1`, where `N` exceeds twice the number of faces of
a cell by 9, times `2` plus how strongly the cell is connected. With exact arithmetic and solver the distance is 0.
Outside the statement: the parallel executors on meshes that are not lines of cells (C32); overflow and underflow. -/
theorem C91_implicit (hF : FloatArith F val u) (h : m.WF) (h256 : ∀ c < m.nCells, 1 + m.deg c ≤ 256) (hv : ∀ c < m.nCells, 0 < val (m.vol c))
    (e : ExecKind) (hre : m.Reproducible e) {sp : SparsityPattern} (hsp : sparsityUpdate e m (.ok sp))
    (sch : InterpScheme) (w : List F) (junk : Nat → F) {flux δ gamma : List F} (hfl : flux.length = m.nFaces) (hδ : δ.length = m.nFaces) (hg : gamma.length = m.nFaces)
    (eqn : Expr) (ops : OpsOf F F) (hbuild : ∀ st, convDiffTree.build (convDiffOps e m sp sch w junk flux δ gamma st) = .ok (eqn, ops st))
    (bcs : List (VolumeBoundary F)) (table : SolverTable F) (fvSchemes fvSolution : Dict) (hd : AsksFor fvSchemes "backwardEuler")
    (solver : LinSolver F) (hso : createSolver table fvSchemes = .ok solver) {τ : Nat → K} (hsol : SolvesWithin val τ m solver)
    (st : TimeState F F) (ho : st.sol.On m) (hsy : st.Synced) {M : K} (hM : 0 ≤ M)
    (hdata : TameData (m.exact val) (ix (flux.map val)) (ix (δ.map val)) (ix (gamma.map val)) M (st.sol.exact val))
    (hin : ∀ c < m.nCells, |val (st.sol.cell c)| ≤ M) (t : F) (dt : Nat → F) (hdt : ∀ k, 0 < val (dt k))
    {N : Nat} (hN : ∀ c < m.nCells, 9 + 2 * m.faceCount c ≤ N) {κ ε η : K} (hκ0 : 0 ≤ κ) (hε0 : 0 ≤ ε) (hη0 : 0 ≤ η) (hlt : η + κ < 1)
    (hη : ∀ k, SmallInflow (m.exact val) (ix (flux.map val)) (val (dt k)) η)
    (hκ : ∀ k, ∀ c < m.nCells, ((1 + u) ^ N - 1) *
      (2 + val (dt k) / (m.exact val).vol c * (m.exact val).exchange (ix (flux.map val)) (ix (δ.map val)) (ix (gamma.map val)) c) ≤ κ)
    (hε : ∀ k, ∀ c < m.nCells, τ c * (val (dt k) / (m.exact val).vol c) ≤ ε) :
    ∃ x : Nat → VolField K K, x 0 = st.sol.exact val ∧
      (∀ k, ImplicitStep (m.exact val) (ix (flux.map val)) (ix (δ.map val)) (ix (gamma.map val)) (val (dt k)) (x k) (x (k + 1))) ∧
      ∀ n st', timeLoop (fun d st => dslSolve e m bcs table fvSchemes fvSolution ops eqn st t d) dt n st (.ok st') → ∀ c < m.nCells,
        |val (st'.sol.cell c)| ≤ (1 / (1 - η - κ)) ^ n * (M + n * ε) ∧
        |val (st'.sol.cell c) - (x n).cell c| ≤ (1 / (1 - η - κ)) ^ n * (M + n * ε) - (1 / (1 - η)) ^ n * M := by
  have hw := exact_wf (val := val) h
  have hz := hF.zero
  have hvE : ∀ c < (m.exact val).nCells, 0 < (m.exact val).vol c := fun c hc => by rw [hF.vol]; exact hv c hc
  obtain ⟨_, hee, p1, p2, p3, p4, p5⟩ := C14_offsets_partial m h h256 e _ hsp
  cases hee
  have hp : sp.For m := ⟨p1, p2, p3, p4, p5⟩
  have hup : ∀ out, sparsityUpdate e m out ↔ out = .ok sp :=
    fun out => ⟨fun ho => sparsity_single m h (hre.imp id And.left) _ _ ho hsp, fun ho => ho ▸ hsp⟩
  have he : e = .serial ∨ m.BndDistinct := hre.imp id And.right
  set fl := ix (flux.map val) with hfle
  set dl := ix (δ.map val) with hdle
  set gl := ix (gamma.map val) with hgle
  -- the exact run
  let Good := { φ : VolField K K // φ.On (m.exact val) ∧ TameData (m.exact val) fl dl gl M φ }
  have hstep : ∀ (k : Nat) (φ : Good), ∃ φ' : Good, ImplicitStep (m.exact val) fl dl gl (val (dt k)) φ.1 φ'.1 := by
    rintro k ⟨φ, h1, h2⟩
    obtain ⟨y, hy1, hy2⟩ := implicit_exists hw hvE h2 (hdt k) hη0 (by linarith) (hη k) φ.cell
    have hon : ({ φ with internal := y } : VolField K K).On (m.exact val) := ⟨hy1, h1.val, h1.ref, h1.vf, h1.grad⟩
    exact ⟨⟨{ φ with internal := y }, hon, h2.congr fun _ => rfl⟩, hon, fun _ => rfl, hy2⟩
  choose next hnext using hstep
  let x : Nat → Good := fun k => Nat.rec ⟨st.sol.exact val, exact_on ho, hdata⟩ (fun k s => next k s) k
  have hx : ∀ k, ImplicitStep (m.exact val) fl dl gl (val (dt k)) (x k).1 (x (k + 1)).1 := fun k => hnext k (x k)
  have hxb : ∀ k b, (x k).1.entry b = (st.sol.exact val).entry b := by
    intro k
    induction k with
    | zero => exact fun _ => rfl
    | succ k ih => exact fun b => ((hx k).bnd b).trans (ih b)
  refine ⟨fun k => (x k).1, rfl, hx, ?_⟩
  -- sizes
  have hl0 : 0 < 1 - η - κ := by linarith
  have hl1 : 0 < 1 - η := by linarith
  set L := 1 / (1 - η - κ) with hL
  set G := 1 / (1 - η) with hG
  have hL1 : 1 ≤ L := by rw [hL, le_div_iff₀ hl0]; linarith
  have hLm : (1 - η - κ) * L = 1 := by rw [hL]; field_simp
  have hGm : (1 - η) * G = 1 := by rw [hG]; field_simp
  have hP0 : ∀ k : Nat, M ≤ L ^ k * (M + k * ε) := fun k => by
    have h1 := one_le_pow₀ (n := k) hL1
    have h2 : (0 : K) ≤ k * ε := mul_nonneg (Nat.cast_nonneg k) hε0
    nlinarith
  have hP1 : ∀ k : Nat, L ^ k * (M + k * ε) + ε ≤ (1 - η - κ) * (L ^ (k + 1) * (M + (k + 1 : Nat) * ε)) := fun k => by
    have h1 := one_le_pow₀ (n := k) hL1
    have e : (1 - η - κ) * (L ^ (k + 1) * (M + (k + 1 : Nat) * ε)) = ((1 - η - κ) * L) * (L ^ k * (M + (k + 1 : Nat) * ε)) := by rw [pow_succ]; ring
    rw [e, hLm, one_mul]
    push_cast
    nlinarith
  have key : ∀ n st', timeLoop (fun d st => dslSolve e m bcs table fvSchemes fvSolution ops eqn st t d) dt n st (.ok st') →
      st'.sol.On m ∧ st'.Synced ∧ (∀ b, st'.sol.entry b = st.sol.entry b) ∧ (∀ c < m.nCells, |val (st'.sol.cell c)| ≤ L ^ n * (M + n * ε)) ∧
      ∀ c < m.nCells, |val (st'.sol.cell c) - (x n).1.cell c| ≤ L ^ n * (M + n * ε) - G ^ n * M := by
    intro n
    induction n with
    | zero =>
      intro st' hst'
      cases hst'
      refine ⟨ho, hsy, fun _ => rfl, fun c hc => by simpa using hin c hc, fun c hc => ?_⟩
      have : (x 0).1.cell c = val (st.sol.cell c) := hF.cell st.sol c
      rw [this]
      simp
    | succ n ih =>
      intro st' hst'
      obtain ⟨r, hr, hrun⟩ := (NR.bind_def _ _ _).1 hst'
      cases r with
      | throw _ => cases hrun
      | abort => cases hrun
      | ub => cases hrun
      | ok s =>
        obtain ⟨i1, i2, i3, i4, i5⟩ := ih s hr
        have hent := exact_entry_congr hz i3
        have hs : TameData (m.exact val) fl dl gl M (s.sol.exact val) := hdata.congr hent
        obtain ⟨j1, j2, j3, j4⟩ := convDiff_stepF hF h hp e he hup hv sch w junk hfl hδ hg eqn ops hbuild bcs table fvSchemes fvSolution hd solver hso hsol s i1 i2 hs t
          (hdt n) hN (hκ n) (hε n) st' hrun
        set P := L ^ n * (M + n * ε) with hPe
        set P' := L ^ (n + 1) * (M + (n + 1 : Nat) * ε) with hPe'
        have hPP := hP1 n
        have hMP : M ≤ P := hP0 n
        have hPle : P ≤ P' := by
          have : 0 ≤ P' := hM.trans (hP0 (n + 1))
          nlinarith
        -- the new values
        have hnew : ∀ c < m.nCells, |val (st'.sol.cell c)| ≤ P' := by
          intro c0 hc0
          obtain ⟨c, hc, hmax⟩ := Finset.exists_max_image (range m.nCells) (fun c => |val (st'.sol.cell c)|) ⟨c0, mem_range.2 hc0⟩
          rw [mem_range] at hc
          refine (hmax c0 (mem_range.2 hc0)).trans ?_
          rcases le_total |val (st'.sol.cell c)| P with hY | hY
          · exact hY.trans hPle
          · have hres := j4 |val (st'.sol.cell c)| (hMP.trans hY) (fun c' hc' => (i4 c' hc').trans hY) (fun c' hc' => hmax c' (mem_range.2 hc'))
            have := implicit_size hw hvE hs (hdt n) hη0 (hη n) (add_nonneg hε0 (mul_nonneg hκ0 (abs_nonneg _))) hMP (fun c => val (s.sol.cell c))
              (fun c => val (st'.sol.cell c)) i4 hres c hc
            have h3 : (1 - η - κ) * |val (st'.sol.cell c)| ≤ (1 - η - κ) * P' := by linarith
            exact le_of_mul_le_mul_left h3 hl0
        refine ⟨j1, j2, fun b => (j3 b).trans (i3 b), hnew, fun c hc => ?_⟩
        have hres := j4 P' (hMP.trans hPle) (fun c hc => (i4 c hc).trans hPle) hnew
        have hD : 0 ≤ P - G ^ n * M := (abs_nonneg _).trans (i5 c hc)
        have := implicit_near hw hvE hs (hdt n) hη0 (hη n) (ρ := ε + κ * P') (add_nonneg hε0 (mul_nonneg hκ0 (hM.trans (hMP.trans hPle)))) hD (fun c => val (s.sol.cell c))
          (x n).1.cell (fun c => val (st'.sol.cell c)) (x (n + 1)).1.cell i5 hres (fun c hc => by
            have := (hx n).cells c hc
            rwa [outFlux_sameBC' (fun b => (hxb n b).trans (hent b).symm)] at this) c hc
        have e : (1 - η) * (P' - G ^ (n + 1) * M) = (1 - η) * P' - G ^ n * M := by
          rw [pow_succ]
          linear_combination (-(G ^ n * M)) * hGm
        refine le_of_mul_le_mul_left ?_ hl1
        rw [e]
        linarith
  exact fun n st' hst' c hc => ⟨(key n st' hst').2.2.2.1 c hc, (key n st' hst').2.2.2.2 c hc⟩

end

/-! ### Three cells of `double`s with a flow and diffusion through them -/

/-- A solver that returns any values that satisfy each equation up to `τ`. -/
def withinSolver {F K : Type} [Field K] [LinearOrder K] (val : F → K) (τ : K) : LinSolver F := fun ls _ out =>
  ∃ y, out = .ok y ∧ y.length = ls.rhs.length ∧ ∀ c < ls.rhs.length, |(ls.exact val).residual (ix (y.map val)) c| ≤ τ

theorem withinSolver_within {F K : Type} [Field K] [LinearOrder K] (val : F → K) (τ : K) (m : Mesh F) : SolvesWithin val (fun _ => τ) m (withinSolver val τ) := by
  rintro ls x y ⟨sp, -, hon⟩ - ⟨y', hy, h1, h2⟩
  cases hy
  rw [hon.rhsLen] at h1 h2
  exact ⟨h1, h2⟩

/-- A third everywhere, and fixed at both ends. -/
def floatRowEven : VolField (BinFloat 53) (BinFloat 53) := ⟨[third, third, third], [third, third], [third, third], [1, 1], [third, third]⟩
/-- The roundoff of assembling a row. -/
def floatRowLoss : ℚ := ((1 + 1 / 2 ^ 53) ^ 13 - 1) * 8

/-- The hypotheses of `C91_implicit` can be met: `n` calls with steps of 1, with a solver of the least possible tolerance, may return, and then are close to the exact run. -/
example (n : Nat) : ∃ (sp : SparsityPattern) (x : Nat → VolField ℚ ℚ) (eqn : Expr) (ops : OpsOf (BinFloat 53) (BinFloat 53)),
    (∀ st, convDiffTree.build (convDiffOps .serial floatRow sp .upwind [third, third, 1, 1] (fun _ => 0) [1, 1, -1, 1] [1, 1, 1, 1] [1, 1, 1, 1] st) = .ok (eqn, ops st)) ∧
    (∃ st', timeLoop (fun d st => dslSolve .serial floatRow [] [("exact", fun _ => withinSolver (BinFloat.val 53) (floatRowLoss * |BinFloat.val 53 third|))] backwardDict [] ops eqn st 0 d)
      (fun _ => 1) n ⟨floatRowEven, some floatRowEven.internal⟩ (.ok st')) ∧
    ∀ st', timeLoop (fun d st => dslSolve .serial floatRow [] [("exact", fun _ => withinSolver (BinFloat.val 53) (floatRowLoss * |BinFloat.val 53 third|))] backwardDict [] ops eqn st 0 d)
      (fun _ => 1) n ⟨floatRowEven, some floatRowEven.internal⟩ (.ok st') → |BinFloat.val 53 (st'.sol.cell 1) - (x n).cell 1| ≤
        (1 / (1 - 0 - floatRowLoss)) ^ n * (|BinFloat.val 53 third| + n * (floatRowLoss * |BinFloat.val 53 third|)) - (1 / (1 - 0)) ^ n * |BinFloat.val 53 third| := by
  have hF := binFloat_arith 53
  have h1 : BinFloat.val 53 1 = 1 := rfl
  have hm1 : BinFloat.val 53 (-1) = -1 := rfl
  have hcases : ∀ c : Nat, c < 3 → c = 0 ∨ c = 1 ∨ c = 2 := fun c hc => by omega
  have hb2 : ∀ b : Nat, b < 2 → b = 0 ∨ b = 1 := fun b hb => by omega
  have hb4 : ∀ b : Nat, b < 4 → b = 0 ∨ b = 1 ∨ b = 2 ∨ b = 3 := fun b hb => by omega
  have hvol : ∀ c < floatRow.nCells, floatRow.vol c = 1 := by
    intro c hc
    rcases hcases c hc with rfl | rfl | rfl <;> rfl
  have hvE : ∀ c < floatRow.nCells, (floatRow.exact (BinFloat.val 53)).vol c = 1 := fun c hc => by
    rw [hF.vol, hvol c hc]; rfl
  have hd : ∀ f < 4, ix (([1, 1, 1, 1] : List (BinFloat 53)).map (BinFloat.val 53)) f = 1 := by
    intro f hf
    rcases hb4 f hf with rfl | rfl | rfl | rfl <;> rfl
  have ha : ∀ f < 4, ix (floatRow.exact (BinFloat.val 53)).magFaceAreas f = 1 := by
    intro f hf
    rcases hb4 f hf with rfl | rfl | rfl | rfl <;> rfl
  have hfl : ∀ f < 4, ix (([1, 1, -1, 1] : List (BinFloat 53)).map (BinFloat.val 53)) f ≤ 1 ∧ |ix (([1, 1, -1, 1] : List (BinFloat 53)).map (BinFloat.val 53)) f| = 1 := by
    intro f hf
    rcases hb4 f hf with rfl | rfl | rfl | rfl
    · exact ⟨le_rfl, abs_one⟩
    · exact ⟨le_rfl, abs_one⟩
    · exact ⟨show (-1 : ℚ) ≤ 1 by norm_num, show |(-1 : ℚ)| = 1 by norm_num⟩
    · exact ⟨le_rfl, abs_one⟩
  have hdeg : ∀ c < floatRow.nCells, 1 + floatRow.deg c ≤ 256 := row3_deg
  obtain ⟨sp, hsp⟩ := C14_terminates floatRow floatRow_wf .serial
  obtain ⟨_, hee, p1, p2, p3, p4, p5⟩ := C14_offsets_partial floatRow floatRow_wf hdeg .serial _ hsp
  cases hee
  have hp : sp.For floatRow := ⟨p1, p2, p3, p4, p5⟩
  have hup : ∀ out, sparsityUpdate .serial floatRow out ↔ out = .ok sp :=
    fun out => ⟨fun ho => sparsity_single floatRow floatRow_wf (.inl rfl) _ _ ho hsp, fun ho => ho ▸ hsp⟩
  have hpos : ∀ c < floatRow.nCells, 0 < BinFloat.val 53 (floatRow.vol c) := fun c hc => by rw [hvol c hc, h1]; norm_num
  have hfc : ∀ c < floatRow.nCells, floatRow.faceCount c = 2 := by
    intro c hc
    rcases hcases c hc with rfl | rfl | rfl <;> decide
  have hN : ∀ c < floatRow.nCells, 9 + 2 * floatRow.faceCount c ≤ 13 := fun c hc => by rw [hfc c hc]
  have hex : ∀ c < floatRow.nCells, (floatRow.exact (BinFloat.val 53)).exchange (ix (([1, 1, -1, 1] : List (BinFloat 53)).map (BinFloat.val 53)))
      (ix (([1, 1, 1, 1] : List (BinFloat 53)).map (BinFloat.val 53))) (ix (([1, 1, 1, 1] : List (BinFloat 53)).map (BinFloat.val 53))) c ≤ 6 := by
    intro c hc
    have e : ∀ f < 4, |ix (([1, 1, -1, 1] : List (BinFloat 53)).map (BinFloat.val 53)) f| + 2 * |ix (([1, 1, 1, 1] : List (BinFloat 53)).map (BinFloat.val 53)) f *
        ix (([1, 1, 1, 1] : List (BinFloat 53)).map (BinFloat.val 53)) f * ix (floatRow.exact (BinFloat.val 53)).magFaceAreas f| = 3 := by
      intro f hf
      rw [(hfl f hf).2, hd f hf, ha f hf]
      norm_num
    unfold Mesh.exchange Mesh.faceSum
    rcases hcases c hc with rfl | rfl | rfl <;>
      simp [Mesh.exact, floatRow, row3, topoMesh, Finset.sum_range_succ, BoundaryMesh.exact, Mesh.own, Mesh.nbr, Mesh.fc] at e ⊢ <;>
      linarith [e 0 (by norm_num), e 1 (by norm_num), e 2 (by norm_num), e 3 (by norm_num)]
  have hl0 : (0 : ℚ) ≤ floatRowLoss := by unfold floatRowLoss; norm_num
  have hκ : ∀ c < floatRow.nCells, ((1 + 1 / 2 ^ 53) ^ 13 - 1) * (2 + BinFloat.val 53 1 / (floatRow.exact (BinFloat.val 53)).vol c *
      (floatRow.exact (BinFloat.val 53)).exchange (ix (([1, 1, -1, 1] : List (BinFloat 53)).map (BinFloat.val 53)))
      (ix (([1, 1, 1, 1] : List (BinFloat 53)).map (BinFloat.val 53))) (ix (([1, 1, 1, 1] : List (BinFloat 53)).map (BinFloat.val 53))) c) ≤ floatRowLoss := by
    intro c hc
    rw [hvE c hc, h1]
    have := hex c hc
    refine mul_le_mul_of_nonneg_left ?_ (by norm_num)
    linarith
  have hcell : ∀ c < 3, floatRowEven.cell c = third := by
    intro c hc
    rcases hcases c hc with rfl | rfl | rfl <;> rfl
  have hdata : TameData (floatRow.exact (BinFloat.val 53)) (ix (([1, 1, -1, 1] : List (BinFloat 53)).map (BinFloat.val 53)))
      (ix (([1, 1, 1, 1] : List (BinFloat 53)).map (BinFloat.val 53))) (ix (([1, 1, 1, 1] : List (BinFloat 53)).map (BinFloat.val 53))) |BinFloat.val 53 third|
      (floatRowEven.exact (BinFloat.val 53)) := by
    constructor
    · intro f hf
      rw [hd f hf, ha f hf]
      norm_num
    · intro b hb
      have hf : 2 + b < 4 := by have : b < 2 := hb; omega
      refine .inr ?_
      have h3 := (hfl _ hf).1
      have h4 := hd _ hf
      have h5 := ha _ hf
      change _ ∧ _ ∧ ix (([1, 1, -1, 1] : List (BinFloat 53)).map (BinFloat.val 53)) (2 + b) ≤ ix (([1, 1, 1, 1] : List (BinFloat 53)).map (BinFloat.val 53)) (2 + b) *
        ix (([1, 1, 1, 1] : List (BinFloat 53)).map (BinFloat.val 53)) (2 + b) * ix (floatRow.exact (BinFloat.val 53)).magFaceAreas (2 + b)
      rw [h4, h5, one_mul, one_mul]
      rcases hb2 b hb with rfl | rfl <;> exact ⟨rfl, le_rfl, h3⟩
  have hds : AsksFor backwardDict "backwardEuler" := ⟨_, rfl, rfl⟩
  have hbuild : ∀ st, ∃ o, convDiffTree.build (convDiffOps .serial floatRow sp .upwind [third, third, 1, 1] (fun _ => 0)
      [1, 1, -1, 1] [1, 1, 1, 1] [1, 1, 1, 1] st) = .ok (⟨[7], [8, 11]⟩, o) := fun st => by
    obtain ⟨o, ho, -⟩ := convDiff_heap .serial floatRow sp .upwind [third, third, 1, 1] (fun _ => 0) [1, 1, -1, 1] [1, 1, 1, 1] [1, 1, 1, 1] st
    exact ⟨o, ho⟩
  choose ops hbuild using hbuild
  generalize (⟨[7], [8, 11]⟩ : Expr) = eqn at hbuild
  obtain ⟨x, -, -, hx⟩ := C91_implicit hF floatRow_wf hdeg hpos .serial (.inl rfl) hsp .upwind [third, third, 1, 1] (fun _ => 0) (flux := [1, 1, -1, 1]) (δ := [1, 1, 1, 1])
    (gamma := [1, 1, 1, 1]) rfl rfl rfl eqn ops hbuild [] [("exact", fun _ => withinSolver (BinFloat.val 53) (floatRowLoss * |BinFloat.val 53 third|))] backwardDict [] hds
    (withinSolver (BinFloat.val 53) (floatRowLoss * |BinFloat.val 53 third|)) rfl (withinSolver_within _ _ _) ⟨floatRowEven, some floatRowEven.internal⟩
    ⟨rfl, rfl, rfl, rfl, rfl⟩ rfl (abs_nonneg _) hdata (fun c hc => by rw [hcell c hc]) 0 (fun _ => 1) (fun _ => by rw [h1]; norm_num) hN hl0
    (mul_nonneg hl0 (abs_nonneg _)) le_rfl (by unfold floatRowLoss; norm_num)
    (by
      intro _ c hc
      rw [hvE c hc, h1]
      rcases hcases c hc with rfl | rfl | rfl <;>
        simp [Mesh.netOutflow, Mesh.exact, floatRow, row3, topoMesh, Mesh.own, Mesh.nbr, Mesh.fc, ix, Finset.sum_range_succ, h1, hm1, BoundaryMesh.exact])
    (fun _ => hκ) (fun _ c hc => by rw [hvE c hc, h1, div_one, mul_one])
  refine ⟨sp, x, eqn, ops, hbuild, ⟨⟨floatRowEven, some floatRowEven.internal⟩, ?_⟩, fun st' hst' => (hx n st' hst' 1 (by decide)).2⟩
  induction n with
  | zero => rfl
  | succ n ih =>
    refine (NR.bind_def _ _ _).2 ⟨_, ih, ?_⟩
    refine convDiff_mayReturn hF floatRow_wf hp .serial (.inl rfl) hup hpos .upwind [third, third, 1, 1] (fun _ => 0) (flux := [1, 1, -1, 1]) (δ := [1, 1, 1, 1])
      (gamma := [1, 1, 1, 1]) rfl rfl rfl eqn ops hbuild [] [("exact", fun _ => withinSolver (BinFloat.val 53) (floatRowLoss * |BinFloat.val 53 third|))] backwardDict [] hds
      (withinSolver (BinFloat.val 53) (floatRowLoss * |BinFloat.val 53 third|)) rfl ⟨floatRowEven, some floatRowEven.internal⟩
      ⟨rfl, rfl, rfl, rfl, rfl⟩ rfl hdata 0 (dt := 1) (by rw [h1]; norm_num) hN hκ le_rfl (fun c hc => by rw [hcell c hc]) floatRowEven.internal
      (fun c hc => (congrArg (fun y => |BinFloat.val 53 y|) (hcell c hc)).le) ?_
    intro A hA hres
    refine ⟨floatRowEven.internal, rfl, hA.rhsLen.symm, fun c hc => ?_⟩
    rw [hA.rhsLen] at hc
    have := hres c hc
    rw [hvE c hc, h1] at this
    have e1 : ix floatRowEven.internal c = floatRowEven.cell c := rfl
    rw [e1, sub_self] at this
    have hc3 : ∀ c < 3, ix (floatRowEven.internal.map (BinFloat.val 53)) c = BinFloat.val 53 third := by
      intro c hc
      rcases hcases c hc with rfl | rfl | rfl <;> rfl
    have e2 : (floatRow.exact (BinFloat.val 53)).netOutflow ((floatRowEven.exact (BinFloat.val 53)).outFlux (floatRow.exact (BinFloat.val 53))
        (ix (([1, 1, -1, 1] : List (BinFloat 53)).map (BinFloat.val 53))) (ix (([1, 1, 1, 1] : List (BinFloat 53)).map (BinFloat.val 53)))
        (ix (([1, 1, 1, 1] : List (BinFloat 53)).map (BinFloat.val 53))) (ix (floatRowEven.internal.map (BinFloat.val 53)))) c = 0 := by
      rw [netOutflow_congr (exact_wf floatRow_wf) (ψ := fun f => BinFloat.val 53 third • ix (([1, 1, -1, 1] : List (BinFloat 53)).map (BinFloat.val 53)) f), netOutflow_smul]
      · rcases hcases c hc with rfl | rfl | rfl <;>
          simp [Mesh.netOutflow, Mesh.exact, floatRow, row3, topoMesh, Mesh.own, Mesh.nbr, Mesh.fc, ix, Finset.sum_range_succ, h1, hm1, BoundaryMesh.exact]
      · intro f hf
        have hf : f < 4 := hf
        generalize hq : BinFloat.val 53 third = q
        rcases hb4 f hf with rfl | rfl | rfl | rfl <;>
          simp [VolField.outFlux, VolField.entry, VolField.exact, Mesh.exact, floatRow, floatRowEven, row3, topoMesh, Mesh.own, Mesh.nbr, Mesh.fc, ix, h1, hm1, BoundaryMesh.exact, hq]
    rw [e2] at this
    simpa using this

end NeoFOAM
