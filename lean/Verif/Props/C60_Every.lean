import Verif.Props.C60_ImplicitTransport
import Verif.Props.C32_Every

/-!
# C60 on every executor and schedule

With the neighbours exchanged (`C33_every`) a step does not solve the equation any more, but its values still stay within the bounds.
-/
namespace NeoFOAM
open Finset
variable {K : Type} [Field K] [LinearOrder K]

/-- Coefficients of a step. -/
def cdDelta (m : Mesh K) (flux δ gamma vf : Nat → K) : Slot → K :=
  fun s => divDelta m flux vf (fun _ => 1) s - lapDelta m δ gamma vf (fun _ => 1) s

/-- Right hand sides of the spatial terms of a step. -/
def cdRhs (m : Mesh K) (flux δ gamma vf ref rg : Nat → K) : Nat → K :=
  fun c => divRhs m flux vf ref (fun _ => 1) c - lapRhs m δ gamma vf ref rg (fun _ => 1) c

/-- The equation of a cell in a step. -/
theorem convDiff_residual (m : Mesh K) (φ : VolField K K) (flux δ gamma old : List K) (dt : K) (x : Nat → K) (c : Nat) :
    implicitResidual m (cdDelta m (ix flux) (ix δ) (ix gamma) (ix φ.bVF))
        (cdRhs m (ix flux) (ix δ) (ix gamma) (ix φ.bVF) (ix φ.bRefValue) (ix φ.bRefGrad)) x c
      + implicitResidual m (diagDelta fun i => 1 * m.vol i / dt) (fun i => 1 * m.vol i / dt * ix old i) x c
      = m.vol c * (x c - ix old c) / dt + m.netOutflow (φ.outFlux m (ix flux) (ix δ) (ix gamma) x) c := by
  unfold cdDelta cdRhs
  rw [implicitResidual_sub, C33_ddt]
  have e4 : implicitResidual m (divDelta m (ix flux) (ix φ.bVF) fun _ => 1) (divRhs m (ix flux) (ix φ.bVF) (ix φ.bRefValue) fun _ => 1) x c
      = m.netOutflow (fun f => ix flux f * φ.impFace m (ix flux) x f) c := by
    have := divResidual m φ flux (fun _ => 1) x c
    rw [one_mul] at this
    exact this
  have e5 : implicitResidual m (lapDelta m (ix δ) (ix gamma) (ix φ.bVF) fun _ => 1)
      (lapRhs m (ix δ) (ix gamma) (ix φ.bVF) (ix φ.bRefValue) (ix φ.bRefGrad) fun _ => 1) x c
      = m.netOutflow (fun f => ix gamma f * ix m.magFaceAreas f * φ.impGrad m (ix δ) x f) c := by
    have := lapResidual m φ δ gamma (fun _ => 1) x c
    rw [one_mul] at this
    exact this
  have e6 : φ.outFlux m (ix flux) (ix δ) (ix gamma) x = fun f => ix flux f * φ.impFace m (ix flux) x f
      + (-1 : K) • (ix gamma f * ix m.magFaceAreas f * φ.impGrad m (ix δ) x f) := funext (outFlux_eq _ _ _ _ _ _)
  rw [e4, e5, e6, netOutflow_add, netOutflow_smul]
  simp
  ring

/-- What the three operators of a step contribute, by number of the operator. -/
def cdDv (m : Mesh K) (flux δ gamma vf : Nat → K) : Nat → Slot → K :=
  fun i => if i = 1 then divDelta m flux vf (fun _ => 1) else lapDelta m δ gamma vf (fun _ => 1)
/-- The same for the right hand sides. -/
def cdDr (m : Mesh K) (flux δ gamma vf ref rg : Nat → K) : Nat → Nat → K :=
  fun i => if i = 1 then divRhs m flux vf ref (fun _ => 1) else lapRhs m δ gamma vf ref rg (fun _ => 1)

/-- The hypotheses of `C33_every` for a step. -/
theorem convDiff_terms {m : Mesh K} (h : m.WF) (e : ExecKind) (he : e = .serial ∨ m.BndDistinct)
    {sp : SparsityPattern} (hp : sp.For m)
    (sch : InterpScheme) (w : List K) (junk : Nat → K) (flux δ gamma : List K)
    (hfl : flux.length = m.nFaces) (hδ : δ.length = m.nFaces) (hg : gamma.length = m.nFaces)
    (eqn : Expr) (ops : OpsOf K K) (hbuild : ∀ st, convDiffTree.build (convDiffOps e m sp sch w junk flux δ gamma st) = .ok (eqn, ops st))
    (st : TimeState K K) (ho : st.sol.On m) (hsy : st.Synced) (t dt : K) :
    eqn.temporal ≠ [] ∧
    (∀ (k : OpSort), ∀ i ∈ (convDiffTree (K := K)).leaves k, i < (convDiffOps e m sp sch w junk flux δ gamma st).length ∧
      i < (convDiffOps e m sp sch w junk flux δ gamma ⟨st.sol, some st.oldTime⟩).length) ∧
    (∀ st, ∀ o ∈ convDiffOps e m sp sch w junk flux δ gamma st, o.IgnoresColumns) ∧
    (∀ i ∈ (convDiffTree (K := K)).leaves .spatial, ∃ o, (convDiffOps e m sp sch w junk flux δ gamma ⟨st.sol, some st.oldTime⟩)[i]? = some o ∧
      ImplTerm m sp 0 0 o (cdDv m (ix flux) (ix δ) (ix gamma) (ix st.sol.bVF) i)
        (cdDr m (ix flux) (ix δ) (ix gamma) (ix st.sol.bVF) (ix st.sol.bRefValue) (ix st.sol.bRefGrad) i)) ∧
    (∀ i ∈ (convDiffTree (K := K)).leaves .temporal, ∃ o, (convDiffOps e m sp sch w junk flux δ gamma ⟨st.sol, some st.oldTime⟩)[i]? = some o ∧
      ImplTerm m sp t dt o ((fun _ => diagDelta fun i => 1 * m.vol i / dt) i) ((fun _ i => 1 * m.vol i / dt * ix st.oldTime i) i)) ∧
    ∀ i ∈ (convDiffTree (K := K)).leaves .spatial, ∃ o, (convDiffOps e m sp sch w junk flux δ gamma st)[i]? = some o ∧
      ExplTerm m.nCells 0 0 o ((fun _ _ => 0) i) := by
  have hdef : (Coeff.default : Coeff K).On m.nCells (fun _ => 1) := fun _ _ => rfl
  have heqn : eqn.temporal ≠ [] := by
    obtain ⟨k, l, ops', hb⟩ : ∃ (k : Nat) (l : List Nat), ∃ o, convDiffTree.build (convDiffOps e m sp sch w junk flux δ gamma st) = .ok (⟨[k], l⟩, o) := by
      exact ⟨_, _, _, rfl⟩
    rw [hbuild st] at hb
    injection hb with hb
    rw [(Prod.mk.inj hb).1]
    simp
  have hol : st.oldTime.length = m.nCells := by rw [hsy]; exact ho.int
  have hl : ∀ (k : OpSort), ∀ i ∈ (convDiffTree (K := K)).leaves k, i < (convDiffOps e m sp sch w junk flux δ gamma st).length ∧
      i < (convDiffOps e m sp sch w junk flux δ gamma ⟨st.sol, some st.oldTime⟩).length := by
    intro k i hi
    cases k <;> simp [convDiffTree, ExT.leaves, OpT.sort, OpT.leaf] at hi <;> simp [convDiffOps] <;> omega
  have hcol : ∀ st, ∀ o ∈ convDiffOps e m sp sch w junk flux δ gamma st, o.IgnoresColumns := by
    intro st o hmem
    simp only [convDiffOps, List.mem_cons, List.not_mem_nil, or_false] at hmem
    rcases hmem with rfl | rfl | rfl
    · exact ddtOp_ignores _ _ _ _ _ _ _
    · exact divOp_ignores _ _ _ _ _ _ _ _ _ _
    · exact laplacianOp_ignores _ _ _ _ _ _ _ _ _ _
  have hi : ∀ i ∈ (convDiffTree (K := K)).leaves .spatial, ∃ o, (convDiffOps e m sp sch w junk flux δ gamma ⟨st.sol, some st.oldTime⟩)[i]? = some o ∧
      ImplTerm m sp 0 0 o (cdDv m (ix flux) (ix δ) (ix gamma) (ix st.sol.bVF) i)
        (cdDr m (ix flux) (ix δ) (ix gamma) (ix st.sol.bVF) (ix st.sol.bRefValue) (ix st.sol.bRefGrad) i) := by
    intro i hi
    simp [convDiffTree, ExT.leaves, OpT.sort, OpT.leaf] at hi
    rcases hi with rfl | rfl
    · exact ⟨_, rfl, C31_term_div_implicit h hp ho w hfl sch e he junk hdef 0 0⟩
    · exact ⟨_, rfl, C31_term_laplacian_implicit h hp ho hδ hg e he junk hdef 0 0⟩
  have ht : ∀ i ∈ (convDiffTree (K := K)).leaves .temporal, ∃ o, (convDiffOps e m sp sch w junk flux δ gamma ⟨st.sol, some st.oldTime⟩)[i]? = some o ∧
      ImplTerm m sp t dt o ((fun _ => diagDelta fun i => 1 * m.vol i / dt) i) ((fun _ i => 1 * m.vol i / dt * ix st.oldTime i) i) := by
    intro i hi
    simp [convDiffTree, ExT.leaves, OpT.sort, OpT.leaf] at hi
    subst hi
    exact ⟨_, rfl, C31_term_ddt_implicit h hp st.sol hol e hdef t dt⟩
  have hx : ∀ i ∈ (convDiffTree (K := K)).leaves .spatial, ∃ o, (convDiffOps e m sp sch w junk flux δ gamma st)[i]? = some o ∧
      ExplTerm m.nCells 0 0 o ((fun _ _ => 0) i) := by
    intro i hi
    simp [convDiffTree, ExT.leaves, OpT.sort, OpT.leaf] at hi
    rcases hi with rfl | rfl
    · exact ⟨_, rfl, explTerm_implicit 0 0 rfl hdef⟩
    · exact ⟨_, rfl, explTerm_implicit 0 0 rfl hdef⟩
  exact ⟨heqn, hl, hcol, hi, ht, hx⟩

theorem convDiff_dv (m : Mesh K) (flux δ gamma vf : Nat → K) : (convDiffTree (K := K)).value .spatial (Slot.row m) (cdDv m flux δ gamma vf)
    = cdDelta m flux δ gamma vf := by
  funext s
  simp [convDiffTree, ExT.value, OpT.valueOf, OpT.sort, OpT.value, cdDelta, cdDv]

theorem convDiff_dr (m : Mesh K) (flux δ gamma vf ref rg : Nat → K) : (convDiffTree (K := K)).value .spatial id (cdDr m flux δ gamma vf ref rg)
    = cdRhs m flux δ gamma vf ref rg := by
  funext s
  simp [convDiffTree, ExT.value, OpT.valueOf, OpT.sort, OpT.value, cdRhs, cdDr]

theorem convDiff_tv {ι : Type} (loc : ι → Nat) (v : ι → K) : (convDiffTree (K := K)).value .temporal loc (fun _ => v) = v := by
  funext s
  simp [convDiffTree, ExT.value, OpT.valueOf, OpT.sort, OpT.value]

/-- The system of a step on every schedule, and the right one among the possible ones. -/
theorem convDiff_every {m : Mesh K} (h : m.WF) (h256 : ∀ c < m.nCells, 1 + m.deg c ≤ 256) (e : ExecKind) (he : e = .serial ∨ m.BndDistinct)
    {sp : SparsityPattern} (hsp : sparsityUpdate e m (.ok sp))
    (sch : InterpScheme) (w : List K) (junk : Nat → K) (flux δ gamma : List K)
    (hfl : flux.length = m.nFaces) (hδ : δ.length = m.nFaces) (hg : gamma.length = m.nFaces)
    (eqn : Expr) (ops : OpsOf K K) (hbuild : ∀ st, convDiffTree.build (convDiffOps e m sp sch w junk flux δ gamma st) = .ok (eqn, ops st))
    (bcs : List (VolumeBoundary K)) (table : SolverTable K) (fvSchemes fvSolution : Dict) (hd : AsksFor fvSchemes "backwardEuler")
    (solver : LinSolver K) (hso : createSolver table fvSchemes = .ok solver)
    (st : TimeState K K) (ho : st.sol.On m) (hsy : st.Synced) (t dt : K) :
    (∀ out, dslSolve e m bcs table fvSchemes fvSolution ops eqn st t dt out → ∃ (ls : LinearSystem K) (π : Slot → Slot), ls.StoredFor m ∧ m.Shuffles π ∧
      (∀ x, ∀ c < m.nCells, ls.residual x c
        = shuffledResidual m π (cdDelta m (ix flux) (ix δ) (ix gamma) (ix st.sol.bVF))
            (cdRhs m (ix flux) (ix δ) (ix gamma) (ix st.sol.bVF) (ix st.sol.bRefValue) (ix st.sol.bRefGrad)) x c
          + shuffledResidual m π (diagDelta fun i => 1 * m.vol i / dt) (fun i => 1 * m.vol i / dt * ix st.oldTime i) x c) ∧
      (solver ls st.sol.internal >>= fun x => pure ⟨{ st.sol with internal := x }, some x⟩ : NR (TimeState K K)) out) ∧
    ∃ ls : LinearSystem K, ls.StoredFor m ∧
      (∀ x, ∀ c < m.nCells, ls.residual x c = m.vol c * (x c - ix st.oldTime c) / dt + m.netOutflow (st.sol.outFlux m (ix flux) (ix δ) (ix gamma) x) c) ∧
      ∀ out, (solver ls st.sol.internal >>= fun x => pure ⟨{ st.sol with internal := x }, some x⟩ : NR (TimeState K K)) out →
        dslSolve e m bcs table fvSchemes fvSolution ops eqn st t dt out := by
  obtain ⟨_, hee, hp⟩ := pattern_for m h h256 e _ hsp
  cases hee
  obtain ⟨heqn, hl, hcol, hi, ht, hx⟩ := convDiff_terms h e he hp sch w junk flux δ gamma hfl hδ hg eqn ops hbuild st ho hsy t dt
  have hev := C33_every h h256 e e hsp (convDiffOps e m sp sch w junk flux δ gamma) hcol convDiffTree st ho.int hl
    ⟨⟨trivial, trivial⟩, trivial⟩ ⟨⟨trivial, trivial⟩, trivial⟩ eqn ops hbuild heqn t dt _ _ _ _ _ hi ht hx bcs table fvSchemes fvSolution hd solver hso
  have hpo := C33_possible h h256 e hsp (convDiffOps e m sp sch w junk flux δ gamma) convDiffTree st ho.int hl
    ⟨⟨trivial, trivial⟩, trivial⟩ ⟨⟨trivial, trivial⟩, trivial⟩ eqn ops hbuild heqn t dt _ _ _ _ _ hi ht hx bcs table fvSchemes fvSolution hd solver hso
  rw [convDiff_dv, convDiff_dr, convDiff_tv, convDiff_tv] at hev hpo
  refine ⟨hev, ?_⟩
  obtain ⟨ls, h1, h2, h3⟩ := hpo
  exact ⟨ls, h1, fun x c hc => by rw [h2 x c hc, convDiff_residual], h3⟩

section maximum
variable [IsStrictOrderedRing K]

/-- The coefficients of neighbours are not positive. -/
theorem cdDelta_off {m : Mesh K} (h : m.WF) {flux δ gamma : Nat → K} {φ : VolField K K} (hs : Stable m flux δ gamma φ) (vf : Nat → K) :
    ∀ f < m.nInternalFaces, cdDelta m flux δ gamma vf (.upper f) ≤ 0 ∧ cdDelta m flux δ gamma vf (.lower f) ≤ 0 := by
  intro f hf
  have hfaces := h.faces
  have hd := hs.diff f (by omega)
  simp only [cdDelta, divDelta, lapDelta, lapCoef, mul_one]
  constructor
  · split
    · linarith
    · rename_i hn
      rw [not_le] at hn
      linarith
  · split
    · linarith
    · linarith

/-- Bounds of a step with exchanged neighbours. -/
theorem shuffled_bounds {m : Mesh K} (h : m.WF) (hv : ∀ c < m.nCells, 0 < m.vol c) {flux δ gamma : List K} {φ : VolField K K}
    (hs : Stable m (ix flux) (ix δ) (ix gamma) φ) {lo hi dt : K} (hdt : 0 < dt)
    (hb : ∀ b < m.nBoundaryFaces, (φ.entry b).fraction = 1 → lo ≤ (φ.entry b).refValue ∧ (φ.entry b).refValue ≤ hi)
    {π : Slot → Slot} (hπ : m.Shuffles π) (old : List K) (x : Nat → K) (hold : ∀ c < m.nCells, lo ≤ ix old c ∧ ix old c ≤ hi)
    (heq : ∀ c < m.nCells, shuffledResidual m π (cdDelta m (ix flux) (ix δ) (ix gamma) (ix φ.bVF))
        (cdRhs m (ix flux) (ix δ) (ix gamma) (ix φ.bVF) (ix φ.bRefValue) (ix φ.bRefGrad)) x c
      + shuffledResidual m π (diagDelta fun i => 1 * m.vol i / dt) (fun i => 1 * m.vol i / dt * ix old i) x c = 0) :
    ∀ c < m.nCells, lo ≤ x c ∧ x c ≤ hi := by
  intro c0 hc0
  have hne : (range m.nCells).Nonempty := ⟨c0, mem_range.2 hc0⟩
  have hoff := cdDelta_off h hs (ix φ.bVF)
  have hoffT : ∀ f < m.nInternalFaces, diagDelta (fun i => 1 * m.vol i / dt) (.upper f) ≤ 0 ∧ diagDelta (fun i => 1 * m.vol i / dt) (.lower f) ≤ 0 :=
    fun f _ => ⟨le_rfl, le_rfl⟩
  constructor
  · obtain ⟨c, hc, hmin⟩ := Finset.exists_min_image (range m.nCells) x hne
    rw [mem_range] at hc
    refine le_trans ?_ (hmin c0 (mem_range.2 hc0))
    by_contra hlt
    rw [not_le] at hlt
    have h1 := outflow_at_min h hs lo (fun b hb' hf => (hb b hb' hf).1) (fun _ => x c) c hc (fun _ _ => le_rfl) hlt.le
    have h2 : m.vol c * (x c - ix old c) / dt < 0 :=
      div_neg_of_neg_of_pos (mul_neg_of_pos_of_neg (hv c hc) (by have := (hold c hc).1; linarith)) hdt
    have h3 := shuffled_at_min h hπ (cdRhs m (ix flux) (ix δ) (ix gamma) (ix φ.bVF) (ix φ.bRefValue) (ix φ.bRefGrad)) hc hoff
      (fun c' hc' => hmin c' (mem_range.2 hc'))
    have h4 := shuffled_at_min h hπ (fun i => 1 * m.vol i / dt * ix old i) hc hoffT (fun c' hc' => hmin c' (mem_range.2 hc'))
    have h5 := convDiff_residual m φ flux δ gamma old dt (fun _ => x c) c
    have := heq c hc
    linarith
  · obtain ⟨c, hc, hmax⟩ := Finset.exists_max_image (range m.nCells) x hne
    rw [mem_range] at hc
    refine le_trans (hmax c0 (mem_range.2 hc0)) ?_
    by_contra hlt
    rw [not_le] at hlt
    have h1 := outflow_at_max h hs hi (fun b hb' hf => (hb b hb' hf).2) (fun _ => x c) c hc (fun _ _ => le_rfl) hlt.le
    have h2 : 0 < m.vol c * (x c - ix old c) / dt :=
      div_pos (mul_pos (hv c hc) (by have := (hold c hc).2; linarith)) hdt
    have h3 := shuffled_at_max h hπ (cdRhs m (ix flux) (ix δ) (ix gamma) (ix φ.bVF) (ix φ.bRefValue) (ix φ.bRefGrad)) hc hoff
      (fun c' hc' => hmax c' (mem_range.2 hc'))
    have h4 := shuffled_at_max h hπ (fun i => 1 * m.vol i / dt * ix old i) hc hoffT (fun c' hc' => hmax c' (mem_range.2 hc'))
    have h5 := convDiff_residual m φ flux δ gamma old dt (fun _ => x c) c
    have := heq c hc
    linarith

omit [LinearOrder K] [IsStrictOrderedRing K] in
/-- Differences of residuals. -/
theorem shuffledResidual_diff (m : Mesh K) (π : Slot → Slot) (dv : Slot → K) (dr : Nat → K) (x y : Nat → K) (c : Nat) :
    shuffledResidual m π dv (fun _ => 0) (fun i => x i - y i) c = shuffledResidual m π dv dr x c - shuffledResidual m π dv dr y c := by
  unfold shuffledResidual
  have key : ∀ (cell : Nat → Nat) (a u v : Nat → K), (∑ f ∈ range m.nInternalFaces, if cell f = c then a f * (u f - v f) else 0)
      = (∑ f ∈ range m.nInternalFaces, if cell f = c then a f * u f else 0) - ∑ f ∈ range m.nInternalFaces, if cell f = c then a f * v f else 0 := by
    intro cell a u v
    rw [← Finset.sum_sub_distrib]
    exact Finset.sum_congr rfl fun f _ => by split <;> ring
  rw [key m.own (fun f => dv (.upper f)) (fun f => x ((π (.upper f)).col m)) (fun f => y ((π (.upper f)).col m)),
    key m.nbr (fun f => dv (.lower f)) (fun f => x ((π (.lower f)).col m)) (fun f => y ((π (.lower f)).col m))]
  ring

/-- A step with exchanged neighbours has at most one solution. -/
theorem shuffled_unique {m : Mesh K} (h : m.WF) (hv : ∀ c < m.nCells, 0 < m.vol c) {flux δ gamma : List K} {φ : VolField K K}
    (hs : Stable m (ix flux) (ix δ) (ix gamma) φ) {dt : K} (hdt : 0 < dt) {π : Slot → Slot} (hπ : m.Shuffles π) (dr drT : Nat → K) (x y : Nat → K)
    (heq : ∀ c < m.nCells, shuffledResidual m π (cdDelta m (ix flux) (ix δ) (ix gamma) (ix φ.bVF)) dr x c
        + shuffledResidual m π (diagDelta fun i => 1 * m.vol i / dt) drT x c
      = shuffledResidual m π (cdDelta m (ix flux) (ix δ) (ix gamma) (ix φ.bVF)) dr y c
        + shuffledResidual m π (diagDelta fun i => 1 * m.vol i / dt) drT y c) : ∀ c < m.nCells, x c = y c := by
  set φ0 : VolField K K := { φ with bRefValue := [], bRefGrad := [] } with hφ0
  have hs0 : Stable m (ix flux) (ix δ) (ix gamma) φ0 := by
    refine ⟨hs.free, hs.diff, fun b hb => ?_⟩
    rcases hs.bnd b hb with ⟨h1, h2⟩ | ⟨h1, h2⟩
    · exact .inl ⟨h1, by simp [hφ0, VolField.entry]⟩
    · exact .inr ⟨h1, h2⟩
  have hz : ∀ i, ix ([] : List K) i = 0 := fun i => rfl
  have hr0 : cdRhs m (ix flux) (ix δ) (ix gamma) (ix φ0.bVF) (ix φ0.bRefValue) (ix φ0.bRefGrad) = fun _ => 0 := by
    funext c
    simp [cdRhs, divRhs, lapRhs, hφ0, hz]
  have ht0 : (fun i => 1 * m.vol i / dt * ix ([] : List K) i) = fun _ => 0 := by
    funext c
    simp [hz]
  have := shuffled_bounds h hv hs0 (lo := 0) (hi := 0) hdt (fun b hb hf => by simp [hφ0, VolField.entry]) hπ [] (fun i => x i - y i)
    (fun c hc => by simp [hz]) (fun c hc => by
      rw [hr0, ht0]
      show shuffledResidual m π (cdDelta m (ix flux) (ix δ) (ix gamma) (ix φ.bVF)) (fun _ => 0) (fun i => x i - y i) c + _ = 0
      rw [shuffledResidual_diff m π _ dr, shuffledResidual_diff m π _ drT]
      have := heq c hc
      linear_combination this)
  intro c hc
  have h1 := this c hc
  linarith [h1.1, h1.2]

/-- One call of `dsl::solve` on any executor. -/
theorem convDiff_step_every {m : Mesh K} (h : m.WF) (h256 : ∀ c < m.nCells, 1 + m.deg c ≤ 256) (hv : ∀ c < m.nCells, 0 < m.vol c)
    (e : ExecKind) (he : e = .serial ∨ m.BndDistinct) {sp : SparsityPattern} (hsp : sparsityUpdate e m (.ok sp))
    (sch : InterpScheme) (w : List K) (junk : Nat → K) (flux δ gamma : List K)
    (hfl : flux.length = m.nFaces) (hδ : δ.length = m.nFaces) (hg : gamma.length = m.nFaces)
    (eqn : Expr) (ops : OpsOf K K) (hbuild : ∀ st, convDiffTree.build (convDiffOps e m sp sch w junk flux δ gamma st) = .ok (eqn, ops st))
    (bcs : List (VolumeBoundary K)) (table : SolverTable K) (fvSchemes fvSolution : Dict) (hd : AsksFor fvSchemes "backwardEuler")
    (solver : LinSolver K) (hso : createSolver table fvSchemes = .ok solver) (hex : SolvingOn m solver) {lo hi : K}
    (st : TimeState K K) (ho : st.sol.On m) (hsy : st.Synced) (hst : Stable m (ix flux) (ix δ) (ix gamma) st.sol)
    (hb : ∀ b < m.nBoundaryFaces, (st.sol.entry b).fraction = 1 → lo ≤ (st.sol.entry b).refValue ∧ (st.sol.entry b).refValue ≤ hi)
    (hin : ∀ c < m.nCells, lo ≤ st.sol.cell c ∧ st.sol.cell c ≤ hi) (t : K) {dt : K} (hdt : 0 < dt) :
    (∃ out, dslSolve e m bcs table fvSchemes fvSolution ops eqn st t dt out) ∧
    (dslSolve e m bcs table fvSchemes fvSolution ops eqn st t dt).Ok fun st' => st'.sol.On m ∧ st'.Synced ∧
      (∀ b, st'.sol.entry b = st.sol.entry b) ∧ ∀ c < m.nCells, lo ≤ st'.sol.cell c ∧ st'.sol.cell c ≤ hi := by
  obtain ⟨hall, ls, hls, hres, hpos⟩ := convDiff_every h h256 e he hsp sch w junk flux δ gamma hfl hδ hg eqn ops hbuild bcs table fvSchemes fvSolution hd solver hso
    st ho hsy t dt
  have hlen : ∀ ls : LinearSystem K, ls.StoredFor m → ls.rhs.length = m.nCells := fun ls ⟨_, _, hon⟩ => hon.rhsLen
  constructor
  · have huniq : ∀ x y : Nat → K, (∀ i < ls.rhs.length, ls.residual x i = ls.residual y i) → ∀ i < ls.rhs.length, x i = y i := by
      intro x y hxy
      rw [hlen ls hls] at hxy ⊢
      refine implicit_unique h hv hst hdt (ix st.oldTime) x y fun c hc => ?_
      rw [← hres x c hc, ← hres y c hc]
      exact hxy c hc
    obtain ⟨y, hy1, hy2⟩ := exists_solution ls huniq
    rw [hlen ls hls] at hy1 hy2
    obtain ⟨⟨z, hz⟩, -⟩ := hex ls st.sol.internal hls ho.int ⟨y, hy1, hy2⟩
    exact ⟨_, hpos _ ((NR.bind_def _ _ _).2 ⟨.ok z, hz, rfl⟩)⟩
  · intro out hout
    obtain ⟨ls, π, hls, hπ, hres, hrun⟩ := hall out hout
    have huniq : ∀ x y : Nat → K, (∀ i < ls.rhs.length, ls.residual x i = ls.residual y i) → ∀ i < ls.rhs.length, x i = y i := by
      intro x y hxy
      rw [hlen ls hls] at hxy ⊢
      refine shuffled_unique h hv hst hdt hπ (cdRhs m (ix flux) (ix δ) (ix gamma) (ix st.sol.bVF) (ix st.sol.bRefValue) (ix st.sol.bRefGrad))
        (fun i => 1 * m.vol i / dt * ix st.oldTime i) x y fun c hc => ?_
      rw [← hres x c hc, ← hres y c hc]
      exact hxy c hc
    obtain ⟨y, hy1, hy2⟩ := exists_solution ls huniq
    rw [hlen ls hls] at hy1 hy2
    obtain ⟨-, hsol⟩ := hex ls st.sol.internal hls ho.int ⟨y, hy1, hy2⟩
    obtain ⟨r, h1, h2⟩ := (NR.bind_def _ _ _).1 hrun
    obtain ⟨z, rfl, hz1, hz2⟩ := hsol r h1
    cases h2
    refine ⟨_, rfl, ⟨hz1, ho.val, ho.ref, ho.vf, ho.grad⟩, rfl, fun _ => rfl, ?_⟩
    refine shuffled_bounds h hv hst hdt hb hπ st.oldTime (ix z) (fun c hc => ?_) (fun c hc => ?_)
    · rw [hsy]; exact hin c hc
    · rw [← hres _ c hc]; exact hz2 c hc

/-- **C60 on every executor and schedule**: the bounds of `C60_bounded_partial` on every mesh without cells that have several boundary faces
(on the serial executor on every mesh), for every schedule of the assembly and of the construction of the patterns: some outcome is possible,
and every outcome is a field within the bounds. On the parallel executors the outcome need not be unique (`C32_violation`). -/
theorem C60_bounded_every {m : Mesh K} (h : m.WF) (h256 : ∀ c < m.nCells, 1 + m.deg c ≤ 256) (hv : ∀ c < m.nCells, 0 < m.vol c)
    (hspan : ∀ f < m.nFaces, m.span f ≠ 0) (hmag : ∀ f < m.nFaces, 0 ≤ ix m.magFaceAreas f)
    (e : ExecKind) (he : e = .serial ∨ m.BndDistinct) {sp : SparsityPattern} (hsp : sparsityUpdate e m (.ok sp))
    (tiny : K) (ht : 0 ≤ tiny) (sqrt : K → K) (hs : IsSqrt sqrt) (gjunk : Nat → K) (g : Geometry K) (hg : geometryScheme e m tiny sqrt gjunk (.ok g))
    (sch : InterpScheme) (junk : Nat → K) (flux gamma : List K) (hfl : flux.length = m.nFaces) (hgl : gamma.length = m.nFaces)
    (hgam : ∀ f < m.nFaces, 0 ≤ ix gamma f) (hdiv : m.DivergenceFree (ix flux)) (eqn : Expr) (ops : OpsOf K K)
    (hbuild : ∀ st, convDiffTree.build (convDiffOps e m sp sch g.weights junk flux g.nonOrthDeltaCoeffs gamma st) = .ok (eqn, ops st))
    (bcs : List (VolumeBoundary K)) (table : SolverTable K) (fvSchemes fvSolution : Dict) (hd : AsksFor fvSchemes "backwardEuler")
    (solver : LinSolver K) (hso : createSolver table fvSchemes = .ok solver) (hex : SolvingOn m solver)
    (lo hi : K) (st : TimeState K K) (ho : st.sol.On m) (hsy : st.Synced)
    (hbc : ImplicitBC m (ix flux) (ix g.nonOrthDeltaCoeffs) (ix gamma) lo hi st.sol)
    (hin : ∀ c < m.nCells, lo ≤ st.sol.cell c ∧ st.sol.cell c ≤ hi) (t : K) (dt : Nat → K) (hdt : ∀ k, 0 < dt k) (n : Nat) :
    (∃ out, timeLoop (fun d st => dslSolve e m bcs table fvSchemes fvSolution ops eqn st t d) dt n st out) ∧
    ∀ out, timeLoop (fun d st => dslSolve e m bcs table fvSchemes fvSolution ops eqn st t d) dt n st out →
      ∃ st', out = .ok st' ∧ st'.sol.On m ∧ ∀ c < m.nCells, lo ≤ st'.sol.cell c ∧ st'.sol.cell c ≤ hi := by
  obtain ⟨hl, hst, hb⟩ := stable_of h tiny ht sqrt hs gjunk e g hg hspan hmag hgam hdiv hbc
  have key : (∃ out, timeLoop (fun d st => dslSolve e m bcs table fvSchemes fvSolution ops eqn st t d) dt n st out) ∧
      (timeLoop (fun d st => dslSolve e m bcs table fvSchemes fvSolution ops eqn st t d) dt n st).Ok fun st' => st'.sol.On m ∧ st'.Synced ∧
        (∀ b, st'.sol.entry b = st.sol.entry b) ∧ ∀ c < m.nCells, lo ≤ st'.sol.cell c ∧ st'.sol.cell c ≤ hi := by
    induction n with
    | zero =>
      refine ⟨⟨.ok st, rfl⟩, fun out hout => ?_⟩
      cases hout
      exact ⟨_, rfl, ho, hsy, fun _ => rfl, hin⟩
    | succ n ih =>
      have hstep : ∀ st', st'.sol.On m ∧ st'.Synced ∧ (∀ b, st'.sol.entry b = st.sol.entry b) ∧ (∀ c < m.nCells, lo ≤ st'.sol.cell c ∧ st'.sol.cell c ≤ hi) →
          (∃ out, dslSolve e m bcs table fvSchemes fvSolution ops eqn st' t (dt n) out) ∧
          (dslSolve e m bcs table fvSchemes fvSolution ops eqn st' t (dt n)).Ok fun st'' => st''.sol.On m ∧ st''.Synced ∧
            (∀ b, st''.sol.entry b = st.sol.entry b) ∧ ∀ c < m.nCells, lo ≤ st''.sol.cell c ∧ st''.sol.cell c ≤ hi := by
        rintro st' ⟨h1, h2, h3, h4⟩
        obtain ⟨a, b⟩ := convDiff_step_every h h256 hv e he hsp sch g.weights junk flux g.nonOrthDeltaCoeffs gamma hfl hl hgl eqn ops hbuild bcs table fvSchemes
          fvSolution hd solver hso hex (lo := lo) (hi := hi) st' h1 h2 ⟨hst.free, hst.diff, fun b hb' => by rw [h3]; exact hst.bnd b hb'⟩
          (fun b hb' hf => by rw [h3] at hf ⊢; exact hb b hb' hf) h4 t (hdt n)
        exact ⟨a, b.mono fun s ⟨p, q, r, u⟩ => ⟨p, q, fun i => (r i).trans (h3 i), u⟩⟩
      obtain ⟨⟨o, ho'⟩, hok⟩ := ih
      constructor
      · obtain ⟨st', rfl, hP⟩ := hok o ho'
        obtain ⟨⟨o2, ho2⟩, -⟩ := hstep st' hP
        exact ⟨o2, (NR.bind_def _ _ _).2 ⟨_, ho', ho2⟩⟩
      · intro out hout
        obtain ⟨r, h1, h2⟩ := (NR.bind_def _ _ _).1 hout
        obtain ⟨st', rfl, hP⟩ := hok r h1
        exact (hstep st' hP).2 out h2
  exact ⟨key.1, fun out hout => by
    obtain ⟨st', h1, h2, -, -, h3⟩ := key.2 out hout
    exact ⟨st', h1, h2, h3⟩⟩

end maximum

/-! ### A branching flow -/

/-- Three cells; cell 0 has the others as neighbours, so that its row can be numbered in two orders. Each cell has one boundary face. -/
noncomputable def fork : Mesh ℝ where
  points := []
  cellVolumes := [1, 1, 1]
  cellCentres := [(0, 0, 0), (1, 0, 0), (0, 1, 0)]
  faceAreas := [(1, 0, 0), (0, 1, 0), (-1, 0, 0), (1, 0, 0), (0, 1, 0)]
  faceCentres := [(1/2, 0, 0), (0, 1/2, 0), (-1/2, 0, 0), (3/2, 0, 0), (0, 3/2, 0)]
  magFaceAreas := [1, 1, 1, 1, 1]
  owner := [0, 0, 0, 1, 2]
  neighbour := [1, 2]
  nCells := 3
  nInternalFaces := 2
  nBoundaryFaces := 3
  nBoundaries := 3
  nFaces := 5
  bnd := {
    faceCells := [0, 1, 2]
    cf := [(-1/2, 0, 0), (3/2, 0, 0), (0, 3/2, 0)]
    cn := [(0, 0, 0), (1, 0, 0), (0, 1, 0)]
    sf := [(-1, 0, 0), (1, 0, 0), (0, 1, 0)]
    magSf := [1, 1, 1]
    nf := [(-1, 0, 0), (1, 0, 0), (0, 1, 0)]
    delta := [(-1/2, 0, 0), (1/2, 0, 0), (0, 1/2, 0)]
    weights := [1, 1, 1]
    deltaCoeffs := [2, 2, 2]
    offset := [0, 1, 2, 3] }

theorem fork_wf : fork.WF := by
  constructor <;> first | rfl | (intro f hf; have : f = 0 ∨ f = 1 ∨ f = 2 ∨ f = 3 ∨ f = 4 := by simp [fork] at hf; omega
                                 rcases this with rfl | rfl | rfl | rfl | rfl <;> simp_all [fork, Mesh.own, Mesh.nbr, Mesh.fc])

/-- The flow enters cell 0, divides and leaves through the others. -/
def forkFlux : List ℝ := [1, 1, -2, 1, 1]

/-- Value 1 in the cells, 0 fixed at the inlet, zero gradient at the outlets. -/
def forkField : VolField ℝ ℝ := ⟨[1, 1, 1], [0, 1, 1], [0, 0, 0], [1, 0, 0], [0, 0, 0]⟩

/-- The hypotheses of `C60_bounded_every` are met on a mesh that is not a chain: the branching flow with diffusivity 1, on every executor. -/
example (e : ExecKind) (δ : List ℝ) (hδ : ∀ f < fork.nFaces, 0 < ix δ f) : fork.WF ∧ ¬ fork.Chain ∧ fork.BndDistinct ∧ (∀ c < fork.nCells, 1 + fork.deg c ≤ 256) ∧
    (∀ c < fork.nCells, 0 < fork.vol c) ∧ (∀ f < fork.nFaces, fork.span f ≠ 0) ∧ (∀ f < fork.nFaces, 0 ≤ ix fork.magFaceAreas f) ∧
    fork.DivergenceFree (ix forkFlux) ∧ forkField.On fork ∧ ImplicitBC fork (ix forkFlux) (ix δ) (ix [1, 1, 1, 1, 1]) 0 1 forkField ∧
    (∀ c < fork.nCells, 0 ≤ forkField.cell c ∧ forkField.cell c ≤ 1) ∧ ∃ sp, sparsityUpdate e fork (.ok sp) := by
  have h3 : ∀ c < 3, c = 0 ∨ c = 1 ∨ c = 2 := by omega
  have h5 : ∀ c < 5, c = 0 ∨ c = 1 ∨ c = 2 ∨ c = 3 ∨ c = 4 := by omega
  obtain ⟨sp, hsp⟩ := C14_terminates fork fork_wf e
  refine ⟨fork_wf, fun hc => ?_, ?_, ?_, ?_, ?_, ?_, ?_, ⟨rfl, rfl, rfl, rfl, rfl⟩, ?_, ?_, sp, hsp⟩
  · exact absurd (hc.1 0 (by simp [fork]) 1 (by simp [fork]) rfl) (by decide)
  · show ∀ b < 3, ∀ b' < 3, [0, 1, 2].getD b 0 = [0, 1, 2].getD b' 0 → b = b'
    decide
  · intro c _
    have := deg_le fork c
    have h2 : fork.nInternalFaces = 2 := rfl
    omega
  · intro c hc
    rcases h3 c hc with rfl | rfl | rfl <;> simp [fork, Mesh.vol]
  · intro f hf
    rcases h5 f hf with rfl | rfl | rfl | rfl | rfl <;> simp [Mesh.span, fork, Mesh.own, Mesh.nbr, Mesh.fc, Mesh.ctr, Mesh.fctr] <;> norm_num
  · intro f hf
    rcases h5 f hf with rfl | rfl | rfl | rfl | rfl <;> simp [fork, ix]
  · intro c hc
    rcases h3 c hc with rfl | rfl | rfl <;>
      simp [fork, Mesh.netOutflow, Mesh.own, Mesh.nbr, Mesh.fc, ix, forkFlux, Finset.sum_range_succ] <;> norm_num
  · intro b hb
    rcases h3 b hb with rfl | rfl | rfl
    · refine ⟨.fixedValue 0, ⟨rfl, rfl, rfl⟩, .inr ⟨0, rfl, le_rfl, zero_le_one, ?_⟩⟩
      have := hδ 2 (by simp [fork])
      simp [ix] at this
      simp [fork, ix, forkFlux]
      linarith
    · refine ⟨.fixedGradient 0, ⟨?_, rfl, rfl⟩, .inl rfl⟩
      simp [forkField, VolField.entry, VolField.cell, fork, Mesh.fc]
    · refine ⟨.fixedGradient 0, ⟨?_, rfl, rfl⟩, .inl rfl⟩
      simp [forkField, VolField.entry, VolField.cell, fork, Mesh.fc]
  · intro c hc
    rcases h3 c hc with rfl | rfl | rfl <;> simp [forkField, VolField.cell]

end NeoFOAM
