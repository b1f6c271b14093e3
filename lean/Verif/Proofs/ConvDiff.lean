import Verif.Spec.ConvDiff
import Verif.Props.C33_BackwardEuler
import Verif.Props.C57_Petsc
import Verif.Props.C25_Gradient
import Mathlib.LinearAlgebra.FiniteDimensional.Basic
import Mathlib.LinearAlgebra.Pi

/-!
# Implicit transport with diffusion: the system of a step, its solvability and its maximum principle
-/
namespace NeoFOAM
open Finset
variable {K : Type} [Field K] [LinearOrder K]

section system
omit [LinearOrder K] in
theorem implicitResidual_sub (m : Mesh K) (a b : Slot → K) (p q : Nat → K) (x : Nat → K) (c : Nat) :
    implicitResidual m (fun s => a s - b s) (fun i => p i - q i) x c = implicitResidual m a p x c - implicitResidual m b q x c := by
  unfold implicitResidual
  have key : ∀ (cell : Nat → Nat) (u v z : Nat → K), (∑ f ∈ range m.nInternalFaces, if cell f = c then (u f - v f) * z f else 0)
      = (∑ f ∈ range m.nInternalFaces, if cell f = c then u f * z f else 0) - ∑ f ∈ range m.nInternalFaces, if cell f = c then v f * z f else 0 := by
    intro cell u v z
    rw [← Finset.sum_sub_distrib]
    exact Finset.sum_congr rfl fun f _ => by split <;> ring
  rw [key m.own (fun f => a (.upper f)) (fun f => b (.upper f)) (fun f => x (m.nbr f)),
    key m.nbr (fun f => a (.lower f)) (fun f => b (.lower f)) (fun f => x (m.own f))]
  ring

/-- The flux through a face, from the parts of the two operators. -/
theorem outFlux_eq (φ : VolField K K) (m : Mesh K) (flux δ gamma : List K) (x : Nat → K) (f : Nat) :
    φ.outFlux m (ix flux) (ix δ) (ix gamma) x f
      = ix flux f * φ.impFace m (ix flux) x f + (-1 : K) • (ix gamma f * ix m.magFaceAreas f * φ.impGrad m (ix δ) x f) := by
  unfold VolField.outFlux VolField.impFace VolField.impGrad
  split
  · simp; ring
  · simp [VolField.entry, ix]; ring

/-- The composition always succeeds, with handles that do not depend on the fields. -/
theorem convDiff_build (e : ExecKind) (m : Mesh K) (sp : SparsityPattern) (sch : InterpScheme) (w : List K) (junk : Nat → K) (flux δ gamma : List K) :
    ∃ (eqn : Expr) (ops : OpsOf K K), ∀ st, convDiffTree.build (convDiffOps e m sp sch w junk flux δ gamma st) = .ok (eqn, ops st) := by
  have key : ∀ st, ∃ o, convDiffTree.build (convDiffOps e m sp sch w junk flux δ gamma st) = .ok (⟨[7], [8, 11]⟩, o) := fun st => ⟨_, rfl⟩
  exact ⟨_, fun st => (key st).choose, fun st => (key st).choose_spec⟩

/-- The system handed to the solver in a step. -/
theorem convDiff_system (e : ExecKind) {m : Mesh K} (h : m.WF) {sp : SparsityPattern} (hp : sp.For m)
    (hu : ∀ out, sparsityUpdate e m out ↔ out = .ok sp) (he : e = .serial ∨ m.BndDistinct)
    (sch : InterpScheme) (w : List K) (junk : Nat → K) (flux δ gamma : List K)
    (hfl : flux.length = m.nFaces) (hδ : δ.length = m.nFaces) (hg : gamma.length = m.nFaces)
    (eqn : Expr) (ops : OpsOf K K) (hbuild : ∀ st, convDiffTree.build (convDiffOps e m sp sch w junk flux δ gamma st) = .ok (eqn, ops st))
    (st : TimeState K K) (ho : st.sol.On m) (hsy : st.Synced) (t dt : K) :
    ∃ ls : LinearSystem K, ls.On sp m ∧
      (∀ x, ∀ c < m.nCells, ls.residual x c = m.vol c * (x c - st.sol.cell c) / dt
        + m.netOutflow (st.sol.outFlux m (ix flux) (ix δ) (ix gamma) x) c) ∧
      ∀ (bcs : List (VolumeBoundary K)) (table : SolverTable K) (fvSchemes fvSolution : Dict), AsksFor fvSchemes "backwardEuler" →
        ∀ solver, createSolver table fvSchemes = .ok solver → ∀ out, dslSolve e m bcs table fvSchemes fvSolution ops eqn st t dt out ↔
          (solver ls st.sol.internal >>= fun x => pure ⟨{ st.sol with internal := x }, some x⟩ : NR (TimeState K K)) out := by
  have hdef : (Coeff.default : Coeff K).On m.nCells (fun _ => 1) := fun _ _ => rfl
  have heqn : eqn.temporal ≠ [] := by
    obtain ⟨k, l, ops', hb⟩ : ∃ (k : Nat) (l : List Nat), ∃ o, convDiffTree.build (convDiffOps e m sp sch w junk flux δ gamma st) = .ok (⟨[k], l⟩, o) := by
      exact ⟨_, _, _, rfl⟩
    rw [hbuild st] at hb
    injection hb with hb
    rw [(Prod.mk.inj hb).1]
    simp
  have hol : st.oldTime.length = m.nCells := by rw [hsy]; exact ho.int
  obtain ⟨ls, h1, h2, h3⟩ := C33_system e h hp hu (convDiffOps e m sp sch w junk flux δ gamma) convDiffTree st ho.int
    (by
      intro k i hi
      cases k <;> simp [convDiffTree, ExT.leaves, OpT.sort, OpT.leaf] at hi <;> simp [convDiffOps] <;> omega)
    ⟨⟨trivial, trivial⟩, trivial⟩ ⟨⟨trivial, trivial⟩, trivial⟩ eqn ops hbuild heqn t dt
    (fun i => if i = 1 then divDelta m (ix flux) (ix st.sol.bVF) (fun _ => 1) else lapDelta m (ix δ) (ix gamma) (ix st.sol.bVF) (fun _ => 1))
    (fun _ => diagDelta fun i => 1 * m.vol i / dt)
    (fun i => if i = 1 then divRhs m (ix flux) (ix st.sol.bVF) (ix st.sol.bRefValue) (fun _ => 1)
      else lapRhs m (ix δ) (ix gamma) (ix st.sol.bVF) (ix st.sol.bRefValue) (ix st.sol.bRefGrad) (fun _ => 1))
    (fun _ i => 1 * m.vol i / dt * ix st.oldTime i)
    (fun _ _ => 0)
    (by
      intro i hi
      simp [convDiffTree, ExT.leaves, OpT.sort, OpT.leaf] at hi
      rcases hi with rfl | rfl
      · exact ⟨_, rfl, C31_term_div_implicit h hp ho w hfl sch e he junk hdef 0 0⟩
      · exact ⟨_, rfl, C31_term_laplacian_implicit h hp ho hδ hg e he junk hdef 0 0⟩)
    (by
      intro i hi
      simp [convDiffTree, ExT.leaves, OpT.sort, OpT.leaf] at hi
      subst hi
      exact ⟨_, rfl, C31_term_ddt_implicit h hp st.sol hol e hdef t dt⟩)
    (by
      intro i hi
      simp [convDiffTree, ExT.leaves, OpT.sort, OpT.leaf] at hi
      rcases hi with rfl | rfl
      · exact ⟨_, rfl, explTerm_implicit 0 0 rfl hdef⟩
      · exact ⟨_, rfl, explTerm_implicit 0 0 rfl hdef⟩)
  refine ⟨ls, h1, fun x c hc => ?_, h3⟩
  rw [h2 x c hc]
  have e1 : (convDiffTree (K := K)).value .spatial (Slot.row m)
      (fun i => if i = 1 then divDelta m (ix flux) (ix st.sol.bVF) (fun _ => 1) else lapDelta m (ix δ) (ix gamma) (ix st.sol.bVF) (fun _ => 1))
      = fun s => divDelta m (ix flux) (ix st.sol.bVF) (fun _ => 1) s - lapDelta m (ix δ) (ix gamma) (ix st.sol.bVF) (fun _ => 1) s := by
    funext s
    simp [convDiffTree, ExT.value, OpT.valueOf, OpT.sort, OpT.value]
  have e2 : (convDiffTree (K := K)).value .spatial id
      (fun i => if i = 1 then divRhs m (ix flux) (ix st.sol.bVF) (ix st.sol.bRefValue) (fun _ => 1)
      else lapRhs m (ix δ) (ix gamma) (ix st.sol.bVF) (ix st.sol.bRefValue) (ix st.sol.bRefGrad) (fun _ => 1))
      = fun s => divRhs m (ix flux) (ix st.sol.bVF) (ix st.sol.bRefValue) (fun _ => 1) s
        - lapRhs m (ix δ) (ix gamma) (ix st.sol.bVF) (ix st.sol.bRefValue) (ix st.sol.bRefGrad) (fun _ => 1) s := by
    funext s
    simp [convDiffTree, ExT.value, OpT.valueOf, OpT.sort, OpT.value]
  have e3 : ∀ {ι : Type} (loc : ι → Nat) (v : ι → K), (convDiffTree (K := K)).value .temporal loc (fun _ => v) = v := by
    intro ι loc v
    funext s
    simp [convDiffTree, ExT.value, OpT.valueOf, OpT.sort, OpT.value]
  rw [e1, e2, e3, e3, implicitResidual_sub, C33_ddt]
  have e4 : implicitResidual m (divDelta m (ix flux) (ix st.sol.bVF) fun _ => 1) (divRhs m (ix flux) (ix st.sol.bVF) (ix st.sol.bRefValue) fun _ => 1) x c
      = m.netOutflow (fun f => ix flux f * st.sol.impFace m (ix flux) x f) c := by
    have := divResidual m st.sol flux (fun _ => 1) x c
    rw [one_mul] at this
    exact this
  have e5 : implicitResidual m (lapDelta m (ix δ) (ix gamma) (ix st.sol.bVF) fun _ => 1)
      (lapRhs m (ix δ) (ix gamma) (ix st.sol.bVF) (ix st.sol.bRefValue) (ix st.sol.bRefGrad) fun _ => 1) x c
      = m.netOutflow (fun f => ix gamma f * ix m.magFaceAreas f * st.sol.impGrad m (ix δ) x f) c := by
    have := lapResidual m st.sol δ gamma (fun _ => 1) x c
    rw [one_mul] at this
    exact this
  have e6 : st.sol.outFlux m (ix flux) (ix δ) (ix gamma) x = fun f => ix flux f * st.sol.impFace m (ix flux) x f
      + (-1 : K) • (ix gamma f * ix m.magFaceAreas f * st.sol.impGrad m (ix δ) x f) := funext (outFlux_eq _ _ _ _ _ _)
  rw [e4, e5, e6, netOutflow_add, netOutflow_smul, show ix st.oldTime c = st.sol.cell c by rw [hsy]; rfl]
  simp
  ring

end system

section maximum
variable [IsStrictOrderedRing K]

omit [LinearOrder K] [IsStrictOrderedRing K] in
/-- Fluxes that do not enter. -/
theorem netOutflow_nonneg [LinearOrder K] [IsStrictOrderedRing K] (m : Mesh K) (ψ : Nat → K) (c : Nat)
    (how : ∀ f < m.nInternalFaces, m.own f = c → 0 ≤ ψ f) (hnb : ∀ f < m.nInternalFaces, m.nbr f = c → ψ f ≤ 0)
    (hbd : ∀ b < m.nBoundaryFaces, m.fc b = c → 0 ≤ ψ (m.nInternalFaces + b)) : 0 ≤ m.netOutflow ψ c := by
  unfold Mesh.netOutflow
  have a1 : 0 ≤ ∑ f ∈ range m.nInternalFaces, if m.own f = c then ψ f else 0 :=
    Finset.sum_nonneg fun f hf => by split; exacts [how f (mem_range.1 hf) ‹_›, le_rfl]
  have a2 : (∑ f ∈ range m.nInternalFaces, if m.nbr f = c then ψ f else 0) ≤ 0 :=
    Finset.sum_nonpos fun f hf => by split; exacts [hnb f (mem_range.1 hf) ‹_›, le_rfl]
  have a3 : 0 ≤ ∑ b ∈ range m.nBoundaryFaces, if m.fc b = c then ψ (m.nInternalFaces + b) else 0 :=
    Finset.sum_nonneg fun b hb => by split; exacts [hbd b (mem_range.1 hb) ‹_›, le_rfl]
  linarith

/-- What the maximum principle needs of the data: non-negative diffusion coefficients, and at the boundary zero gradient or a value
with diffusion at least as strong as outflow. -/
structure Stable (m : Mesh K) (flux δ gamma : Nat → K) (φ : VolField K K) : Prop where
  free : m.DivergenceFree flux
  diff : ∀ f < m.nFaces, 0 ≤ gamma f * δ f * ix m.magFaceAreas f
  bnd : ∀ b < m.nBoundaryFaces, ((φ.entry b).fraction = 0 ∧ (φ.entry b).refGrad = 0) ∨ ((φ.entry b).fraction = 1 ∧
    flux (m.nInternalFaces + b) ≤ gamma (m.nInternalFaces + b) * δ (m.nInternalFaces + b) * ix m.magFaceAreas (m.nInternalFaces + b))

/-- In a cell with the largest value, at least `hi`, nothing enters on balance, if the boundary values are at most `hi`. -/
theorem outflow_at_max {m : Mesh K} (h : m.WF) {flux δ gamma : Nat → K} {φ : VolField K K} (hs : Stable m flux δ gamma φ) (hi : K)
    (hb : ∀ b < m.nBoundaryFaces, (φ.entry b).fraction = 1 → (φ.entry b).refValue ≤ hi) (x : Nat → K) (c : Nat) (hc : c < m.nCells)
    (hmax : ∀ c' < m.nCells, x c' ≤ x c) (hge : hi ≤ x c) : 0 ≤ m.netOutflow (φ.outFlux m flux δ gamma x) c := by
  have hfaces := h.faces
  have e1 : m.netOutflow (φ.outFlux m flux δ gamma x) c = m.netOutflow (fun f => φ.outFlux m flux δ gamma x f + (-x c) • flux f) c := by
    rw [netOutflow_add, netOutflow_smul, hs.free c hc]; simp
  rw [e1]
  refine netOutflow_nonneg m _ c (fun f hf ho => ?_) (fun f hf ho => ?_) (fun b hb' ho => ?_)
  · have hd := hs.diff f (by omega)
    have hn := hmax _ (h.nbr_lt f hf)
    simp only [VolField.outFlux, if_pos hf, ho, smul_eq_mul]
    split
    · nlinarith
    · rename_i hneg
      rw [not_le] at hneg
      nlinarith
  · have hd := hs.diff f (by omega)
    have hn := hmax _ (h.own_lt f (by omega))
    simp only [VolField.outFlux, if_pos hf, ho, smul_eq_mul]
    split
    · nlinarith
    · nlinarith
  · simp only [VolField.outFlux, if_neg (show ¬ m.nInternalFaces + b < m.nInternalFaces by omega), Nat.add_sub_cancel_left, ho, smul_eq_mul]
    rcases hs.bnd b hb' with ⟨h1, h2⟩ | ⟨h1, h2⟩
    · rw [h1, h2]; apply le_of_eq; ring
    · have := hb b hb' h1
      rw [h1]
      nlinarith

/-- The same in a cell with the smallest value. -/
theorem outflow_at_min {m : Mesh K} (h : m.WF) {flux δ gamma : Nat → K} {φ : VolField K K} (hs : Stable m flux δ gamma φ) (lo : K)
    (hb : ∀ b < m.nBoundaryFaces, (φ.entry b).fraction = 1 → lo ≤ (φ.entry b).refValue) (x : Nat → K) (c : Nat) (hc : c < m.nCells)
    (hmin : ∀ c' < m.nCells, x c ≤ x c') (hle : x c ≤ lo) : m.netOutflow (φ.outFlux m flux δ gamma x) c ≤ 0 := by
  have hfaces := h.faces
  have e1 : m.netOutflow (φ.outFlux m flux δ gamma x) c = -(m.netOutflow (fun f => (-1 : K) • (φ.outFlux m flux δ gamma x f + (-x c) • flux f)) c) := by
    rw [netOutflow_smul, netOutflow_add, netOutflow_smul, hs.free c hc]; simp
  rw [e1, neg_nonpos]
  refine netOutflow_nonneg m _ c (fun f hf ho => ?_) (fun f hf ho => ?_) (fun b hb' ho => ?_)
  · have hd := hs.diff f (by omega)
    have hn := hmin _ (h.nbr_lt f hf)
    simp only [VolField.outFlux, if_pos hf, ho, smul_eq_mul]
    split
    · nlinarith
    · rename_i hneg
      rw [not_le] at hneg
      nlinarith
  · have hd := hs.diff f (by omega)
    have hn := hmin _ (h.own_lt f (by omega))
    simp only [VolField.outFlux, if_pos hf, ho, smul_eq_mul]
    split
    · nlinarith
    · nlinarith
  · simp only [VolField.outFlux, if_neg (show ¬ m.nInternalFaces + b < m.nInternalFaces by omega), Nat.add_sub_cancel_left, ho, smul_eq_mul]
    rcases hs.bnd b hb' with ⟨h1, h2⟩ | ⟨h1, h2⟩
    · rw [h1, h2]; apply le_of_eq; ring
    · have := hb b hb' h1
      rw [h1]
      nlinarith

/-- The maximum principle of one implicit step. -/
theorem implicit_bounds {m : Mesh K} (h : m.WF) (hv : ∀ c < m.nCells, 0 < m.vol c) {flux δ gamma : Nat → K} {φ : VolField K K}
    (hs : Stable m flux δ gamma φ) {lo hi dt : K} (hdt : 0 < dt)
    (hb : ∀ b < m.nBoundaryFaces, (φ.entry b).fraction = 1 → lo ≤ (φ.entry b).refValue ∧ (φ.entry b).refValue ≤ hi)
    (old x : Nat → K) (hold : ∀ c < m.nCells, lo ≤ old c ∧ old c ≤ hi)
    (heq : ∀ c < m.nCells, m.vol c * (x c - old c) / dt + m.netOutflow (φ.outFlux m flux δ gamma x) c = 0) :
    ∀ c < m.nCells, lo ≤ x c ∧ x c ≤ hi := by
  intro c0 hc0
  have hne : (range m.nCells).Nonempty := ⟨c0, mem_range.2 hc0⟩
  constructor
  · obtain ⟨c, hc, hmin⟩ := Finset.exists_min_image (range m.nCells) x hne
    rw [mem_range] at hc
    refine le_trans ?_ (hmin c0 (mem_range.2 hc0))
    by_contra hlt
    rw [not_le] at hlt
    have h1 := outflow_at_min h hs lo (fun b hb' hf => (hb b hb' hf).1) x c hc (fun c' hc' => hmin c' (mem_range.2 hc')) hlt.le
    have h2 : m.vol c * (x c - old c) / dt < 0 :=
      div_neg_of_neg_of_pos (mul_neg_of_pos_of_neg (hv c hc) (by have := (hold c hc).1; linarith)) hdt
    have := heq c hc
    linarith
  · obtain ⟨c, hc, hmax⟩ := Finset.exists_max_image (range m.nCells) x hne
    rw [mem_range] at hc
    refine le_trans (hmax c0 (mem_range.2 hc0)) ?_
    by_contra hlt
    rw [not_le] at hlt
    have h1 := outflow_at_max h hs hi (fun b hb' hf => (hb b hb' hf).2) x c hc (fun c' hc' => hmax c' (mem_range.2 hc')) hlt.le
    have h2 : 0 < m.vol c * (x c - old c) / dt :=
      div_pos (mul_pos (hv c hc) (by have := (hold c hc).2; linarith)) hdt
    have := heq c hc
    linarith

/-- Two solutions of a step's equations are equal. -/
theorem implicit_unique {m : Mesh K} (h : m.WF) (hv : ∀ c < m.nCells, 0 < m.vol c) {flux δ gamma : Nat → K} {φ : VolField K K}
    (hs : Stable m flux δ gamma φ) {dt : K} (hdt : 0 < dt) (old x y : Nat → K)
    (heq : ∀ c < m.nCells, m.vol c * (x c - old c) / dt + m.netOutflow (φ.outFlux m flux δ gamma x) c
      = m.vol c * (y c - old c) / dt + m.netOutflow (φ.outFlux m flux δ gamma y) c) : ∀ c < m.nCells, x c = y c := by
  set φ0 : VolField K K := { φ with bRefValue := [], bRefGrad := [] } with hφ0
  have hs0 : Stable m flux δ gamma φ0 := by
    refine ⟨hs.free, hs.diff, fun b hb => ?_⟩
    rcases hs.bnd b hb with ⟨h1, h2⟩ | ⟨h1, h2⟩
    · exact .inl ⟨h1, by simp [hφ0, VolField.entry]⟩
    · exact .inr ⟨h1, h2⟩
  have hlin : φ0.outFlux m flux δ gamma (fun c => x c - y c) = fun f => φ.outFlux m flux δ gamma x f + (-1 : K) • φ.outFlux m flux δ gamma y f := by
    funext f
    simp only [VolField.outFlux, smul_eq_mul, hφ0, VolField.entry, List.getD_nil]
    split
    · split <;> ring
    · ring
  have := implicit_bounds (lo := 0) (hi := 0) h hv hs0 hdt (fun b _ _ => by simp [hφ0, VolField.entry]) (fun _ => 0) (fun c => x c - y c)
    (fun c _ => ⟨le_rfl, le_rfl⟩) (by
      intro c hc
      rw [hlin, netOutflow_add, netOutflow_smul]
      have := heq c hc
      simp only [smul_eq_mul, neg_one_mul]
      have e : m.vol c * (x c - y c - 0) / dt = m.vol c * (x c - old c) / dt - m.vol c * (y c - old c) / dt := by ring
      rw [e]
      linarith)
  intro c hc
  obtain ⟨h1, h2⟩ := this c hc
  linarith

end maximum

/-- A square system whose equations determine the unknowns has a solution. -/
theorem exists_solution {F : Type} [Field F] (ls : LinearSystem F)
    (hinj : ∀ x y : Nat → F, (∀ i < ls.rhs.length, ls.residual x i = ls.residual y i) → ∀ i < ls.rhs.length, x i = y i) :
    ∃ y : List F, y.length = ls.rhs.length ∧ ∀ i < ls.rhs.length, ls.residual (ix y) i = 0 := by
  set n := ls.rhs.length with hn
  let ext : (Fin n → F) → Nat → F := fun v j => if hj : j < n then v ⟨j, hj⟩ else 0
  let T : (Fin n → F) →ₗ[F] (Fin n → F) :=
    { toFun := fun v i => ∑ p ∈ Ico (ls.matrix.rs i) (ls.matrix.rs (i + 1)), ls.matrix.val p * ext v (ls.matrix.col p)
      map_add' := fun v w => by
        funext i
        simp only [Pi.add_apply]
        rw [← Finset.sum_add_distrib]
        refine Finset.sum_congr rfl fun p _ => ?_
        simp only [ext]
        split <;> simp [mul_add]
      map_smul' := fun r v => by
        funext i
        simp only [Pi.smul_apply, RingHom.id_apply, smul_eq_mul]
        rw [Finset.mul_sum]
        refine Finset.sum_congr rfl fun p _ => ?_
        simp only [ext]
        split
        · simp; ring
        · simp }
  have hT : ∀ v (i : Fin n), ls.residual (ext v) i = T v i - ls.rhs.getD i 0 := fun _ _ => rfl
  have hTi : Function.Injective T := by
    intro v w hvw
    funext i
    have := hinj (ext v) (ext w) (fun j hj => by
      have e1 := hT v ⟨j, hj⟩
      have e2 := hT w ⟨j, hj⟩
      rw [hvw] at e1
      exact e1.trans e2.symm) i i.2
    simpa [ext] using this
  have hTs : Function.Surjective T := LinearMap.injective_iff_surjective.1 hTi
  obtain ⟨v, hv⟩ := hTs (fun i => ls.rhs.getD i 0)
  refine ⟨List.ofFn v, by simp, fun i hi => ?_⟩
  have e1 : ix (List.ofFn v) = ext v := by
    funext j
    simp only [ix, ext, List.getD_eq_getElem?_getD, List.getElem?_ofFn]
    split <;> simp
  rw [e1]
  have := hT v ⟨i, hi⟩
  rw [hv] at this
  rw [this, sub_self]

end NeoFOAM
