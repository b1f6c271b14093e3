import Verif.Proofs.ConvDiff
import Verif.Spec.SteadyDiff

/-!
# Steady transport with diffusion: the system, its maximum principle and its solvability
-/
namespace NeoFOAM
open Finset
variable {K : Type} [Field K] [LinearOrder K]

/-- The composition always succeeds. -/
theorem steady_build (e : ExecKind) (m : Mesh K) (sp : SparsityPattern) (sch : InterpScheme) (w : List K) (junk : Nat → K) (flux δ gamma : List K) :
    ∃ (eqn : Expr) (ops : OpsOf K K), ∀ st, steadyTree.build (steadyOps e m sp sch w junk flux δ gamma st) = .ok (eqn, ops st) := by
  have key : ∀ st, ∃ o, steadyTree.build (steadyOps e m sp sch w junk flux δ gamma st) = .ok (⟨[], [4, 7]⟩, o) := fun st => ⟨_, rfl⟩
  exact ⟨_, fun st => (key st).choose, fun st => (key st).choose_spec⟩

/-- The system handed to the solver. -/
theorem steady_system (e : ExecKind) {m : Mesh K} (h : m.WF) {sp : SparsityPattern} (hp : sp.For m)
    (hu : ∀ out, sparsityUpdate e m out ↔ out = .ok sp) (he : e = .serial ∨ m.BndDistinct)
    (sch : InterpScheme) (w : List K) (junk : Nat → K) (flux δ gamma : List K)
    (hfl : flux.length = m.nFaces) (hδ : δ.length = m.nFaces) (hg : gamma.length = m.nFaces)
    (eqn : Expr) (ops : OpsOf K K) (hbuild : ∀ st, steadyTree.build (steadyOps e m sp sch w junk flux δ gamma st) = .ok (eqn, ops st))
    (st : TimeState K K) (ho : st.sol.On m) (t dt : K)
    (bcs : List (VolumeBoundary K)) (table : SolverTable K) (fvSchemes fvSolution : Dict) :
    ∃ ls : LinearSystem K, ls.On sp m ∧
      (∀ x, ∀ c < m.nCells, ls.residual x c = m.netOutflow (st.sol.outFlux m (ix flux) (ix δ) (ix gamma) x) c) ∧
        ∀ solver, createSolver table fvSolution = .ok solver → ∀ out, dslSolve e m bcs table fvSchemes fvSolution ops eqn st t dt out ↔
          (solver ls st.sol.internal >>= fun x => pure { st with sol := { st.sol with internal := x } } : NR (TimeState K K)) out := by
  have hdef : (Coeff.default : Coeff K).On m.nCells (fun _ => 1) := fun _ _ => rfl
  obtain ⟨hT, hS⟩ : eqn.temporal = [] ∧ eqn.spatial ≠ [] := by
    obtain ⟨k, l, ops', hb⟩ : ∃ (k : Nat) (l : List Nat), ∃ o, steadyTree.build (steadyOps e m sp sch w junk flux δ gamma st) = .ok (⟨[], k :: l⟩, o) := by
      exact ⟨_, _, _, rfl⟩
    rw [hbuild st] at hb
    injection hb with hb
    rw [(Prod.mk.inj hb).1]
    simp
  obtain ⟨ls, h1, h2, h3⟩ := C32_system e h hp hu (steadyOps e m sp sch w junk flux δ gamma st) steadyTree
    (by
      intro k i hi
      cases k <;> simp [steadyTree, ExT.leaves, OpT.sort, OpT.leaf] at hi <;> simp [steadyOps] <;> omega)
    ⟨trivial, trivial⟩ eqn (ops st) (hbuild st) hT hS
    (fun i => if i = 0 then divDelta m (ix flux) (ix st.sol.bVF) (fun _ => 1) else lapDelta m (ix δ) (ix gamma) (ix st.sol.bVF) (fun _ => 1))
    (fun i => if i = 0 then divRhs m (ix flux) (ix st.sol.bVF) (ix st.sol.bRefValue) (fun _ => 1)
      else lapRhs m (ix δ) (ix gamma) (ix st.sol.bVF) (ix st.sol.bRefValue) (ix st.sol.bRefGrad) (fun _ => 1))
    (fun _ _ => 0)
    (by
      intro i hi
      simp [steadyTree, ExT.leaves, OpT.sort, OpT.leaf] at hi
      rcases hi with rfl | rfl
      · exact ⟨_, rfl, C31_term_div_implicit h hp ho w hfl sch e he junk hdef 0 0⟩
      · exact ⟨_, rfl, C31_term_laplacian_implicit h hp ho hδ hg e he junk hdef 0 0⟩)
    (by
      intro i hi
      simp [steadyTree, ExT.leaves, OpT.sort, OpT.leaf] at hi
      rcases hi with rfl | rfl
      · exact ⟨_, rfl, explTerm_implicit 0 0 rfl hdef⟩
      · exact ⟨_, rfl, explTerm_implicit 0 0 rfl hdef⟩)
    bcs table fvSchemes fvSolution ops st rfl t dt
  refine ⟨ls, h1, fun x c hc => ?_, h3⟩
  rw [h2 x c hc]
  have e1 : (steadyTree (K := K)).value .spatial (Slot.row m)
      (fun i => if i = 0 then divDelta m (ix flux) (ix st.sol.bVF) (fun _ => 1) else lapDelta m (ix δ) (ix gamma) (ix st.sol.bVF) (fun _ => 1))
      = fun s => divDelta m (ix flux) (ix st.sol.bVF) (fun _ => 1) s - lapDelta m (ix δ) (ix gamma) (ix st.sol.bVF) (fun _ => 1) s := by
    funext s
    simp [steadyTree, ExT.value, OpT.valueOf, OpT.sort, OpT.value]
  have e2 : (steadyTree (K := K)).value .spatial id
      (fun i => if i = 0 then divRhs m (ix flux) (ix st.sol.bVF) (ix st.sol.bRefValue) (fun _ => 1)
      else lapRhs m (ix δ) (ix gamma) (ix st.sol.bVF) (ix st.sol.bRefValue) (ix st.sol.bRefGrad) (fun _ => 1))
      = fun s => divRhs m (ix flux) (ix st.sol.bVF) (ix st.sol.bRefValue) (fun _ => 1) s
        - lapRhs m (ix δ) (ix gamma) (ix st.sol.bVF) (ix st.sol.bRefValue) (ix st.sol.bRefGrad) (fun _ => 1) s := by
    funext s
    simp [steadyTree, ExT.value, OpT.valueOf, OpT.sort, OpT.value]
  have e3 : (steadyTree (K := K)).value .spatial (V := K) id (fun _ _ => 0) c = 0 := by
    simp [steadyTree, ExT.value, OpT.valueOf, OpT.sort, OpT.value]
  rw [e1, e2, e3, implicitResidual_sub]
  have e4 : implicitResidual m (divDelta m (ix flux) (ix st.sol.bVF) fun _ => 1) (divRhs m (ix flux) (ix st.sol.bVF) (ix st.sol.bRefValue) fun _ => 1) x c
      = m.netOutflow (fun f => ix flux f * st.sol.impFace m (ix flux) x f) c := by
    have := divResidual m st.sol flux (fun _ => 1) x c
    rw [one_mul] at this
    exact this
  have e5 : implicitResidual m (lapDelta m (ix δ) (ix gamma) (ix st.sol.bVF) fun _ => 1)
      (lapRhs m (ix δ) (ix gamma) (ix st.sol.bVF) (ix st.sol.bRefValue) (ix st.sol.bRefGrad) fun _ => 1) x c
      = m.netOutflow (fun f => ix gamma f * ix m.magFaceAreas f * st.sol.impGrad m (ix δ) x f) c := by
    have := lapResidual m st.sol δ gamma (fun _ => 1) x c
    rw [one_mul] at this
    exact this
  have e6 : st.sol.outFlux m (ix flux) (ix δ) (ix gamma) x = fun f => ix flux f * st.sol.impFace m (ix flux) x f
      + (-1 : K) • (ix gamma f * ix m.magFaceAreas f * st.sol.impGrad m (ix δ) x f) := funext (outFlux_eq _ _ _ _ _ _)
  rw [e4, e5, e6, netOutflow_add, netOutflow_smul]
  simp
  ring

/-- The composition of `laplacian(gamma, u)` alone always succeeds. -/
theorem diffusion_build (e : ExecKind) (m : Mesh K) (sp : SparsityPattern) (junk : Nat → K) (δ gamma : List K) :
    ∃ (eqn : Expr) (ops : OpsOf K K), ∀ st, diffusionTree.build (diffusionOps e m sp junk δ gamma st) = .ok (eqn, ops st) := by
  have key : ∀ st, ∃ o, diffusionTree.build (diffusionOps e m sp junk δ gamma st) = .ok (⟨[], [1]⟩, o) := fun st => ⟨_, rfl⟩
  exact ⟨_, fun st => (key st).choose, fun st => (key st).choose_spec⟩

/-- The system handed to the solver for `laplacian(gamma, u)` alone. -/
theorem diffusion_system (e : ExecKind) {m : Mesh K} (h : m.WF) {sp : SparsityPattern} (hp : sp.For m)
    (hu : ∀ out, sparsityUpdate e m out ↔ out = .ok sp) (he : e = .serial ∨ m.BndDistinct) (junk : Nat → K) (δ gamma : List K)
    (hδ : δ.length = m.nFaces) (hg : gamma.length = m.nFaces)
    (eqn : Expr) (ops : OpsOf K K) (hbuild : ∀ st, diffusionTree.build (diffusionOps e m sp junk δ gamma st) = .ok (eqn, ops st))
    (st : TimeState K K) (ho : st.sol.On m) (t dt : K)
    (bcs : List (VolumeBoundary K)) (table : SolverTable K) (fvSchemes fvSolution : Dict) :
    ∃ ls : LinearSystem K, ls.On sp m ∧
      (∀ x, ∀ c < m.nCells, ls.residual x c = - m.netOutflow (st.sol.outFlux m (fun _ => 0) (ix δ) (ix gamma) x) c) ∧
        ∀ solver, createSolver table fvSolution = .ok solver → ∀ out, dslSolve e m bcs table fvSchemes fvSolution ops eqn st t dt out ↔
          (solver ls st.sol.internal >>= fun x => pure { st with sol := { st.sol with internal := x } } : NR (TimeState K K)) out := by
  have hdef : (Coeff.default : Coeff K).On m.nCells (fun _ => 1) := fun _ _ => rfl
  obtain ⟨hT, hS⟩ : eqn.temporal = [] ∧ eqn.spatial ≠ [] := by
    obtain ⟨k, l, ops', hb⟩ : ∃ (k : Nat) (l : List Nat), ∃ o, diffusionTree.build (diffusionOps e m sp junk δ gamma st) = .ok (⟨[], k :: l⟩, o) := by
      exact ⟨_, _, _, rfl⟩
    rw [hbuild st] at hb
    injection hb with hb
    rw [(Prod.mk.inj hb).1]
    simp
  obtain ⟨ls, h1, h2, h3⟩ := C32_system e h hp hu (diffusionOps e m sp junk δ gamma st) diffusionTree
    (by
      intro k i hi
      cases k <;> simp [diffusionTree, ExT.leaves, OpT.sort, OpT.leaf] at hi <;> simp [diffusionOps] <;> omega)
    trivial eqn (ops st) (hbuild st) hT hS
    (fun _ => lapDelta m (ix δ) (ix gamma) (ix st.sol.bVF) (fun _ => 1))
    (fun _ => lapRhs m (ix δ) (ix gamma) (ix st.sol.bVF) (ix st.sol.bRefValue) (ix st.sol.bRefGrad) (fun _ => 1))
    (fun _ _ => 0)
    (by
      intro i hi
      simp [diffusionTree, ExT.leaves, OpT.sort, OpT.leaf] at hi
      subst hi
      exact ⟨_, rfl, C31_term_laplacian_implicit h hp ho hδ hg e he junk hdef 0 0⟩)
    (by
      intro i hi
      simp [diffusionTree, ExT.leaves, OpT.sort, OpT.leaf] at hi
      subst hi
      exact ⟨_, rfl, explTerm_implicit 0 0 rfl hdef⟩)
    bcs table fvSchemes fvSolution ops st rfl t dt
  refine ⟨ls, h1, fun x c hc => ?_, h3⟩
  rw [h2 x c hc]
  have e1 : (diffusionTree (K := K)).value .spatial (Slot.row m) (fun _ => lapDelta m (ix δ) (ix gamma) (ix st.sol.bVF) (fun _ => 1))
      = lapDelta m (ix δ) (ix gamma) (ix st.sol.bVF) (fun _ => 1) := by
    funext s
    simp [diffusionTree, ExT.value, OpT.valueOf, OpT.sort, OpT.value]
  have e2 : (diffusionTree (K := K)).value .spatial id
      (fun _ => lapRhs m (ix δ) (ix gamma) (ix st.sol.bVF) (ix st.sol.bRefValue) (ix st.sol.bRefGrad) (fun _ => 1))
      = lapRhs m (ix δ) (ix gamma) (ix st.sol.bVF) (ix st.sol.bRefValue) (ix st.sol.bRefGrad) (fun _ => 1) := by
    funext s
    simp [diffusionTree, ExT.value, OpT.valueOf, OpT.sort, OpT.value]
  have e3 : (diffusionTree (K := K)).value .spatial (V := K) id (fun _ _ => 0) c = 0 := by
    simp [diffusionTree, ExT.value, OpT.valueOf, OpT.sort, OpT.value]
  have e5 : implicitResidual m (lapDelta m (ix δ) (ix gamma) (ix st.sol.bVF) fun _ => 1)
      (lapRhs m (ix δ) (ix gamma) (ix st.sol.bVF) (ix st.sol.bRefValue) (ix st.sol.bRefGrad) fun _ => 1) x c
      = m.netOutflow (fun f => ix gamma f * ix m.magFaceAreas f * st.sol.impGrad m (ix δ) x f) c := by
    have := lapResidual m st.sol δ gamma (fun _ => 1) x c
    rw [one_mul] at this
    exact this
  have e6 : st.sol.outFlux m (fun _ => 0) (ix δ) (ix gamma) x
      = fun f => (-1 : K) • (ix gamma f * ix m.magFaceAreas f * st.sol.impGrad m (ix δ) x f) := by
    funext f
    have := outFlux_eq st.sol m [] δ gamma x f
    have z : ix ([] : List K) = fun _ => 0 := by funext i; simp [ix]
    rw [z] at this
    rw [this, zero_mul, zero_add]
  rw [e1, e2, e3, e5, e6, netOutflow_smul]
  simp

variable [IsStrictOrderedRing K]

/-- If nothing enters and nothing leaves on balance, nothing leaves. -/
theorem netOutflow_zero (m : Mesh K) (ψ : Nat → K) (c : Nat) (hz : m.netOutflow ψ c = 0)
    (how : ∀ f < m.nInternalFaces, m.own f = c → 0 ≤ ψ f) (hnb : ∀ f < m.nInternalFaces, m.nbr f = c → ψ f ≤ 0)
    (hbd : ∀ b < m.nBoundaryFaces, m.fc b = c → 0 ≤ ψ (m.nInternalFaces + b)) :
    (∀ f < m.nInternalFaces, m.own f = c → ψ f = 0) ∧ (∀ f < m.nInternalFaces, m.nbr f = c → ψ f = 0) ∧
    ∀ b < m.nBoundaryFaces, m.fc b = c → ψ (m.nInternalFaces + b) = 0 := by
  unfold Mesh.netOutflow at hz
  have t1 : ∀ f ∈ range m.nInternalFaces, 0 ≤ if m.own f = c then ψ f else 0 := fun f hf => by split; exacts [how f (mem_range.1 hf) ‹_›, le_rfl]
  have t2 : ∀ f ∈ range m.nInternalFaces, 0 ≤ -(if m.nbr f = c then ψ f else 0) := fun f hf => by
    rw [neg_nonneg]; split; exacts [hnb f (mem_range.1 hf) ‹_›, le_rfl]
  have t3 : ∀ b ∈ range m.nBoundaryFaces, 0 ≤ if m.fc b = c then ψ (m.nInternalFaces + b) else 0 := fun b hb => by
    split; exacts [hbd b (mem_range.1 hb) ‹_›, le_rfl]
  have s1 := Finset.sum_nonneg t1
  have s2 := Finset.sum_nonneg t2
  have s3 := Finset.sum_nonneg t3
  rw [Finset.sum_neg_distrib] at s2
  refine ⟨fun f hf ho => ?_, fun f hf ho => ?_, fun b hb ho => ?_⟩
  · have := (Finset.sum_eq_zero_iff_of_nonneg t1).1 (by linarith) f (mem_range.2 hf)
    rwa [if_pos ho] at this
  · have := (Finset.sum_eq_zero_iff_of_nonneg t2).1 (by rw [Finset.sum_neg_distrib]; linarith) f (mem_range.2 hf)
    rwa [if_pos ho, neg_eq_zero] at this
  · have := (Finset.sum_eq_zero_iff_of_nonneg t3).1 (by linarith) b (mem_range.2 hb)
    rwa [if_pos ho] at this

/-- Where the largest value is at least `hi`, the flux relative to it does not enter. -/
theorem relative_signs {m : Mesh K} (h : m.WF) {flux δ gamma : Nat → K} {φ : VolField K K} (hs : Stable m flux δ gamma φ) (hi : K)
    (hb : ∀ b < m.nBoundaryFaces, (φ.entry b).fraction = 1 → (φ.entry b).refValue ≤ hi) (x : Nat → K) (c : Nat)
    (hmax : ∀ c' < m.nCells, x c' ≤ x c) (hge : hi ≤ x c) :
    (∀ f < m.nInternalFaces, m.own f = c → 0 ≤ φ.outFlux m flux δ gamma x f - x c * flux f) ∧
    (∀ f < m.nInternalFaces, m.nbr f = c → φ.outFlux m flux δ gamma x f - x c * flux f ≤ 0) ∧
    ∀ b < m.nBoundaryFaces, m.fc b = c → 0 ≤ φ.outFlux m flux δ gamma x (m.nInternalFaces + b) - x c * flux (m.nInternalFaces + b) := by
  have hfaces := h.faces
  refine ⟨fun f hf ho => ?_, fun f hf ho => ?_, fun b hb' ho => ?_⟩
  · have hd := hs.diff f (by omega)
    have hn := hmax _ (h.nbr_lt f hf)
    simp only [VolField.outFlux, if_pos hf, ho]
    split
    · nlinarith
    · rename_i hneg
      rw [not_le] at hneg
      nlinarith
  · have hd := hs.diff f (by omega)
    have hn := hmax _ (h.own_lt f (by omega))
    simp only [VolField.outFlux, if_pos hf, ho]
    split
    · nlinarith
    · nlinarith
  · simp only [VolField.outFlux, if_neg (show ¬ m.nInternalFaces + b < m.nInternalFaces by omega), Nat.add_sub_cancel_left, ho]
    rcases hs.bnd b hb' with ⟨h1, h2⟩ | ⟨h1, h2⟩
    · rw [h1, h2]; apply le_of_eq; ring
    · have := hb b hb' h1
      rw [h1]
      nlinarith

/-- Upper bound of steady solutions. -/
theorem steady_le {m : Mesh K} (h : m.WF) {flux δ gamma : Nat → K} {φ : VolField K K} (hs : Stable m flux δ gamma φ)
    (hfed : ∀ c < m.nCells, Fed m flux δ gamma φ c) {hi : K}
    (hb : ∀ b < m.nBoundaryFaces, (φ.entry b).fraction = 1 → (φ.entry b).refValue ≤ hi) (x : Nat → K)
    (heq : ∀ c < m.nCells, m.netOutflow (φ.outFlux m flux δ gamma x) c = 0) : ∀ c < m.nCells, x c ≤ hi := by
  intro c0 hc0
  have hfaces := h.faces
  obtain ⟨cm, hcm, hmax⟩ := Finset.exists_max_image (range m.nCells) x ⟨c0, mem_range.2 hc0⟩
  rw [mem_range] at hcm
  refine le_trans (hmax c0 (mem_range.2 hc0)) ?_
  by_contra hlt
  rw [not_le] at hlt
  have hzero : ∀ c < m.nCells, x c = x cm →
      (∀ f < m.nInternalFaces, m.own f = c → φ.outFlux m flux δ gamma x f - x c * flux f = 0) ∧
      (∀ f < m.nInternalFaces, m.nbr f = c → φ.outFlux m flux δ gamma x f - x c * flux f = 0) ∧
      ∀ b < m.nBoundaryFaces, m.fc b = c → φ.outFlux m flux δ gamma x (m.nInternalFaces + b) - x c * flux (m.nInternalFaces + b) = 0 := by
    intro c hc hxc
    obtain ⟨s1, s2, s3⟩ := relative_signs h hs hi hb x c (fun c' hc' => by rw [hxc]; exact hmax c' (mem_range.2 hc')) (by rw [hxc]; exact hlt.le)
    refine netOutflow_zero m (fun f => φ.outFlux m flux δ gamma x f - x c * flux f) c ?_ s1 s2 s3
    have : (fun f => φ.outFlux m flux δ gamma x f - x c * flux f) = fun f => φ.outFlux m flux δ gamma x f + (-x c) • flux f := by
      funext f; rw [smul_eq_mul]; ring
    rw [this, netOutflow_add, netOutflow_smul, heq c hc, hs.free c hc]; simp
  have key : ∀ c, Fed m flux δ gamma φ c → x c ≠ x cm := by
    intro c hf
    induction hf with
    | boundary b hb' hfr hlt' =>
      intro hx
      have := (hzero _ (h.fc_lt b hb') hx).2.2 b hb' rfl
      simp only [VolField.outFlux, if_neg (show ¬ m.nInternalFaces + b < m.nInternalFaces by omega), Nat.add_sub_cancel_left, hfr] at this
      have hr := hb b hb' hfr
      have h1 : (gamma (m.nInternalFaces + b) * δ (m.nInternalFaces + b) * ix m.magFaceAreas (m.nInternalFaces + b) - flux (m.nInternalFaces + b))
          * (x (m.fc b) - (φ.entry b).refValue) = 0 := by linear_combination this
      rcases mul_eq_zero.1 h1 with q | q
      · linarith
      · rw [hx] at q; linarith
    | own f hf' hn hlt' ih =>
      intro hx
      have hz := (hzero _ (h.own_lt f (by omega)) hx).1 f hf' rfl
      have hmx := hmax _ (mem_range.2 (h.nbr_lt f hf'))
      have hd := hs.diff f (by omega)
      apply ih
      simp only [VolField.outFlux, if_pos hf'] at hz
      split at hz
      · rename_i hp
        have hL : 0 < gamma f * δ f * ix m.magFaceAreas f := by
          rcases hlt' with q | q
          · exact q
          · exact absurd hp (not_le.2 q)
        have h1 : (gamma f * δ f * ix m.magFaceAreas f) * (x (m.own f) - x (m.nbr f)) = 0 := by linear_combination hz
        rcases mul_eq_zero.1 h1 with q | q
        · linarith
        · rw [← hx]; linarith
      · rename_i hp
        rw [not_le] at hp
        have h1 : (gamma f * δ f * ix m.magFaceAreas f - flux f) * (x (m.own f) - x (m.nbr f)) = 0 := by linear_combination hz
        rcases mul_eq_zero.1 h1 with q | q
        · linarith
        · rw [← hx]; linarith
    | nbr f hf' hn hlt' ih =>
      intro hx
      have hz := (hzero _ (h.nbr_lt f hf') hx).2.1 f hf' rfl
      have hd := hs.diff f (by omega)
      apply ih
      simp only [VolField.outFlux, if_pos hf'] at hz
      split at hz
      · rename_i hp
        have h1 : (gamma f * δ f * ix m.magFaceAreas f + flux f) * (x (m.nbr f) - x (m.own f)) = 0 := by linear_combination -hz
        rcases mul_eq_zero.1 h1 with q | q
        · rcases hlt' with r | r <;> linarith
        · rw [← hx]; linarith
      · rename_i hp
        rw [not_le] at hp
        have hL : 0 < gamma f * δ f * ix m.magFaceAreas f := by
          rcases hlt' with q | q
          · exact q
          · linarith
        have h1 : (gamma f * δ f * ix m.magFaceAreas f) * (x (m.nbr f) - x (m.own f)) = 0 := by linear_combination -hz
        rcases mul_eq_zero.1 h1 with q | q
        · linarith
        · rw [← hx]; linarith
  exact key cm (hfed cm hcm) rfl

/-- Boundary data with the opposite sign. -/
def VolField.negBnd (φ : VolField K K) : VolField K K := { φ with bRefValue := φ.bRefValue.map (- ·), bRefGrad := φ.bRefGrad.map (- ·) }

omit [LinearOrder K] [IsStrictOrderedRing K] in
theorem negBnd_entry (φ : VolField K K) (b : Nat) : (φ.negBnd.entry b).fraction = (φ.entry b).fraction ∧
    (φ.negBnd.entry b).refValue = -(φ.entry b).refValue ∧ (φ.negBnd.entry b).refGrad = -(φ.entry b).refGrad := by
  refine ⟨rfl, ?_, ?_⟩ <;> simp only [VolField.entry, VolField.negBnd, List.getD_eq_getElem?_getD, List.getElem?_map]
  · cases φ.bRefValue[b]? <;> simp
  · cases φ.bRefGrad[b]? <;> simp

theorem Fed.congr {m : Mesh K} {flux δ gamma : Nat → K} {φ ψ : VolField K K} (h : ∀ b, (ψ.entry b).fraction = (φ.entry b).fraction) {c : Nat}
    (hf : Fed m flux δ gamma φ c) : Fed m flux δ gamma ψ c := by
  induction hf with
  | boundary b hb hfr hlt => exact .boundary b hb (by rw [h, hfr]) hlt
  | own f hf hn hlt ih => exact .own f hf ih hlt
  | nbr f hf hn hlt ih => exact .nbr f hf ih hlt

/-- Bounds of steady solutions. -/
theorem steady_bounds {m : Mesh K} (h : m.WF) {flux δ gamma : Nat → K} {φ : VolField K K} (hs : Stable m flux δ gamma φ)
    (hfed : ∀ c < m.nCells, Fed m flux δ gamma φ c) {lo hi : K}
    (hb : ∀ b < m.nBoundaryFaces, (φ.entry b).fraction = 1 → lo ≤ (φ.entry b).refValue ∧ (φ.entry b).refValue ≤ hi) (x : Nat → K)
    (heq : ∀ c < m.nCells, m.netOutflow (φ.outFlux m flux δ gamma x) c = 0) : ∀ c < m.nCells, lo ≤ x c ∧ x c ≤ hi := by
  intro c hc
  refine ⟨?_, steady_le h hs hfed (fun b hb' hf => (hb b hb' hf).2) x heq c hc⟩
  have hs' : Stable m flux δ gamma φ.negBnd := by
    refine ⟨hs.free, hs.diff, fun b hb' => ?_⟩
    obtain ⟨q1, q2, q3⟩ := negBnd_entry φ b
    rw [q1, q3]
    rcases hs.bnd b hb' with ⟨h1, h2⟩ | r
    · exact .inl ⟨h1, by rw [h2, neg_zero]⟩
    · exact .inr r
  have := steady_le h hs' (fun c hc => (hfed c hc).congr fun b => (negBnd_entry φ b).1) (hi := -lo)
    (fun b hb' hf => by
      obtain ⟨q1, q2, q3⟩ := negBnd_entry φ b
      rw [q2]
      exact neg_le_neg (hb b hb' (q1 ▸ hf)).1) (fun c => - x c) (fun c hc => by
      have e : φ.negBnd.outFlux m flux δ gamma (fun c => -x c) = fun f => (-1 : K) • φ.outFlux m flux δ gamma x f := by
        funext f
        obtain ⟨q1, q2, q3⟩ := negBnd_entry φ (f - m.nInternalFaces)
        simp only [VolField.outFlux, smul_eq_mul, q1, q2, q3]
        split
        · split <;> ring
        · ring
      rw [e, netOutflow_smul, heq c hc, smul_zero]) c hc
  linarith

/-- Steady solutions are unique. -/
theorem steady_unique {m : Mesh K} (h : m.WF) {flux δ gamma : Nat → K} {φ : VolField K K} (hs : Stable m flux δ gamma φ)
    (hfed : ∀ c < m.nCells, Fed m flux δ gamma φ c) (x y : Nat → K)
    (heq : ∀ c < m.nCells, m.netOutflow (φ.outFlux m flux δ gamma x) c = m.netOutflow (φ.outFlux m flux δ gamma y) c) :
    ∀ c < m.nCells, x c = y c := by
  set φ0 : VolField K K := { φ with bRefValue := [], bRefGrad := [] } with hφ0
  have hs0 : Stable m flux δ gamma φ0 := by
    refine ⟨hs.free, hs.diff, fun b hb => ?_⟩
    rcases hs.bnd b hb with ⟨h1, h2⟩ | ⟨h1, h2⟩
    · exact .inl ⟨h1, by simp [hφ0, VolField.entry]⟩
    · exact .inr ⟨h1, h2⟩
  have hlin : φ0.outFlux m flux δ gamma (fun c => x c - y c) = fun f => φ.outFlux m flux δ gamma x f + (-1 : K) • φ.outFlux m flux δ gamma y f := by
    funext f
    simp only [VolField.outFlux, smul_eq_mul, hφ0, VolField.entry, List.getD_nil]
    split
    · split <;> ring
    · ring
  have := steady_bounds (lo := 0) (hi := 0) h hs0 (fun c hc => Fed.congr (φ := φ) (ψ := φ0) (fun b => rfl) (hfed c hc)) (fun b _ _ => by simp [hφ0, VolField.entry])
    (fun c => x c - y c) (by
      intro c hc
      rw [hlin, netOutflow_add, netOutflow_smul, heq c hc]
      simp)
  intro c hc
  obtain ⟨h1, h2⟩ := this c hc
  linarith

end NeoFOAM
