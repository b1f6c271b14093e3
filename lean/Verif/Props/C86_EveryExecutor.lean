import Verif.Props.C33_Exact
import Verif.Props.C61_Exchanged
import Verif.Props.C63_SteadyTransport

/-!
# C86 – bounds of implicit transport on every executor and schedule

The neighbours of a cell may be exchanged on the parallel executors (C32). The bounds survive: for time steps always (`C60_bounded_every`), for
steady problems when there is diffusion across every internal face, and not without (`C86_diffusion_needed`).
-/
namespace NeoFOAM
open Finset
variable {K : Type} [Field K] [LinearOrder K]

/-- The equation of a cell in a steady problem. -/
theorem steady_residual (m : Mesh K) (φ : VolField K K) (flux δ gamma : List K) (x : Nat → K) (c : Nat) :
    implicitResidual m (cdDelta m (ix flux) (ix δ) (ix gamma) (ix φ.bVF))
        (cdRhs m (ix flux) (ix δ) (ix gamma) (ix φ.bVF) (ix φ.bRefValue) (ix φ.bRefGrad)) x c
      = m.netOutflow (φ.outFlux m (ix flux) (ix δ) (ix gamma) x) c := by
  have := convDiff_residual m φ flux δ gamma [] 0 x c
  simp only [div_zero, zero_add, zero_mul] at this
  rw [← this]
  simp [implicitResidual, diagDelta]

/-- What the two operators contribute, by number of the operator. -/
def steadyDv (m : Mesh K) (flux δ gamma vf : Nat → K) : Nat → Slot → K :=
  fun i => if i = 0 then divDelta m flux vf (fun _ => 1) else lapDelta m δ gamma vf (fun _ => 1)
/-- The same for the right hand sides. -/
def steadyDr (m : Mesh K) (flux δ gamma vf ref rg : Nat → K) : Nat → Nat → K :=
  fun i => if i = 0 then divRhs m flux vf ref (fun _ => 1) else lapRhs m δ gamma vf ref rg (fun _ => 1)

theorem steady_dv (m : Mesh K) (flux δ gamma vf : Nat → K) : (steadyTree (K := K)).value .spatial (Slot.row m) (steadyDv m flux δ gamma vf)
    = cdDelta m flux δ gamma vf := by
  funext s
  simp [steadyTree, ExT.value, OpT.valueOf, OpT.sort, OpT.value, cdDelta, steadyDv]

theorem steady_dr (m : Mesh K) (flux δ gamma vf ref rg : Nat → K) : (steadyTree (K := K)).value .spatial id (steadyDr m flux δ gamma vf ref rg)
    = cdRhs m flux δ gamma vf ref rg := by
  funext s
  simp [steadyTree, ExT.value, OpT.valueOf, OpT.sort, OpT.value, cdRhs, steadyDr]

/-- The systems of a steady problem on the parallel executors. -/
theorem steady_exact {m : Mesh K} (h : m.WF) (h256 : ∀ c < m.nCells, 1 + m.deg c ≤ 256) (hbd : m.BndDistinct)
    (e0 : ExecKind) {sp : SparsityPattern} (hsp : sparsityUpdate e0 m (.ok sp))
    (sch : InterpScheme) (w : List K) (junk : Nat → K) (flux δ gamma : List K)
    (hfl : flux.length = m.nFaces) (hδ : δ.length = m.nFaces) (hg : gamma.length = m.nFaces)
    (eqn : Expr) (ops : OpsOf K K) (hbuild : ∀ st, steadyTree.build (steadyOps .parallel m sp sch w junk flux δ gamma st) = .ok (eqn, ops st))
    (bcs : List (VolumeBoundary K)) (table : SolverTable K) (fvSchemes fvSolution : Dict)
    (solver : LinSolver K) (hso : createSolver table fvSolution = .ok solver)
    (st : TimeState K K) (ho : st.sol.On m) (t dt : K) :
    ∃ sys : (Slot → Slot) → LinearSystem K,
      (∀ π, m.Shuffles π → (sys π).StoredFor m ∧ ∀ x, ∀ c < m.nCells, (sys π).residual x c
        = shuffledResidual m π (cdDelta m (ix flux) (ix δ) (ix gamma) (ix st.sol.bVF))
            (cdRhs m (ix flux) (ix δ) (ix gamma) (ix st.sol.bVF) (ix st.sol.bRefValue) (ix st.sol.bRefGrad)) x c) ∧
      ∀ out, dslSolve .parallel m bcs table fvSchemes fvSolution ops eqn st t dt out ↔ ∃ π, m.Shuffles π ∧
        (solver (sys π) st.sol.internal >>= fun x => pure { st with sol := { st.sol with internal := x } } : NR (TimeState K K)) out := by
  obtain ⟨_, hee, hp⟩ := pattern_for m h h256 e0 _ hsp
  cases hee
  have hdef : (Coeff.default : Coeff K).On m.nCells (fun _ => 1) := fun _ _ => rfl
  obtain ⟨hT, hS⟩ : eqn.temporal = [] ∧ eqn.spatial ≠ [] := by
    obtain ⟨k, l, ops', hb⟩ : ∃ (k : Nat) (l : List Nat), ∃ o, steadyTree.build (steadyOps .parallel m sp sch w junk flux δ gamma st) = .ok (⟨[], k :: l⟩, o) := by
      exact ⟨_, _, _, rfl⟩
    rw [hbuild st] at hb
    injection hb with hb
    rw [(Prod.mk.inj hb).1]
    simp
  have hev := C32_exact h h256 e0 hsp (steadyOps .parallel m sp sch w junk flux δ gamma st)
    (by
      intro o hmem
      simp only [steadyOps, List.mem_cons, List.not_mem_nil, or_false] at hmem
      rcases hmem with rfl | rfl
      · exact divOp_ignores _ _ _ _ _ _ _ _ _ _
      · exact laplacianOp_ignores _ _ _ _ _ _ _ _ _ _)
    steadyTree
    (by
      intro k i hi
      cases k <;> simp [steadyTree, ExT.leaves, OpT.sort, OpT.leaf] at hi <;> simp [steadyOps] <;> omega)
    ⟨trivial, trivial⟩ eqn (ops st) (hbuild st) hT hS
    (steadyDv m (ix flux) (ix δ) (ix gamma) (ix st.sol.bVF))
    (steadyDr m (ix flux) (ix δ) (ix gamma) (ix st.sol.bVF) (ix st.sol.bRefValue) (ix st.sol.bRefGrad))
    (fun _ _ => 0)
    (by
      intro i hi
      simp [steadyTree, ExT.leaves, OpT.sort, OpT.leaf] at hi
      rcases hi with rfl | rfl
      · exact ⟨_, rfl, C31_term_div_implicit h hp ho w hfl sch .parallel (.inr hbd) junk hdef 0 0⟩
      · exact ⟨_, rfl, C31_term_laplacian_implicit h hp ho hδ hg .parallel (.inr hbd) junk hdef 0 0⟩)
    (by
      intro i hi
      simp [steadyTree, ExT.leaves, OpT.sort, OpT.leaf] at hi
      rcases hi with rfl | rfl
      · exact ⟨_, rfl, explTerm_implicit 0 0 rfl hdef⟩
      · exact ⟨_, rfl, explTerm_implicit 0 0 rfl hdef⟩)
    bcs table fvSchemes fvSolution ops st rfl t dt solver hso
  rw [steady_dv, steady_dr] at hev
  obtain ⟨sys, h1, h2⟩ := hev
  refine ⟨sys, fun π hπ => ⟨(h1 π hπ).1, fun x c hc => ?_⟩, h2⟩
  rw [(h1 π hπ).2 x c hc]
  simp [steadyTree, ExT.value, OpT.valueOf, OpT.sort, OpT.value]

section maximum
variable [IsStrictOrderedRing K]

/-- With diffusion the coefficients of neighbours are negative. -/
theorem cdDelta_neg {m : Mesh K} {flux δ gamma : Nat → K} (vf : Nat → K) {f : Nat} (hd : 0 < gamma f * δ f * ix m.magFaceAreas f) :
    cdDelta m flux δ gamma vf (.upper f) < 0 ∧ cdDelta m flux δ gamma vf (.lower f) < 0 := by
  simp only [cdDelta, divDelta, lapDelta, lapCoef, mul_one]
  constructor
  · split
    · linarith
    · rename_i hn
      rw [not_le] at hn
      linarith
  · split
    · linarith
    · linarith

/-- Upper bound of a steady solution with exchanged neighbours. -/
theorem shuffled_steady_le {m : Mesh K} (h : m.WF) {sp : SparsityPattern} (hp : sp.For m) {flux δ gamma : List K} {φ : VolField K K}
    (hs : Stable m (ix flux) (ix δ) (ix gamma) φ) (hd : ∀ f < m.nInternalFaces, 0 < ix gamma f * ix δ f * ix m.magFaceAreas f)
    (hfed : ∀ c < m.nCells, Fed m (ix flux) (ix δ) (ix gamma) φ c) {hi : K}
    (hb : ∀ b < m.nBoundaryFaces, (φ.entry b).fraction = 1 → (φ.entry b).refValue ≤ hi)
    {π : Slot → Slot} (hπ : m.Shuffles π) (x : Nat → K)
    (heq : ∀ c < m.nCells, shuffledResidual m π (cdDelta m (ix flux) (ix δ) (ix gamma) (ix φ.bVF))
        (cdRhs m (ix flux) (ix δ) (ix gamma) (ix φ.bVF) (ix φ.bRefValue) (ix φ.bRefGrad)) x c = 0) : ∀ c < m.nCells, x c ≤ hi := by
  intro c0 hc0
  have hfaces := h.faces
  obtain ⟨cm, hcm, hmax⟩ := Finset.exists_max_image (range m.nCells) x ⟨c0, mem_range.2 hc0⟩
  rw [mem_range] at hcm
  refine le_trans (hmax c0 (mem_range.2 hc0)) ?_
  by_contra hlt
  rw [not_le] at hlt
  have hzero : ∀ c < m.nCells, x c = x cm →
      (∀ f < m.nInternalFaces, m.own f = c → x ((π (.upper f)).col m) = x cm) ∧
      (∀ f < m.nInternalFaces, m.nbr f = c → x ((π (.lower f)).col m) = x cm) ∧
      m.netOutflow (φ.outFlux m (ix flux) (ix δ) (ix gamma) fun _ => x cm) c = 0 := by
    intro c hc hxc
    have hnet := outflow_at_max h hs hi hb (fun _ => x cm) c hc (fun _ _ => le_rfl) hlt.le
    have hsd := shuffledResidual_diff m π (cdDelta m (ix flux) (ix δ) (ix gamma) (ix φ.bVF))
      (cdRhs m (ix flux) (ix δ) (ix gamma) (ix φ.bVF) (ix φ.bRefValue) (ix φ.bRefGrad)) x (fun _ => x cm) c
    rw [heq c hc, shuffled_uniform, steady_residual, shuffledResidual, hπ.diag c hc] at hsd
    rw [show (Slot.diag c).col m = c from rfl, hxc, sub_self, mul_zero] at hsd
    beta_reduce at hsd
    have t1 : ∀ f ∈ range m.nInternalFaces, 0 ≤ if m.own f = c then cdDelta m (ix flux) (ix δ) (ix gamma) (ix φ.bVF) (.upper f)
        * (x ((π (.upper f)).col m) - x cm) else 0 := by
      intro f hf
      split
      · obtain ⟨g, hg, he, -⟩ := hπ.upper f (mem_range.1 hf)
        rw [he]
        exact mul_nonneg_of_nonpos_of_nonpos (cdDelta_neg _ (hd f (mem_range.1 hf))).1.le (sub_nonpos.2 (hmax _ (mem_range.2 (h.nbr_lt g hg))))
      · exact le_rfl
    have t2 : ∀ f ∈ range m.nInternalFaces, 0 ≤ if m.nbr f = c then cdDelta m (ix flux) (ix δ) (ix gamma) (ix φ.bVF) (.lower f)
        * (x ((π (.lower f)).col m) - x cm) else 0 := by
      intro f hf
      split
      · obtain ⟨g, hg, he, -⟩ := hπ.lower f (mem_range.1 hf)
        rw [he]
        exact mul_nonneg_of_nonpos_of_nonpos (cdDelta_neg _ (hd f (mem_range.1 hf))).2.le (sub_nonpos.2 (hmax _ (mem_range.2 (h.own_lt_int hg))))
      · exact le_rfl
    have s1 := Finset.sum_nonneg t1
    have s2 := Finset.sum_nonneg t2
    refine ⟨fun f hf ho => ?_, fun f hf ho => ?_, by linarith⟩
    · have := (Finset.sum_eq_zero_iff_of_nonneg t1).1 (by linarith) f (mem_range.2 hf)
      rw [if_pos ho] at this
      exact sub_eq_zero.1 ((mul_eq_zero.1 this).resolve_left (cdDelta_neg _ (hd f hf)).1.ne)
    · have := (Finset.sum_eq_zero_iff_of_nonneg t2).1 (by linarith) f (mem_range.2 hf)
      rw [if_pos ho] at this
      exact sub_eq_zero.1 ((mul_eq_zero.1 this).resolve_left (cdDelta_neg _ (hd f hf)).2.ne)
  have key : ∀ c, Fed m (ix flux) (ix δ) (ix gamma) φ c → x c ≠ x cm := by
    intro c hf
    induction hf with
    | boundary b hb' hfr hlt' =>
      intro hx
      have hnet := (hzero _ (h.fc_lt b hb') hx).2.2
      obtain ⟨r1, r2, r3⟩ := relative_signs h hs hi hb (fun _ => x cm) (m.fc b) (fun _ _ => le_rfl) hlt.le
      have h0 : m.netOutflow (fun f => φ.outFlux m (ix flux) (ix δ) (ix gamma) (fun _ => x cm) f - x cm * ix flux f) (m.fc b) = 0 := by
        have : (fun f => φ.outFlux m (ix flux) (ix δ) (ix gamma) (fun _ => x cm) f - x cm * ix flux f)
            = fun f => φ.outFlux m (ix flux) (ix δ) (ix gamma) (fun _ => x cm) f + (-x cm) • ix flux f := by
          funext f; rw [smul_eq_mul]; ring
        rw [this, netOutflow_add, netOutflow_smul, hnet, hs.free _ (h.fc_lt b hb')]; simp
      have := (netOutflow_zero m _ (m.fc b) h0 r1 r2 r3).2.2 b hb' rfl
      simp only [VolField.outFlux, if_neg (show ¬ m.nInternalFaces + b < m.nInternalFaces by omega), Nat.add_sub_cancel_left, hfr] at this
      have hr := hb b hb' hfr
      have h1 : (ix gamma (m.nInternalFaces + b) * ix δ (m.nInternalFaces + b) * ix m.magFaceAreas (m.nInternalFaces + b) - ix flux (m.nInternalFaces + b))
          * (x cm - (φ.entry b).refValue) = 0 := by linear_combination this
      rcases mul_eq_zero.1 h1 with q | q <;> linarith
    | own f hf' hn hlt' ih =>
      intro hx
      obtain ⟨s, hs1, hs2⟩ := hπ.surj h hp (t := .upper f) hf'
      apply ih
      cases s with
      | diag c => rw [hπ.diag c hs1] at hs2; cases hs2
      | lower g => obtain ⟨g', -, h3, -⟩ := hπ.lower g hs1; rw [h3] at hs2; cases hs2
      | upper g =>
        obtain ⟨g', -, h3, h4⟩ := hπ.upper g hs1
        rw [hs2] at h3
        cases h3
        have := (hzero _ (h.own_lt_int hf') hx).1 g hs1 h4.symm
        rw [hs2] at this
        exact this
    | nbr f hf' hn hlt' ih =>
      intro hx
      obtain ⟨s, hs1, hs2⟩ := hπ.surj h hp (t := .lower f) hf'
      apply ih
      cases s with
      | diag c => rw [hπ.diag c hs1] at hs2; cases hs2
      | upper g => obtain ⟨g', -, h3, -⟩ := hπ.upper g hs1; rw [h3] at hs2; cases hs2
      | lower g =>
        obtain ⟨g', -, h3, h4⟩ := hπ.lower g hs1
        rw [hs2] at h3
        cases h3
        have := (hzero _ (h.nbr_lt f hf') hx).2.1 g hs1 h4.symm
        rw [hs2] at this
        exact this
  exact key cm (hfed cm hcm) rfl

/-- Bounds of a steady solution with exchanged neighbours. -/
theorem shuffled_steady_bounds {m : Mesh K} (h : m.WF) {sp : SparsityPattern} (hp : sp.For m) {flux δ gamma : List K} {φ : VolField K K}
    (hs : Stable m (ix flux) (ix δ) (ix gamma) φ) (hd : ∀ f < m.nInternalFaces, 0 < ix gamma f * ix δ f * ix m.magFaceAreas f)
    (hfed : ∀ c < m.nCells, Fed m (ix flux) (ix δ) (ix gamma) φ c) {lo hi : K}
    (hb : ∀ b < m.nBoundaryFaces, (φ.entry b).fraction = 1 → lo ≤ (φ.entry b).refValue ∧ (φ.entry b).refValue ≤ hi)
    {π : Slot → Slot} (hπ : m.Shuffles π) (x : Nat → K)
    (heq : ∀ c < m.nCells, shuffledResidual m π (cdDelta m (ix flux) (ix δ) (ix gamma) (ix φ.bVF))
        (cdRhs m (ix flux) (ix δ) (ix gamma) (ix φ.bVF) (ix φ.bRefValue) (ix φ.bRefGrad)) x c = 0) : ∀ c < m.nCells, lo ≤ x c ∧ x c ≤ hi := by
  intro c hc
  refine ⟨?_, shuffled_steady_le h hp hs hd hfed (fun b hb' hf => (hb b hb' hf).2) hπ x heq c hc⟩
  have hs' : Stable m (ix flux) (ix δ) (ix gamma) φ.negBnd := by
    refine ⟨hs.free, hs.diff, fun b hb' => ?_⟩
    obtain ⟨q1, q2, q3⟩ := negBnd_entry φ b
    rw [q1, q3]
    rcases hs.bnd b hb' with ⟨h1, h2⟩ | r
    · exact .inl ⟨h1, by rw [h2, neg_zero]⟩
    · exact .inr r
  have hr : ∀ c, cdRhs m (ix flux) (ix δ) (ix gamma) (ix φ.negBnd.bVF) (ix φ.negBnd.bRefValue) (ix φ.negBnd.bRefGrad) c
      = - cdRhs m (ix flux) (ix δ) (ix gamma) (ix φ.bVF) (ix φ.bRefValue) (ix φ.bRefGrad) c := by
    intro c
    have n1 : ∀ b, ix φ.negBnd.bRefValue b = - ix φ.bRefValue b := fun b => (negBnd_entry φ b).2.1
    have n2 : ∀ b, ix φ.negBnd.bRefGrad b = - ix φ.bRefGrad b := fun b => (negBnd_entry φ b).2.2
    have key : ∀ u v : Nat → K, (∀ b, u b = - v b) → (∑ b ∈ range m.nBoundaryFaces, if m.fc b = c then u b else 0)
        = -∑ b ∈ range m.nBoundaryFaces, if m.fc b = c then v b else 0 := by
      intro u v huv
      rw [← Finset.sum_neg_distrib]
      exact Finset.sum_congr rfl fun b _ => by split <;> simp [huv]
    have a1 : divRhs m (ix flux) (ix φ.negBnd.bVF) (ix φ.negBnd.bRefValue) (fun _ => 1) c
        = - divRhs m (ix flux) (ix φ.bVF) (ix φ.bRefValue) (fun _ => 1) c := by
      unfold divRhs
      rw [key _ (fun b => ix flux (m.nInternalFaces + b) * (ix φ.bVF b * ix φ.bRefValue b)) (fun b => by
        rw [n1, show ix φ.negBnd.bVF = ix φ.bVF from rfl]; ring)]
      ring
    have a2 : lapRhs m (ix δ) (ix gamma) (ix φ.negBnd.bVF) (ix φ.negBnd.bRefValue) (ix φ.negBnd.bRefGrad) (fun _ => 1) c
        = - lapRhs m (ix δ) (ix gamma) (ix φ.bVF) (ix φ.bRefValue) (ix φ.bRefGrad) (fun _ => 1) c := by
      unfold lapRhs
      rw [key _ (fun b => ix gamma (m.nInternalFaces + b) * ix m.magFaceAreas (m.nInternalFaces + b) *
        (ix φ.bVF b * ix δ (m.nInternalFaces + b) * ix φ.bRefValue b + (1 - ix φ.bVF b) * ix φ.bRefGrad b)) (fun b => by
        rw [n1, n2, show ix φ.negBnd.bVF = ix φ.bVF from rfl]; ring)]
      ring
    unfold cdRhs
    rw [a1, a2]
    ring
  have := shuffled_steady_le h hp hs' hd (fun c hc => (hfed c hc).congr fun b => (negBnd_entry φ b).1) (hi := -lo)
    (fun b hb' hf => by
      obtain ⟨q1, q2, q3⟩ := negBnd_entry φ b
      rw [q2]
      exact neg_le_neg (hb b hb' (q1 ▸ hf)).1) hπ (fun c => - x c) (fun c hc => by
      have := heq c hc
      unfold shuffledResidual at this ⊢
      rw [hr]
      show cdDelta m (ix flux) (ix δ) (ix gamma) (ix φ.bVF) (.diag c) * _ + (∑ f ∈ range m.nInternalFaces, if m.own f = c then
        cdDelta m (ix flux) (ix δ) (ix gamma) (ix φ.bVF) (.upper f) * _ else 0) + (∑ f ∈ range m.nInternalFaces, if m.nbr f = c then
        cdDelta m (ix flux) (ix δ) (ix gamma) (ix φ.bVF) (.lower f) * _ else 0) - _ = 0
      have key : ∀ (cell : Nat → Nat) (a u : Nat → K), (∑ f ∈ range m.nInternalFaces, if cell f = c then a f * -u f else 0)
          = -∑ f ∈ range m.nInternalFaces, if cell f = c then a f * u f else 0 := by
        intro cell a u
        rw [← Finset.sum_neg_distrib]
        exact Finset.sum_congr rfl fun f _ => by split <;> ring
      rw [key m.own (fun f => cdDelta m (ix flux) (ix δ) (ix gamma) (ix φ.bVF) (.upper f)) (fun f => x ((π (.upper f)).col m)),
        key m.nbr (fun f => cdDelta m (ix flux) (ix δ) (ix gamma) (ix φ.bVF) (.lower f)) (fun f => x ((π (.lower f)).col m))]
      linear_combination -this) c hc
  linarith

/-- A steady problem with exchanged neighbours has at most one solution. -/
theorem shuffled_steady_unique {m : Mesh K} (h : m.WF) {sp : SparsityPattern} (hp : sp.For m) {flux δ gamma : List K} {φ : VolField K K}
    (hs : Stable m (ix flux) (ix δ) (ix gamma) φ) (hd : ∀ f < m.nInternalFaces, 0 < ix gamma f * ix δ f * ix m.magFaceAreas f)
    (hfed : ∀ c < m.nCells, Fed m (ix flux) (ix δ) (ix gamma) φ c) {π : Slot → Slot} (hπ : m.Shuffles π) (dr : Nat → K) (x y : Nat → K)
    (heq : ∀ c < m.nCells, shuffledResidual m π (cdDelta m (ix flux) (ix δ) (ix gamma) (ix φ.bVF)) dr x c
      = shuffledResidual m π (cdDelta m (ix flux) (ix δ) (ix gamma) (ix φ.bVF)) dr y c) : ∀ c < m.nCells, x c = y c := by
  set φ0 : VolField K K := { φ with bRefValue := [], bRefGrad := [] } with hφ0
  have hs0 : Stable m (ix flux) (ix δ) (ix gamma) φ0 := by
    refine ⟨hs.free, hs.diff, fun b hb => ?_⟩
    rcases hs.bnd b hb with ⟨h1, h2⟩ | ⟨h1, h2⟩
    · exact .inl ⟨h1, by simp [hφ0, VolField.entry]⟩
    · exact .inr ⟨h1, h2⟩
  have hz : ∀ i, ix ([] : List K) i = 0 := fun i => rfl
  have hr0 : cdRhs m (ix flux) (ix δ) (ix gamma) (ix φ0.bVF) (ix φ0.bRefValue) (ix φ0.bRefGrad) = fun _ => 0 := by
    funext c
    simp [cdRhs, divRhs, lapRhs, hφ0, hz]
  have := shuffled_steady_bounds (lo := 0) (hi := 0) h hp hs0 hd (fun c hc => Fed.congr (φ := φ) (ψ := φ0) (fun b => rfl) (hfed c hc))
    (fun b _ _ => by simp [hφ0, VolField.entry]) hπ (fun i => x i - y i) (fun c hc => by
      rw [hr0]
      show shuffledResidual m π (cdDelta m (ix flux) (ix δ) (ix gamma) (ix φ.bVF)) (fun _ => 0) (fun i => x i - y i) c = 0
      rw [shuffledResidual_diff m π _ dr, heq c hc, sub_self])
  intro c hc
  obtain ⟨h1, h2⟩ := this c hc
  linarith

/-- **C86, steady problems**: `C63_steady` on every executor and schedule. For every valid mesh without degenerate faces (parallel: without
cells that have several boundary faces, and with diffusion across every internal face), divergence-free flux, non-negative diffusivity,
boundary values within the bounds that reach every cell, and every initial field: some outcome is possible, and every outcome is a field
within the bounds. On the parallel executors the outcome need not be unique (`C32_violation`). -/
theorem C86_steady {m : Mesh K} (h : m.WF) (h256 : ∀ c < m.nCells, 1 + m.deg c ≤ 256)
    (hspan : ∀ f < m.nFaces, m.span f ≠ 0) (hmag : ∀ f < m.nFaces, 0 ≤ ix m.magFaceAreas f)
    (e : ExecKind) {sp : SparsityPattern} (hsp : sparsityUpdate e m (.ok sp))
    (tiny : K) (ht : 0 ≤ tiny) (sqrt : K → K) (hs : IsSqrt sqrt) (gjunk : Nat → K) (g : Geometry K) (hg : geometryScheme e m tiny sqrt gjunk (.ok g))
    (sch : InterpScheme) (junk : Nat → K) (flux gamma : List K) (hfl : flux.length = m.nFaces) (hgl : gamma.length = m.nFaces)
    (hgam : ∀ f < m.nFaces, 0 ≤ ix gamma f) (hdiv : m.DivergenceFree (ix flux))
    (he : e = .serial ∨ m.BndDistinct ∧ ∀ f < m.nInternalFaces, 0 < ix gamma f ∧ 0 < ix m.magFaceAreas f)
    (eqn : Expr) (ops : OpsOf K K)
    (hbuild : ∀ st, steadyTree.build (steadyOps e m sp sch g.weights junk flux g.nonOrthDeltaCoeffs gamma st) = .ok (eqn, ops st))
    (bcs : List (VolumeBoundary K)) (table : SolverTable K) (fvSchemes fvSolution : Dict)
    (solver : LinSolver K) (hso : createSolver table fvSolution = .ok solver) (hex : SolvingOn m solver)
    (lo hi : K) (st : TimeState K K) (ho : st.sol.On m)
    (hbc : ImplicitBC m (ix flux) (ix g.nonOrthDeltaCoeffs) (ix gamma) lo hi st.sol)
    (hfed : ∀ c < m.nCells, Fed m (ix flux) (ix g.nonOrthDeltaCoeffs) (ix gamma) st.sol c) (t dt : K) :
    (∃ out, dslSolve e m bcs table fvSchemes fvSolution ops eqn st t dt out) ∧
    ∀ out, dslSolve e m bcs table fvSchemes fvSolution ops eqn st t dt out → ∃ x : List K, x.length = m.nCells ∧
      out = .ok { st with sol := { st.sol with internal := x } } ∧ ∀ c < m.nCells, lo ≤ ix x c ∧ ix x c ≤ hi := by
  cases e with
  | serial =>
    obtain ⟨x, h1, h2, -, h3, -⟩ := C63_steady h h256 hspan hmag .serial (.inl rfl) hsp tiny ht sqrt hs gjunk g hg sch junk flux gamma hfl hgl hgam hdiv
      eqn ops hbuild bcs table fvSchemes fvSolution solver hso hex lo hi st ho hbc hfed t dt
    exact ⟨⟨_, (h2 _).2 rfl⟩, fun out hout => ⟨x, h1, (h2 out).1 hout, h3⟩⟩
  | parallel =>
    obtain ⟨hbd, hpos⟩ := he.resolve_left (fun h => nomatch h)
    obtain ⟨hl, hst, hb⟩ := stable_of h tiny ht sqrt hs gjunk .parallel g hg hspan hmag hgam hdiv hbc
    have hd : ∀ f < m.nInternalFaces, 0 < ix gamma f * ix g.nonOrthDeltaCoeffs f * ix m.magFaceAreas f := by
      obtain ⟨g', hgd, -, -, -, -, -, hq⟩ := C27_geometry h .parallel tiny ht sqrt hs gjunk
      cases (hgd _).1 hg
      intro f hf
      have hfaces := h.faces
      obtain ⟨-, -, q, -⟩ := hq f (by omega) (hspan f (by omega))
      exact mul_pos (mul_pos (hpos f hf).1 q) (hpos f hf).2
    obtain ⟨_, hee, hp⟩ := pattern_for m h h256 .parallel _ hsp
    cases hee
    obtain ⟨sys, hsys, hall⟩ := steady_exact h h256 hbd .parallel hsp sch g.weights junk flux g.nonOrthDeltaCoeffs gamma hfl hl hgl eqn ops hbuild bcs table
      fvSchemes fvSolution solver hso st ho t dt
    have hsol : ∀ π, m.Shuffles π → (∃ z, solver (sys π) st.sol.internal z) ∧ ∀ r, solver (sys π) st.sol.internal r → ∃ z, r = .ok z ∧ z.length = m.nCells ∧
        ∀ c < m.nCells, (sys π).residual (ix z) c = 0 := by
      intro π hπ
      obtain ⟨⟨sp', hp', hon⟩, hres⟩ := hsys π hπ
      have huniq : ∀ x y : Nat → K, (∀ i < (sys π).rhs.length, (sys π).residual x i = (sys π).residual y i) → ∀ i < (sys π).rhs.length, x i = y i := by
        intro x y hxy
        rw [hon.rhsLen] at hxy ⊢
        refine shuffled_steady_unique h hp hst hd hfed hπ
          (cdRhs m (ix flux) (ix g.nonOrthDeltaCoeffs) (ix gamma) (ix st.sol.bVF) (ix st.sol.bRefValue) (ix st.sol.bRefGrad)) x y fun c hc => ?_
        rw [← hres x c hc, ← hres y c hc]
        exact hxy c hc
      obtain ⟨y, hy1, hy2⟩ := exists_solution (sys π) huniq
      rw [hon.rhsLen] at hy1 hy2
      obtain ⟨⟨z, hz⟩, hr⟩ := hex (sys π) st.sol.internal ⟨sp', hp', hon⟩ ho.int ⟨y, hy1, hy2⟩
      exact ⟨⟨_, hz⟩, hr⟩
    constructor
    · have hid : m.Shuffles id := ⟨fun _ _ => rfl, fun f hf => ⟨f, hf, rfl, rfl⟩, fun f hf => ⟨f, hf, rfl, rfl⟩, fun _ _ _ _ q => q⟩
      obtain ⟨⟨r, hr⟩, hok⟩ := hsol id hid
      obtain ⟨z, rfl, -⟩ := hok r hr
      exact ⟨_, (hall _).2 ⟨id, hid, (NR.bind_def _ _ _).2 ⟨.ok z, hr, rfl⟩⟩⟩
    · intro out hout
      obtain ⟨π, hπ, hrun⟩ := (hall out).1 hout
      obtain ⟨r, h1, h2⟩ := (NR.bind_def _ _ _).1 hrun
      obtain ⟨z, rfl, hz1, hz2⟩ := (hsol π hπ).2 r h1
      cases h2
      refine ⟨z, hz1, rfl, shuffled_steady_bounds h hp hst hd hfed hb hπ (ix z) fun c hc => ?_⟩
      rw [← (hsys π hπ).2 _ c hc]
      exact hz2 c hc

end maximum

/-! ### Without diffusion -/

/-- The flow enters through cell 1, passes cell 0 and leaves through cell 2. -/
def forkBack : List ℝ := [-1, 1, 0, -1, 1]

/-- Value 1 at the inlet of cell 1, zero gradient elsewhere, initial values 1. -/
def forkIn : VolField ℝ ℝ := ⟨[1, 1, 1], [1, 1, 1], [0, 1, 0], [0, 1, 0], [0, 0, 0]⟩

theorem forkBack_free : fork.DivergenceFree (ix forkBack) := by
  intro c hc
  have hc : c < 3 := hc
  interval_cases c <;> simp [fork, Mesh.netOutflow, Mesh.own, Mesh.nbr, Mesh.fc, ix, forkBack, Finset.sum_range_succ]

/-- The boundary values are within 1 and 1 and reach every cell, without diffusion and with diffusivity `a ≥ 0` on all faces. -/
theorem forkIn_ok {a : ℝ} (ha : 0 ≤ a) (δ : List ℝ) (hδ : ∀ f < fork.nFaces, 0 < ix δ f) :
    ImplicitBC fork (ix forkBack) (ix δ) (ix [a, a, a, a, a]) 1 1 forkIn ∧
    ∀ c < fork.nCells, Fed fork (ix forkBack) (ix δ) (ix [a, a, a, a, a]) forkIn c := by
  have h3 := mul_nonneg ha (hδ 3 (by simp [fork])).le
  constructor
  · intro b hb
    have hb : b < 3 := hb
    interval_cases b
    · refine ⟨.fixedGradient 0, ⟨?_, rfl, rfl⟩, .inl rfl⟩
      simp [forkIn, VolField.entry, VolField.cell, fork, Mesh.fc]
    · refine ⟨.fixedValue 1, ⟨rfl, rfl, rfl⟩, .inr ⟨1, rfl, le_rfl, le_rfl, ?_⟩⟩
      simp [ix] at h3
      simp [fork, ix, forkBack]
      linarith
    · refine ⟨.fixedGradient 0, ⟨?_, rfl, rfl⟩, .inl rfl⟩
      simp [forkIn, VolField.entry, VolField.cell, fork, Mesh.fc]
  · have f1 : Fed fork (ix forkBack) (ix δ) (ix [a, a, a, a, a]) forkIn 1 := by
      refine Fed.boundary (m := fork) 1 (by simp [fork]) rfl ?_
      simp [ix] at h3
      simp [fork, ix, forkBack]
      linarith
    have f0 : Fed fork (ix forkBack) (ix δ) (ix [a, a, a, a, a]) forkIn 0 :=
      Fed.own (m := fork) 0 (by simp [fork]) f1 (.inr (by simp [ix, forkBack]))
    have f2 : Fed fork (ix forkBack) (ix δ) (ix [a, a, a, a, a]) forkIn 2 :=
      Fed.nbr (m := fork) 1 (by simp [fork]) f0 (.inr (by simp [ix, forkBack]))
    intro c hc
    have hc : c < 3 := hc
    interval_cases c
    exacts [f0, f1, f2]

/-- The hypotheses of `C86_steady` can be met on every executor, on a mesh that is not a chain: the flow above with diffusivity 1. -/
example (e : ExecKind) (δ : List ℝ) (hδ : ∀ f < fork.nFaces, 0 < ix δ f) : fork.WF ∧ fork.BndDistinct ∧
    (∀ f < fork.nInternalFaces, 0 < ix [(1 : ℝ), 1, 1, 1, 1] f ∧ 0 < ix fork.magFaceAreas f) ∧
    fork.DivergenceFree (ix forkBack) ∧ forkIn.On fork ∧ ImplicitBC fork (ix forkBack) (ix δ) (ix [1, 1, 1, 1, 1]) 1 1 forkIn ∧
    (∀ c < fork.nCells, Fed fork (ix forkBack) (ix δ) (ix [1, 1, 1, 1, 1]) forkIn c) ∧ ∃ sp, sparsityUpdate e fork (.ok sp) := by
  obtain ⟨sp, hsp⟩ := C14_terminates fork fork_wf e
  obtain ⟨h1, h2⟩ := forkIn_ok zero_le_one δ hδ
  refine ⟨fork_wf, fork_bnd, fun f hf => ?_, forkBack_free, ⟨rfl, rfl, rfl, rfl, rfl⟩, h1, h2, sp, hsp⟩
  have hf : f < 2 := hf
  interval_cases f <;> simp [ix, fork]

/-- **C86, diffusion is needed on the parallel executors**: in the flow from cell 1 over cell 0 to cell 2 without diffusion, with the value 1
at the inlet, cell 0 can be made to depend on cell 2 instead of cell 1. With a solver that solves every solvable system, `dsl::solve` can then
return any value in cells 0 and 2. On the serial executor `C63_steady` holds there: the only outcome is the value 1 in all cells. -/
theorem C86_diffusion_needed (tiny : ℝ) (ht : 0 ≤ tiny) : ∃ (sp : SparsityPattern) (g : Geometry ℝ) (eqn : Expr) (ops : OpsOf ℝ ℝ),
    fork.BndDistinct ∧ sparsityUpdate .parallel fork (.ok sp) ∧ geometryScheme .parallel fork tiny Real.sqrt (fun _ => 0) (.ok g) ∧
    (∀ st, steadyTree.build (steadyOps .parallel fork sp .upwind g.weights (fun _ => 0) forkBack g.nonOrthDeltaCoeffs [0, 0, 0, 0, 0] st) = .ok (eqn, ops st)) ∧
    SolvingOn fork (anySolution : LinSolver ℝ) ∧ fork.DivergenceFree (ix forkBack) ∧
    ImplicitBC fork (ix forkBack) (ix g.nonOrthDeltaCoeffs) (ix [0, 0, 0, 0, 0]) 1 1 forkIn ∧
    (∀ c < fork.nCells, Fed fork (ix forkBack) (ix g.nonOrthDeltaCoeffs) (ix [0, 0, 0, 0, 0]) forkIn c) ∧
    ∀ a : ℝ, dslSolve .parallel fork [] [("exact", fun _ => anySolution)] [] [("solver", .str "exact")] ops eqn ⟨forkIn, none⟩ 0 1
      (.ok ⟨{ forkIn with internal := [a, 1, a] }, none⟩) := by
  obtain ⟨sp, hsp⟩ := C14_terminates fork fork_wf .parallel
  obtain ⟨g, hgd, -, -, hl, -, -, hq⟩ := C27_geometry fork_wf .parallel tiny ht Real.sqrt isSqrt_real (fun _ => 0)
  have hg := (hgd _).2 rfl
  have hδ : ∀ f < fork.nFaces, 0 < ix g.nonOrthDeltaCoeffs f := by
    intro f hf
    refine (hq f hf ?_).2.2.1
    have hf : f < 5 := hf
    interval_cases f <;> simp [Mesh.span, fork, Mesh.own, Mesh.nbr, Mesh.fc, Mesh.ctr, Mesh.fctr] <;> norm_num
  obtain ⟨eqn, ops, hbuild⟩ := steady_build .parallel fork sp .upwind g.weights (fun _ => 0) forkBack g.nonOrthDeltaCoeffs [0, 0, 0, 0, 0]
  obtain ⟨h1, h2⟩ := forkIn_ok le_rfl g.nonOrthDeltaCoeffs hδ
  refine ⟨sp, g, eqn, ops, fork_bnd, hsp, hg, hbuild,
    (fun ls x ⟨_, _, hon⟩ _ ⟨y, h1, h2⟩ => ⟨⟨y, y, rfl, by rw [hon.rhsLen]; exact h1, by rw [hon.rhsLen]; exact h2⟩, fun out ⟨z, h3, h4, h5⟩ =>
      ⟨z, h3, by rw [hon.rhsLen] at h4; exact h4, by rw [hon.rhsLen] at h5; exact h5⟩⟩), forkBack_free, h1, h2, fun a => ?_⟩
  obtain ⟨sys, q1, q2⟩ := steady_exact fork_wf fork_deg fork_bnd .parallel hsp .upwind g.weights (fun _ => 0) forkBack g.nonOrthDeltaCoeffs [0, 0, 0, 0, 0] rfl
    hl rfl eqn ops hbuild [] [("exact", fun _ => anySolution)] [] [("solver", .str "exact")] anySolution rfl ⟨forkIn, none⟩ ⟨rfl, rfl, rfl, rfl, rfl⟩ 0 1
  obtain ⟨⟨sp', -, hon⟩, hres⟩ := q1 boxSwap box_swap
  refine (q2 _).2 ⟨boxSwap, box_swap, (NR.bind_def _ _ _).2 ⟨.ok [a, 1, a], ⟨_, rfl, hon.rhsLen.symm, fun i hi => ?_⟩, rfl⟩⟩
  rw [hon.rhsLen] at hi
  rw [hres _ i hi]
  have hi : i < 3 := hi
  generalize ix g.nonOrthDeltaCoeffs = d
  interval_cases i <;>
  simp [shuffledResidual, cdDelta, cdRhs, divDelta, divRhs, lapDelta, lapRhs, lapCoef, sum_range_succ, boxSwap, Slot.col,
    fork, Mesh.own, Mesh.nbr, Mesh.fc, ix, forkIn, forkBack] <;>
  norm_num

end NeoFOAM
