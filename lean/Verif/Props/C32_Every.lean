import Verif.Props.C33_BackwardEuler
import Verif.Proofs.Shuffle

/-!
# C32, C33 on every executor and schedule

`C32_violation` shows that on the parallel executors `solve` can return a field that does not solve the equation. Here is what it solves
instead, on every mesh and schedule: the equations with the values of the neighbours of a cell exchanged among the faces the cell owns
and among those it is neighbour of.
-/
namespace NeoFOAM
open Finset
variable {K : Type} [Field K]

/-- The system of a steady expression, on every schedule. -/
theorem steadySystem_every {m : Mesh K} (h : m.WF) (h256 : ∀ c < m.nCells, 1 + m.deg c ≤ 256) (e0 e : ExecKind) {sp : SparsityPattern}
    (hsp : sparsityUpdate e0 m (.ok sp)) {heap : OpHeap K K} {eqn : Expr} {dv : Slot → K} {dr val : Nat → K}
    (hc : ∀ cols, List.Forall₂ (ColSim cols) heap heap)
    (hi : AssemblesTo m sp (eqn.implicitOperation heap) dv dr) (hx : AddsTo m.nCells (eqn.explicitOperation heap) val) :
    (steadySystem e m heap eqn).Ok fun ls => ∃ sp', sparsityUpdate e m (.ok sp') ∧ sp'.For m ∧ ls.On sp' m ∧ ∃ π, m.Shuffles π ∧
      ∀ x, ∀ c < m.nCells, ls.residual x c = shuffledResidual m π dv dr x c + m.vol c * val c := by
  obtain ⟨_, hee, hp⟩ := pattern_for m h h256 e0 _ hsp
  cases hee
  have hF : AssemblesTo m sp (fun ls => eqn.implicitOperation heap ls >>= fun ls => eqn.explicitOperationN heap m.nCells >>= fun src =>
      subtractSource e m src ls) (fun s => dv s + 0) (fun i => dr i + -(m.vol i * val i)) := by
    intro l0 on0
    obtain ⟨l1, a1, d1⟩ := hi l0 on0
    obtain ⟨l2, a2, d2⟩ := subtractSource_det h e (src := (List.range m.nCells).map val) (by simp) l1 a1.on
    refine ⟨l2, (a1.trans a2).congr (fun s _ => rfl) (fun c hc => ?_), fun out => ?_⟩
    · simp only [ix]
      rw [getD_range_map _ _ _ hc]; ring
    · refine Iff.trans (NR.bind_iff d1 out) ?_
      refine Iff.trans (NR.bind_iff (explicitN_det hx) out) ?_
      exact d2 out
  refine NR.Ok.mono (system_every h h256 e0 e hsp hF fun cols ls => ?_) ?_
  · refine NR.Rel.bind (implicit_sim ⟨rfl, rfl⟩ eqn (hc cols) rfl) ?_
    rintro l _ rfl
    refine NR.Rel.bind (R := (· = ·)) (NR.Rel.refl (fun _ => rfl) _) ?_
    rintro src _ rfl
    exact subtractSource_cols e src l cols
  · rintro ls ⟨sp', h1, h2, h3, π, h4, h5⟩
    refine ⟨sp', h1, h2, h3, π, h4, fun x c hc => ?_⟩
    rw [h5 x c hc, shuffledResidual_add (m := m) π dv (fun _ => 0) dr (fun i => -(m.vol i * val i))]
    simp [shuffledResidual]

/-- The system of a backward Euler step, on every schedule. -/
theorem eulerSystem_every {m : Mesh K} (h : m.WF) (h256 : ∀ c < m.nCells, 1 + m.deg c ≤ 256) (e0 e : ExecKind) {sp : SparsityPattern}
    (hsp : sparsityUpdate e0 m (.ok sp)) {heap : OpHeap K K} {eqn : Expr} {dv dvT : Slot → K} {dr drT : Nat → K} {t dt : K}
    (hc : ∀ cols, List.Forall₂ (ColSim cols) heap heap)
    (hi : AssemblesTo m sp (eqn.implicitOperation heap) dv dr) (hT : AssemblesTo m sp (eqn.implicitOperationT heap t dt) dvT drT) :
    (eulerSystem e m heap eqn t dt).Ok fun ls => ∃ sp', sparsityUpdate e m (.ok sp') ∧ sp'.For m ∧ ls.On sp' m ∧ ∃ π, m.Shuffles π ∧
      ∀ x, ∀ c < m.nCells, ls.residual x c = shuffledResidual m π dv dr x c + shuffledResidual m π dvT drT x c := by
  have hF : AssemblesTo m sp (fun ls => eqn.implicitOperation heap ls >>= fun ls => eqn.implicitOperationT heap t dt ls)
      (fun s => dv s + dvT s) (fun i => dr i + drT i) := by
    intro l0 on0
    obtain ⟨l1, a1, d1⟩ := hi l0 on0
    obtain ⟨l2, a2, d2⟩ := hT l1 a1.on
    exact ⟨l2, a1.trans a2, fun out => Iff.trans (NR.bind_iff d1 out) (d2 out)⟩
  refine NR.Ok.mono (system_every h h256 e0 e hsp hF fun cols ls => ?_) ?_
  · refine NR.Rel.bind (implicit_sim ⟨rfl, rfl⟩ eqn (hc cols) rfl) ?_
    rintro l _ rfl
    exact implicitT_sim ⟨rfl, rfl⟩ eqn (hc cols) rfl
  · rintro ls ⟨sp', h1, h2, h3, π, h4, h5⟩
    exact ⟨sp', h1, h2, h3, π, h4, fun x c hc => by rw [h5 x c hc, shuffledResidual_add]⟩

/-- **C32 on every executor and schedule**: for every valid mesh, every pattern cached for it, every composition of implicit and explicit
spatial terms whose implicit operators ignore column indices: whatever `solve` does, it hands the linear solver named in `fvSolution` a
system in which the coefficients, right hand sides and row sums are those of the equation, with the neighbours of each cell exchanged
among the faces it owns and among those it is neighbour of, and stores what the solver returns. -/
theorem C32_every {m : Mesh K} (h : m.WF) (h256 : ∀ c < m.nCells, 1 + m.deg c ≤ 256) (e0 e : ExecKind) {sp : SparsityPattern}
    (hsp : sparsityUpdate e0 m (.ok sp))
    (s : OpHeap K K) (hcol : ∀ o ∈ s, o.IgnoresColumns) (tr : ExT K) (hl : ∀ k, ∀ h ∈ tr.leaves k, h < s.length) (hf : tr.FieldsOK s m.nCells)
    (eqn : Expr) (s' : OpHeap K K) (hb : tr.build s = .ok (eqn, s')) (hT : eqn.temporal = []) (hS : eqn.spatial ≠ [])
    (dv : Nat → Slot → K) (dr val : Nat → Nat → K)
    (hi : ∀ h ∈ tr.leaves .spatial, ∃ o, s[h]? = some o ∧ ImplTerm m sp 0 0 o (dv h) (dr h))
    (hx : ∀ h ∈ tr.leaves .spatial, ∃ o, s[h]? = some o ∧ ExplTerm m.nCells 0 0 o (val h))
    (bcs : List (VolumeBoundary K)) (table : SolverTable K) (fvSchemes fvSolution : Dict) (ops : OpsOf K K) (st : TimeState K K)
    (hops : ops st = s') (t dt : K) (solver : LinSolver K) (hs : createSolver table fvSolution = .ok solver)
    (out : Res (TimeState K K)) (hrun : dslSolve e m bcs table fvSchemes fvSolution ops eqn st t dt out) :
    ∃ (ls : LinearSystem K) (π : Slot → Slot), ls.StoredFor m ∧ m.Shuffles π ∧
      (∀ x, ∀ c < m.nCells, ls.residual x c
        = shuffledResidual m π (tr.value .spatial (Slot.row m) dv) (tr.value .spatial id dr) x c + m.vol c * tr.value .spatial id val c) ∧
      (solver ls st.sol.internal >>= fun x => pure { st with sol := { st.sol with internal := x } } : NR (TimeState K K)) out := by
  have h1 := (C31_implicit m sp s tr hl hf eqn s' hb).1 dv dr hi
  have h2 := (C31_explicit_partial s tr m.nCells hl hf eqn s' hb).1 val hx
  have hok := steadySystem_every h h256 e0 e hsp (built_colSim hcol tr hb) h1 h2
  unfold dslSolve at hrun
  rw [if_neg (by simp [hT, hS]), if_neg (by simp [hT])] at hrun
  unfold solveSteady at hrun
  rw [hops] at hrun
  obtain ⟨r, hr, ho⟩ := (NR.bind_def _ _ _).1 hrun
  obtain ⟨ls, rfl, sp', -, hp', hon, π, hπ, hres⟩ := hok _ hr
  refine ⟨ls, π, ⟨sp', hp', hon⟩, hπ, hres, ?_⟩
  exact (NR.bind_iff (a := solver) (fun o => by rw [hs]; exact Iff.rfl) out).1 ho

/-- **C32 on every executor and schedule, with an exact solver**: whenever `solve` of a steady expression returns, the values solve the
equations of the cells up to an exchange of neighbours. -/
theorem C32_equations_every {m : Mesh K} (h : m.WF) (h256 : ∀ c < m.nCells, 1 + m.deg c ≤ 256) (e0 e : ExecKind) {sp : SparsityPattern}
    (hsp : sparsityUpdate e0 m (.ok sp))
    (s : OpHeap K K) (hcol : ∀ o ∈ s, o.IgnoresColumns) (tr : ExT K) (hl : ∀ k, ∀ h ∈ tr.leaves k, h < s.length) (hf : tr.FieldsOK s m.nCells)
    (eqn : Expr) (s' : OpHeap K K) (hb : tr.build s = .ok (eqn, s')) (hT : eqn.temporal = []) (hS : eqn.spatial ≠ [])
    (dv : Nat → Slot → K) (dr val : Nat → Nat → K)
    (hi : ∀ h ∈ tr.leaves .spatial, ∃ o, s[h]? = some o ∧ ImplTerm m sp 0 0 o (dv h) (dr h))
    (hx : ∀ h ∈ tr.leaves .spatial, ∃ o, s[h]? = some o ∧ ExplTerm m.nCells 0 0 o (val h))
    (bcs : List (VolumeBoundary K)) (table : SolverTable K) (fvSchemes fvSolution : Dict) (ops : OpsOf K K) (st : TimeState K K)
    (hlen : st.sol.internal.length = m.nCells) (hops : ops st = s') (t dt : K) (solver : LinSolver K)
    (hs : createSolver table fvSolution = .ok solver) (hex : ExactOn m solver)
    (st' : TimeState K K) (hrun : dslSolve e m bcs table fvSchemes fvSolution ops eqn st t dt (.ok st')) :
    st'.sol.internal.length = m.nCells ∧ ∃ π, m.Shuffles π ∧ ∀ c < m.nCells,
      shuffledResidual m π (tr.value .spatial (Slot.row m) dv) (tr.value .spatial id dr) (ix st'.sol.internal) c
        + m.vol c * tr.value .spatial id val c = 0 := by
  obtain ⟨ls, π, hst, hπ, hres, hso⟩ := C32_every h h256 e0 e hsp s hcol tr hl hf eqn s' hb hT hS dv dr val hi hx bcs table fvSchemes fvSolution ops st hops t dt
    solver hs _ hrun
  obtain ⟨r, h1, h2⟩ := (NR.bind_def _ _ _).1 hso
  cases r with
  | ok x =>
    cases h2
    obtain ⟨a, b⟩ := hex _ _ _ hst hlen h1
    exact ⟨a, π, hπ, fun c hc => by rw [← hres _ c hc]; exact b c hc⟩
  | throw _ => cases h2
  | abort => cases h2
  | ub => cases h2

/-- **C33 on every executor and schedule**: the same for a backwardEuler step. -/
theorem C33_every {m : Mesh K} (h : m.WF) (h256 : ∀ c < m.nCells, 1 + m.deg c ≤ 256) (e0 e : ExecKind) {sp : SparsityPattern}
    (hsp : sparsityUpdate e0 m (.ok sp))
    (s : OpsOf K K) (hcol : ∀ st, ∀ o ∈ s st, o.IgnoresColumns) (tr : ExT K) (st : TimeState K K) (hlen : st.sol.internal.length = m.nCells)
    (hl : ∀ k, ∀ h ∈ tr.leaves k, h < (s st).length ∧ h < (s ⟨st.sol, some st.oldTime⟩).length)
    (hf : tr.FieldsOK (s st) m.nCells) (hf' : tr.FieldsOK (s ⟨st.sol, some st.oldTime⟩) m.nCells)
    (eqn : Expr) (ops : OpsOf K K) (hb : ∀ st, tr.build (s st) = .ok (eqn, ops st)) (hT : eqn.temporal ≠ []) (t dt : K)
    (dv dvT : Nat → Slot → K) (dr drT val : Nat → Nat → K)
    (hi : ∀ h ∈ tr.leaves .spatial, ∃ o, (s ⟨st.sol, some st.oldTime⟩)[h]? = some o ∧ ImplTerm m sp 0 0 o (dv h) (dr h))
    (ht : ∀ h ∈ tr.leaves .temporal, ∃ o, (s ⟨st.sol, some st.oldTime⟩)[h]? = some o ∧ ImplTerm m sp t dt o (dvT h) (drT h))
    (hx : ∀ h ∈ tr.leaves .spatial, ∃ o, (s st)[h]? = some o ∧ ExplTerm m.nCells 0 0 o (val h))
    (bcs : List (VolumeBoundary K)) (table : SolverTable K) (fvSchemes fvSolution : Dict) (hd : AsksFor fvSchemes "backwardEuler")
    (solver : LinSolver K) (hs : createSolver table fvSchemes = .ok solver)
    (out : Res (TimeState K K)) (hrun : dslSolve e m bcs table fvSchemes fvSolution ops eqn st t dt out) :
    ∃ (ls : LinearSystem K) (π : Slot → Slot), ls.StoredFor m ∧ m.Shuffles π ∧
      (∀ x, ∀ c < m.nCells, ls.residual x c
        = shuffledResidual m π (tr.value .spatial (Slot.row m) dv) (tr.value .spatial id dr) x c
          + shuffledResidual m π (tr.value .temporal (Slot.row m) dvT) (tr.value .temporal id drT) x c) ∧
      (solver ls st.sol.internal >>= fun x => pure ⟨{ st.sol with internal := x }, some x⟩ : NR (TimeState K K)) out := by
  have h1 := (C31_implicit m sp _ tr (fun k h hh => (hl k h hh).2) hf' eqn _ (hb _)).1 dv dr hi
  have h3 := (C31_implicit m sp _ tr (fun k h hh => (hl k h hh).2) hf' eqn _ (hb _)).2 t dt dvT drT ht
  have h2 := (C31_explicit_partial _ tr m.nCells (fun k h hh => (hl k h hh).1) hf eqn _ (hb _)).1 val hx
  have hok := eulerSystem_every h h256 e0 e hsp (built_colSim (hcol _) tr (hb ⟨st.sol, some st.oldTime⟩)) h1 h3
  rw [dslSolve_backward e m bcs table fvSolution hd ops hT] at hrun
  unfold backwardEuler at hrun
  rw [hlen] at hrun
  have hrun := (NR.bind_iff (explicitN_det h2) out).1 hrun
  obtain ⟨r, hr, ho⟩ := (NR.bind_def _ _ _).1 hrun
  obtain ⟨ls, rfl, sp', -, hp', hon, π, hπ, hres⟩ := hok _ hr
  refine ⟨ls, π, ⟨sp', hp', hon⟩, hπ, hres, ?_⟩
  exact (NR.bind_iff (a := solver) (fun o => by rw [hs]; exact Iff.rfl) out).1 ho

/-- **C33, the right system is always possible**: if the pattern of the operators was built on the executor of the call, `solve` can build it
again, and then it hands over the system of the equation. -/
theorem C33_possible {m : Mesh K} (h : m.WF) (h256 : ∀ c < m.nCells, 1 + m.deg c ≤ 256) (e : ExecKind) {sp : SparsityPattern}
    (hsp : sparsityUpdate e m (.ok sp))
    (s : OpsOf K K) (tr : ExT K) (st : TimeState K K) (hlen : st.sol.internal.length = m.nCells)
    (hl : ∀ k, ∀ h ∈ tr.leaves k, h < (s st).length ∧ h < (s ⟨st.sol, some st.oldTime⟩).length)
    (hf : tr.FieldsOK (s st) m.nCells) (hf' : tr.FieldsOK (s ⟨st.sol, some st.oldTime⟩) m.nCells)
    (eqn : Expr) (ops : OpsOf K K) (hb : ∀ st, tr.build (s st) = .ok (eqn, ops st)) (hT : eqn.temporal ≠ []) (t dt : K)
    (dv dvT : Nat → Slot → K) (dr drT val : Nat → Nat → K)
    (hi : ∀ h ∈ tr.leaves .spatial, ∃ o, (s ⟨st.sol, some st.oldTime⟩)[h]? = some o ∧ ImplTerm m sp 0 0 o (dv h) (dr h))
    (ht : ∀ h ∈ tr.leaves .temporal, ∃ o, (s ⟨st.sol, some st.oldTime⟩)[h]? = some o ∧ ImplTerm m sp t dt o (dvT h) (drT h))
    (hx : ∀ h ∈ tr.leaves .spatial, ∃ o, (s st)[h]? = some o ∧ ExplTerm m.nCells 0 0 o (val h))
    (bcs : List (VolumeBoundary K)) (table : SolverTable K) (fvSchemes fvSolution : Dict) (hd : AsksFor fvSchemes "backwardEuler")
    (solver : LinSolver K) (hs : createSolver table fvSchemes = .ok solver) :
    ∃ ls : LinearSystem K, ls.StoredFor m ∧
      (∀ x, ∀ c < m.nCells, ls.residual x c
        = implicitResidual m (tr.value .spatial (Slot.row m) dv) (tr.value .spatial id dr) x c
          + implicitResidual m (tr.value .temporal (Slot.row m) dvT) (tr.value .temporal id drT) x c) ∧
      ∀ out, (solver ls st.sol.internal >>= fun x => pure ⟨{ st.sol with internal := x }, some x⟩ : NR (TimeState K K)) out →
        dslSolve e m bcs table fvSchemes fvSolution ops eqn st t dt out := by
  obtain ⟨_, hee, hp⟩ := pattern_for m h h256 e _ hsp
  cases hee
  have h1 := (C31_implicit m sp _ tr (fun k h hh => (hl k h hh).2) hf' eqn _ (hb _)).1 dv dr hi
  have h3 := (C31_implicit m sp _ tr (fun k h hh => (hl k h hh).2) hf' eqn _ (hb _)).2 t dt dvT drT ht
  have h2 := (C31_explicit_partial _ tr m.nCells (fun k h hh => (hl k h hh).1) hf eqn _ (hb _)).1 val hx
  obtain ⟨l0, c0, on0, r0⟩ := empty_on (K := K) h hp
  obtain ⟨l1, a1, d1⟩ := h1 l0 on0
  obtain ⟨l2, a2, d2⟩ := h3 l1 a1.on
  refine ⟨l2, ⟨sp, hp, a2.on⟩, fun x c hc => ?_, fun out hout => ?_⟩
  · rw [a2.implicit h hp a1.on x hc, a1.implicit h hp on0 x hc, r0, zero_add]
  · rw [dslSolve_backward e m bcs table fvSolution hd ops hT]
    unfold backwardEuler
    rw [hlen]
    refine (NR.bind_iff (explicitN_det h2) out).2 ?_
    refine (NR.bind_def _ _ _).2 ⟨.ok l2, ?_, ?_⟩
    · refine (NR.bind_def _ _ _).2 ⟨.ok sp, hsp, ?_⟩
      refine (NR.bind_def _ _ _).2 ⟨.ok l0, c0.symm, ?_⟩
      exact (NR.bind_def _ _ _).2 ⟨.ok l1, (d1 _).2 rfl, (d2 _).2 rfl⟩
    · exact (NR.bind_iff (a := solver) (fun o => by rw [hs]; exact Iff.rfl) out).2 hout

/-! ### How far that is from the equation -/

/-- Uniform values do not see the exchange. -/
theorem shuffled_uniform (m : Mesh K) {π : Slot → Slot} (dv : Slot → K) (dr : Nat → K) (a : K) (c : Nat) :
    shuffledResidual m π dv dr (fun _ => a) c = implicitResidual m dv dr (fun _ => a) c := rfl

/-- **C32, cells with at most one internal face of each kind**: their equation is the right one on every executor and schedule. -/
theorem C32_local {m : Mesh K} {π : Slot → Slot} (hπ : m.Shuffles π) (dv : Slot → K) (dr : Nat → K) (x : Nat → K) {c : Nat} (hc : c < m.nCells)
    (hu : ∀ f < m.nInternalFaces, ∀ g < m.nInternalFaces, m.own f = c → m.own g = c → f = g)
    (hl : ∀ f < m.nInternalFaces, ∀ g < m.nInternalFaces, m.nbr f = c → m.nbr g = c → f = g) :
    shuffledResidual m π dv dr x c = implicitResidual m dv dr x c := by
  unfold shuffledResidual implicitResidual
  rw [hπ.diag c hc]
  congr 2
  · congr 1
    refine Finset.sum_congr rfl fun f hf => ?_
    split
    · rename_i ho
      obtain ⟨g, hg, he, hog⟩ := hπ.upper f (mem_range.1 hf)
      rw [he, hu g hg f (mem_range.1 hf) (hog.trans ho) ho]
      rfl
    · rfl
  · refine Finset.sum_congr rfl fun f hf => ?_
    split
    · rename_i ho
      obtain ⟨g, hg, he, hog⟩ := hπ.lower f (mem_range.1 hf)
      rw [he, hl g hg f (mem_range.1 hf) (hog.trans ho) ho]
      rfl
    · rfl

/-- On a chain of cells nothing is exchanged. -/
theorem C32_chain {m : Mesh K} (hch : m.Chain) {π : Slot → Slot} (hπ : m.Shuffles π) (dv : Slot → K) (dr : Nat → K) (x : Nat → K) {c : Nat}
    (hc : c < m.nCells) : shuffledResidual m π dv dr x c = implicitResidual m dv dr x c :=
  C32_local hπ dv dr x hc (fun f hf g hg h1 h2 => hch.1 f hf g hg (h1.trans h2.symm)) (fun f hf g hg h1 h2 => hch.2 f hf g hg (h1.trans h2.symm))

section ordered
variable [LinearOrder K] [IsStrictOrderedRing K]

/-- **C32, how wrong the equation of a cell can be**: by at most the sum of the coefficients of its neighbours, in absolute value, times
the spread of the values in them. -/
theorem C32_defect {m : Mesh K} {π : Slot → Slot} (hπ : m.Shuffles π) (dv : Slot → K) (dr : Nat → K) (x : Nat → K) {c : Nat} (hc : c < m.nCells)
    {lo hi : K} (hu : ∀ f < m.nInternalFaces, m.own f = c → lo ≤ x (m.nbr f) ∧ x (m.nbr f) ≤ hi)
    (hl : ∀ f < m.nInternalFaces, m.nbr f = c → lo ≤ x (m.own f) ∧ x (m.own f) ≤ hi) :
    |shuffledResidual m π dv dr x c - implicitResidual m dv dr x c|
      ≤ ((∑ f ∈ range m.nInternalFaces, if m.own f = c then |dv (.upper f)| else 0)
        + ∑ f ∈ range m.nInternalFaces, if m.nbr f = c then |dv (.lower f)| else 0) * (hi - lo) := by
  have key : ∀ (cell : Nat → Nat) (a y z : Nat → K), (∀ f < m.nInternalFaces, cell f = c → (lo ≤ y f ∧ y f ≤ hi) ∧ lo ≤ z f ∧ z f ≤ hi) →
      |(∑ f ∈ range m.nInternalFaces, if cell f = c then a f * y f else 0) - ∑ f ∈ range m.nInternalFaces, if cell f = c then a f * z f else 0|
        ≤ (∑ f ∈ range m.nInternalFaces, if cell f = c then |a f| else 0) * (hi - lo) := by
    intro cell a y z hyz
    rw [← Finset.sum_sub_distrib, Finset.sum_mul]
    refine (Finset.abs_sum_le_sum_abs _ _).trans (Finset.sum_le_sum fun f hf => ?_)
    split
    · rename_i hcell
      obtain ⟨⟨h1, h2⟩, h3, h4⟩ := hyz f (mem_range.1 hf) hcell
      rw [← mul_sub, abs_mul]
      exact mul_le_mul_of_nonneg_left (abs_le.2 ⟨by linarith, by linarith⟩) (abs_nonneg _)
    · simp
  have k1 := key m.own (fun f => dv (.upper f)) (fun f => x ((π (.upper f)).col m)) (fun f => x (m.nbr f)) (fun f hf ho => by
    obtain ⟨g, hg, he, hog⟩ := hπ.upper f hf
    exact ⟨by rw [he]; exact hu g hg (hog.trans ho), hu f hf ho⟩)
  have k2 := key m.nbr (fun f => dv (.lower f)) (fun f => x ((π (.lower f)).col m)) (fun f => x (m.own f)) (fun f hf ho => by
    obtain ⟨g, hg, he, hog⟩ := hπ.lower f hf
    exact ⟨by rw [he]; exact hl g hg (hog.trans ho), hl f hf ho⟩)
  have e1 : shuffledResidual m π dv dr x c - implicitResidual m dv dr x c
      = ((∑ f ∈ range m.nInternalFaces, if m.own f = c then dv (.upper f) * x ((π (.upper f)).col m) else 0)
          - ∑ f ∈ range m.nInternalFaces, if m.own f = c then dv (.upper f) * x (m.nbr f) else 0)
        + ((∑ f ∈ range m.nInternalFaces, if m.nbr f = c then dv (.lower f) * x ((π (.lower f)).col m) else 0)
          - ∑ f ∈ range m.nInternalFaces, if m.nbr f = c then dv (.lower f) * x (m.own f) else 0) := by
    unfold shuffledResidual implicitResidual
    rw [hπ.diag c hc]
    show _ = _
    simp only [Slot.col]
    ring
  rw [e1, add_mul]
  exact (abs_add_le _ _).trans (add_le_add k1 k2)

/-- In a cell with the largest value, with coefficients of the neighbours that are not positive, the equation with exchanged neighbours has at
least the residual of the uniform field with that value. -/
theorem shuffled_at_max {m : Mesh K} (h : m.WF) {π : Slot → Slot} (hπ : m.Shuffles π) {dv : Slot → K} (dr : Nat → K) {x : Nat → K} {c : Nat} (hc : c < m.nCells)
    (hoff : ∀ f < m.nInternalFaces, dv (.upper f) ≤ 0 ∧ dv (.lower f) ≤ 0) (hmax : ∀ c' < m.nCells, x c' ≤ x c) :
    implicitResidual m dv dr (fun _ => x c) c ≤ shuffledResidual m π dv dr x c := by
  unfold shuffledResidual implicitResidual
  rw [hπ.diag c hc]
  have a1 : (∑ f ∈ range m.nInternalFaces, if m.own f = c then dv (.upper f) * x c else 0)
      ≤ ∑ f ∈ range m.nInternalFaces, if m.own f = c then dv (.upper f) * x ((π (.upper f)).col m) else 0 := by
    refine Finset.sum_le_sum fun f hf => ?_
    split
    · obtain ⟨g, hg, he, -⟩ := hπ.upper f (mem_range.1 hf)
      rw [he]
      exact mul_le_mul_of_nonpos_left (hmax _ (h.nbr_lt g hg)) (hoff f (mem_range.1 hf)).1
    · exact le_rfl
  have a2 : (∑ f ∈ range m.nInternalFaces, if m.nbr f = c then dv (.lower f) * x c else 0)
      ≤ ∑ f ∈ range m.nInternalFaces, if m.nbr f = c then dv (.lower f) * x ((π (.lower f)).col m) else 0 := by
    refine Finset.sum_le_sum fun f hf => ?_
    split
    · obtain ⟨g, hg, he, -⟩ := hπ.lower f (mem_range.1 hf)
      rw [he]
      exact mul_le_mul_of_nonpos_left (hmax _ (h.own_lt_int hg)) (hoff f (mem_range.1 hf)).2
    · exact le_rfl
  refine sub_le_sub_right (add_le_add (add_le_add_right a1 _) a2) _

theorem shuffled_at_min {m : Mesh K} (h : m.WF) {π : Slot → Slot} (hπ : m.Shuffles π) {dv : Slot → K} (dr : Nat → K) {x : Nat → K} {c : Nat} (hc : c < m.nCells)
    (hoff : ∀ f < m.nInternalFaces, dv (.upper f) ≤ 0 ∧ dv (.lower f) ≤ 0) (hmin : ∀ c' < m.nCells, x c ≤ x c') :
    shuffledResidual m π dv dr x c ≤ implicitResidual m dv dr (fun _ => x c) c := by
  unfold shuffledResidual implicitResidual
  rw [hπ.diag c hc]
  have a1 : (∑ f ∈ range m.nInternalFaces, if m.own f = c then dv (.upper f) * x ((π (.upper f)).col m) else 0)
      ≤ ∑ f ∈ range m.nInternalFaces, if m.own f = c then dv (.upper f) * x c else 0 := by
    refine Finset.sum_le_sum fun f hf => ?_
    split
    · obtain ⟨g, hg, he, -⟩ := hπ.upper f (mem_range.1 hf)
      rw [he]
      exact mul_le_mul_of_nonpos_left (hmin _ (h.nbr_lt g hg)) (hoff f (mem_range.1 hf)).1
    · exact le_rfl
  have a2 : (∑ f ∈ range m.nInternalFaces, if m.nbr f = c then dv (.lower f) * x ((π (.lower f)).col m) else 0)
      ≤ ∑ f ∈ range m.nInternalFaces, if m.nbr f = c then dv (.lower f) * x c else 0 := by
    refine Finset.sum_le_sum fun f hf => ?_
    split
    · obtain ⟨g, hg, he, -⟩ := hπ.lower f (mem_range.1 hf)
      rw [he]
      exact mul_le_mul_of_nonpos_left (hmin _ (h.own_lt_int hg)) (hoff f (mem_range.1 hf)).2
    · exact le_rfl
  refine sub_le_sub_right (add_le_add (add_le_add_right a1 _) a2) _

end ordered

/-- The hypotheses of `C32_every` are met: `div(φ) + sp(φ) - 1 = 0` on the fan mesh, with the pattern in face order cached, on a parallel
executor; the operators ignore the column indices. -/
example : sparsityUpdate .parallel (fanMesh 1 2) (.ok fanOrdered) ∧ (∀ o ∈ fanOps .parallel, o.IgnoresColumns) ∧
    (∀ h ∈ [0, 1, 2], ∃ o, (fanOps .parallel)[h]? = some o ∧ ImplTerm (fanMesh 1 2) fanOrdered 0 0 o (fanDv h) (fanDr h) ∧
      ExplTerm (fanMesh 1 2).nCells 0 0 o (fanVal h)) := by
  refine ⟨fan_run_ordered, fun o ho => ?_, fan_term .parallel⟩
  simp only [fanOps, List.mem_cons, List.not_mem_nil, or_false] at ho
  rcases ho with rfl | rfl | rfl
  · exact divOp_ignores _ _ _ _ _ _ _ _ _ _
  · exact sourceOp_ignores _ _ _ _ _ _ _
  · exact sourceOp_ignores _ _ _ _ _ _ _

/-- The exchange in `C32_violation`: the entries of the two faces of cell 0 change places. -/
example : (fanMesh 1 2).Shuffles fun | .upper 0 => .upper 1 | .upper 1 => .upper 0 | s => s := by
  refine ⟨fun c _ => rfl, fun f hf => ?_, fun f hf => ⟨f, hf, rfl, rfl⟩, ?_⟩
  · have hf : f < 2 := hf
    interval_cases f
    · exact ⟨1, by show 1 < 2; decide, rfl, rfl⟩
    · exact ⟨0, by show 0 < 2; decide, rfl, rfl⟩
  · intro s t hs ht
    have key : ∀ s : Slot, s.Valid (fanMesh 1 2) → (∃ c, s = .diag c) ∨ s = .upper 0 ∨ s = .upper 1 ∨ ∃ f, s = .lower f := by
      intro s hs
      cases s with
      | diag c => exact .inl ⟨c, rfl⟩
      | upper f =>
        have hs : f < 2 := hs
        interval_cases f <;> simp
      | lower f => exact .inr (.inr (.inr ⟨f, rfl⟩))
    rcases key s hs with ⟨c, rfl⟩ | rfl | rfl | ⟨f, rfl⟩ <;> rcases key t ht with ⟨d, rfl⟩ | rfl | rfl | ⟨g, rfl⟩ <;> simp

end NeoFOAM
