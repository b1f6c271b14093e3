import Verif.Props.C14_Exact
import Verif.Props.C60_Every

/-!
# C32, C33 – exactly which systems `solve` can hand over on the parallel executors

The converse of `C32_every` and `C33_every`: every exchange of neighbours does occur.
-/
namespace NeoFOAM
open Finset
variable {K : Type} [Field K]

/-- **C32 on the parallel executors, exactly**: under the hypotheses of `C32_every`, there is one system for each exchange of neighbours, the
equation of each cell with its neighbours exchanged that way, and the outcomes of `solve` are exactly those of storing what the solver
returns for one of these systems. -/
theorem C32_exact {m : Mesh K} (h : m.WF) (h256 : ∀ c < m.nCells, 1 + m.deg c ≤ 256) (e0 : ExecKind) {sp : SparsityPattern}
    (hsp : sparsityUpdate e0 m (.ok sp))
    (s : OpHeap K K) (hcol : ∀ o ∈ s, o.IgnoresColumns) (tr : ExT K) (hl : ∀ k, ∀ h ∈ tr.leaves k, h < s.length) (hf : tr.FieldsOK s m.nCells)
    (eqn : Expr) (s' : OpHeap K K) (hb : tr.build s = .ok (eqn, s')) (hT : eqn.temporal = []) (hS : eqn.spatial ≠ [])
    (dv : Nat → Slot → K) (dr val : Nat → Nat → K)
    (hi : ∀ h ∈ tr.leaves .spatial, ∃ o, s[h]? = some o ∧ ImplTerm m sp 0 0 o (dv h) (dr h))
    (hx : ∀ h ∈ tr.leaves .spatial, ∃ o, s[h]? = some o ∧ ExplTerm m.nCells 0 0 o (val h))
    (bcs : List (VolumeBoundary K)) (table : SolverTable K) (fvSchemes fvSolution : Dict) (ops : OpsOf K K) (st : TimeState K K)
    (hops : ops st = s') (t dt : K) (solver : LinSolver K) (hs : createSolver table fvSolution = .ok solver) :
    ∃ sys : (Slot → Slot) → LinearSystem K,
      (∀ π, m.Shuffles π → (sys π).StoredFor m ∧ ∀ x, ∀ c < m.nCells, (sys π).residual x c
        = shuffledResidual m π (tr.value .spatial (Slot.row m) dv) (tr.value .spatial id dr) x c + m.vol c * tr.value .spatial id val c) ∧
      ∀ out, dslSolve .parallel m bcs table fvSchemes fvSolution ops eqn st t dt out ↔ ∃ π, m.Shuffles π ∧
        (solver (sys π) st.sol.internal >>= fun x => pure { st with sol := { st.sol with internal := x } } : NR (TimeState K K)) out := by
  have h1 := (C31_implicit m sp s tr hl hf eqn s' hb).1 dv dr hi
  have h2 := (C31_explicit_partial s tr m.nCells hl hf eqn s' hb).1 val hx
  have hc := built_colSim hcol tr hb
  have hF : AssemblesTo m sp (fun ls => eqn.implicitOperation s' ls >>= fun ls => eqn.explicitOperationN s' m.nCells >>= fun src =>
      subtractSource .parallel m src ls) (fun s => tr.value .spatial (Slot.row m) dv s + 0)
      (fun i => tr.value .spatial id dr i + -(m.vol i * tr.value .spatial id val i)) := by
    intro l0 on0
    obtain ⟨l1, a1, d1⟩ := h1 l0 on0
    obtain ⟨l2, a2, d2⟩ := subtractSource_det h .parallel (src := (List.range m.nCells).map (tr.value .spatial id val)) (by simp) l1 a1.on
    refine ⟨l2, (a1.trans a2).congr (fun s _ => rfl) (fun c hc => ?_), fun out => ?_⟩
    · simp only [ix]
      rw [getD_range_map _ _ _ hc]; ring
    · refine Iff.trans (NR.bind_iff d1 out) ?_
      refine Iff.trans (NR.bind_iff (explicitN_det h2) out) ?_
      exact d2 out
  obtain ⟨sys, q1, q2⟩ := system_exact h h256 e0 hsp hF fun cols ls => by
    refine NR.Rel.bind (implicit_sim ⟨rfl, rfl⟩ eqn (hc cols) rfl) ?_
    rintro l _ rfl
    refine NR.Rel.bind (R := (· = ·)) (NR.Rel.refl (fun _ => rfl) _) ?_
    rintro src _ rfl
    exact subtractSource_cols .parallel src l cols
  refine ⟨sys, fun π hπ => ⟨(q1 π hπ).1, fun x c hc => ?_⟩, fun out => ?_⟩
  · rw [(q1 π hπ).2 x c hc, shuffledResidual_add (m := m) π (tr.value .spatial (Slot.row m) dv) (fun _ => 0) (tr.value .spatial id dr)
      (fun i => -(m.vol i * tr.value .spatial id val i))]
    simp [shuffledResidual]
  · unfold dslSolve
    rw [if_neg (by simp [hT, hS]), if_neg (by simp [hT])]
    unfold solveSteady
    rw [hops]
    have hso : ∀ ls : LinearSystem K, (NR.lift (createSolver table fvSolution) >>= fun solver => solver ls st.sol.internal >>= fun x =>
        pure { st with sol := { st.sol with internal := x } } : NR (TimeState K K)) out ↔
        (solver ls st.sol.internal >>= fun x => pure { st with sol := { st.sol with internal := x } } : NR (TimeState K K)) out :=
      fun ls => NR.bind_iff (a := solver) (fun o => by rw [hs]; exact Iff.rfl) out
    constructor
    · intro hrun
      obtain ⟨r, hr, ho⟩ := (NR.bind_def _ _ _).1 hrun
      obtain ⟨π, hπ, rfl⟩ := (q2 r).1 hr
      exact ⟨π, hπ, (hso _).1 ho⟩
    · rintro ⟨π, hπ, ho⟩
      exact (NR.bind_def _ _ _).2 ⟨_, (q2 _).2 ⟨π, hπ, rfl⟩, (hso _).2 ho⟩

/-- **C33 on the parallel executors, exactly**: the same for a backwardEuler step. -/
theorem C33_exact {m : Mesh K} (h : m.WF) (h256 : ∀ c < m.nCells, 1 + m.deg c ≤ 256) (e0 : ExecKind) {sp : SparsityPattern}
    (hsp : sparsityUpdate e0 m (.ok sp))
    (s : OpsOf K K) (hcol : ∀ st, ∀ o ∈ s st, o.IgnoresColumns) (tr : ExT K) (st : TimeState K K) (hlen : st.sol.internal.length = m.nCells)
    (hl : ∀ k, ∀ h ∈ tr.leaves k, h < (s st).length ∧ h < (s ⟨st.sol, some st.oldTime⟩).length)
    (hf : tr.FieldsOK (s st) m.nCells) (hf' : tr.FieldsOK (s ⟨st.sol, some st.oldTime⟩) m.nCells)
    (eqn : Expr) (ops : OpsOf K K) (hb : ∀ st, tr.build (s st) = .ok (eqn, ops st)) (hT : eqn.temporal ≠ []) (t dt : K)
    (dv dvT : Nat → Slot → K) (dr drT val : Nat → Nat → K)
    (hi : ∀ h ∈ tr.leaves .spatial, ∃ o, (s ⟨st.sol, some st.oldTime⟩)[h]? = some o ∧ ImplTerm m sp 0 0 o (dv h) (dr h))
    (ht : ∀ h ∈ tr.leaves .temporal, ∃ o, (s ⟨st.sol, some st.oldTime⟩)[h]? = some o ∧ ImplTerm m sp t dt o (dvT h) (drT h))
    (hx : ∀ h ∈ tr.leaves .spatial, ∃ o, (s st)[h]? = some o ∧ ExplTerm m.nCells 0 0 o (val h))
    (bcs : List (VolumeBoundary K)) (table : SolverTable K) (fvSchemes fvSolution : Dict) (hd : AsksFor fvSchemes "backwardEuler")
    (solver : LinSolver K) (hs : createSolver table fvSchemes = .ok solver) :
    ∃ sys : (Slot → Slot) → LinearSystem K,
      (∀ π, m.Shuffles π → (sys π).StoredFor m ∧ ∀ x, ∀ c < m.nCells, (sys π).residual x c
        = shuffledResidual m π (tr.value .spatial (Slot.row m) dv) (tr.value .spatial id dr) x c
          + shuffledResidual m π (tr.value .temporal (Slot.row m) dvT) (tr.value .temporal id drT) x c) ∧
      ∀ out, dslSolve .parallel m bcs table fvSchemes fvSolution ops eqn st t dt out ↔ ∃ π, m.Shuffles π ∧
        (solver (sys π) st.sol.internal >>= fun x => pure ⟨{ st.sol with internal := x }, some x⟩ : NR (TimeState K K)) out := by
  have h1 := (C31_implicit m sp _ tr (fun k h hh => (hl k h hh).2) hf' eqn _ (hb _)).1 dv dr hi
  have h3 := (C31_implicit m sp _ tr (fun k h hh => (hl k h hh).2) hf' eqn _ (hb _)).2 t dt dvT drT ht
  have h2 := (C31_explicit_partial _ tr m.nCells (fun k h hh => (hl k h hh).1) hf eqn _ (hb _)).1 val hx
  have hc := built_colSim (hcol _) tr (hb ⟨st.sol, some st.oldTime⟩)
  have hF : AssemblesTo m sp (fun ls => eqn.implicitOperation (ops ⟨st.sol, some st.oldTime⟩) ls >>= fun ls =>
      eqn.implicitOperationT (ops ⟨st.sol, some st.oldTime⟩) t dt ls)
      (fun s => tr.value .spatial (Slot.row m) dv s + tr.value .temporal (Slot.row m) dvT s)
      (fun i => tr.value .spatial id dr i + tr.value .temporal id drT i) := by
    intro l0 on0
    obtain ⟨l1, a1, d1⟩ := h1 l0 on0
    obtain ⟨l2, a2, d2⟩ := h3 l1 a1.on
    exact ⟨l2, a1.trans a2, fun out => Iff.trans (NR.bind_iff d1 out) (d2 out)⟩
  obtain ⟨sys, q1, q2⟩ := system_exact h h256 e0 hsp hF fun cols ls => by
    refine NR.Rel.bind (implicit_sim ⟨rfl, rfl⟩ eqn (hc cols) rfl) ?_
    rintro l _ rfl
    exact implicitT_sim ⟨rfl, rfl⟩ eqn (hc cols) rfl
  refine ⟨sys, fun π hπ => ⟨(q1 π hπ).1, fun x c hc => ?_⟩, fun out => ?_⟩
  · rw [(q1 π hπ).2 x c hc, shuffledResidual_add]
  · rw [dslSolve_backward .parallel m bcs table fvSolution hd ops hT]
    unfold backwardEuler
    rw [hlen]
    refine Iff.trans (NR.bind_iff (explicitN_det h2) out) ?_
    have hso : ∀ ls : LinearSystem K, (NR.lift (createSolver table fvSchemes) >>= fun solver => solver ls st.sol.internal >>= fun x =>
        pure ⟨{ st.sol with internal := x }, some x⟩ : NR (TimeState K K)) out ↔
        (solver ls st.sol.internal >>= fun x => pure ⟨{ st.sol with internal := x }, some x⟩ : NR (TimeState K K)) out :=
      fun ls => NR.bind_iff (a := solver) (fun o => by rw [hs]; exact Iff.rfl) out
    constructor
    · intro hrun
      obtain ⟨r, hr, ho⟩ := (NR.bind_def _ _ _).1 hrun
      obtain ⟨π, hπ, rfl⟩ := (q2 r).1 hr
      exact ⟨π, hπ, (hso _).1 ho⟩
    · rintro ⟨π, hπ, ho⟩
      exact (NR.bind_def _ _ _).2 ⟨_, (q2 _).2 ⟨π, hπ, rfl⟩, (hso _).2 ho⟩

end NeoFOAM
