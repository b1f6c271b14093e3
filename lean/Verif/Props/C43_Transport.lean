import Verif.Spec.Transport
import Verif.Props.C27_Geometry
import Verif.Props.C34_ForwardEuler
import Verif.Props.C18_Divergence

/-!
# C43 – explicit transport conserves the total up to boundary fluxes
-/
namespace NeoFOAM
open Finset
variable {K : Type} [Field K] [LinearOrder K] [IsStrictOrderedRing K]

omit [IsStrictOrderedRing K] in
/-- The time loop over `dsl::solve` for `ddt(u) + div(flux, u)`. -/
theorem transport_steps (e : ExecKind) {m : Mesh K} (h : m.WF) (bcs : List (VolumeBoundary K)) (hb : ∀ c ∈ bcs, c.patch.end_ ≤ m.nBoundaryFaces)
    (sp : SparsityPattern) (sch : InterpScheme) (w : List K) (hw : w.length = m.nFaces) (junk : Nat → K) (flux : List K) (hfl : flux.length = m.nFaces)
    (eqn : Expr) (ops : OpsOf K K) (hbuild : ∀ st, transportTree.build (transportOps e m sp sch w junk flux st) = .ok (eqn, ops st))
    (table : SolverTable K) {fvSchemes : Dict} (fvSolution : Dict) (hd : AsksFor fvSchemes "forwardEuler")
    (st : TimeState K K) (ho : st.sol.On m) (hs : st.Synced) (t : K) (dt : Nat → K) :
    ∃ u : Nat → TimeState K K, u 0 = st ∧
      (∀ k out, timeLoop (fun d st => dslSolve e m bcs table fvSchemes fvSolution ops eqn st t d) dt k st out ↔ out = .ok (u k)) ∧
      ∀ k, EulerStep m bcs (fun φ c => 1 / m.vol c * m.netOutflow (fun f => ix flux f * Mesh.schemeFace sch m (ix w) (ix flux) φ f) c)
        (dt k) (u k).sol (u (k + 1)).sol := by
  have heqn : eqn.temporal ≠ [] := by
    have := hbuild st
    have h2 : transportTree.build (transportOps e m sp sch w junk flux st) = .ok (⟨[4], [5]⟩, (transportOps e m sp sch w junk flux st) ++
      (transportOps e m sp sch w junk flux st) ++ (transportOps e m sp sch w junk flux st)) := rfl
    rw [h2] at this
    injection this with this
    rw [← (Prod.mk.inj this).1]
    simp
  obtain ⟨u, h0, h1, h2⟩ := C34_steps_partial e h bcs hb (transportOps e m sp sch w junk flux) transportTree eqn ops hbuild
    (by
      intro st k i hi
      cases k <;> simp [transportTree, ExT.leaves, OpT.sort, OpT.leaf] at hi <;> subst hi <;> simp [transportOps])
    (fun _ => ⟨trivial, trivial⟩)
    (fun φ _ c => 1 / m.vol c * m.netOutflow (fun f => ix flux f * Mesh.schemeFace sch m (ix w) (ix flux) φ f) c)
    (by
      intro st hon i hi
      simp [transportTree, ExT.leaves, OpT.sort, OpT.leaf] at hi
      subst hi
      exact ⟨_, rfl, C31_term_div h sp hon hw hfl sch e junk (v := fun _ => 1) (fun _ _ => rfl) 0 0⟩)
    st ho hs dt
  refine ⟨fun k => match k with | 0 => st | k + 1 => ⟨u (k + 1), some (u (k + 1)).internal⟩, rfl, ?_, ?_⟩
  · have hfun : (fun d st => dslSolve e m bcs table fvSchemes fvSolution ops eqn st t d) = fun d st => forwardEuler e m bcs ops eqn st d := by
      funext d st
      funext out
      exact propext (C34_solve e m bcs table fvSolution hd ops heqn st t d out)
    rw [hfun]
    intro k out
    cases k with
    | zero => exact Iff.rfl
    | succ k => exact h2 k out
  · intro k
    have := h1 k
    simp only [transportTree, ExT.value, OpT.valueOf, OpT.sort, OpT.value] at this
    cases k with
    | zero => rw [h0] at this; simpa using this
    | succ k => simpa using this

/-- **C43**: for every valid mesh with non-zero volumes, flux, interpolation scheme, boundary conditions, initial field and time
steps, on every executor: `n` calls of `dsl::solve` on `ddt(u) + div(flux, u)` with forwardEuler have exactly one outcome, and the
total of `u` in it is the initial one minus the sum over the steps of `dt` times what leaves through the boundary. The weights
are those of the geometry scheme. -/
theorem C43_conservation (e : ExecKind) {m : Mesh K} (h : m.WF) (hv : ∀ c < m.nCells, m.vol c ≠ 0) (bcs : List (VolumeBoundary K))
    (hb : ∀ c ∈ bcs, c.patch.end_ ≤ m.nBoundaryFaces) (sp : SparsityPattern) (sch : InterpScheme)
    (tiny : K) (ht : 0 ≤ tiny) (sqrt : K → K) (hs : IsSqrt sqrt) (gjunk : Nat → K) (g : Geometry K) (hg : geometryScheme e m tiny sqrt gjunk (.ok g))
    (junk : Nat → K) (flux : List K) (hfl : flux.length = m.nFaces) (eqn : Expr) (ops : OpsOf K K)
    (hbuild : ∀ st, transportTree.build (transportOps e m sp sch g.weights junk flux st) = .ok (eqn, ops st))
    (table : SolverTable K) {fvSchemes : Dict} (fvSolution : Dict) (hd : AsksFor fvSchemes "forwardEuler")
    (st : TimeState K K) (ho : st.sol.On m) (hsy : st.Synced) (t : K) (dt : Nat → K) :
    ∃ u : Nat → TimeState K K, u 0 = st ∧
      (∀ k out, timeLoop (fun d st => dslSolve e m bcs table fvSchemes fvSolution ops eqn st t d) dt k st out ↔ out = .ok (u k)) ∧
      ∀ n, (u n).sol.total m = st.sol.total m - ∑ k ∈ range n, dt k * (u k).sol.boundaryFlux m (ix flux) := by
  obtain ⟨g', hgd, hw, -, -, -, hw1, -⟩ := C27_geometry h e tiny ht sqrt hs gjunk
  cases (hgd _).1 hg
  have hfaces := h.faces
  obtain ⟨u, h0, h1, h2⟩ := transport_steps e h bcs hb sp sch g.weights hw junk flux hfl eqn ops hbuild table fvSolution hd st ho hsy t dt
  refine ⟨u, h0, h1, fun n => ?_⟩
  induction n with
  | zero => simp [h0]
  | succ n ih =>
    rw [Finset.sum_range_succ, ← sub_sub, ← ih]
    have hstep : (u (n + 1)).sol.total m = ∑ c ∈ range m.nCells, (m.vol c * (u n).sol.cell c
        - dt n * m.netOutflow (fun f => ix flux f * Mesh.schemeFace sch m (ix g.weights) (ix flux) (u n).sol f) c) := by
      refine Finset.sum_congr rfl fun c hc => ?_
      rw [mem_range] at hc
      have := hv c hc
      rw [(h2 n).cells c hc, smul_eq_mul]
      field_simp
    rw [hstep, Finset.sum_sub_distrib, ← Finset.mul_sum, sum_netOutflow h]
    congr 2
    refine Finset.sum_congr rfl fun b hb' => ?_
    rw [mem_range] at hb'
    rw [C26_boundary, hw1 _ (by omega) (by omega), one_smul]

/-- The hypothesis on `build` can be met by every mesh, flux and scheme. -/
example (e : ExecKind) (m : Mesh K) (sp : SparsityPattern) (sch : InterpScheme) (w : List K) (junk : Nat → K) (flux : List K) :
    ∃ (eqn : Expr) (ops : OpsOf K K), ∀ st, transportTree.build (transportOps e m sp sch w junk flux st) = .ok (eqn, ops st) :=
  ⟨⟨[4], [5]⟩, _, fun _ => rfl⟩

end NeoFOAM
