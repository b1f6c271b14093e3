import Verif.Props.C19_ImplicitDiv

/-!
# C23 – time derivative terms

The implicit term is right on every executor. The explicit term multiplies by the cell volume and ignores the
coefficient (`C23_explicit_partial` says what it does, `C23_explicit_violation` that the claim fails).
-/
namespace NeoFOAM
open Finset
variable {K : Type} [Field K]

/-- **C23, implicit term**: on every executor and schedule the diagonal of each cell grows by `s V / dt`, its right
hand side by `s V / dt · old`, nothing else changes, and the residual grows by `s V (x - old) / dt`. -/
theorem C23_implicit {m : Mesh K} (h : m.WF) {sp : SparsityPattern} (hp : sp.For m) {old : List K} (hold : old.length = m.nCells)
    {scal : Coeff K} {s : Nat → K} (hs : scal.On m.nCells s) (dt : K) (e : ExecKind) (ls : LinearSystem K) (ho : ls.On sp m) :
    ∃ ls', (∀ out, ddtImplicit e m sp old scal dt ls out ↔ out = .ok ls') ∧ ls'.On sp m ∧
      (∀ c < m.nCells, ls'.matrix.val (sp.addr m (.diag c)) = ls.matrix.val (sp.addr m (.diag c)) + s c * m.vol c / dt) ∧
      (∀ f < m.nInternalFaces, ls'.matrix.val (sp.addr m (.upper f)) = ls.matrix.val (sp.addr m (.upper f)) ∧
        ls'.matrix.val (sp.addr m (.lower f)) = ls.matrix.val (sp.addr m (.lower f))) ∧
      (∀ c < m.nCells, ls'.rhs.getD c 0 = ls.rhs.getD c 0 + s c * m.vol c / dt * old.getD c 0) ∧
      ∀ (x : Nat → K), ∀ c < m.nCells, ls'.residual x c = ls.residual x c + s c * m.vol c * (x c - old.getD c 0) / dt := by
  obtain ⟨ls', ha, hdet⟩ := Assembles.det hp (ddtImplicit_ok h hp hold hs dt e ls ho) (launchLS_runs _ _ _ _ _)
  refine ⟨ls', hdet, ha.on, fun c hc => ha.coef (.diag c) hc, fun f hf => ⟨?_, ?_⟩, fun c hc => ha.rhs c hc, fun x c hc => ?_⟩
  · rw [ha.coef (.upper f) hf]; simp [diagDelta]
  · rw [ha.coef (.lower f) hf]; simp [diagDelta]
  · rw [ha.residual h hp ho x hc]
    simp [diagDelta, ix]
    ring

/-- **C23, equilibrium**: the residual is unchanged at the old values. -/
theorem C23_equilibrium {m : Mesh K} (h : m.WF) {sp : SparsityPattern} (hp : sp.For m) {old : List K} (hold : old.length = m.nCells)
    {scal : Coeff K} {s : Nat → K} (hs : scal.On m.nCells s) (dt : K) (e : ExecKind) (ls ls' : LinearSystem K) (ho : ls.On sp m)
    (hout : ddtImplicit e m sp old scal dt ls (.ok ls')) (c : Nat) (hc : c < m.nCells) :
    ls'.residual (fun c => old.getD c 0) c = ls.residual (fun c => old.getD c 0) c := by
  obtain ⟨l2, hd, -, -, -, -, hr⟩ := C23_implicit h hp hold hs dt e ls ho
  cases (hd _).1 hout
  rw [hr _ c hc]; simp

/-- **C23, explicit term, as implemented**: it adds `V (x - old) / dt` on every executor; the claimed amount is
`s (x - old) / dt`. -/
theorem C23_explicit_partial {V : Type} [AddCommGroup V] [Module K V] {m : Mesh K} (h : m.WF) {φ : VolField K V} (hφ : φ.On m)
    {old : List V} (hold : old.length = m.nCells) (scal : Coeff K) (dt : K) (e : ExecKind) (src : List V)
    (hsrc : src.length = m.nCells) (out : Res (List V)) :
    ddtExplicit e m φ old scal dt src out ↔ out = .ok ((List.range m.nCells).map fun c =>
      src.getD c 0 + m.vol c • ((1 / dt) • (φ.cell c - old.getD c 0))) := by
  unfold ddtExplicit
  rw [elemKernel_det e 0 src.length _ (fun c y => y + m.vol c • ((1 / dt) • (φ.cell c - old.getD c 0))) src le_rfl (by
    intro c _ hc
    have r1 : rd old c = .ok (old.getD c 0) := rd_getD 0 (by omega)
    have r2 : rd φ.internal c = .ok (φ.cell c) := rd_getD 0 (by rw [hφ.int]; omega)
    have r3 : rd m.cellVolumes c = .ok (m.vol c) := rd_getD 0 (by rw [h.volLen]; omega)
    simp [r1, r2, r3])]
  have : (src.mapIdx fun i x => if 0 ≤ i ∧ i < src.length then x + m.vol i • ((1 / dt) • (φ.cell i - old.getD i 0)) else x)
      = (List.range m.nCells).map fun c => src.getD c 0 + m.vol c • ((1 / dt) • (φ.cell c - old.getD c 0)) := by
    apply List.ext_getElem
    · simp [hsrc]
    · intro i h1 h2
      simp at h1
      simp [h1, List.getD]
  rw [this]

/-- **C23 fails for the explicit term**: for coefficient 3 on cells of volume one the term added is not
`s (x - old) / dt`, on any schedule. -/
theorem C23_explicit_violation (e : ExecKind) (out : Res (List ℚ))
    (hout : ddtExplicit e row3 row3Field [0, 0, 0] (Coeff.ofScalar 3) 1 [0, 0, 0] out) :
    out = .ok [1, 5, 2] ∧ out ≠ .ok ((List.range 3).map fun c => 3 * (row3Field.cell c - 0) / 1) := by
  rw [C23_explicit_partial row3_wf row3Field_on rfl (Coeff.ofScalar 3) 1 e _ rfl] at hout
  have : ((List.range row3.nCells).map fun c => [(0 : ℚ), 0, 0].getD c 0 + row3.vol c • ((1 / (1 : ℚ)) • (row3Field.cell c - [(0 : ℚ), 0, 0].getD c 0)))
      = [1, 5, 2] := by
    simp [List.range_succ, row3Field, VolField.cell, Mesh.vol, row3, topoMesh]
  rw [this] at hout
  refine ⟨hout, ?_⟩
  rw [hout]
  simp [List.range_succ, row3Field, VolField.cell]

/-- The hypotheses of the implicit theorem can be met. -/
example : ∃ sp, sp.For row3 ∧ ∃ ls : LinearSystem ℚ, ls.On sp row3 ∧ ([0, 1, 2] : List ℚ).length = row3.nCells ∧
    (Coeff.ofScalar (2 : ℚ)).On row3.nCells (fun _ => 2) := by
  obtain ⟨sp, -, hp, ls, -, ho, -⟩ := exists_system row3 row3_wf row3_deg .serial
  exact ⟨sp, hp, ls, ho, rfl, fun _ _ => rfl⟩

end NeoFOAM
