import Verif.Props.C19_ImplicitDiv
import Verif.Props.C44_Accumulate

/-!
# C24 – implicit and explicit source terms agree
-/
namespace NeoFOAM
open Finset
variable {K : Type} [Field K]

/-- **C24, implicit source**: on every executor and schedule only diagonals change, by `s k V`. -/
theorem C24_implicit {m : Mesh K} (h : m.WF) {sp : SparsityPattern} (hp : sp.For m) {k : List K} (hk : k.length = m.nCells)
    {scal : Coeff K} {s : Nat → K} (hs : scal.On m.nCells s) (e : ExecKind) (ls : LinearSystem K) (ho : ls.On sp m) :
    ∃ ls', (∀ out, sourceImplicit e m sp k scal ls out ↔ out = .ok ls') ∧ ls'.On sp m ∧ ls'.rhs = ls.rhs ∧
      (∀ c < m.nCells, ls'.matrix.val (sp.addr m (.diag c)) = ls.matrix.val (sp.addr m (.diag c)) + s c * k.getD c 0 * m.vol c) ∧
      (∀ f < m.nInternalFaces, ls'.matrix.val (sp.addr m (.upper f)) = ls.matrix.val (sp.addr m (.upper f)) ∧
        ls'.matrix.val (sp.addr m (.lower f)) = ls.matrix.val (sp.addr m (.lower f))) ∧
      ∀ (x : Nat → K), ∀ c < m.nCells, ls'.residual x c = ls.residual x c + m.vol c * (s c * k.getD c 0 * x c) := by
  obtain ⟨ls', ha, hdet⟩ := Assembles.det hp (sourceImplicit_ok h hp hk hs e ls ho) (launchLS_runs _ _ _ _ _)
  refine ⟨ls', hdet, ha.on, ?_, fun c hc => ha.coef (.diag c) hc, fun f hf => ⟨?_, ?_⟩, fun x c hc => ?_⟩
  · apply List.ext_getElem
    · rw [ha.on.rhsLen, ho.rhsLen]
    · intro i h1 h2
      have hi : i < m.nCells := by rw [← ho.rhsLen]; exact h2
      have := ha.rhs i hi
      simpa [List.getD, List.getElem?_eq_getElem h1, List.getElem?_eq_getElem h2] using this
  · rw [ha.coef (.upper f) hf]; simp [diagDelta]
  · rw [ha.coef (.lower f) hf]; simp [diagDelta]
  · rw [ha.residual h hp ho x hc]
    simp [diagDelta, ix]
    ring

/-- **C24, agreement**: the residual grows by the cell volume times the explicit source term at the same field, on any
pair of executors. -/
theorem C24_agree {m : Mesh K} (h : m.WF) {sp : SparsityPattern} (hp : sp.For m) {φ : VolField K K} (hφ : φ.On m)
    {k : List K} (hk : k.length = m.nCells) {scal : Coeff K} {s : Nat → K} (hs : scal.On m.nCells s) (e e' : ExecKind)
    (ls ls' : LinearSystem K) (ho : ls.On sp m) (E : List K) (himp : sourceImplicit e m sp k scal ls (.ok ls'))
    (hexp : sourceExplicit e' k φ scal (List.replicate m.nCells 0) (.ok E)) :
    ∀ c < m.nCells, ls'.residual φ.cell c = ls.residual φ.cell c + m.vol c * E.getD c 0 := by
  intro c hc
  obtain ⟨l2, hd, -, -, -, -, hr⟩ := C24_implicit h hp hk hs e ls ho
  cases (hd _).1 himp
  obtain ⟨val, hval, hadd⟩ := C44_source hφ hk hs
  rw [hadd e' _ (by simp)] at hexp
  cases hexp
  rw [hr _ c hc, getD_range_map _ _ _ hc, replicate_getD, zero_add, hval]
  simp [ix]

/-- The hypotheses can be met. -/
example : ∃ sp, sp.For row3 ∧ ∃ ls : LinearSystem ℚ, ls.On sp row3 ∧ row3Field.On row3 ∧ ([3, 1, 2] : List ℚ).length = row3.nCells ∧
    (Coeff.ofField [(2 : ℚ), 4, 6]).On row3.nCells (fun c => [(2 : ℚ), 4, 6].getD c 0) := by
  obtain ⟨sp, -, hp, ls, -, ho, -⟩ := exists_system row3 row3_wf row3_deg .serial
  refine ⟨sp, hp, ls, ho, row3Field_on, rfl, ?_⟩
  intro c hc
  have : c < 3 := hc
  interval_cases c <;> simp [Coeff.get, Coeff.ofField, rd]

end NeoFOAM
