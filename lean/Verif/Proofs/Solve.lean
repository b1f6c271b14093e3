import Verif.Spec.Solve
import Verif.Props.C31_Expression
import Verif.Props.C16_Residual

/-!
# Systems of expressions
-/
namespace NeoFOAM
open Finset
variable {K V : Type}

/-! ### One outcome at most -/

/-- At most one outcome. -/
def NR.Single {α : Type} (R : NR α) : Prop := ∀ a b, R a → R b → a = b

theorem NR.Single.bind {α β : Type} {R : NR α} {k : α → NR β} (h1 : R.Single) (h2 : ∀ a, R (.ok a) → (k a).Single) : (R >>= k).Single := by
  rintro a b ⟨r, hr, ha⟩ ⟨r', hr', hb⟩
  cases h1 _ _ hr hr'
  cases r with
  | ok x => exact h2 x hr _ _ ha hb
  | throw e => exact ha.trans hb.symm
  | abort => exact ha.trans hb.symm
  | ub => exact ha.trans hb.symm

theorem NR.Single.lift {α : Type} (r : Res α) : (NR.lift r).Single := fun _ _ h1 h2 => h1.trans h2.symm

theorem NR.Single.of_iff {α : Type} {R : NR α} {r : Res α} (h : ∀ out, R out ↔ out = r) : R.Single :=
  fun a b ha hb => ((h a).1 ha).trans ((h b).1 hb).symm

theorem ticketRun_single (ts : Res (List (List TAct))) (cnt col off : List Nat) : NR.Single (ticketRun .serial ts cnt col off) := by
  intro a b ha hb
  unfold ticketRun at ha hb
  cases ts with
  | ok ts =>
    obtain ⟨l, hl, ha⟩ := ha
    obtain ⟨l', hl', hb⟩ := hb
    obtain rfl : l = l' := Eq.trans hl (Eq.symm hl')
    revert ha hb
    cases runActs LMem.step (tMem cnt col off) l <;> (intro ha hb; exact ha.trans hb.symm)
  | throw e => exact ha.trans hb.symm
  | abort => exact ha.trans hb.symm
  | ub => exact ha.trans hb.symm

/-- On the serial executor a mesh has one sparsity pattern. -/
theorem sparsity_serial_single (m : Mesh K) (h : m.WF) : NR.Single (sparsityUpdate .serial m) := by
  obtain ⟨sp0, hsp0⟩ := C14_terminates m h .serial
  unfold sparsityUpdate
  refine NR.Single.bind (ticketRun_single _ _ _ _) ?_
  rintro ⟨cnt, c1, c2⟩ hc
  by_cases hl : cnt.length = m.nCells
  · refine NR.Single.bind (NR.Single.of_iff (C10_offsets _ _ (by simp [hl]))) ?_
    rintro ⟨t, rp⟩ -
    refine NR.Single.bind (NR.Single.of_iff (parElem_det _ _ _ _ _ le_rfl)) fun cnt2 _ => ?_
    refine NR.Single.bind (ticketRun_single _ _ _ _) ?_
    rintro ⟨c3, col, off⟩ -
    refine NR.Single.bind (ticketRun_single _ _ _ _) ?_
    rintro ⟨c3, col, off2⟩ -
    refine NR.Single.bind (ticketRun_single _ _ _ _) ?_
    rintro ⟨c3, col, off3⟩ -
    exact fun a b ha hb => ha.trans hb.symm
  · refine NR.Single.bind (R := segmentsFromIntervals cnt _) (fun a b ha hb => ?_) ?_
    · unfold segmentsFromIntervals at ha hb
      rw [if_neg (by simp), if_pos (by simpa using hl)] at ha hb
      exact ha.trans hb.symm
    · intro a ha
      unfold segmentsFromIntervals at ha
      rw [if_neg (by simp), if_pos (by simpa using hl)] at ha
      cases ha

/-- One pattern, if the executor is serial or the mesh a chain. -/
theorem sparsity_single (m : Mesh K) (h : m.WF) {e : ExecKind} (he : e = .serial ∨ m.Chain) : NR.Single (sparsityUpdate e m) := by
  rcases he with rfl | hc
  · exact sparsity_serial_single m h
  · exact fun a b ha hb => C14_chain m h hc e e b a hb ha

variable [Field K]

/-! ### Systems -/

section
variable {m : Mesh K} {sp : SparsityPattern}

theorem empty_on (h : m.WF) (hp : sp.For m) : ∃ ls : LinearSystem K, createEmptyLinearSystem sp = .ok ls ∧ ls.On sp m ∧
    ∀ x i, ls.residual x i = 0 := by
  have hr : (⟨List.replicate sp.colIdxs.length (0 : K), sp.colIdxs, sp.rowPtrs⟩ : CSR K).nRows = m.nCells := by
    simp [CSR.nRows, hp.rows.len]
  refine ⟨⟨⟨List.replicate sp.colIdxs.length 0, sp.colIdxs, sp.rowPtrs⟩, List.replicate sp.diagOffset.length 0⟩, ?_,
    ⟨rfl, rfl, by simp, by simp [hp.dlen]⟩, ?_⟩
  · unfold createEmptyLinearSystem LinearSystem.mk'
    rw [if_pos (by rw [hr]; simp [hp.dlen])]
  · intro x i
    simp only [LinearSystem.residual, CSR.val, val_replicate, zero_mul, Finset.sum_const_zero, sub_zero]

theorem subtractSource_det (h : m.WF) (e : ExecKind) {src : List K} (hs : src.length = m.nCells) (ls : LinearSystem K) (ho : ls.On sp m) :
    ∃ ls', Assembles m sp ls ls' (fun _ => 0) (fun i => -(ix src i * m.vol i)) ∧ ∀ out, subtractSource e m src ls out ↔ out = .ok ls' := by
  have hdet := elemKernel_det e 0 ls.rhs.length (fun i => do
    let s ← rd src i
    let v ← rd m.cellVolumes i
    return fun x => x - s * v) (fun i x => x - ix src i * m.vol i) ls.rhs le_rfl (by
      intro i _ hi
      rw [ho.rhsLen] at hi
      have h1 : rd src i = .ok (ix src i) := rd_getD 0 (by omega)
      have h2 : rd m.cellVolumes i = .ok (m.vol i) := rd_getD 0 (by rw [h.volLen]; exact hi)
      simp [h1, h2])
  refine ⟨{ ls with rhs := ls.rhs.mapIdx fun i x => if 0 ≤ i ∧ i < ls.rhs.length then x - ix src i * m.vol i else x }, ⟨⟨ho.cols, ho.rowsEq, ho.vals, by simpa using ho.rhsLen⟩,
    fun s _ => by simp, fun c hc => ?_⟩, fun out => ?_⟩
  · have : c < ls.rhs.length := by rw [ho.rhsLen]; exact hc
    simp [List.getD, this, sub_eq_add_neg]
  · exact NR.bind_iff hdet out

theorem explicitN_det {heap : OpHeap K V} [AddCommGroup V] [Module K V] {eqn : Expr} {n : Nat} {val : Nat → V}
    (hx : AddsTo n (eqn.explicitOperation heap) val) (out : Res (List V)) :
    eqn.explicitOperationN heap n out ↔ out = .ok ((List.range n).map val) := by
  unfold Expr.explicitOperationN
  rw [hx _ (by simp)]
  have : ((List.range n).map fun c => (List.replicate n (0 : V)).getD c 0 + val c) = (List.range n).map val := by
    apply List.map_congr_left
    intro c hc
    rw [replicate_getD, zero_add]
  rw [this]

/-- What the residual gains from an assembly. -/
theorem Assembles.implicit (h : m.WF) (hp : sp.For m) {ls ls' : LinearSystem K} (ho : ls.On sp m) {dv : Slot → K} {dr : Nat → K}
    (ha : Assembles m sp ls ls' dv dr) (x : Nat → K) {c : Nat} (hc : c < m.nCells) :
    ls'.residual x c = ls.residual x c + implicitResidual m dv dr x c := ha.residual h hp ho x hc

theorem implicitResidual_add (dv dv' : Slot → K) (dr dr' : Nat → K) (x : Nat → K) (c : Nat) :
    implicitResidual m (fun s => dv s + dv' s) (fun i => dr i + dr' i) x c
      = implicitResidual m dv dr x c + implicitResidual m dv' dr' x c := by
  unfold implicitResidual
  have e1 : ∀ (P : Nat → Prop) [DecidablePred P] (a b : Nat → K) (y : Nat → K), (∑ f ∈ range m.nInternalFaces, if P f then (a f + b f) * y f else 0)
      = (∑ f ∈ range m.nInternalFaces, if P f then a f * y f else 0) + ∑ f ∈ range m.nInternalFaces, if P f then b f * y f else 0 := by
    intro P _ a b y
    rw [← Finset.sum_add_distrib]
    apply Finset.sum_congr rfl
    intro f _
    split <;> ring
  rw [e1 (fun f => m.own f = c) (fun f => dv (.upper f)) (fun f => dv' (.upper f)) (fun f => x (m.nbr f)),
    e1 (fun f => m.nbr f = c) (fun f => dv (.lower f)) (fun f => dv' (.lower f)) (fun f => x (m.own f))]
  ring

theorem implicitResidual_source (g : Nat → K) (x : Nat → K) (c : Nat) :
    implicitResidual m (fun _ => 0) (fun i => -(g i)) x c = g c := by
  simp [implicitResidual]

/-- The system of a steady expression, when the pattern that is built is the one the operators use. -/
theorem steadySystem_det (h : m.WF) (hp : sp.For m) (e : ExecKind) (hu : ∀ out, sparsityUpdate e m out ↔ out = .ok sp)
    {heap : OpHeap K K} {eqn : Expr} {dv : Slot → K} {dr val : Nat → K}
    (hi : AssemblesTo m sp (eqn.implicitOperation heap) dv dr) (hx : AddsTo m.nCells (eqn.explicitOperation heap) val) :
    ∃ ls : LinearSystem K, (∀ out, steadySystem e m heap eqn out ↔ out = .ok ls) ∧ ls.On sp m ∧
      ∀ x, ∀ c < m.nCells, ls.residual x c = implicitResidual m dv dr x c + m.vol c * val c := by
  obtain ⟨l0, h0, on0, r0⟩ := empty_on (K := K) h hp
  obtain ⟨l1, a1, d1⟩ := hi l0 on0
  obtain ⟨l2, a2, d2⟩ := subtractSource_det h e (src := (List.range m.nCells).map val) (by simp) l1 a1.on
  refine ⟨l2, fun out => ?_, a2.on, fun x c hc => ?_⟩
  · unfold steadySystem
    refine Iff.trans (NR.bind_iff hu out) ?_
    refine Iff.trans (NR.bind_iff (a := l0) (fun o => by rw [h0]; exact Iff.rfl) out) ?_
    refine Iff.trans (NR.bind_iff d1 out) ?_
    refine Iff.trans (NR.bind_iff (explicitN_det hx) out) ?_
    exact d2 out
  · rw [a2.implicit h hp a1.on x hc, a1.implicit h hp on0 x hc, r0, zero_add,
      implicitResidual_source (m := m) (fun i => ix ((List.range m.nCells).map val) i * m.vol i)]
    simp only [ix]
    rw [getD_range_map _ _ _ hc]
    ring

/-- The system of a backward Euler step. -/
theorem eulerSystem_det (h : m.WF) (hp : sp.For m) (e : ExecKind) (hu : ∀ out, sparsityUpdate e m out ↔ out = .ok sp)
    {heap : OpHeap K K} {eqn : Expr} {dv dvT : Slot → K} {dr drT : Nat → K} {t dt : K}
    (hi : AssemblesTo m sp (eqn.implicitOperation heap) dv dr) (hT : AssemblesTo m sp (eqn.implicitOperationT heap t dt) dvT drT) :
    ∃ ls : LinearSystem K, (∀ out, eulerSystem e m heap eqn t dt out ↔ out = .ok ls) ∧ ls.On sp m ∧
      ∀ x, ∀ c < m.nCells, ls.residual x c = implicitResidual m dv dr x c + implicitResidual m dvT drT x c := by
  obtain ⟨l0, h0, on0, r0⟩ := empty_on (K := K) h hp
  obtain ⟨l1, a1, d1⟩ := hi l0 on0
  obtain ⟨l2, a2, d2⟩ := hT l1 a1.on
  refine ⟨l2, fun out => ?_, a2.on, fun x c hc => ?_⟩
  · unfold eulerSystem
    refine Iff.trans (NR.bind_iff hu out) ?_
    refine Iff.trans (NR.bind_iff (a := l0) (fun o => by rw [h0]; exact Iff.rfl) out) ?_
    refine Iff.trans (NR.bind_iff d1 out) ?_
    exact d2 out
  · rw [a2.implicit h hp a1.on x hc, a1.implicit h hp on0 x hc, r0, zero_add]

end
end NeoFOAM
