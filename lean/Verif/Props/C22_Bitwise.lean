import Verif.Proofs.Races
import Verif.Props.C22_Lost
import Verif.Props.C84_FloatAssembly

/-!
# C22 – off-diagonal coefficients, bit by bit

No law of arithmetic is used, so the statements hold for floating point as it is: on every mesh, executor and interleaving the off-diagonal
coefficients are the old ones plus one term, computed in one fixed way.
-/
namespace NeoFOAM
open Finset
variable {F : Type} {m : Mesh F} {sp : SparsityPattern}

section proofs
variable [Zero F]

/-- Boundary loops do not touch off-diagonal coefficients. -/
theorem diagLoop_frame (h : m.WF) (hp : sp.For m) (e : ExecKind) (start stop : Nat) (cell : Nat → Nat) (body : Nat → Res (List (Act LSArr F)))
    (fd fr : Nat → F → F) (ls : LinearSystem F) (ho : ls.On sp m) (hcell : ∀ i, start ≤ i → i < stop → cell i < m.nCells)
    (hb : ∀ i, start ≤ i → i < stop → body i = .ok (Act.plain i .values (sp.addr m (.diag (cell i))) (fd i) ++ Act.plain i .rhs (cell i) (fr i))) :
    (launchLS e start stop body ls).Ok (fun ls' => ls'.On sp m ∧
      ∀ s : Slot, s.Valid m → (∀ c, s ≠ .diag c) → ls'.matrix.val (sp.addr m s) = ls.matrix.val (sp.addr m s)) := by
  refine NR.Ok.bind (launch_lost e start stop (fun t => [(LSArr.values, sp.addr m (.diag (cell t))), (LSArr.rhs, cell t)])
    (fun t L => match L.1 with | .values => fd t | .rhs => fr t) (fun a => match a with | .values => ls.matrix.values | .rhs => ls.rhs) ?_ ?_ body ?_) ?_
  · intro t _ _; simp
  · intro t h1 h2 L hL
    simp only [List.mem_cons, List.not_mem_nil, or_false] at hL
    rcases hL with rfl | rfl
    · show _ < ls.matrix.values.length
      rw [ho.vals]; exact hp.addr_lt h (show (Slot.diag (cell t)).Valid m from hcell t h1 h2)
    · show _ < ls.rhs.length
      rw [ho.rhsLen]; exact hcell t h1 h2
  · intro t h1 h2
    rw [hb t h1 h2]
    simp [plains]
  · rintro g ⟨g1, g2⟩
    refine NR.Ok.pure ⟨⟨ho.cols, ho.rowsEq, (g1 .values).trans ho.vals, (g1 .rhs).trans ho.rhsLen⟩, fun s hs hne => ?_⟩
    obtain ⟨σ, -, s2, -, s4⟩ := g2 .values (sp.addr m s)
    have hnil : σ = [] := by
      rw [List.eq_nil_iff_forall_not_mem]
      intro t ht
      obtain ⟨h1, h2, h3⟩ := s2 t ht
      simp only [List.mem_cons, Prod.mk.injEq, true_and, reduceCtorEq, false_and, List.not_mem_nil, or_false] at h3
      exact hne _ (hp.adr.inj s (.diag (cell t)) hs (hcell t h1 h2) h3)
    subst hnil
    show (g .values).getD (sp.addr m s) 0 = ls.matrix.values.getD (sp.addr m s) 0
    rw [List.getD_eq_getElem?_getD, List.getD_eq_getElem?_getD, s4]
    show (Option.map _ (ls.matrix.values[sp.addr m s]?)).getD 0 = _
    simp

/-- The loop over internal faces adds one term to each off-diagonal coefficient. -/
theorem faceLoop_offdiag [Add F] [Sub F] (h : m.WF) (hp : sp.For m) (e : ExecKind) (body : Nat → Res (List (Act LSArr F))) (lo up sOwn sNei : Nat → F)
    (hb : ∀ f < m.nInternalFaces, body f = .ok (Act.plain f .values (sp.addr m (.lower f)) (· + lo f)
      ++ [Act.atomicSub .values (sp.addr m (.diag (m.own f))) (sOwn f)]
      ++ Act.plain f .values (sp.addr m (.upper f)) (· + up f)
      ++ [Act.atomicSub .values (sp.addr m (.diag (m.nbr f))) (sNei f)])) (ls : LinearSystem F) (ho : ls.On sp m) :
    (launchLS e 0 m.nInternalFaces body ls).Ok (fun ls' => ls'.On sp m ∧ ∀ f < m.nInternalFaces,
      ls'.matrix.val (sp.addr m (.upper f)) = ls.matrix.val (sp.addr m (.upper f)) + up f ∧
      ls'.matrix.val (sp.addr m (.lower f)) = ls.matrix.val (sp.addr m (.lower f)) + lo f) := by
  set R : LSArr → Nat → F → ℤ → Prop := fun a p x g => ∀ f < m.nInternalFaces,
    (a = .values → p = sp.addr m (.upper f) → (g = 0 → x = ls.matrix.val p) ∧ (g = 1 → x = ls.matrix.val p + up f) ∧ 0 ≤ g) ∧
    (a = .values → p = sp.addr m (.lower f) → (g = 0 → x = ls.matrix.val p) ∧ (g = 1 → x = ls.matrix.val p + lo f) ∧ 0 ≤ g) with hR
  have inj : ∀ {s t : Slot}, s.Valid m → t.Valid m → sp.addr m s = sp.addr m t → s = t := fun hs ht he => hp.adr.inj _ _ hs ht he
  have hab : SysRel R ls (⟨⟨List.replicate ls.matrix.values.length 0, ls.matrix.colIdxs, ls.matrix.rowOffs⟩, List.replicate ls.rhs.length 0⟩ : LinearSystem ℤ) := by
    refine ⟨rfl, rfl, ⟨by simp, fun i h1 h2 f hf => ?_⟩, ⟨by simp, fun i h1 h2 f hf => ⟨(fun h => nomatch h), (fun h => nomatch h)⟩⟩⟩
    have : ls.matrix.values[i] = ls.matrix.val i := by simp [CSR.val, h1]
    simp [this]
  refine (faceLoop_rel (R := R) (G := ℤ) h hp e body lo up sOwn sNei hb (fun _ => 1) (fun _ => 1) (fun _ => 0) (fun _ => 0) ?_ ?_ ?_ ?_ hab (hab.on ho)).mono ?_
  · intro f hf x g hx f' hf'
    refine ⟨fun _ he => absurd (inj (show (Slot.lower f).Valid m from hf) (show (Slot.upper f').Valid m from hf') he) (by simp), fun _ he => ?_⟩
    obtain ⟨k1, -, k3⟩ := (hx f' hf').2 rfl he
    have : f = f' := by simpa using inj (show (Slot.lower f).Valid m from hf) (show (Slot.lower f').Valid m from hf') he
    refine ⟨fun h0 => by omega, fun h1 => ?_, by omega⟩
    rw [k1 (by omega), this]
  · intro f hf x g hx f' hf'
    refine ⟨fun _ he => ?_, fun _ he => absurd (inj (show (Slot.upper f).Valid m from hf) (show (Slot.lower f').Valid m from hf') he) (by simp)⟩
    obtain ⟨k1, -, k3⟩ := (hx f' hf').1 rfl he
    have : f = f' := by simpa using inj (show (Slot.upper f).Valid m from hf) (show (Slot.upper f').Valid m from hf') he
    refine ⟨fun h0 => by omega, fun h1 => ?_, by omega⟩
    rw [k1 (by omega), this]
  · intro f hf x g hx f' hf'
    exact ⟨fun _ he => absurd (inj (show (Slot.diag (m.own f)).Valid m from h.own_lt_int hf) (show (Slot.upper f').Valid m from hf') he) (by simp),
      fun _ he => absurd (inj (show (Slot.diag (m.own f)).Valid m from h.own_lt_int hf) (show (Slot.lower f').Valid m from hf') he) (by simp)⟩
  · intro f hf x g hx f' hf'
    exact ⟨fun _ he => absurd (inj (show (Slot.diag (m.nbr f)).Valid m from h.nbr_lt f hf) (show (Slot.upper f').Valid m from hf') he) (by simp),
      fun _ he => absurd (inj (show (Slot.diag (m.nbr f)).Valid m from h.nbr_lt f hf) (show (Slot.lower f').Valid m from hf') he) (by simp)⟩
  · rintro ls' ⟨g, hg, ha⟩
    have hon : ls'.On sp m := hg.on' ha.on
    refine ⟨hon, fun f hf => ?_⟩
    have hu : (Slot.upper f).Valid m := hf
    have hl : (Slot.lower f).Valid m := hf
    have get : ∀ s : Slot, s.Valid m → R .values (sp.addr m s) (ls'.matrix.val (sp.addr m s)) (g.matrix.val (sp.addr m s)) := by
      intro s hs
      have h1 : sp.addr m s < ls'.matrix.values.length := by rw [hon.vals]; exact hp.addr_lt h hs
      have h2 : sp.addr m s < g.matrix.values.length := by rw [hg.vals.1]; exact h1
      have := hg.vals.2 _ h1 h2
      rwa [show ls'.matrix.values[sp.addr m s] = ls'.matrix.val (sp.addr m s) by simp [CSR.val, h1],
        show g.matrix.values[sp.addr m s] = g.matrix.val (sp.addr m s) by simp [CSR.val, h2]] at this
    have z : ∀ s : Slot, s.Valid m → (⟨⟨List.replicate ls.matrix.values.length 0, ls.matrix.colIdxs, ls.matrix.rowOffs⟩, List.replicate ls.rhs.length 0⟩ : LinearSystem ℤ).matrix.val (sp.addr m s) = 0 := by
      intro s _
      simp only [CSR.val, List.getD_eq_getElem?_getD, List.getElem?_replicate]
      split <;> rfl
    refine ⟨((get _ hu f hf).1 rfl rfl).2.1 ?_, ((get _ hl f hf).2 rfl rfl).2.1 ?_⟩
    · rw [ha.coef _ hu, z _ hu]; rfl
    · rw [ha.coef _ hl, z _ hl]; rfl

end proofs

section
variable [Zero F] [Add F] [Sub F] [Mul F] [Div F] [Neg F] [One F]

/-- **C22, Laplacian, off-diagonal coefficients, bit by bit**: every mesh, executor and interleaving; no law of arithmetic. -/
theorem C22_laplacian_bits (h : m.WF) (hp : sp.For m) {φ : VolField F F} (hφ : φ.On m) {δ gamma : List F}
    (hδ : δ.length = m.nFaces) (hg : gamma.length = m.nFaces) {scal : Coeff F} {s : Nat → F} (hs : scal.On m.nCells s)
    (ls : LinearSystem F) (ho : ls.On sp m) (e : ExecKind) (out : Res (LinearSystem F)) (hout : computeLaplacianImpl e m sp δ gamma φ scal ls out) :
    ∃ ls', out = .ok ls' ∧ ls'.On sp m ∧ ∀ f < m.nInternalFaces,
      ls'.matrix.val (sp.addr m (.upper f)) = ls.matrix.val (sp.addr m (.upper f)) + ix δ f * ix gamma f * ix m.magFaceAreas f * s (m.own f) ∧
      ls'.matrix.val (sp.addr m (.lower f)) = ls.matrix.val (sp.addr m (.lower f)) + ix δ f * ix gamma f * ix m.magFaceAreas f * s (m.nbr f) := by
  have hfa := h.faces
  have key : (computeLaplacianImpl e m sp δ gamma φ scal ls).Ok (fun ls' => ls'.On sp m ∧ ∀ f < m.nInternalFaces,
      ls'.matrix.val (sp.addr m (.upper f)) = ls.matrix.val (sp.addr m (.upper f)) + ix δ f * ix gamma f * ix m.magFaceAreas f * s (m.own f) ∧
      ls'.matrix.val (sp.addr m (.lower f)) = ls.matrix.val (sp.addr m (.lower f)) + ix δ f * ix gamma f * ix m.magFaceAreas f * s (m.nbr f)) := by
    unfold computeLaplacianImpl
    refine (faceLoop_offdiag h hp e _ _ _ _ _ (fun f hf => lapImpInternal_acts h hp hδ hg hs ho.rowsEq f hf) ls ho).bind ?_
    rintro ls1 ⟨o1, v1⟩
    refine (diagLoop_frame h hp e m.nInternalFaces gamma.length (fun f => m.fc (f - m.nInternalFaces)) _ _ _ ls1 o1 (fun i h1 h2 => h.fc_lt _ (by omega))
      (fun f h1 h2 => lapImpBoundary_acts h hp hφ hδ hg hs o1.rowsEq f h1 (by omega))).mono ?_
    rintro ls2 ⟨o2, v2⟩
    refine ⟨o2, fun f hf => ?_⟩
    rw [v2 _ (show (Slot.upper f).Valid m from hf) (by simp), v2 _ (show (Slot.lower f).Valid m from hf) (by simp)]
    exact v1 f hf
  exact key out hout

/-- **C22, divergence, off-diagonal coefficients, bit by bit**: likewise. -/
theorem C22_div_bits [LinearOrder F] (h : m.WF) (hp : sp.For m) {φ : VolField F F} (hφ : φ.On m) {flux : List F}
    (hfl : flux.length = m.nFaces) {scal : Coeff F} {s : Nat → F} (hs : scal.On m.nCells s)
    (ls : LinearSystem F) (ho : ls.On sp m) (e : ExecKind) (out : Res (LinearSystem F)) (hout : computeDivImp e m sp flux φ scal ls out) :
    ∃ ls', out = .ok ls' ∧ ls'.On sp m ∧ ∀ f < m.nInternalFaces,
      ls'.matrix.val (sp.addr m (.upper f)) = ls.matrix.val (sp.addr m (.upper f)) + ix flux f * (1 - (if 0 ≤ ix flux f then 1 else 0)) * s (m.own f) ∧
      ls'.matrix.val (sp.addr m (.lower f)) = ls.matrix.val (sp.addr m (.lower f)) + -(if 0 ≤ ix flux f then 1 else 0) * ix flux f * s (m.nbr f) := by
  have hfa := h.faces
  have key : (computeDivImp e m sp flux φ scal ls).Ok (fun ls' => ls'.On sp m ∧ ∀ f < m.nInternalFaces,
      ls'.matrix.val (sp.addr m (.upper f)) = ls.matrix.val (sp.addr m (.upper f)) + ix flux f * (1 - (if 0 ≤ ix flux f then 1 else 0)) * s (m.own f) ∧
      ls'.matrix.val (sp.addr m (.lower f)) = ls.matrix.val (sp.addr m (.lower f)) + -(if 0 ≤ ix flux f then 1 else 0) * ix flux f * s (m.nbr f)) := by
    unfold computeDivImp
    refine (faceLoop_offdiag h hp e _ _ _ _ _ (fun f hf => divImpInternal_acts h hp hfl hs ho.rowsEq f hf) ls ho).bind ?_
    rintro ls1 ⟨o1, v1⟩
    refine (diagLoop_frame h hp e m.nInternalFaces flux.length (fun f => m.fc (f - m.nInternalFaces)) _ _ _ ls1 o1 (fun i h1 h2 => h.fc_lt _ (by omega))
      (fun f h1 h2 => divImpBoundary_acts h hp hφ hfl hs o1.rowsEq f h1 (by omega))).mono ?_
    rintro ls2 ⟨o2, v2⟩
    refine ⟨o2, fun f hf => ?_⟩
    rw [v2 _ (show (Slot.upper f).Valid m from hf) (by simp), v2 _ (show (Slot.lower f).Valid m from hf) (by simp)]
    exact v1 f hf
  exact key out hout

/-- **C22, exact symmetry in floating point**: if the old coefficients at `(own, nbr)` and `(nbr, own)` of a face agree and so does the scaling in its two
cells, the new ones agree to the last bit – whatever the arithmetic, executor and interleaving. -/
theorem C22_symmetric_bits (h : m.WF) (hp : sp.For m) {φ : VolField F F} (hφ : φ.On m) {δ gamma : List F}
    (hδ : δ.length = m.nFaces) (hg : gamma.length = m.nFaces) {scal : Coeff F} {s : Nat → F} (hs : scal.On m.nCells s)
    (ls ls' : LinearSystem F) (ho : ls.On sp m) (e : ExecKind) (hout : computeLaplacianImpl e m sp δ gamma φ scal ls (.ok ls'))
    (f : Nat) (hf : f < m.nInternalFaces) (hsym : ls.matrix.val (sp.addr m (.upper f)) = ls.matrix.val (sp.addr m (.lower f))) (hss : s (m.own f) = s (m.nbr f)) :
    ls'.matrix.val (sp.addr m (.upper f)) = ls'.matrix.val (sp.addr m (.lower f)) := by
  obtain ⟨l2, k2, -, a⟩ := C22_laplacian_bits h hp hφ hδ hg hs ls ho e _ hout
  cases k2
  rw [(a f hf).1, (a f hf).2, hsym, hss]

end

/-- The hypotheses can be met in `double`: three cells in a row, coefficient one third. -/
example (e : ExecKind) : ∃ (sp : SparsityPattern) (A : LinearSystem (BinFloat 53)), sp.For floatRow ∧ A.On sp floatRow ∧ floatRowField.On floatRow ∧
    (Coeff.ofScalar third).On floatRow.nCells (fun _ => third) ∧ ∃ out, computeLaplacianImpl e floatRow sp [1, 1, 1, 1] [1, 1, 1, 1] floatRowField (Coeff.ofScalar third) A out := by
  obtain ⟨sp, -, hp, -⟩ := exists_system row3 row3_wf row3_deg .serial
  have hp : sp.For floatRow := exact_for (val := fun x : ℚ => if x = 0 then (0 : BinFloat 53) else 1) hp
  refine ⟨sp, ⟨⟨List.replicate sp.colIdxs.length 0, sp.colIdxs, sp.rowPtrs⟩, List.replicate 3 0⟩, hp, ⟨rfl, rfl, by simp, by simp; rfl⟩, floatRowField_on, fun _ _ => rfl, ?_⟩
  exact NR.Runs.bind (NR.Runs.bind (launch_runs _ _ _ _ _) (fun _ _ => NR.Runs.pure _)) (fun _ _ => NR.Runs.bind (launch_runs _ _ _ _ _) (fun _ _ => NR.Runs.pure _))

end NeoFOAM
