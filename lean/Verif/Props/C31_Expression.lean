import Verif.Proofs.Expression
import Verif.Props.C19_ImplicitDiv
import Verif.Props.C23_Ddt

/-!
# C31 – expression algebra is linear in its terms

Holds for every composition of operators whose result is proportional to their coefficient. The explicit time
derivative is not: it ignores its coefficient (`C31_ddt_violation`).
-/
namespace NeoFOAM
open Finset
variable {K V : Type} [Field K]

section eval
variable [AddCommGroup V] [Module K V]

/-- The explicit part of operator `o` contributes `val i` in cell `i`, in proportion to its coefficient: with any other
coefficient `c` it contributes `c i • base i`. Implicit operators contribute nothing. -/
def ExplTerm (n : Nat) (t dt : K) (o : OpModel K V) (val : Nat → V) : Prop :=
  ∃ (v : Nat → K) (base : Nat → V), o.coeff.On n v ∧ (∀ i, val i = v i • base i) ∧
    ∀ (c : Coeff K) (v' : Nat → K), c.On n v' →
      AddsTo n (fun src => explStep t dt src { o with coeff := c }) (fun i => v' i • base i)

/-- The implicit part of operator `o` contributes `dv s` to the coefficient of entry `s` and `dr i` to the right hand
side of cell `i`, in proportion to its coefficient in the row's cell. -/
def ImplTerm (m : Mesh K) (sp : SparsityPattern) (t dt : K) (o : OpModel K K) (dv : Slot → K) (dr : Nat → K) : Prop :=
  ∃ (v : Nat → K) (bv : Slot → K) (br : Nat → K), o.coeff.On m.nCells v ∧ (∀ s, dv s = v (s.row m) * bv s) ∧ (∀ i, dr i = v i * br i) ∧
    ∀ (c : Coeff K) (v' : Nat → K), c.On m.nCells v' →
      AssemblesTo m sp (fun ls => implStep t dt ls { o with coeff := c }) (fun s => v' (s.row m) * bv s) (fun i => v' i * br i)

theorem ExplTerm.scales {n : Nat} {t dt : K} {o : OpModel K V} {val : Nat → V} (h : ExplTerm n t dt o val) :
    ScalesWith n id (fun o val => AddsTo n (fun src => explStep t dt src o) val) o val := h

theorem explOps_adds {n : Nat} {t dt : K} : ∀ {os : List (OpModel K V)} {total : Nat → V},
    SumsTo n id (fun o val => AddsTo n (fun src => explStep t dt src o) val) os total → AddsTo n (explOps t dt os) total
  | [], total, ⟨vals, h1, h2⟩ => by
    cases h1
    intro src hsrc out
    have : ((List.range n).map fun c => src.getD c 0 + total c) = src := by
      simp only [h2]
      exact (list_eq_range_map hsrc (fun i _ => by simp)).symm
    rw [this]
    exact Iff.rfl
  | o :: os, total, ⟨vals, h1, h2⟩ => by
    cases h1 with
    | @cons _ v _ vals a b =>
    intro src hsrc out
    have ha := a.holds
    have hb := explOps_adds (os := os) ⟨vals, b, fun i => rfl⟩
    unfold explOps
    rw [List.foldlM_cons]
    refine Iff.trans (NR.bind_iff (ha src hsrc) out) ?_
    refine Iff.trans (hb _ (by simp) out) ?_
    have : ((List.range n).map fun c => ((List.range n).map fun c => src.getD c 0 + v c).getD c 0 + (vals.map fun v => v c).sum)
        = (List.range n).map fun c => src.getD c 0 + total c := by
      apply List.map_congr_left
      intro c hc
      rw [getD_range_map _ _ _ (List.mem_range.1 hc), add_assoc, h2]
      simp
    rw [this]

end eval

/-- The two parts of an assembly as one function. -/
abbrev ImplP (m : Mesh K) (sp : SparsityPattern) (t dt : K) (o : OpModel K K) (val : Slot ⊕ Nat → K) : Prop :=
  AssemblesTo m sp (fun ls => implStep t dt ls o) (fun s => val (.inl s)) (fun i => val (.inr i))

theorem ImplTerm.scales {m : Mesh K} {sp : SparsityPattern} {t dt : K} {o : OpModel K K} {dv : Slot → K} {dr : Nat → K}
    (h : ImplTerm m sp t dt o dv dr) :
    ScalesWith m.nCells (Sum.elim (Slot.row m) id) (ImplP m sp t dt) o (Sum.elim dv dr) := by
  obtain ⟨v, bv, br, h1, h2, h3, h4⟩ := h
  refine ⟨v, Sum.elim bv br, h1, ?_, fun c v' hc => h4 c v' hc⟩
  rintro (s | i)
  · exact h2 s
  · exact h3 i

theorem implOps_adds {m : Mesh K} {sp : SparsityPattern} {t dt : K} : ∀ {os : List (OpModel K K)} {total : Slot ⊕ Nat → K},
    SumsTo m.nCells (Sum.elim (Slot.row m) id) (ImplP m sp t dt) os total →
    AssemblesTo m sp (implOps t dt os) (fun s => total (.inl s)) (fun i => total (.inr i))
  | [], total, ⟨vals, h1, h2⟩ => by
    cases h1
    intro ls ho
    exact ⟨ls, ⟨ho, fun s _ => by simp [h2], fun c _ => by simp [h2]⟩, fun out => Iff.rfl⟩
  | o :: os, total, ⟨vals, h1, h2⟩ => by
    cases h1 with
    | @cons _ v _ vals a b =>
    intro ls ho
    obtain ⟨l1, a1, d1⟩ := a.holds ls ho
    obtain ⟨l2, a2, d2⟩ := implOps_adds (os := os) (total := fun i => (vals.map fun v => v i).sum) ⟨vals, b, fun i => rfl⟩ l1 a1.on
    refine ⟨l2, (a1.trans a2).congr (fun s _ => by simp [h2]) (fun c _ => by simp [h2]), fun out => ?_⟩
    unfold implOps
    rw [List.foldlM_cons]
    exact Iff.trans (NR.bind_iff d1 out) (d2 out)

/-- **C31, composition**: for every composition of existing operators in which no operator gets two field factors,
composing succeeds; it keeps all existing operators as they are; a composed expression refers only to new operators,
each once; its size is the number of terms. -/
theorem C31_compose (s : OpHeap K V) (t : ExT K) (n : Nat) (hl : ∀ k, ∀ h ∈ t.leaves k, h < s.length) (hf : t.FieldsOK s n) :
    ∃ e s', t.build s = .ok (e, s') ∧ s <+: s' ∧ e.size = t.terms ∧
      (t.isVar = false → (∀ h ∈ e.temporal ++ e.spatial, s.length ≤ h ∧ h < s'.length) ∧ (e.temporal ++ e.spatial).Nodup) := by
  obtain ⟨T, hT⟩ := ExT.denote_ok .temporal t hl hf
  obtain ⟨S, hS⟩ := ExT.denote_ok .spatial t hl hf
  obtain ⟨e, s', he, hp, hh, hfr⟩ := ExT.build_gives t T S hT hS s List.prefix_rfl
  refine ⟨e, s', he, hp, ?_, fun hv => ⟨fun h hm => (hfr hv).new h hm, (hfr hv).nodup⟩⟩
  have key : ∀ (t : ExT K) (T S : List (OpModel K V)), t.denote s .temporal = .ok T → t.denote s .spatial = .ok S →
      T.length + S.length = t.terms := by
    intro t
    induction t with
    | obj e =>
      intro T S h1 h2
      have := (ats_of_derefs h1).length_eq
      have := (ats_of_derefs h2).length_eq
      simp only [ExT.terms] at *
      omega
    | one a =>
      intro T S h1 h2
      simp only [ExT.denote, Res.bind_eq_ok] at h1 h2
      obtain ⟨o, ho, h1⟩ := h1
      obtain ⟨o', ho', h2⟩ := h2
      cases h1; cases h2
      cases hs : a.sort <;> simp [OpT.only, ExT.terms]
    | addOO a b =>
      intro T S h1 h2
      simp only [ExT.denote, Res.bind_eq_ok] at h1 h2
      obtain ⟨o, ho, p, hp, h1⟩ := h1
      obtain ⟨o', ho', p', hp', h2⟩ := h2
      cases h1; cases h2
      cases hs : a.sort <;> cases hs : b.sort <;> simp [OpT.only, ExT.terms]
    | subOO a b =>
      intro T S h1 h2
      simp only [ExT.denote, Res.bind_eq_ok] at h1 h2
      obtain ⟨o, ho, p, hp, c, hc, h1⟩ := h1
      obtain ⟨o', ho', p', hp', c', hc', h2⟩ := h2
      cases h1; cases h2
      cases hs : a.sort <;> cases hs : b.sort <;> simp [OpT.only, ExT.terms]
    | addEE x y ihx ihy =>
      intro T S h1 h2
      simp only [ExT.denote, Res.bind_eq_ok] at h1 h2
      obtain ⟨o, ho, p, hp, h1⟩ := h1
      obtain ⟨o', ho', p', hp', h2⟩ := h2
      cases h1; cases h2
      have := ihx _ _ ho ho'
      have := ihy _ _ hp hp'
      simp only [ExT.terms, List.length_append]
      omega
    | subEE x y ihx ihy =>
      intro T S h1 h2
      simp only [ExT.denote, Res.bind_eq_ok] at h1 h2
      obtain ⟨o, ho, p, hp, h1⟩ := h1
      obtain ⟨o', ho', p', hp', h2⟩ := h2
      cases h1; cases h2
      have := ihx _ _ ho ho'
      have := ihy _ _ hp hp'
      simp only [ExT.terms, List.length_append, List.length_map]
      omega
    | addEO x b hb ihx =>
      intro T S h1 h2
      simp only [ExT.denote, Res.bind_eq_ok] at h1 h2
      obtain ⟨o, ho, p, hp, h1⟩ := h1
      obtain ⟨o', ho', p', hp', h2⟩ := h2
      cases h1; cases h2
      have := ihx _ _ ho ho'
      simp [OpT.only, ExT.terms]
      omega
    | subEO x b hb ihx =>
      intro T S h1 h2
      simp only [ExT.denote, Res.bind_eq_ok] at h1 h2
      obtain ⟨o, ho, p, hp, h1⟩ := h1
      obtain ⟨o', ho', p', hp', h2⟩ := h2
      cases h1; cases h2
      have := ihx _ _ ho ho'
      simp [OpT.only, ExT.terms]
      omega
    | smul r x ihx =>
      intro T S h1 h2
      simp only [ExT.denote, Res.bind_eq_ok] at h1 h2
      obtain ⟨o, ho, h1⟩ := h1
      obtain ⟨o', ho', h2⟩ := h2
      cases h1; cases h2
      have := ihx _ _ ho ho'
      simpa [ExT.terms] using this
  have := hh.temporal.length_eq
  have := hh.spatial.length_eq
  have := key t T S hT hS
  unfold Expr.size
  omega

/-- **C31, explicit evaluation**: the spatial part adds to any source the signed, scaled sum of what the explicit
spatial operators contribute, the temporal part that of the temporal operators. -/
theorem C31_explicit_partial [AddCommGroup V] [Module K V] (s : OpHeap K V) (t : ExT K) (n : Nat)
    (hl : ∀ k, ∀ h ∈ t.leaves k, h < s.length) (hf : t.FieldsOK s n) (e : Expr) (s' : OpHeap K V) (hb : t.build s = .ok (e, s')) :
    (∀ val : Nat → Nat → V, (∀ h ∈ t.leaves .spatial, ∃ o, s[h]? = some o ∧ ExplTerm n 0 0 o (val h)) →
      AddsTo n (e.explicitOperation s') (t.value .spatial id val)) ∧
    (∀ (tm dt : K) (val : Nat → Nat → V), (∀ h ∈ t.leaves .temporal, ∃ o, s[h]? = some o ∧ ExplTerm n tm dt o (val h)) →
      AddsTo n (e.explicitOperationT s' tm dt) (t.value .temporal id val)) := by
  obtain ⟨T, hT⟩ := ExT.denote_ok .temporal t hl hf
  obtain ⟨S, hS⟩ := ExT.denote_ok .spatial t hl hf
  obtain ⟨e', s2, he, hp, hh, hfr⟩ := ExT.build_gives t T S hT hS s List.prefix_rfl
  rw [hb] at he; cases he
  constructor
  · intro val hv src hsrc out
    unfold Expr.explicitOperation
    rw [derefs_ok hh.spatial]
    refine Iff.trans (NR.bind_iff (a := S) (fun o => Iff.rfl) out) ?_
    exact explOps_adds (ExT.denote_sums .spatial t hv hf S hS) src hsrc out
  · intro tm dt val hv src hsrc out
    unfold Expr.explicitOperationT
    rw [derefs_ok hh.temporal]
    refine Iff.trans (NR.bind_iff (a := T) (fun o => Iff.rfl) out) ?_
    exact explOps_adds (ExT.denote_sums .temporal t hv hf T hT) src hsrc out

/-- **C31, implicit assembly**: assembling the composed expression into any system adds to every matrix entry and right
hand side the signed, scaled sum of what the implicit operators add. -/
theorem C31_implicit (m : Mesh K) (sp : SparsityPattern) (s : OpHeap K K) (t : ExT K)
    (hl : ∀ k, ∀ h ∈ t.leaves k, h < s.length) (hf : t.FieldsOK s m.nCells) (e : Expr) (s' : OpHeap K K) (hb : t.build s = .ok (e, s')) :
    (∀ (dv : Nat → Slot → K) (dr : Nat → Nat → K),
      (∀ h ∈ t.leaves .spatial, ∃ o, s[h]? = some o ∧ ImplTerm m sp 0 0 o (dv h) (dr h)) →
      AssemblesTo m sp (e.implicitOperation s') (t.value .spatial (Slot.row m) dv) (t.value .spatial id dr)) ∧
    (∀ (tm dt : K) (dv : Nat → Slot → K) (dr : Nat → Nat → K),
      (∀ h ∈ t.leaves .temporal, ∃ o, s[h]? = some o ∧ ImplTerm m sp tm dt o (dv h) (dr h)) →
      AssemblesTo m sp (e.implicitOperationT s' tm dt) (t.value .temporal (Slot.row m) dv) (t.value .temporal id dr)) := by
  obtain ⟨T, hT⟩ := ExT.denote_ok .temporal t hl hf
  obtain ⟨S, hS⟩ := ExT.denote_ok .spatial t hl hf
  obtain ⟨e', s2, he, hp, hh, hfr⟩ := ExT.build_gives t T S hT hS s List.prefix_rfl
  rw [hb] at he; cases he
  have split : ∀ (k : OpSort) (dv : Nat → Slot → K) (dr : Nat → Nat → K),
      (fun s => t.value k (Sum.elim (Slot.row m) id) (fun h => Sum.elim (dv h) (dr h)) (.inl s)) = t.value k (Slot.row m) dv ∧
      (fun i => t.value k (Sum.elim (Slot.row m) id) (fun h => Sum.elim (dv h) (dr h)) (.inr i)) = t.value k id dr := by
    intro k dv dr
    have op : ∀ a : OpT K, (∀ s, a.value (Sum.elim (Slot.row m) id) (fun h => Sum.elim (dv h) (dr h)) (.inl s) = a.value (Slot.row m) dv s) ∧
        ∀ i, a.value (Sum.elim (Slot.row m) id) (fun h => Sum.elim (dv h) (dr h)) (.inr i) = a.value id dr i := by
      intro a
      induction a with
      | var k h => exact ⟨fun s => rfl, fun i => rfl⟩
      | smul r t ih => exact ⟨fun s => by simp [OpT.value, ih.1 s], fun i => by simp [OpT.value, ih.2 i]⟩
      | cmul r t ih => exact ⟨fun s => by simp [OpT.value, ih.1 s], fun i => by simp [OpT.value, ih.2 i]⟩
      | fmul r t ih => exact ⟨fun s => by simp [OpT.value, ih.1 s], fun i => by simp [OpT.value, ih.2 i]⟩
    have ex : (∀ s, t.value k (Sum.elim (Slot.row m) id) (fun h => Sum.elim (dv h) (dr h)) (.inl s) = t.value k (Slot.row m) dv s) ∧
        ∀ i, t.value k (Sum.elim (Slot.row m) id) (fun h => Sum.elim (dv h) (dr h)) (.inr i) = t.value k id dr i := by
      clear hl hf hb hT hS hfr
      induction t with
      | obj e => exact ⟨fun s => by simp [ExT.value], fun i => by simp [ExT.value]⟩
      | one a => exact ⟨fun s => by simp [ExT.value, OpT.valueOf, (op a).1 s], fun i => by simp [ExT.value, OpT.valueOf, (op a).2 i]⟩
      | addOO a b => exact ⟨fun s => by simp [ExT.value, OpT.valueOf, (op a).1 s, (op b).1 s], fun i => by simp [ExT.value, OpT.valueOf, (op a).2 i, (op b).2 i]⟩
      | subOO a b => exact ⟨fun s => by simp [ExT.value, OpT.valueOf, (op a).1 s, (op b).1 s], fun i => by simp [ExT.value, OpT.valueOf, (op a).2 i, (op b).2 i]⟩
      | addEE x y ihx ihy => exact ⟨fun s => by simp [ExT.value, ihx.1 s, ihy.1 s], fun i => by simp [ExT.value, ihx.2 i, ihy.2 i]⟩
      | subEE x y ihx ihy => exact ⟨fun s => by simp [ExT.value, ihx.1 s, ihy.1 s], fun i => by simp [ExT.value, ihx.2 i, ihy.2 i]⟩
      | addEO x b hb ihx => exact ⟨fun s => by simp [ExT.value, OpT.valueOf, ihx.1 s, (op b).1 s], fun i => by simp [ExT.value, OpT.valueOf, ihx.2 i, (op b).2 i]⟩
      | subEO x b hb ihx => exact ⟨fun s => by simp [ExT.value, OpT.valueOf, ihx.1 s, (op b).1 s], fun i => by simp [ExT.value, OpT.valueOf, ihx.2 i, (op b).2 i]⟩
      | smul r x ihx => exact ⟨fun s => by simp [ExT.value, ihx.1 s], fun i => by simp [ExT.value, ihx.2 i]⟩
    exact ⟨funext ex.1, funext ex.2⟩
  constructor
  · intro dv dr hv ls ho
    have hs := implOps_adds (ExT.denote_sums (n := m.nCells) (loc := Sum.elim (Slot.row m) id) (P := ImplP m sp 0 0)
      (val := fun h => Sum.elim (dv h) (dr h)) .spatial t
      (fun h hm => let ⟨o, a, b⟩ := hv h hm; ⟨o, a, b.scales⟩) hf S hS) ls ho
    rw [(split .spatial dv dr).1, (split .spatial dv dr).2] at hs
    obtain ⟨l2, a2, d2⟩ := hs
    refine ⟨l2, a2, fun out => ?_⟩
    unfold Expr.implicitOperation
    rw [derefs_ok hh.spatial]
    exact Iff.trans (NR.bind_iff (a := S) (fun o => Iff.rfl) out) (d2 out)
  · intro tm dt dv dr hv ls ho
    have hs := implOps_adds (ExT.denote_sums (n := m.nCells) (loc := Sum.elim (Slot.row m) id) (P := ImplP m sp tm dt)
      (val := fun h => Sum.elim (dv h) (dr h)) .temporal t
      (fun h hm => let ⟨o, a, b⟩ := hv h hm; ⟨o, a, b.scales⟩) hf T hT) ls ho
    rw [(split .temporal dv dr).1, (split .temporal dv dr).2] at hs
    obtain ⟨l2, a2, d2⟩ := hs
    refine ⟨l2, a2, fun out => ?_⟩
    unfold Expr.implicitOperationT
    rw [derefs_ok hh.temporal]
    exact Iff.trans (NR.bind_iff (a := T) (fun o => Iff.rfl) out) (d2 out)

/-- **C31, two fields**: multiplying an operator that has a field coefficient by a field stops the program. -/
theorem C31_two_fields_stop (s : OpHeap K V) (h : Nat) (o : OpModel K V) (ho : s[h]? = some o) (hv : o.coeff.hasView = true)
    (f : List K) : opField f h s = .abort := by
  have ho : At s h o := ho
  unfold opField
  rw [HM.bind_run, clone_run ho]
  simp only [Res.ok_bind]
  rw [HM.bind_run, clone_run at_append]
  simp only [Res.ok_bind]
  rw [HM.bind_run]
  have h2 : At (s ++ [o] ++ [o]) (s ++ [o]).length o := at_append
  have : (HM.updCoeff (s ++ [o]).length (fun c' => c'.mul (Coeff.ofField f)) : HM K V Unit) (s ++ [o] ++ [o]) = .abort := by
    unfold HM.updCoeff
    unfold At at h2
    rw [h2]
    simp [Coeff.mul, hv, Coeff.ofField]
  rw [this]
  rfl

/-! ### The concrete operators qualify -/

/-- Implicit operators contribute nothing explicitly. -/
theorem explTerm_implicit [AddCommGroup V] [Module K V] {n : Nat} (t dt : K) {o : OpModel K V} (ht : o.type = .implicit) {v : Nat → K}
    (hv : o.coeff.On n v) : ExplTerm n t dt o (fun _ => 0) := by
  refine ⟨v, fun _ => 0, hv, fun i => by simp, fun c v' hc src hsrc out => ?_⟩
  have : ((List.range n).map fun c => src.getD c 0 + v' c • (0 : V)) = src :=
    (list_eq_range_map hsrc (fun i _ => by simp)).symm
  simp only [this]
  simp [explStep, ht]

/-- Explicit operators contribute nothing implicitly. -/
theorem implTerm_explicit {m : Mesh K} {sp : SparsityPattern} (t dt : K) {o : OpModel K K} (ht : o.type = .explicit) {v : Nat → K}
    (hv : o.coeff.On m.nCells v) : ImplTerm m sp t dt o (fun _ => 0) (fun _ => 0) := by
  refine ⟨v, fun _ => 0, fun _ => 0, hv, fun s => by simp, fun i => by simp, fun c v' hc ls ho => ?_⟩
  exact ⟨ls, ⟨ho, fun s _ => by simp, fun c _ => by simp⟩, fun out => by simp [implStep, ht]⟩

section ops
variable [LinearOrder K] {m : Mesh K}

/-- Divergence. -/
theorem C31_term_div (h : m.WF) (sp : SparsityPattern) {φ : VolField K K} (hφ : φ.On m) {w flux : List K} (hw : w.length = m.nFaces)
    (hfl : flux.length = m.nFaces) (sch : InterpScheme) (e : ExecKind) (junk : Nat → K) {c : Coeff K} {v : Nat → K} (hc : c.On m.nCells v)
    (t dt : K) : ExplTerm m.nCells t dt (divOp e m sp (some sch) w junk flux φ .explicit c)
      (fun i => v i / m.vol i * m.netOutflow (fun f => ix flux f * Mesh.schemeFace sch m (ix w) (ix flux) φ f) i) := by
  refine ⟨v, fun i => 1 / m.vol i * m.netOutflow (fun f => ix flux f * Mesh.schemeFace sch m (ix w) (ix flux) φ f) i, hc, fun i => by
    rw [smul_eq_mul]; ring, fun c' v' hc' => ?_⟩
  obtain ⟨val, hval, ha⟩ := C44_div h hφ hw hfl sch hc'
  have : val = fun i => v' i • (1 / m.vol i * m.netOutflow (fun f => ix flux f * Mesh.schemeFace sch m (ix w) (ix flux) φ f) i) := by
    funext i; rw [hval i]; simp only [smul_eq_mul]; ring
  rw [this] at ha
  exact ha e junk

/-- Surface integral. -/
theorem C31_term_surfaceIntegrate (h : m.WF) {flux : List K} (hfl : flux.length = m.nFaces) (e : ExecKind) {c : Coeff K} {v : Nat → K}
    (hc : c.On m.nCells v) (t dt : K) : ExplTerm m.nCells t dt (surfaceIntegrateOp e m flux c)
      (fun i => v i / m.vol i * m.netOutflow (ix flux) i) := by
  refine ⟨v, fun i => 1 / m.vol i * m.netOutflow (ix flux) i, hc, fun i => by rw [smul_eq_mul]; ring, fun c' v' hc' => ?_⟩
  obtain ⟨val, hval, ha⟩ := C44_surfaceIntegrate h hfl hc'
  have : val = fun i => v' i • (1 / m.vol i * m.netOutflow (ix flux) i) := by
    funext i; rw [hval i]; simp only [smul_eq_mul]; ring
  rw [this] at ha
  exact ha e

/-- Laplacian. -/
theorem C31_term_laplacian (h : m.WF) (sp : SparsityPattern) {φ : VolField K K} (hφ : φ.On m) {δ gamma : List K} (hδ : δ.length = m.nFaces)
    (e : ExecKind) (junk : Nat → K) {c : Coeff K} {v : Nat → K} (hc : c.On m.nCells v) (t dt : K) :
    ExplTerm m.nCells t dt (laplacianOp e m sp true δ junk gamma φ .explicit c)
      (fun i => v i / m.vol i * m.netOutflow (fun f => ix m.magFaceAreas f * m.fnGrad (ix δ) φ f) i) := by
  refine ⟨v, fun i => 1 / m.vol i * m.netOutflow (fun f => ix m.magFaceAreas f * m.fnGrad (ix δ) φ f) i, hc, fun i => by
    rw [smul_eq_mul]; ring, fun c' v' hc' => ?_⟩
  obtain ⟨val, hval, ha⟩ := C44_laplacian (gamma := gamma) h hφ hδ hc'
  have : val = fun i => v' i • (1 / m.vol i * m.netOutflow (fun f => ix m.magFaceAreas f * m.fnGrad (ix δ) φ f) i) := by
    funext i; rw [hval i]; simp only [smul_eq_mul]; ring
  rw [this] at ha
  exact ha e junk

/-- Source term. -/
theorem C31_term_source (sp : SparsityPattern) {φ : VolField K K} (hφ : φ.On m) {k : List K} (hk : k.length = m.nCells) (e : ExecKind)
    {c : Coeff K} {v : Nat → K} (hc : c.On m.nCells v) (t dt : K) :
    ExplTerm m.nCells t dt (sourceOp e m sp k φ .explicit c) (fun i => v i * (ix k i * φ.cell i)) := by
  refine ⟨v, fun i => ix k i * φ.cell i, hc, fun i => rfl, fun c' v' hc' => ?_⟩
  obtain ⟨val, hval, ha⟩ := C44_source hφ hk hc'
  have : val = fun i => v' i • (ix k i * φ.cell i) := by
    funext i; rw [hval i]; simp only [smul_eq_mul]; ring
  rw [this] at ha
  exact ha e

/-- Implicit divergence; on parallel executors for meshes without two boundary faces in one cell. -/
theorem C31_term_div_implicit (h : m.WF) {sp : SparsityPattern} (hp : sp.For m) {φ : VolField K K} (hφ : φ.On m) (w : List K) {flux : List K}
    (hfl : flux.length = m.nFaces) (sch : InterpScheme) (e : ExecKind) (he : e = .serial ∨ m.BndDistinct) (junk : Nat → K) {c : Coeff K}
    {v : Nat → K} (hc : c.On m.nCells v) (t dt : K) : ImplTerm m sp t dt (divOp e m sp (some sch) w junk flux φ .implicit c)
      (divDelta m (ix flux) (ix φ.bVF) v) (divRhs m (ix flux) (ix φ.bVF) (ix φ.bRefValue) v) := by
  have e1 : ∀ (v : Nat → K) s, divDelta m (ix flux) (ix φ.bVF) v s = v (s.row m) * divDelta m (ix flux) (ix φ.bVF) (fun _ => 1) s := by
    intro v s
    cases s <;> simp [divDelta, Slot.row] <;> split <;> ring
  have e2 : ∀ (v : Nat → K) i, divRhs m (ix flux) (ix φ.bVF) (ix φ.bRefValue) v i
      = v i * divRhs m (ix flux) (ix φ.bVF) (ix φ.bRefValue) (fun _ => 1) i := by
    intro v i; simp [divRhs]
  refine ⟨v, _, _, hc, e1 v, e2 v, fun c' v' hc' ls ho => ?_⟩
  obtain ⟨l, a, d⟩ := Assembles.det hp (computeDivImp_ok h hp hφ hfl hc' e he ls ho) (computeDivImp_runs _ _ _ _ _ _ _)
  exact ⟨l, a.congr (fun s _ => e1 v' s) (fun i _ => e2 v' i), d⟩

/-- Implicit Laplacian. -/
theorem C31_term_laplacian_implicit (h : m.WF) {sp : SparsityPattern} (hp : sp.For m) {φ : VolField K K} (hφ : φ.On m) {δ gamma : List K}
    (hδ : δ.length = m.nFaces) (hg : gamma.length = m.nFaces) (e : ExecKind) (he : e = .serial ∨ m.BndDistinct) (junk : Nat → K)
    {c : Coeff K} {v : Nat → K} (hc : c.On m.nCells v) (t dt : K) :
    ImplTerm m sp t dt (laplacianOp e m sp true δ junk gamma φ .implicit c)
      (lapDelta m (ix δ) (ix gamma) (ix φ.bVF) v) (lapRhs m (ix δ) (ix gamma) (ix φ.bVF) (ix φ.bRefValue) (ix φ.bRefGrad) v) := by
  have e1 : ∀ (v : Nat → K) s, lapDelta m (ix δ) (ix gamma) (ix φ.bVF) v s = v (s.row m) * lapDelta m (ix δ) (ix gamma) (ix φ.bVF) (fun _ => 1) s := by
    intro v s
    cases s <;> simp [lapDelta, Slot.row] <;> ring
  have e2 : ∀ (v : Nat → K) i, lapRhs m (ix δ) (ix gamma) (ix φ.bVF) (ix φ.bRefValue) (ix φ.bRefGrad) v i
      = v i * lapRhs m (ix δ) (ix gamma) (ix φ.bVF) (ix φ.bRefValue) (ix φ.bRefGrad) (fun _ => 1) i := by
    intro v i; simp [lapRhs]
  refine ⟨v, _, _, hc, e1 v, e2 v, fun c' v' hc' ls ho => ?_⟩
  obtain ⟨l, a, d⟩ := Assembles.det hp (computeLaplacianImpl_ok h hp hφ hδ hg hc' e he ls ho) (computeLaplacianImpl_runs _ _ _ _ _ _ _ _)
  exact ⟨l, a.congr (fun s _ => e1 v' s) (fun i _ => e2 v' i), d⟩

/-- Implicit source term. -/
theorem C31_term_source_implicit (h : m.WF) {sp : SparsityPattern} (hp : sp.For m) (φ : VolField K K) {k : List K} (hk : k.length = m.nCells)
    (e : ExecKind) {c : Coeff K} {v : Nat → K} (hc : c.On m.nCells v) (t dt : K) :
    ImplTerm m sp t dt (sourceOp e m sp k φ .implicit c) (diagDelta fun i => v i * ix k i * m.vol i) (fun _ => 0) := by
  have e1 : ∀ (v : Nat → K) s, diagDelta (fun i => v i * ix k i * m.vol i) s = v (s.row m) * diagDelta (fun i => 1 * ix k i * m.vol i) s := by
    intro v s
    cases s <;> simp [diagDelta, Slot.row]
    ring
  refine ⟨v, _, fun _ => 0, hc, e1 v, fun i => by simp, fun c' v' hc' ls ho => ?_⟩
  obtain ⟨l, a, d⟩ := Assembles.det hp (sourceImplicit_ok h hp hk hc' e ls ho) (launchLS_runs _ _ _ _ _)
  exact ⟨l, a.congr (fun s _ => e1 v' s) (fun i _ => by simp), d⟩

/-- Implicit time derivative. -/
theorem C31_term_ddt_implicit (h : m.WF) {sp : SparsityPattern} (hp : sp.For m) (φ : VolField K K) {old : List K} (hold : old.length = m.nCells)
    (e : ExecKind) {c : Coeff K} {v : Nat → K} (hc : c.On m.nCells v) (t dt : K) :
    ImplTerm m sp t dt (ddtOp e m sp φ old .implicit c) (diagDelta fun i => v i * m.vol i / dt) (fun i => v i * m.vol i / dt * ix old i) := by
  have e1 : ∀ (v : Nat → K) s, diagDelta (fun i => v i * m.vol i / dt) s = v (s.row m) * diagDelta (fun i => 1 * m.vol i / dt) s := by
    intro v s
    cases s <;> simp [diagDelta, Slot.row]
    ring
  have e2 : ∀ (v : Nat → K) i, v i * m.vol i / dt * ix old i = v i * (m.vol i / dt * ix old i) := by intro v i; ring
  refine ⟨v, _, _, hc, e1 v, e2 v, fun c' v' hc' ls ho => ?_⟩
  obtain ⟨l, a, d⟩ := Assembles.det hp (ddtImplicit_ok h hp hold hc' dt e ls ho) (launchLS_runs _ _ _ _ _)
  exact ⟨l, a.congr (fun s _ => e1 v' s) (fun i _ => e2 v' i), d⟩

end ops

/-- **C31 fails for the explicit time derivative**: `2 * ddt` evaluates to the same as `ddt`. -/
theorem C31_ddt_violation (e : ExecKind) (sp : SparsityPattern) : ∃ (s : OpHeap ℚ ℚ) (x : Expr) (s' : OpHeap ℚ ℚ),
    s[0]? = some (ddtOp e row3 sp row3Field [0, 0, 0] .explicit (Coeff.ofScalar 1)) ∧
    (ExT.one (.smul 2 (.var .temporal 0))).build s = .ok (x, s') ∧
    (∀ out, (x.explicitOperationT s' 0 1 [0, 0, 0]) out ↔ out = .ok [1, 5, 2]) ∧
    ∀ out, ddtExplicit e row3 row3Field [0, 0, 0] (Coeff.ofScalar 1) 1 [0, 0, 0] out ↔ out = .ok [1, 5, 2] := by
  have key : ∀ c out, ddtExplicit e row3 row3Field [0, 0, 0] c 1 [0, 0, 0] out ↔ out = .ok [1, 5, 2] := by
    intro c out
    rw [C23_explicit_partial row3_wf row3Field_on rfl c 1 e _ rfl]
    have : ((List.range row3.nCells).map fun c => [(0 : ℚ), 0, 0].getD c 0 + row3.vol c • ((1 / (1 : ℚ)) • (row3Field.cell c - [(0 : ℚ), 0, 0].getD c 0)))
        = [1, 5, 2] := by
      simp [List.range_succ, row3Field, VolField.cell, Mesh.vol, row3, topoMesh]
    rw [this]
  refine ⟨[ddtOp e row3 sp row3Field [0, 0, 0] .explicit (Coeff.ofScalar 1)], ⟨[3], []⟩, _, rfl, rfl, ?_, key _⟩
  intro out
  unfold Expr.explicitOperationT
  refine Iff.trans (NR.bind_iff (a := _) (fun o => Iff.rfl) out) ?_
  refine Iff.trans (NR.bind_iff (key (Coeff.mulScalar (Coeff.ofScalar 1) 2)) out) ?_
  rfl

/-- The hypotheses can be met: `div - 2 * (source + laplacian)` on three cells in a row. -/
example : ∃ (s : OpHeap ℚ ℚ) (t : ExT ℚ) (val : Nat → Nat → ℚ), s.length = 3 ∧ t.terms = 3 ∧ (∀ k, ∀ h ∈ t.leaves k, h < s.length) ∧
    t.FieldsOK s row3.nCells ∧ (∀ h ∈ t.leaves .spatial, ∃ o, s[h]? = some o ∧ ExplTerm row3.nCells 0 0 o (val h)) ∧
    t.value .spatial id val 0 ≠ 0 := by
  obtain ⟨sp, -, hp, ls, -, ho, -⟩ := exists_system row3 row3_wf row3_deg .serial
  have hc : ∀ n, (Coeff.ofScalar (1 : ℚ)).On n (fun _ => 1) := fun n i _ => rfl
  have h1 := C31_term_div row3_wf sp row3Field_on (w := [1, 1, 1, 1]) (flux := [0, 0, 1, 0]) rfl rfl .upwind .serial (fun _ => 0) (hc _) 0 0
  have h2 := C31_term_source sp row3Field_on (k := [3, 1, 2]) rfl .serial (hc _) 0 0
  have h3 := C31_term_laplacian row3_wf sp row3Field_on (δ := [1, 1, 1, 1]) (gamma := [1, 1, 1, 1]) rfl .serial (fun _ => 0) (hc _) 0 0
  refine ⟨[divOp .serial row3 sp (some .upwind) [1, 1, 1, 1] (fun _ => 0) [0, 0, 1, 0] row3Field .explicit (Coeff.ofScalar 1),
    sourceOp .serial row3 sp [3, 1, 2] row3Field .explicit (Coeff.ofScalar 1),
    laplacianOp .serial row3 sp true [1, 1, 1, 1] (fun _ => 0) [1, 1, 1, 1] row3Field .explicit (Coeff.ofScalar 1)],
    .subEE (.one (.var .spatial 0)) (.smul 2 (.addOO (.var .spatial 1) (.var .spatial 2))),
    fun h i => if h = 0 then 1 / row3.vol i * row3.netOutflow (fun f => ix [0, 0, 1, 0] f * Mesh.schemeFace .upwind row3 (ix [1, 1, 1, 1]) (ix [0, 0, 1, 0]) row3Field f) i
      else if h = 1 then 1 * (ix [3, 1, 2] i * row3Field.cell i)
      else 1 / row3.vol i * row3.netOutflow (fun f => ix row3.magFaceAreas f * row3.fnGrad (ix [1, 1, 1, 1]) row3Field f) i,
    rfl, rfl, ?_, ⟨trivial, trivial, trivial⟩, ?_, ?_⟩
  · intro k h hm
    cases k <;> simp [ExT.leaves, OpT.sort, OpT.leaf] at hm
    simp
    omega
  · intro h hm
    simp [ExT.leaves, OpT.sort, OpT.leaf] at hm
    rcases hm with rfl | rfl | rfl
    · exact ⟨_, rfl, h1⟩
    · exact ⟨_, rfl, h2⟩
    · exact ⟨_, rfl, h3⟩
  · simp [ExT.value, OpT.valueOf, OpT.sort, OpT.value, Mesh.netOutflow, Finset.sum_range_succ, Mesh.fnGrad, Mesh.schemeFace, Mesh.upwindFace, ix, VolField.cell, VolField.bnd, row3Field, row3,
      topoMesh, Mesh.own, Mesh.nbr, Mesh.fc, Mesh.vol]
    try norm_num

end NeoFOAM
